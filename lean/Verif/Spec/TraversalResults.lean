import Verif.Model.TraversalResults
/-
What is said about traversals with some functions left out, and about results.
-/
namespace Verif.Spec.TraversalResults
open Verif.Graph

/-- The calls of those functions which are present. -/
def Present (has : Given) : Event → Bool
  | .before _ => has.before
  | .after _ => has.after
  | .first _ _ => has.first
  | .second _ _ => has.second

/-- The calls do not change the state of the functions, and do not depend on it: the outcome of a call is `g` of what is called. -/
def Stateless {S R X : Type} (f : S → Event → S × Except X R) (g : Event → Except X R) : Prop := ∀ s e, f s e = (s, g e)

/-- The same traversal with all calls but those of functions which are present taken away. -/
def only (has : Given) (r : Res (Option (List Event))) : Res (Option (List Event)) :=
  match r with
  | .ok (some es) => .ok (some (es.filter (Present has)))
  | .ok none => .ok none
  | .throws => .throws
  | .ub => .ub

/-- The state of a function which is called with `es`, one after the other, each call continuing with the state left by the one before. -/
def after {S R X : Type} (f : S → Event → S × Except X R) : S → List Event → S
  | s, [] => s
  | s, e :: es => after f (f s e).1 es

end Verif.Spec.TraversalResults
