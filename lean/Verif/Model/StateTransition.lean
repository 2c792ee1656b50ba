import Verif.Model.Traversal
import Verif.Model.Text

/-
Model of /repo/Source/sequoia/TestFramework/StateTransitionUtilities.hpp: checks of the transitions between the states of an object.

Simplifications: what an `object_generator` gives is always the same object, whether it has been stored or is made anew; transitions may throw, but have no other effects.  The overloads of `check` pass different parts of
what is known about a transition to the function given by the user; here all of it is recorded for each call.  For the overloads which pass functions instead of objects, a transition throws only when the user's function
invokes it; they are like the others if it does so at once.
-/
namespace Verif.StateTransition
open Verif.Graph Verif.Text

/-- `transition_info`, StateTransitionUtilities.hpp:23-38; `none` if the transition throws. -/
structure Transition (T : Type) where
  description : Str
  fn : T → Option T
  ordering : Ordering

/-- `transition_graph`, StateTransitionUtilities.hpp:79-80. -/
abbrev TransitionGraph (T : Type) := G T (Edge (Transition T) Unit)

/-- What is passed to the user's function. -/
structure Call (T : Type) where
  message : Str
  obtained : T
  prediction : T
  parent : T
  ordering : Ordering
  source : Nat
  target : Nat
  deriving DecidableEq

/-- `append_lines`, Indent.hpp:140-154, for two lines. -/
def appendLines (s l₁ l₂ : Str) : Str := appendIndented (appendIndented s l₁ []) l₂ []

/-- The message, StateTransitionUtilities.hpp:206-208. -/
def messageFor (description : Str) (parent target : Nat) (what : Str) : Str :=
  appendLines description ("Transition from node ".toList ++ Nat.toDigits 10 parent ++ " to ".toList ++ Nat.toDigits 10 target) what

/-- The function called for an edge, StateTransitionUtilities.hpp:87-95, 137-146 and 201-211; `none` if the transition throws. -/
def edgeFn {T : Type} (description : Str) (g : TransitionGraph T) (parent k : Nat) : Res (Option (Call T)) :=
  match g.edges[parent]?.bind (·[k]?) with
  | none => .ub
  | some e =>
    match g.nodes[parent]?, g.nodes[e.target]? with
    | some p, some t =>
      .ok ((e.weight.fn p).map fun o =>
        { message := messageFor description parent e.target e.weight.description, obtained := o, prediction := t, parent := p, ordering := e.weight.ordering, source := parent, target := e.target })
    | _, _ => .ub

/-- Invoking it for the edges in the order of traversal; with an exception, which ends the traversal, the second component is `false`. -/
def invoke {T : Type} (description : Str) (g : TransitionGraph T) : List Event → Res (List (Call T) × Bool)
  | [] => .ok ([], true)
  | .first n k :: l => (edgeFn description g n k).bind fun
    | none => .ok ([], false)
    | some c => (invoke description g l).bind fun r => .ok (c :: r.1, r.2)
  | _ :: l => invoke description g l

/-- `transition_checker::check`, StateTransitionUtilities.hpp:137-148 and 187-192. -/
def check {T : Type} (fuel : Nat) (description : Str) (g : TransitionGraph T) : Res (Option (List (Call T) × Bool)) :=
  (traverse stdQueue .directed false true g.edges 0 fuel).bind fun
    | none => .ok none
    | some events => (invoke description g events).bind fun r => .ok (some r)

end Verif.StateTransition
