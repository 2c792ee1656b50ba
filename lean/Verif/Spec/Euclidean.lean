import Verif.Model.Spaces
/- What is said about arenas of spaces. -/
namespace Verif.Euclidean

open Verif.Spaces

/-- A class which has been declared occurs in a space made of duals and direct products. -/
inductive OccursIn (n : Nat) : Space → Prop
  | decl : OccursIn n (.decl n)
  | dual {t : Space} : OccursIn n t → OccursIn n (.dual t)
  | prod {t : Space} {ts : List Space} : t ∈ ts → OccursIn n t → OccursIn n (.prod ts)

/-- What duals and direct products are taken of is convex, and there is no direct product of no spaces. -/
inductive Proper (convex : Space → Bool) : Space → Prop
  | decl (n : Nat) : Proper convex (.decl n)
  | dual {t : Space} : convex t = true → Proper convex t → Proper convex (.dual t)
  | prod {ts : List Space} : ts ≠ [] → (∀ t ∈ ts, convex t = true) → (∀ t ∈ ts, Proper convex t) → Proper convex (.prod ts)

end Verif.Euclidean
