import Verif.Spec.Tree
/- What it takes to copy a graph. -/
namespace Verif.Spec

/-- The number of allocations and copies needed to copy a list: an allocation unless it is empty, and one for each element. -/
def listSteps {α : Type} : List α → Nat
  | [] => 0
  | a :: l => 1 + (a :: l).length

/-- Those needed to copy a list of lists: an allocation unless it is empty, and those for each of the lists. -/
def edgesSteps {E : Type} : List (List E) → Nat
  | [] => 0
  | l :: s => 1 + ((l :: s).map listSteps).sum

end Verif.Spec
