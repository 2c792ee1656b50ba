/-
What is to be found in the files which record the outcome of tests.
-/
namespace Verif.Spec.Reports

/-- The texts, one after the other. -/
def concat : List String → String
  | [] => ""
  | s :: l => s ++ concat l

end Verif.Spec.Reports
