import Verif.Model.Comparisons
/- What comparisons mean, for exact integers. -/
namespace Verif.Spec.Comparisons
open Verif.Comparisons Verif.MachineNumbers

/-- What it means that a value is as predicted. -/
def AsPredicted : Comparison → Int → Int → Prop
  | .equal, obtained, prediction => obtained = prediction
  | .less, obtained, prediction => obtained < prediction
  | .lessEqual, obtained, prediction => obtained ≤ prediction
  | .greater, obtained, prediction => prediction < obtained
  | .greaterEqual, obtained, prediction => prediction ≤ obtained
  | .within tol, obtained, prediction => prediction - tol ≤ obtained ∧ obtained ≤ prediction + tol

/-- The values of a type can be passed on as values of another without loss. -/
def Lossless (T A : IntTy) : Prop := ∀ x, inRange T x → inRange A x

end Verif.Spec.Comparisons
