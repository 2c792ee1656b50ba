import Verif.Model.SuiteTypes
import Verif.Spec.Suite
/-
What is needed to say which suites can be extracted.
-/
namespace Verif.Spec.SuiteTypes
open Verif.Suites Verif.SuiteTypes

mutual
/-- Within each suite, any two suites have the same type of trees or no type of leaves in common. -/
def Separate {S L : Type} (rS : S → Ty) (rL : L → Ty) : Suite S L → Prop
  | .flat _ _ => True
  | .deep _ subs => SeparateList rS rL subs ∧ ∀ a ∈ subs, ∀ b ∈ subs, treeType rS rL a ≠ treeType rS rL b → ∀ x ∈ leafTypes a, ∀ y ∈ leafTypes b, rL x ≠ rL y

/-- The suites within. -/
def SeparateList {S L : Type} (rS : S → Ty) (rL : L → Ty) : List (Suite S L) → Prop
  | [] => True
  | s :: subs => Separate rS rL s ∧ SeparateList rS rL subs
end

end Verif.Spec.SuiteTypes
