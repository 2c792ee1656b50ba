/- Specification vocabulary for orderings and sorting; independent of every model. -/
namespace Verif.Spec

/-- C++'s requirement on comparators (strict weak ordering): asymmetric and negatively transitive. -/
structure StrictWeak {α : Type} (lt : α → α → Bool) : Prop where
  asymm : ∀ a b, lt a b = true → lt b a = false
  negTrans : ∀ a b c, lt a b = false → lt b c = false → lt a c = false

/-- No later element compares less than an earlier one. -/
def Sorted {α : Type} (lt : α → α → Bool) (l : List α) : Prop := l.Pairwise fun a b => lt b a = false

/-- Elements which match one another are adjacent: whatever lies between two matching elements matches them too. -/
def Clustered {α : Type} (eq : α → α → Bool) (l : List α) : Prop :=
  ∀ (i j k : Nat) (_ : i < j) (_ : j < k) (_ : k < l.length), eq l[i] l[k] = true → eq l[i] l[j] = true

/-- C++'s notion of an equality comparison usable for grouping. -/
structure Equivalence {α : Type} (eq : α → α → Bool) : Prop where
  refl : ∀ a, eq a a = true
  symm : ∀ a b, eq a b = true → eq b a = true
  trans : ∀ a b c, eq a b = true → eq b c = true → eq a c = true

end Verif.Spec
