/- What the lists should be which a static linearly partitioned sequence is constructed from. -/
namespace Verif.Spec.LinearStorage

/-- `k` lists of `n` elements each. -/
def Rectangular {T : Type} (k n : Nat) (list : List (List T)) : Prop := list.length = k ∧ ∀ l ∈ list, l.length = n

end Verif.Spec.LinearStorage
