import Verif.Model.Monotonic
/- What the operations of a monotonic sequence are meant to do, in terms of plain lists. -/
namespace Verif.Spec
open Verif.Monotonic

/-- For adjacent elements the comparator never holds between the earlier and the later. -/
def Monotone {α : Type} (cmp : α → α → Bool) (s : List α) : Prop :=
  ∀ i (h : i + 1 < s.length), cmp s[i] s[i + 1] = false

/-- Apply a function which may throw to each element with index in `[first, last)`. -/
def applyTo {α : Type} (first last : Nat) (op : α → Res α) : Nat → List α → Res (List α)
  | _, [] => .ok []
  | i, a :: t => do
    let b ← if first ≤ i ∧ i < last then op a else .ok a
    let u ← applyTo first last op (i + 1) t
    pure (b :: u)

/-- The effect of each operation on a sequence without any constraint; `ub` for invalid iterators. -/
def effect {α : Type} (s : List α) : Op α → Res (List α)
  | .pushBack v => .ok (s ++ [v])
  | .insert pos v => if pos ≤ s.length then .ok (s.insertIdx pos v) else .ub
  | .erase pos => if pos < s.length then .ok (s.eraseIdx pos) else .ub
  | .eraseRange first last => if first ≤ last ∧ last ≤ s.length then .ok (s.take first ++ s.drop last) else .ub
  | .clear => .ok []
  | .mutate first last op => if first ≤ last ∧ last ≤ s.length then applyTo first last op 0 s else .ub

open Classical in
/-- A checked operation: performed if the result is monotonic, otherwise an exception and no change. -/
noncomputable def monotonicStep {α : Type} (cmp : α → α → Bool) (s : List α) (o : Op α) : Outcome (List α) Unit :=
  match effect s o with
  | .ok t => if Monotone cmp t then .ret t () else .threw s
  | .throws => .threw s
  | .ub => .ub

end Verif.Spec
