import Verif.Model.Assign
/-
C54: copy assignment in the presence of allocators.
-/
namespace Verif.Props
open Verif.Assign

variable {n : Nat} {A C : Fin (n + 1) → Type}

/-- The traits of different containers agree wherever allocators may differ; other programs are rejected by the compiler. -/
def Agree (traits : Fin (n + 1) → Traits) : Prop := consistency traits = true
instance (traits : Fin (n + 1) → Traits) : Decidable (Agree traits) := inferInstanceAs (Decidable (_ = _))

/-- Allocators of a type whose allocators are always equal are equal. -/
def Faithful (A : Fin (n + 1) → Type) (traits : Fin (n + 1) → Traits) : Prop := ∀ i, (traits i).alwaysEqual = true → ∀ a b : A i, a = b

theorem assign_cases [∀ i, DecidableEq (A i)] (select : ∀ i, A i → A i) (empty : ∀ i, C i) (traits : Fin (n + 1) → Traits) (to source : Obj A C)
    (hf : Faithful A traits) (hg : Agree traits) :
    ∃ r, assign select empty traits to source = .ok r ∧ ∀ i, (r i).contents = (source i).contents ∧
      ((r i).alloc = (if (traits i).copy then source i else to i).alloc ∨ (r i).alloc = select i (if (traits i).copy then source i else to i).alloc) := by
  unfold assign
  split
  · rename_i h
    refine ⟨_, rfl, fun i => ⟨rfl, .inl (hf i (h i) _ _)⟩⟩
  · rename_i h
    have hc : (!consistency traits) = false := by rw [show consistency traits = true from hg]; rfl
    rw [hc]
    simp only [Bool.false_eq_true, if_false]
    have hall : ∀ i, copyPropagation (traits i) = copyPropagation (traits 0) ∧ movePropagation (traits i) = movePropagation (traits 0) ∧
        swapPropagation (traits i) = swapPropagation (traits 0) := by
      intro i
      refine Fin.cases ⟨rfl, rfl, rfl⟩ (fun j => ?_) i
      have := of_decide_eq_true (show decide _ = true from hg) j
      simp only [consistent, Bool.and_eq_true, beq_iff_eq] at this
      exact ⟨this.1.1.symm, this.1.2.symm, this.2.symm⟩
    by_cases hcase : (movePropagation (traits 0) || !copyPropagation (traits 0)) = true
    · rw [if_pos hcase]
      refine ⟨_, rfl, fun i => ⟨rfl, ?_⟩⟩
      obtain ⟨h1, h2, _⟩ := hall i
      by_cases he : (traits i).alwaysEqual = true
      · exact .inl (hf i he _ _)
      · have hcp : copyPropagation (traits i) = (traits i).copy := by simp [copyPropagation, he]
        have hmp : movePropagation (traits i) = (traits i).move := by simp [movePropagation, he]
        simp only [moveAssign, construct, getAllocator, hcp]
        by_cases hm : (traits i).move = true
        · right
          rw [if_pos hm]
          split <;> rfl
        · left
          rw [if_neg hm]
          have : (traits i).copy = false := by
            rw [← h1, ← h2, hcp, hmp] at hcase
            simp [hm] at hcase
            exact hcase
          simp [this]
    · rw [if_neg hcase]
      simp only [Bool.or_eq_true, Bool.not_eq_true', not_or, Bool.not_eq_true, Bool.not_eq_false] at hcase
      have hcopy : ∀ i, copyPropagation (traits i) = true := fun i => (hall i).1.trans hcase.2
      have halw : ∀ i, (traits i).alwaysEqual = false := fun i => by
        have := (hall i).2.1.trans hcase.1
        simp only [movePropagation, Bool.or_eq_false_iff] at this
        exact this.2
      have hcp : ∀ i, (traits i).copy = true := fun i => by simpa [copyPropagation, halw i] using hcopy i
      have hsp : ∀ i, (traits i).swap = swapPropagation (traits 0) := fun i => by rw [← (hall i).2.2]; simp [swapPropagation, halw i]
      unfold swapObj
      by_cases hs : swapPropagation (traits 0) = true
      · simp only [if_pos hs]
        rw [if_pos (fun i => by simp [canSwap, hsp i, hs])]
        exact ⟨_, rfl, fun i => ⟨rfl, .inr (by simp [swapped, hsp i, hs, construct, getAllocator, hcopy i, hcp i])⟩⟩
      · simp only [if_neg hs]
        rw [if_pos (fun i => by simp [canSwap, reset, copyAssign, hcp i])]
        exact ⟨_, rfl, fun i => ⟨rfl, .inr (by simp [swapped, hsp i, hs, construct, getAllocator, hcopy i, hcp i, reset, copyAssign])⟩⟩

/-- C54: whatever the traits, the allocators and the contents, copy assignment which compiles is defined, and makes the contents equal to those of the source. -/
theorem C54_contents [∀ i, DecidableEq (A i)] (select : ∀ i, A i → A i) (empty : ∀ i, C i) (traits : Fin (n + 1) → Traits) (to source : Obj A C)
    (hf : Faithful A traits) (hg : Agree traits) :
    ∃ r, assign select empty traits to source = .ok r ∧ ∀ i, (r i).contents = (source i).contents := by
  obtain ⟨r, h, h'⟩ := assign_cases select empty traits to source hf hg
  exact ⟨r, h, fun i => (h' i).1⟩

/-- C54: the allocators are those of the source if they propagate on copy assignment, and otherwise are left as they were, provided that the selection of an allocator
for a copy, `select_on_container_copy_construction`, returns the same allocator.

Partial: the proviso is necessary, see below. -/
theorem C54_allocators_partial [∀ i, DecidableEq (A i)] (select : ∀ i, A i → A i) (empty : ∀ i, C i) (traits : Fin (n + 1) → Traits) (to source : Obj A C)
    (hf : Faithful A traits) (hg : Agree traits) (hs : ∀ i a, select i a = a) :
    ∃ r, assign select empty traits to source = .ok r ∧ ∀ i, (r i).alloc = if (traits i).copy then (source i).alloc else (to i).alloc := by
  obtain ⟨r, h, h'⟩ := assign_cases select empty traits to source hf hg
  refine ⟨r, h, fun i => ?_⟩
  have := (h' i).2
  rw [hs, or_self] at this
  rw [this]
  split <;> rfl

/-- C54: without the proviso the allocators are right if neither copying nor moving propagates them, as for `std::pmr::polymorphic_allocator`. -/
theorem C54_polymorphic [∀ i, DecidableEq (A i)] (select : ∀ i, A i → A i) (empty : ∀ i, C i) (to source : Obj A C) :
    ∃ r, assign select empty (fun _ => ⟨false, false, false, false⟩) to source = .ok r ∧ ∀ i, r i = ⟨(to i).alloc, (source i).contents⟩ := by
  refine ⟨fun i => ⟨(to i).alloc, (source i).contents⟩, ?_, fun _ => rfl⟩
  have hc : consistency (n := n) (fun _ => ⟨false, false, false, false⟩) = true := decide_eq_true fun _ => rfl
  unfold assign
  rw [if_neg (fun h => by simpa using h 0), hc]
  rfl

/-- The hypotheses are met with two containers, one of whose allocators are always equal, and with allocators which propagate on copying but not on moving or swapping. -/
example :
    let always : Traits := ⟨false, false, false, true⟩
    let all : Traits := ⟨true, true, true, false⟩
    let copyOnly : Traits := ⟨true, false, false, false⟩
    Agree (n := 1) (fun i => if i = 0 then always else all) ∧ Agree (n := 1) (fun _ => copyOnly) ∧
      (assign (n := 0) (A := fun _ => Nat) (C := fun _ => List Nat) (fun _ a => a) (fun _ => []) (fun _ => copyOnly) (fun _ => ⟨1, [7]⟩) (fun _ => ⟨2, [8, 9]⟩)).bind
        (fun r => .ok (r 0)) = .ok ⟨2, [8, 9]⟩ := by decide +kernel

/-- C54, violation: if `select_on_container_copy_construction` returns another allocator (0) and the allocators propagate, the object ends up with that allocator,
which is neither its own (1) nor that of the source (2).  If they propagate on moving only, its own allocator should have been kept. -/
theorem C54_select_violated :
    (assign (n := 0) (A := fun _ => Nat) (C := fun _ => List Nat) (fun _ _ => 0) (fun _ => []) (fun _ => ⟨true, true, true, false⟩) (fun _ => ⟨1, [7]⟩) (fun _ => ⟨2, [8, 9]⟩)).bind
        (fun r => .ok (r 0)) = .ok ⟨0, [8, 9]⟩ ∧
    (assign (n := 0) (A := fun _ => Nat) (C := fun _ => List Nat) (fun _ _ => 0) (fun _ => []) (fun _ => ⟨false, true, false, false⟩) (fun _ => ⟨1, [7]⟩) (fun _ => ⟨2, [8, 9]⟩)).bind
        (fun r => .ok (r 0)) = .ok ⟨0, [8, 9]⟩ := by decide +kernel

end Verif.Props
