import Verif.Model.SortNodes
import Verif.Model.Heap
/- Sorting by way of swaps does what sorting of values does. -/
namespace Verif.SortNodes

section
variable {σ α : Type} {n : Nat} {comp : σ → Nat → Nat → Bool} {swap : σ → Nat → Nat → Res σ} {first : Nat} {vcomp : Heap.PosComp α n}
  {R : σ → Vector α n → Prop}

/-- States and sequences of values correspond: they compare in the same way, and swaps keep the correspondence. -/
structure Corresponds (comp : σ → Nat → Nat → Bool) (swap : σ → Nat → Nat → Res σ) (first : Nat) (vcomp : Heap.PosComp α n) (R : σ → Vector α n → Prop) : Prop where
  comp : ∀ s v, R s v → ∀ i j : Fin n, comp s (first + i) (first + j) = vcomp v i j
  swap : ∀ s v, R s v → ∀ i j (hi : i < n) (hj : j < n), ∃ s', swap s (first + i) (first + j) = .ok s' ∧ R s' (v.swap i j hi hj)

theorem bubbleUp_corresponds (h : Corresponds comp swap first vcomp R) (cur : Nat) : ∀ (hc : cur < n) (s : σ) (v : Vector α n), R s v →
    ∃ s', bubbleUp comp swap first cur s = .ok s' ∧ R s' (Heap.bubbleUp vcomp v cur hc) := by
  induction cur using Nat.strongRecOn with
  | ind cur ih =>
    intro hc s v hr
    rw [bubbleUp, Heap.bubbleUp]
    by_cases h0 : cur = 0
    · rw [if_pos h0, dif_pos h0]; exact ⟨s, rfl, hr⟩
    · rw [if_neg h0, dif_neg h0]
      have e := h.comp s v hr ⟨(cur - 1) / 2, by omega⟩ ⟨cur, hc⟩
      simp only at e
      rw [e]
      by_cases h1 : vcomp v ⟨(cur - 1) / 2, by omega⟩ ⟨cur, hc⟩ = true
      · rw [if_pos h1, if_pos h1]
        obtain ⟨s', e1, e2⟩ := h.swap s v hr ((cur - 1) / 2) cur (by omega) hc
        rw [e1]
        exact ih ((cur - 1) / 2) (by omega) (by omega) s' _ e2
      · rw [if_neg h1, if_neg h1]; exact ⟨s, rfl, hr⟩

theorem dominant_corresponds (h : Corresponds comp swap first vcomp R) {cur : Nat} (hc : 2 * (cur + 1) < n) {s : σ} {v : Vector α n} (hr : R s v) :
    dominant comp first (2 * (cur + 1)) s = (Heap.domChild vcomp v cur hc : Nat) := by
  have e := h.comp s v hr ⟨2 * (cur + 1), hc⟩ ⟨2 * (cur + 1) - 1, by omega⟩
  simp only at e
  rw [dominant, Heap.domChild, e]
  split <;> rfl

theorem bubbleDown_corresponds (h : Corresponds comp swap first vcomp R) {e : Nat} (he : e ≤ n) (fuel : Nat) : ∀ (cur : Nat) (s : σ) (v : Vector α n), R s v → e - cur < fuel →
    ∃ s', bubbleDown comp swap first e fuel cur s = .ok s' ∧ R s' (Heap.bubbleDown vcomp v cur e he) := by
  induction fuel with
  | zero => intro cur s v _ hf; omega
  | succ fuel ih =>
    intro cur s v hr hf
    rw [bubbleDown, Heap.bubbleDown]
    by_cases h1 : e ≤ 1
    · rw [if_pos h1, if_pos h1]; exact ⟨s, rfl, hr⟩
    · rw [if_neg h1, if_neg h1]
      by_cases h2 : 2 * (cur + 1) < e
      · rw [if_pos h2, dif_pos h2]
        have hd := dominant_corresponds h (cur := cur) (by omega) hr
        simp only [hd]
        have ec := h.comp s v hr ⟨cur, by omega⟩ (Heap.domChild vcomp v cur (by omega))
        simp only at ec
        rw [ec]
        by_cases h3 : vcomp v ⟨cur, by omega⟩ (Heap.domChild vcomp v cur (by omega)) = true
        · rw [if_pos h3, if_pos h3]
          obtain ⟨s', e1, e2⟩ := h.swap s v hr (Heap.domChild vcomp v cur (by omega)) cur (Fin.isLt _) (by omega)
          rw [e1]
          refine ih _ s' _ e2 ?_
          have := Heap.domChild_cases vcomp v cur (by omega)
          omega
        · rw [if_neg h3, if_neg h3]; exact ⟨s, rfl, hr⟩
      · rw [if_neg h2, dif_neg h2]
        by_cases h3 : 2 * cur + 1 < e
        · rw [if_pos h3, dif_pos h3]
          have ec := h.comp s v hr ⟨cur, by omega⟩ ⟨2 * cur + 1, by omega⟩
          simp only at ec
          rw [ec]
          by_cases h4 : vcomp v ⟨cur, by omega⟩ ⟨2 * cur + 1, by omega⟩ = true
          · rw [if_pos h4, if_pos h4]
            exact h.swap s v hr (2 * cur + 1) cur (by omega) (by omega)
          · rw [if_neg h4, if_neg h4]; exact ⟨s, rfl, hr⟩
        · rw [if_neg h3, dif_neg h3]; exact ⟨s, rfl, hr⟩

theorem makeHeapLoop_corresponds (h : Corresponds comp swap first vcomp R) {e : Nat} (he : e ≤ n) (left : Nat) : ∀ (cur : Nat) (s : σ) (v : Vector α n), R s v → cur + left = e →
    ∃ s', makeHeapLoop comp swap first left cur s = .ok s' ∧ R s' (Heap.makeHeapLoop vcomp v cur e he) := by
  induction left with
  | zero =>
    intro cur s v hr hl
    rw [makeHeapLoop, Heap.makeHeapLoop, dif_neg (by omega)]
    exact ⟨s, rfl, hr⟩
  | succ left ih =>
    intro cur s v hr hl
    rw [makeHeapLoop, Heap.makeHeapLoop, dif_pos (by omega)]
    obtain ⟨s', e1, e2⟩ := bubbleUp_corresponds h cur (by omega) s v hr
    rw [e1]
    exact ih (cur + 1) s' _ e2 (by omega)

theorem sortLoop_corresponds (h : Corresponds comp swap first vcomp R) (e : Nat) : ∀ (he : e ≤ n) (s : σ) (v : Vector α n), R s v →
    ∃ s', sortLoop comp swap first e s = .ok s' ∧ R s' (Heap.sortLoop vcomp v e he) := by
  induction e with
  | zero => intro he s v hr; exact ⟨s, rfl, hr⟩
  | succ e ih =>
    intro he s v hr
    rw [sortLoop, Heap.sortLoop]
    obtain ⟨s1, e1, r1⟩ := h.swap s v hr 0 e (by omega) (by omega)
    rw [Nat.add_zero] at e1
    rw [e1]
    obtain ⟨s2, e2, r2⟩ := bubbleDown_corresponds h (e := e) (by omega) (e + 1) 0 s1 _ r1 (by omega)
    simp only [Res.bind]
    rw [e2]
    exact ih (by omega) s2 _ r2

theorem sort_corresponds (h : Corresponds comp swap first vcomp R) {s : σ} {v : Vector α n} (hr : R s v) :
    ∃ s', sort comp swap first n s = .ok s' ∧ R s' (Heap.sort vcomp v) := by
  rw [sort, Heap.sort]
  by_cases h1 : n ≤ 1
  · rw [if_pos h1, if_pos h1]; exact ⟨s, rfl, hr⟩
  · rw [if_neg h1, if_neg h1]
    have : ∃ s', makeHeap comp swap first n s = .ok s' ∧ R s' (Heap.makeHeap vcomp v n (Nat.le_refl n)) := by
      rw [makeHeap, Heap.makeHeap, if_neg h1, if_neg h1]
      exact makeHeapLoop_corresponds h _ (n - 1) 1 s v hr (by omega)
    obtain ⟨s1, e1, r1⟩ := this
    rw [e1]
    exact sortLoop_corresponds h n _ s1 _ r1

end
end Verif.SortNodes
