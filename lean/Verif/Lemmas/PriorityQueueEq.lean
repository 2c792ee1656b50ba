import Verif.Lemmas.StaticContainers
/- Lemmas about the equality of priority queues: what is beyond the end of the heap plays no role. -/
namespace Verif.Heap

variable {α : Type} {n : Nat}

/-- The arrays have the same first `k` elements. -/
def Alike (v w : Vector α n) (k : Nat) : Prop := ∀ i, i < k → ∀ h : i < n, v[i] = w[i]

theorem Alike.swap {v w : Vector α n} {k : Nat} (h : Alike v w k) (i j : Nat) (hi : i < n) (hj : j < n) (hik : i < k) (hjk : j < k) :
    Alike (v.swap i j hi hj) (w.swap i j hi hj) k := by
  intro a ha hn
  rw [Vector.getElem_swap, Vector.getElem_swap]
  split
  · exact h j hjk hj
  · split
    · exact h i hik hi
    · exact h a ha hn

theorem Alike.bubbleUp (lt : α → α → Bool) {v w : Vector α n} {k : Nat} (h : Alike v w k) (cur : Nat) (hc : cur < n) (hk : cur < k) :
    Alike (bubbleUp (valComp lt) v cur hc) (Heap.bubbleUp (valComp lt) w cur hc) k := by
  induction cur using Nat.strongRecOn generalizing v w with
  | _ cur ih =>
    unfold Heap.bubbleUp
    by_cases hz : cur = 0
    · rw [dif_pos hz, dif_pos hz]; exact h
    · rw [dif_neg hz, dif_neg hz]
      have e : valComp lt v ⟨(cur - 1) / 2, by omega⟩ ⟨cur, hc⟩ = valComp lt w ⟨(cur - 1) / 2, by omega⟩ ⟨cur, hc⟩ := by
        show lt v[(cur - 1) / 2] v[cur] = lt w[(cur - 1) / 2] w[cur]
        rw [h _ (by omega), h _ hk]
      rw [e]
      split
      · exact ih _ (by omega) (h.swap _ _ _ _ (by omega) hk) _ (by omega)
      · exact h

theorem Alike.makeHeapLoop (lt : α → α → Bool) {v w : Vector α n} {e : Nat} (he : e ≤ n) (h : Alike v w e) (cur : Nat) :
    Alike (makeHeapLoop (valComp lt) v cur e he) (Heap.makeHeapLoop (valComp lt) w cur e he) e := by
  generalize hm : e - cur = m
  induction m generalizing v w cur with
  | zero =>
    unfold Heap.makeHeapLoop
    rw [dif_neg (by omega), dif_neg (by omega)]; exact h
  | succ m ih =>
    unfold Heap.makeHeapLoop
    rw [dif_pos (by omega), dif_pos (by omega)]
    exact ih (h.bubbleUp lt cur (by omega) (by omega)) _ (by omega)

theorem Alike.makeHeap (lt : α → α → Bool) {v w : Vector α n} {e : Nat} (he : e ≤ n) (h : Alike v w e) :
    Alike (makeHeap (valComp lt) v e he) (Heap.makeHeap (valComp lt) w e he) e := by
  unfold Heap.makeHeap
  split
  · exact h
  · exact h.makeHeapLoop lt he 1

end Verif.Heap

namespace Verif.Static
open Heap

variable {α : Type} {N : Nat}

/-- Queues which look the same. -/
def PQ.Same (q r : PQ α N) : Prop := q.e = r.e ∧ q.e ≤ N ∧ Alike q.data r.data q.e

theorem take_eq_iff (v w : Vector α N) (e : Nat) : v.toList.take e = w.toList.take e ↔ Alike v w e := by
  constructor
  · intro h i hi hn
    have := congrArg (fun l : List α => l[i]?) h
    simp only [List.getElem?_take, if_pos hi] at this
    simpa [hn] using this
  · intro h
    apply List.ext_getElem?
    intro i
    simp only [List.getElem?_take]
    split
    · rename_i hi
      by_cases hn : i < N
      · have := h i hi hn
        simp [hn, this]
      · simp [hn]
    · rfl

theorem PQ.eq_iff [BEq α] [LawfulBEq α] (q r : PQ α N) (hq : q.e ≤ N) : q.eq r = true ↔ q.Same r := by
  unfold PQ.eq PQ.Same
  simp only [Bool.and_eq_true, beq_iff_eq]
  constructor
  · rintro ⟨h1, h2⟩
    exact ⟨h1, hq, (take_eq_iff _ _ _).1 (by rw [h2, h1])⟩
  · rintro ⟨h1, _, h2⟩
    exact ⟨h1, by rw [← h1]; exact (take_eq_iff _ _ _).2 h2⟩

theorem PQ.same_step (lt : α → α → Bool) (q r : PQ α N) (o : PQOp α) (h : q.Same r) : OutRel PQ.Same (q.step lt o) (r.step lt o) := by
  obtain ⟨he, hN, ha⟩ := h
  obtain ⟨dq, e⟩ := q
  obtain ⟨dr, e'⟩ := r
  simp only at he hN ha
  subst he
  cases o with
  | push a =>
    simp only [PQ.step]
    by_cases h1 : e = N
    · simp only [if_pos h1]; exact ⟨rfl, hN, ha⟩
    · have h2 : e < N := by omega
      simp only [if_neg h1, dif_pos h2]
      refine ⟨⟨rfl, h2, ?_⟩, rfl⟩
      apply Alike.bubbleUp lt
      · intro i hi hn
        simp only at hi
        rw [Vector.getElem_set, Vector.getElem_set]
        split
        · rfl
        · exact ha i (by omega) hn
      · exact Nat.lt_succ_self e
  | pop =>
    simp only [PQ.step]
    by_cases h1 : 0 < e ∧ e ≤ N
    · simp only [dif_pos h1]
      refine ⟨⟨rfl, by simp only; omega, ?_⟩, rfl⟩
      apply Alike.makeHeap lt
      have := ha.swap 0 (e - 1) (by omega) (by omega) (by omega) (by omega)
      exact fun i hi hn => this i (by omega) hn
    · simp only [dif_neg h1]
      trivial
  | top =>
    simp only [PQ.step]
    by_cases h1 : 0 < e ∧ 0 < N
    · simp only [dif_pos h1]
      exact ⟨⟨rfl, hN, ha⟩, by rw [ha 0 h1.1 h1.2]⟩
    · simp only [dif_neg h1]
      trivial
  | size => exact ⟨⟨rfl, hN, ha⟩, rfl⟩
  | empty => exact ⟨⟨rfl, hN, ha⟩, rfl⟩

end Verif.Static
