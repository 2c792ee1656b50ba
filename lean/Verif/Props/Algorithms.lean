import Verif.Lemmas.Heap
import Verif.Lemmas.StableSort
import Verif.Lemmas.Cluster

/-! Properties C01-C03: the algorithms of /repo/Source/sequoia/Algorithms/Algorithms.hpp. -/
namespace Verif.Props
open Verif.Spec

/-- C01.  `sequoia::sort` with an ordinary comparator: the result is a sorted permutation of the input.  (The model is a
total function on exactly the range: it terminates and cannot touch anything outside the range.) -/
theorem C01_sort {α : Type} (lt : α → α → Bool) (hlt : StrictWeak lt) (l : List α) :
    (Heap.sortList lt l).Perm l ∧ Sorted lt (Heap.sortList lt l) := by
  refine ⟨?_, Heap.sort_sorted hlt (Heap.agrees_valComp hlt) _⟩
  have := Heap.sort_perm (comp := Heap.valComp lt) (⟨l.toArray, by simp⟩ : Vector α l.length)
  have := Array.perm_iff_toList_perm.1 (Vector.perm_iff_toArray_perm.1 this)
  exact this

/-- C01, with a comparator which looks at positions and may answer anything between equivalent elements (even
inconsistently): still a sorted permutation. -/
theorem C01_sort_any_tie_break {α : Type} {n : Nat} (lt : α → α → Bool) (hlt : StrictWeak lt)
    (comp : Vector α n → Fin n → Fin n → Bool)
    (hc : ∀ v i j, (lt v[i] v[j] = true → comp v i j = true) ∧ (lt v[j] v[i] = true → comp v i j = false))
    (v : Vector α n) :
    (Heap.sort comp v).toList.Perm v.toList ∧ Sorted lt (Heap.sort comp v).toList :=
  ⟨Array.perm_iff_toList_perm.1 (Vector.perm_iff_toArray_perm.1 (Heap.sort_perm v)), Heap.sort_sorted hlt hc v⟩

/-- C01: the result is a permutation of the input even if the comparator satisfies nothing at all. -/
theorem C01_sort_perm_any_comparator {α : Type} (lt : α → α → Bool) (l : List α) :
    (Heap.sortList lt l).Perm l := by
  have := Heap.sort_perm (comp := Heap.valComp lt) (⟨l.toArray, by simp⟩ : Vector α l.length)
  have := Array.perm_iff_toList_perm.1 (Vector.perm_iff_toArray_perm.1 this)
  exact this

/-- C01: `make_heap` on `[begin, begin + e)` leaves the elements from `e` on alone, permutes those before, and puts an
element than which no other is greater first. -/
theorem C01_make_heap {α : Type} {n : Nat} (lt : α → α → Bool) (hlt : StrictWeak lt) (v : Vector α n) (e : Nat)
    (he : e ≤ n) :
    (Heap.makeHeap (Heap.valComp lt) v e he).toList.Perm v.toList ∧
    (∀ k (hk : k < n), e ≤ k → (Heap.makeHeap (Heap.valComp lt) v e he)[k] = v[k]) ∧
    (∀ k (_ : k < e), lt (Heap.makeHeap (Heap.valComp lt) v e he)[0] (Heap.makeHeap (Heap.valComp lt) v e he)[k] = false) :=
  ⟨Array.perm_iff_toList_perm.1 (Vector.perm_iff_toArray_perm.1 (Heap.makeHeap_perm v e he)),
   fun k hk hek => Heap.makeHeap_high v e he k hk hek,
   fun k hk => (Heap.makeHeap_heap hlt (Heap.agrees_valComp hlt) v e he).root hlt k hk (by omega)⟩

/-- The hypothesis of C01 and C02 is met by the ordering of pairs by first component, which has ties. -/
theorem strictWeak_fst : StrictWeak (fun a b : Nat × Nat => decide (a.1 < b.1)) :=
  ⟨by simp; omega, by simp; omega⟩

example : (Heap.sortList (fun a b : Nat × Nat => decide (a.1 < b.1)) [(2, 0), (1, 1), (2, 2), (0, 3)]).Perm
    [(2, 0), (1, 1), (2, 2), (0, 3)] ∧ Sorted (fun a b : Nat × Nat => decide (a.1 < b.1))
      (Heap.sortList (fun a b : Nat × Nat => decide (a.1 < b.1)) [(2, 0), (1, 1), (2, 2), (0, 3)]) :=
  C01_sort _ strictWeak_fst _

/-- A position-based tie-break (the one of `graph_primitive::sort_nodes` as used by the test runner) is admissible. -/
example : ∀ (v : Vector Nat 5) (i j : Fin 5),
    (decide (v[i] < v[j]) = true → (if v[i] = v[j] then decide (i < j) else decide (v[i] < v[j])) = true) ∧
    (decide (v[j] < v[i]) = true → (if v[i] = v[j] then decide (i < j) else decide (v[i] < v[j])) = false) := by
  intro v i j
  generalize v[i] = a
  generalize v[j] = b
  constructor <;> intro h <;> simp only [decide_eq_true_eq] at h <;> rw [if_neg (by omega)] <;> simp <;> omega

/-- C02.  `sequoia::stable_sort` yields a sorted permutation in which, for each element `c`, the elements equivalent to
`c` appear in the same order as in the input. -/
theorem C02_stable_sort {α : Type} (lt : α → α → Bool) (hlt : StrictWeak lt) (l : List α) :
    (StableSort.stableSort lt l).Perm l ∧ Sorted lt (StableSort.stableSort lt l) ∧
    ∀ c, (StableSort.stableSort lt l).filter (fun a => !lt a c && !lt c a) = l.filter (fun a => !lt a c && !lt c a) :=
  ⟨StableSort.stableSort_perm l, StableSort.stableSort_sorted hlt l, fun c => StableSort.stableSort_filter hlt c l⟩

example : StrictWeak (fun a b : Nat × Nat => decide (a.1 < b.1)) ∧
    [(2, 0), (1, 1), (2, 2)].filter (fun a => !(fun a b : Nat × Nat => decide (a.1 < b.1)) a (2, 5) &&
      !(fun a b : Nat × Nat => decide (a.1 < b.1)) (2, 5) a) = [(2, 0), (2, 2)] := ⟨strictWeak_fst, by decide⟩

/-- C03.  For an equivalence relation `cluster` terminates (with recursion depth at most one more than the length) and
yields a permutation in which matching elements are adjacent. -/
theorem C03_cluster {α : Type} {n : Nat} (eq : α → α → Bool) (heq : Spec.Equivalence eq) (v : Vector α n) :
    ∃ w, Cluster.cluster eq (n + 1) v 0 = some w ∧ w.toList.Perm v.toList ∧ Clustered eq w.toList := by
  obtain ⟨w, hw, hp, hd⟩ := Cluster.cluster_main heq.refl heq.symm heq.trans (n + 1) v 0 (by omega)
    ⟨fun i j k _ _ _ h => by omega, fun i k h => by omega⟩
  refine ⟨w, hw, Array.perm_iff_toList_perm.1 (Vector.perm_iff_toArray_perm.1 hp), ?_⟩
  intro i j k hij hjk hk h
  simp only [Vector.length_toList] at hk
  simp only [Vector.getElem_toList] at h ⊢
  exact hd.contig i j k hij hjk hk (by omega) h

example : Spec.Equivalence (fun a b : Nat => decide (a % 3 = b % 3)) :=
  ⟨by simp, by simp; omega, by simp; omega⟩

/-- C03, the point excluded by the hypothesis: if some element does not even match itself (as a floating point NaN does
not equal itself), `cluster` makes no progress: whatever recursion depth is allowed, it does not finish. -/
theorem C03_cluster_irreflexive_diverges {α : Type} {n : Nat} (eq : α → α → Bool) (v : Vector α n) (hn : 0 < n)
    (h : ∀ k (hk : k < n), eq v[k] v[0] = false) (fuel : Nat) : Cluster.cluster eq fuel v 0 = none :=
  Cluster.cluster_stuck v 0 hn (fun k hk _ => h k hk) fuel

example : ∀ k (hk : k < 2), (fun a b : Option Nat => a == b && a.isSome) (#v[none, some 1] : Vector (Option Nat) 2)[k]
    (#v[none, some 1] : Vector (Option Nat) 2)[0] = false := by decide

end Verif.Props
