import Verif.Lemmas.LinearStorage
import Verif.Spec.LinearStorage
import Verif.Props.StaticStorage
import Verif.Props.Partitioned
/- Static partitioned sequences (C120). -/
namespace Verif.Props
open Verif.LinearStorage Verif.Spec.LinearStorage

theorem _root_.Verif.Spec.LinearStorage.Rectangular.length {T : Type} {k n : Nat} {list : List (List T)} (h : Rectangular k n list) : list.flatten.length = k * n := by
  rw [List.length_flatten, sum_eq_of_all (list.map List.length) (by
    intro x hx
    obtain ⟨l, hl, rfl⟩ := List.mem_map.mp hx
    exact h.2 l hl), List.length_map, h.1]

theorem _root_.Verif.Spec.LinearStorage.Rectangular.pos {T : Type} {k n : Nat} {list : List (List T)} (h : Rectangular k n list) {i j : Nat} {l : List T} (hl : list[i]? = some l) (hj : j < l.length) :
    j < n ∧ (i * n + j) / n = i ∧ (i * n + j) % n = j ∧ i < k ∧ i * n + j < k * n := by
  have hlt : i < list.length := (List.getElem?_eq_some_iff.mp hl).1
  have hm : l ∈ list := List.mem_of_getElem? hl
  have hn := h.2 l hm
  have hj' : j < n := by omega
  have hi : i < k := by rw [← h.1]; exact hlt
  refine ⟨hj', ?_, ?_, hi, ?_⟩
  · rw [Nat.mul_comm, Nat.mul_add_div (by omega), Nat.div_eq_of_lt hj', Nat.add_zero]
  · rw [Nat.mul_comm, Nat.mul_add_mod, Nat.mod_eq_of_lt hj']
  · have : (i + 1) * n ≤ k * n := Nat.mul_le_mul_right n hi
    rw [Nat.succ_mul] at this
    omega

theorem beginOff_eq {upper k n i : Nat} (h : k * n ≤ upper) (hi : i < k) : beginOff upper k n i = i * n := by
  unfold beginOff
  by_cases h0 : 0 < i
  · rw [if_pos ⟨h0, hi⟩, bound_eq h (by omega)]
    congr 1
    omega
  · have : i = 0 := by omega
    subst this
    simp

variable {T : Type}

/-- **C120 (part)** A sequence of `k` partitions with `n` elements each can be constructed from `k` lists of length `n`, and holds their elements in order; with a list too few or too many, or with too few or too many elements,
there is an exception.  What is missing: lists which have the right number of elements together but not each, and index types whose largest value is less than the number of elements; see the violations below. -/
theorem C120_construct_partial (upper k n : Nat) (h : k * n ≤ upper) (list : List (List T)) :
    (Rectangular k n list → LinearStorage.construct upper k n list = .ok list.flatten) ∧
    (list.length ≠ k ∨ list.flatten.length ≠ k * n → LinearStorage.construct upper k n list = .throws) := by
  constructor
  · intro hr
    have hl := hr.length
    unfold LinearStorage.construct
    rw [if_neg (by simp [hr.1]), if_neg (by rw [← List.length_flatten]; simp [hl])]
    rw [elements_eq list hr.1 h (k * n) 0 0 (by omega), reads_flatten n list hr.2 (k * n) 0 (by omega), List.drop_zero]
    intro hpos
    refine ⟨?_, by omega, by omega⟩
    rcases Nat.eq_zero_or_pos k with h0 | h0
    · rw [h0] at hpos; simp at hpos
    · exact h0
  · intro hne
    unfold LinearStorage.construct
    by_cases h1 : list.length ≠ k
    · rw [if_pos h1]
    · rw [if_neg h1, if_pos]
      rw [← List.length_flatten]
      exact hne.resolve_left h1

example : (2 * 3 ≤ 255) ∧ Rectangular 2 3 [[1, 2, -1], [3, -2, (1 : Int)]] ∧ LinearStorage.construct 255 2 3 [[1, 2, -1], [3, -2, (1 : Int)]] = .ok [1, 2, -1, 3, -2, 1] := by
  refine ⟨by decide, ⟨rfl, by decide⟩, by decide⟩

/-- **C120 (violated)** If the lists have the right number of elements together but not each then this goes unnoticed: the constructor reads beyond the end of a list.  This holds of all such lists. -/
theorem C120_ragged_violated (upper k n : Nat) (h : k * n ≤ upper) (list : List (List T)) (hk : list.length = k) (hs : list.flatten.length = k * n) (hr : ∃ l ∈ list, l.length ≠ n) :
    LinearStorage.construct upper k n list = .ub := by
  have hs' : (list.map List.length).sum = k * n := by rw [← List.length_flatten]; exact hs
  obtain ⟨x, hx, hxn⟩ := exists_short (n := n) (list.map List.length) (by rw [hs', List.length_map, hk]; exact Nat.le_refl _) (by
    obtain ⟨l, hl, hne⟩ := hr
    exact ⟨l.length, List.mem_map_of_mem hl, hne⟩)
  obtain ⟨l, hl, rfl⟩ := List.mem_map.mp hx
  obtain ⟨q, hq, hlq⟩ := List.getElem_of_mem hl
  have hpos : 0 < k := by omega
  unfold LinearStorage.construct
  rw [if_neg (by simp [hk]), if_neg (by simp [hs']), elements_eq list hk h (k * n) 0 0 (by omega) (fun _ => ⟨hpos, by omega, by omega⟩)]
  have hqn : (q + 1) * n ≤ k * n := Nat.mul_le_mul_right n (by omega)
  rw [Nat.succ_mul] at hqn
  apply reads_ub n list (k * n) 0 (q * n + l.length) (by omega) (by omega)
  have h1 : (q * n + l.length) / n = q := by rw [Nat.mul_comm, Nat.mul_add_div (by omega), Nat.div_eq_of_lt hxn, Nat.add_zero]
  have h2 : (q * n + l.length) % n = l.length := by rw [Nat.mul_comm, Nat.mul_add_mod, Nat.mod_eq_of_lt hxn]
  rw [h1, h2, List.getElem?_eq_getElem hq, Option.bind_some, hlq]
  simp

example : LinearStorage.construct 255 2 2 [[1, 2, 3], [4]] = .ub := C120_ragged_violated 255 2 2 (by decide) _ rfl rfl ⟨[4], by decide, by decide⟩

/-- **C120 (part)** The partitions, their sizes and their elements are those of the lists, and assigning to an element changes this element and no other, whatever has been assigned before.  What is missing: index types whose largest
value is less than the number of elements; see below. -/
theorem C120_access_partial (upper k n : Nat) (h : k * n ≤ upper) (list : List (List T)) (hr : Rectangular k n list) :
    (∀ i l, list[i]? = some l → LinearStorage.partition upper k n list.flatten i = .returns l ∧ LinearStorage.sizeOf upper k n list.flatten i = .returns n) ∧
    (∀ i l j x, list[i]? = some l → l[j]? = some x → LinearStorage.read upper k n list.flatten i j = .returns x) ∧
    ∀ i l j y, list[i]? = some l → j < l.length →
      ∃ list', Rectangular k n list' ∧ LinearStorage.write upper k n list.flatten i j y = .returns list'.flatten ∧ list' = list.set i (l.set j y) := by
  have hlen := hr.length
  refine ⟨?_, ?_, ?_⟩
  · intro i l hl
    have hlt : i < list.length := (List.getElem?_eq_some_iff.mp hl).1
    have hi : i < k := by rw [← hr.1]; exact hlt
    have hn := hr.2 l (List.mem_of_getElem? hl)
    have he : endOff upper k n list.flatten i = .ok ((i + 1) * n) := by
      unfold endOff
      rw [if_neg (by omega), if_pos hi, bound_eq h hi]
    have hle : (i + 1) * n ≤ k * n := Nat.mul_le_mul_right n hi
    have hb := beginOff_eq h hi
    have hsucc := Nat.succ_mul i n
    constructor
    · unfold LinearStorage.partition
      rw [he]
      simp only [Res.bind, hb]
      rw [if_pos ⟨by rw [Nat.succ_mul]; omega, by omega⟩]
      simp only [noexcept, Call.returns.injEq]
      apply List.ext_getElem?
      intro j
      rw [List.getElem?_drop, List.getElem?_take]
      by_cases hj : j < n
      · have hp := hr.pos hl (j := j) (by omega)
        rw [if_pos (by rw [Nat.succ_mul]; omega), LinearStorage.flatten_get n (by omega) list hr.2, hp.2.1, hp.2.2.1, hl]
        rfl
      · rw [if_neg (by rw [Nat.succ_mul]; omega), List.getElem?_eq_none (by omega)]
    · unfold LinearStorage.sizeOf
      rw [he]
      simp only [Res.bind, hb]
      rw [if_pos (by rw [Nat.succ_mul]; omega)]
      simp only [noexcept, Call.returns.injEq]
      rw [Nat.succ_mul]; omega
  · intro i l j x hl hx
    have hj : j < l.length := (List.getElem?_eq_some_iff.mp hx).1
    have hp := hr.pos hl hj
    unfold LinearStorage.read
    rw [beginOff_eq h hp.2.2.2.1, LinearStorage.flatten_get n (by omega) list hr.2, hp.2.1, hp.2.2.1, hl, Option.bind_some, hx]
  · intro i l j y hl hj
    have hp := hr.pos hl hj
    have hlt : i < list.length := (List.getElem?_eq_some_iff.mp hl).1
    have hn := hr.2 l (List.mem_of_getElem? hl)
    have hr' : Rectangular k n (list.set i (l.set j y)) := by
      refine ⟨by rw [List.length_set, hr.1], ?_⟩
      intro l' hl'
      rcases List.mem_or_eq_of_mem_set hl' with h1 | h1
      · exact hr.2 l' h1
      · rw [h1, List.length_set, hn]
    refine ⟨_, hr', ?_, rfl⟩
    unfold LinearStorage.write
    rw [beginOff_eq h hp.2.2.2.1, if_pos (by omega)]
    congr 1
    apply List.ext_getElem?
    intro a
    rw [LinearStorage.flatten_get n (by omega) _ hr'.2, List.getElem?_set, List.getElem?_set, LinearStorage.flatten_get n (by omega) list hr.2]
    have ha := Nat.div_add_mod a n
    by_cases h1 : i = a / n
    · rw [if_pos h1, if_pos hlt, Option.bind_some, List.getElem?_set]
      rw [← h1, hl, Option.bind_some]
      rw [← h1, Nat.mul_comm] at ha
      by_cases h2 : j = a % n
      · rw [if_pos h2, if_pos (by omega), if_pos (by omega), if_pos hj]
      · rw [if_neg h2, if_neg (by omega)]
    · rw [if_neg h1, if_neg]
      intro he
      apply h1
      rw [← he, hp.2.1]

example : Rectangular 2 2 [[1, 2], [3, 4]] ∧ LinearStorage.write 255 2 2 [1, 2, 3, 4] 1 0 7 = .returns [1, 2, 7, 4] := ⟨⟨rfl, by decide⟩, by decide⟩

/-- **C120 (violated)** If the sequence has more elements than the type of the indices has positive values then it can be constructed, as with 16 partitions of 16 elements each and eight bits, but as soon as someone asks for a
partition, whichever, or for its size, the process is terminated: an exception is thrown by a function which is `noexcept`. -/
theorem C120_index_violated : (∃ list : List (List Nat), Rectangular 16 16 list ∧ LinearStorage.construct 255 16 16 list = .ok list.flatten) ∧
    ∀ (upper k n : Nat) (data : List T) (i : Nat), data.length = k * n → upper < k * n →
      LinearStorage.partition upper k n data i = .terminates ∧ LinearStorage.sizeOf upper k n data i = .terminates := by
  constructor
  · refine ⟨List.replicate 16 (List.replicate 16 0), ⟨by decide, by decide⟩, by decide +kernel⟩
  · intro upper k n data i hd hu
    have he : endOff upper k n data i = .throws := by unfold endOff; rw [if_pos (by omega)]
    unfold LinearStorage.partition LinearStorage.sizeOf
    rw [he]
    exact ⟨rfl, rfl⟩

/-- **C120** The partitions of a static sequence whose partitions may differ in size are those of the lists it has been constructed from; and so they are, exchanged, after any number of calls to `swap_partitions`, which do nothing if
there is no such partition.  Here the constructor checks that the indices fit. -/
theorem C120_monotonic (upper : Nat) (list : List (List T)) (swaps : List (Nat × Nat)) :
    (upper < list.flatten.length → StaticStorage.fill upper list.length list.flatten.length list = .throws) ∧
    (list.flatten.length ≤ upper → ∃ bounds data c' outs, StaticStorage.fill upper list.length list.flatten.length list = .ok (bounds, data) ∧
      run Partitioned.Contig.step ⟨bounds, data⟩ (swaps.map fun p => .swapPartitions p.1 p.2) = some (c', outs) ∧
      let s := swaps.foldl (fun s p => if p.1 < s.length ∧ p.2 < s.length then Spec.exchange s p.1 p.2 else s) list
      c'.bounds.length = s.length ∧ c'.data = s.flatten ∧ ∀ i l, s[i]? = some l → Partitioned.Contig.partition c' i = l) := by
  have hsum : (list.map List.length).sum = list.flatten.length := List.length_flatten.symm
  constructor
  · intro hu
    rw [StaticStorage.fill, if_neg (by simp), makePartitions_eq, if_neg (by omega)]; rfl
  · intro hu
    have hfill : StaticStorage.fill upper list.length list.flatten.length list = .ok (endsFrom 0 (list.map List.length), list.flatten) := by
      rw [StaticStorage.fill, if_neg (by simp), makePartitions_eq, if_pos (by omega)]
      simp only [Res.bind]
      rw [if_neg (fun hne => hne hsum), makeElements_eq list _ 0 0 (by omega)]
      · simp
      · intro hn
        refine ⟨?_, by simp, by simp⟩
        cases list with
        | nil => simp at hn
        | cons => simp
    have hends : ∀ (l : List (List T)) (k : Nat), endsFrom k (l.map List.length) = Partitioned.sums k l := by
      intro l
      induction l with
      | nil => intro k; rfl
      | cons x l ih => intro k; simp only [List.map_cons, endsFrom, Partitioned.sums, ih]
    have hR : Partitioned.R (⟨endsFrom 0 (list.map List.length), list.flatten⟩ : Partitioned.Contig T) list := ⟨hends list 0, rfl⟩
    have hlol : ∀ (swaps : List (Nat × Nat)) (l : List (List T)), ∃ outs, run Spec.lolStep l (swaps.map fun p => .swapPartitions p.1 p.2) =
        some (swaps.foldl (fun s p => if p.1 < s.length ∧ p.2 < s.length then Spec.exchange s p.1 p.2 else s) l, outs) := by
      intro swaps
      induction swaps with
      | nil => intro l; exact ⟨[], rfl⟩
      | cons p swaps ih =>
        intro l
        obtain ⟨outs, ho⟩ := ih (if p.1 < l.length ∧ p.2 < l.length then Spec.exchange l p.1 p.2 else l)
        exact ⟨some .unit :: outs, by simp only [List.map_cons, run, Spec.lolStep, ho, Option.map_some, List.foldl_cons]⟩
    obtain ⟨outs, ho⟩ := hlol swaps list
    obtain ⟨c', h1, h2⟩ := run_ref (R := Partitioned.R) (fun c s o h => Partitioned.Contig.sim c s o h) _ list hR _ _ outs ho
    refine ⟨_, _, c', outs, hfill, h1, Partitioned.bounds_len h2, h2.2, ?_⟩
    intro i l hl
    have := Partitioned.Contig.sim c' _ (.partition i) h2
    simp only [Spec.lolStep, hl, Partitioned.Contig.step, OutRef, Partitioned.Val.list.injEq] at this
    exact this.2

example : (run Partitioned.Contig.step ⟨[1, 3], [1, 2, 3]⟩ [.swapPartitions 0 1]).map (·.1) = some ⟨[2, 3], [2, 3, 1]⟩ := by decide

/-- **C120** Linear sequences grow by the same step. -/
theorem C120_linear (start step : Int) (i : Nat) : LinearStorage.linear start step 0 = start ∧ LinearStorage.linear start step (i + 1) - LinearStorage.linear start step i = step := by
  unfold LinearStorage.linear
  constructor
  · simp
  · rw [Int.natCast_succ, Int.add_mul]; omega

end Verif.Props
