import Verif.Lemmas.Iterators

/-! Property C90: iterators over partitions, /repo/Source/sequoia/Core/ContainerUtilities/Iterator.hpp and
/repo/Source/sequoia/Core/DataStructures/PartitionedData.hpp. -/
namespace Verif.Props
open Verif.Partitioned Verif.Iterators Verif.Spec Verif.Spec.Iterators

/-- **C90** Take either storage after any history, any of its partitions, and the iterators of that partition in either
direction.  Whatever moves are made, as long as they do not leave the partition: nothing is undefined, the iterator still
knows its partition, its distances from both ends are what the moves add up to, it has reached the end exactly if all
elements have been passed, and it refers, directly and by index, to the elements in the order of the partition, or in the
opposite order if reversed. -/
theorem C90_walk {α : Type} (st : Storage α) (s : List (List α)) (hs : Reached st s) (i : Nat) (l : List α)
    (hl : s[i]? = some l) (rev : Bool) (ms : List Move) (k : Int) (hk : travel l.length 0 ms = some k) :
    ∃ b e it, st.first rev i = .ok b ∧ st.last rev i = .ok e ∧ b.walk st.mem ms = .ok it ∧
      b.aux = some i ∧ e.aux = some i ∧ it.aux = some i ∧
      it.diff b = .ok k ∧ e.diff it = .ok (l.length - k) ∧ it.eq e = .ok (decide (k = l.length)) ∧
      (∀ (j : Nat) a, k = (j : Int) → (visited rev l)[j]? = some a → it.star st.get = .ok a) ∧
      ∀ (n : Int) (j : Nat) a, k + n = (j : Int) → (visited rev l)[j]? = some a → it.index st.mem st.get n = .ok a := by
  have hP := part_of hs hl
  obtain ⟨h0, h1, h2⟩ := walk_here hP.loc rev (some i) ms 0 k (by omega) (by simpa using hk)
  have hv : (visited rev l).length = l.length := by cases rev <;> simp [visited]
  have hc : (k.toNat : Int) = k := by omega
  refine ⟨_, _, _, hP.first rev, hP.last rev, h2, rfl, rfl, rfl, ?_, ?_, ?_, ?_, ?_⟩
  · rw [Iter.diff, sub_here rev _ _ (by omega) (by omega), hc]; simp
  · rw [Iter.diff, sub_here rev _ _ (by omega) (by omega), hc]
  · simp only [Iter.eq]
    rw [sub_here rev _ _ (by omega) (by omega), hc]
    simp only [bind_ok, Res.ok.injEq, decide_eq_decide]
    omega
  · intro j a hj ha
    obtain ⟨hlt, hx⟩ := List.getElem?_eq_some_iff.1 ha
    subst hj
    simp only [Iter.star, Storage.get, Int.toNat_natCast]
    rw [deref_here hP.loc rev j hlt, hx]
  · intro n j a hj ha
    obtain ⟨hlt, hx⟩ := List.getElem?_eq_some_iff.1 ha
    simp only [Iter.index]
    rw [add_here hP.loc rev _ n (by omega) (by omega) (by omega), hc, hj]
    simp only [bind_ok, Storage.get, Int.toNat_natCast]
    rw [deref_here hP.loc rev j hlt, hx]

/-- Contiguous storage after a history which swaps, inserts and erases. -/
theorem reached_example : Reached (Storage.contig ⟨[0, 1, 3], [7, 2, 9]⟩) [[], [7], [2, 9]] :=
  ⟨[[1, 2], [], [3]], [.swapPartitions 0 2, .insert 2 2 9, .insertSlot 1, .pushBack 1 7, .erase 0 0, .eraseSlot 2,
    .eraseRange 2 0 2 1],
    [some .unit, some (.iter 2 2), some .unit, some .unit, some (.iter 0 0), some .unit, some (.iter 2 0)],
    ⟨[2, 2, 3], [1, 2, 3]⟩, by decide, by decide, by decide⟩

example : travel 2 0 [.inc, .plus 1, .minus 1, .postInc, .dec] = some 1 := by decide

/-- **C90** The values of `it++` and `it--` are the iterator before the move; what it becomes is what `++it` and `--it` make of
it. -/
theorem C90_post {α : Type} (st : Storage α) (it r : PIter) :
    (it.inc st.mem = .ok r → it.postInc st.mem = .ok (it, r)) ∧ (it.dec st.mem = .ok r → it.postDec st.mem = .ok (it, r)) := by
  constructor <;> intro h
  · simp [Iter.postInc, h]
  · simp [Iter.postDec, h]

example : Iter.inc (A := Option Nat) [[5, 6]] ⟨some 0, ⟨0, 1, false⟩⟩ = .ok ⟨some 0, ⟨0, 2, false⟩⟩ := by decide

/-- **C90** Two iterators into the same partition, reached by any moves, compare as their positions do. -/
theorem C90_order {α : Type} (st : Storage α) (s : List (List α)) (hs : Reached st s) (i : Nat) (l : List α)
    (hl : s[i]? = some l) (rev : Bool) (ms ns : List Move) (k m : Int) (hk : travel l.length 0 ms = some k)
    (hm : travel l.length 0 ns = some m) :
    ∃ b it jt, st.first rev i = .ok b ∧ b.walk st.mem ms = .ok it ∧ b.walk st.mem ns = .ok jt ∧
      it.diff jt = .ok (k - m) ∧ it.eq jt = .ok (decide (k = m)) ∧ it.cmp jt = .ok (compare k m) := by
  have hP := part_of hs hl
  obtain ⟨h0, h1, h2⟩ := walk_here hP.loc rev (some i) ms 0 k (by omega) (by simpa using hk)
  obtain ⟨g0, g1, g2⟩ := walk_here hP.loc rev (some i) ns 0 m (by omega) (by simpa using hm)
  have hc : (k.toNat : Int) = k := by omega
  have hd : (m.toNat : Int) = m := by omega
  have hsub := sub_here (l := l) (block := blockOf st i) (off := offOf st s i) rev k.toNat m.toNat (by omega) (by omega)
  rw [hc, hd] at hsub
  refine ⟨_, _, _, hP.first rev, h2, g2, hsub, ?_, ?_⟩
  · simp only [Iter.eq, hsub, bind_ok, Res.ok.injEq, decide_eq_decide]; omega
  · simp only [Iter.cmp, hsub, bind_ok, Res.ok.injEq]
    rcases Int.lt_trichotomy k m with h | h | h
    · rw [if_pos (by omega)]; simp [compare, compareOfLessAndEq, h]
    · subst h; simp [compare, compareOfLessAndEq]
    · rw [if_neg (by omega), if_neg (by omega)]
      simp [compare, compareOfLessAndEq, show ¬ k < m by omega, show k ≠ m by omega]

example : travel 2 0 [.postInc, .addAssign 1] = some 2 ∧ travel 2 0 [.inc] = some 1 := by decide

/-- **C90** The loop over a partition from its first to its last iterator stops and visits its elements, each once and in
order, or in the opposite order if reversed. -/
theorem C90_loop {α : Type} (st : Storage α) (s : List (List α)) (hs : Reached st s) (i : Nat) (l : List α)
    (hl : s[i]? = some l) (rev : Bool) (fuel : Nat) (hf : l.length < fuel) :
    ∃ b e, st.first rev i = .ok b ∧ st.last rev i = .ok e ∧
      Iter.loop st.mem st.get e fuel b = .ok (some (if rev then l.reverse else l)) := by
  have hP := part_of hs hl
  refine ⟨_, _, hP.first rev, hP.last rev, ?_⟩
  rw [loop_here hP.loc rev (some i) (some i) st.get id (fun b x h => h) l.length fuel 0 (by omega) hf]
  simp [visited]

/-- **C90** The loop over the weights of the edges of a node, forwards or backwards, visits the weights of its edges, each
once and in that order: these are the same iterators with another policy. -/
theorem C90_weights {α W : Type} (weight : α → W) (st : Storage α) (s : List (List α)) (hs : Reached st s) (i : Nat)
    (l : List α) (hl : s[i]? = some l) (rev : Bool) (fuel : Nat) (hf : l.length < fuel) :
    ∃ b e, st.first rev i = .ok b ∧ st.last rev i = .ok e ∧
      Iter.loop st.mem (st.getWeight weight) e fuel b = .ok (some ((if rev then l.reverse else l).map weight)) := by
  have hP := part_of hs hl
  refine ⟨_, _, hP.first rev, hP.last rev, ?_⟩
  rw [loop_here hP.loc rev (some i) (some i) (st.getWeight weight) weight
    (fun b x h => by simp [Storage.getWeight, h]) l.length fuel 0 (by omega) hf]
  simp [visited]

example : ([[], [7], [2, 9]] : List (List Nat))[2]? = some [2, 9] ∧ [2, 9].length < 3 := by decide

/-- **C90** Inserting at an iterator which has been moved about puts the element before the one referred to, in that
partition and nowhere else, and returns an iterator which refers to the new element. -/
theorem C90_insert {α : Type} (st : Storage α) (s : List (List α)) (hs : Reached st s) (i : Nat) (l : List α)
    (hl : s[i]? = some l) (ms : List Move) (k : Nat) (hk : travel l.length 0 ms = some (k : Int)) (a : α) :
    ∃ b it st' b' it', st.first false i = .ok b ∧ b.walk st.mem ms = .ok it ∧ st.insertAt it a = .ret st' it' ∧
      Reached st' (atList s i fun l => l.take k ++ a :: l.drop k) ∧
      st'.first false i = .ok b' ∧ it'.aux = some i ∧ it'.diff b' = .ok k ∧ it'.star st'.get = .ok a := by
  have hP := part_of hs hl
  obtain ⟨h0, h1, h2⟩ := walk_here hP.loc false (some i) ms 0 k (by omega) (by simpa using hk)
  obtain ⟨st', g1, g2, g3, g4⟩ := insertAt_here hs hl k (by omega) a
  have hl' := atList_get s i l (fun l => l.take k ++ a :: l.drop k) hl
  have hP' := part_of g2 hl'
  rw [g3, g4] at hP'
  have hlen : (l.take k ++ a :: l.drop k).length = l.length + 1 := by simp; omega
  refine ⟨_, _, st', _, _, hP.first false, h2, g1, g2, hP'.first false, rfl, ?_, ?_⟩
  · have := sub_here (l := l.take k ++ a :: l.drop k) (block := blockOf st i) (off := offOf st s i) false k 0 (by omega)
      (by omega)
    simpa [Iter.diff, here] using this
  · have := deref_here hP'.loc false k (by simp only [visited, Bool.false_eq_true, if_false]; omega)
    simp only [visited, Bool.false_eq_true, if_false] at this
    rw [List.getElem_append_right (by simp; omega)] at this
    simpa [Iter.star, Storage.get, here, show min k l.length = k by omega] using this

/-- **C90** Erasing at an iterator which has been moved about removes the element referred to and nothing else, or nothing
at the end, and returns an iterator to what came after. -/
theorem C90_erase {α : Type} (st : Storage α) (s : List (List α)) (hs : Reached st s) (i : Nat) (l : List α)
    (hl : s[i]? = some l) (ms : List Move) (k : Nat) (hk : travel l.length 0 ms = some (k : Int)) :
    ∃ b it st' b' it', st.first false i = .ok b ∧ b.walk st.mem ms = .ok it ∧ st.eraseAt it = .ret st' it' ∧
      Reached st' (atList s i fun l => l.take k ++ l.drop (k + 1)) ∧
      st'.first false i = .ok b' ∧ it'.aux = some i ∧ it'.diff b' = .ok k ∧
      ∀ a, l[k + 1]? = some a → it'.star st'.get = .ok a := by
  have hP := part_of hs hl
  obtain ⟨h0, h1, h2⟩ := walk_here hP.loc false (some i) ms 0 k (by omega) (by simpa using hk)
  obtain ⟨st', g1, g2, g3, g4⟩ := eraseAt_here hs hl k (by omega)
  have hl' := atList_get s i l (fun l => l.take k ++ l.drop (k + 1)) hl
  have hP' := part_of g2 hl'
  rw [g3, g4] at hP'
  have hlen : (l.take k ++ l.drop (k + 1)).length = k + (l.length - (k + 1)) := by simp; omega
  refine ⟨_, _, st', _, _, hP.first false, h2, g1, g2, hP'.first false, rfl, ?_, ?_⟩
  · have := sub_here (l := l.take k ++ l.drop (k + 1)) (block := blockOf st i) (off := offOf st s i) false k 0 (by omega)
      (by omega)
    simpa [Iter.diff, here] using this
  · intro a ha
    obtain ⟨hlt, hx⟩ := List.getElem?_eq_some_iff.1 ha
    have := deref_here hP'.loc false k (by simp only [visited, Bool.false_eq_true, if_false]; omega)
    simp only [visited, Bool.false_eq_true, if_false] at this
    rw [List.getElem_append_right (by simp; omega)] at this
    simpa [Iter.star, Storage.get, here, show min k l.length = k by omega, hx] using this

example : travel 2 0 [.plus 2, .minus 1] = some ((1 : Nat) : Int) := by decide

/-- **C90 (violated)** Equal iterators are interchangeable.  They are not: the end of a partition and the beginning of the
next one are equal for contiguous storage, although they belong to different partitions, and erasing at the one removes
nothing, at the other an element. -/
theorem C90_equal_violated : ∃ (st st' : Storage Nat) (s : List (List Nat)) (e b r : PIter), Reached st s ∧
    st.last false 0 = .ok e ∧ st.first false 1 = .ok b ∧ e.eq b = .ok true ∧ e.aux ≠ b.aux ∧
    st.eraseAt e = .ret st e ∧ st.eraseAt b = .ret st' r ∧ st' ≠ st := by
  refine ⟨.contig ⟨[1, 2], [5, 6]⟩, .contig ⟨[1, 1], [5]⟩, [[5], [6]], ⟨some 0, ⟨0, 1, false⟩⟩, ⟨some 1, ⟨0, 1, false⟩⟩,
    ⟨some 1, ⟨0, 1, false⟩⟩, ⟨[[5], [6]], [], [], ⟨[1, 2], [5, 6]⟩, ?_, ?_, ?_⟩, ?_, ?_, ?_, ?_, ?_, ?_, ?_⟩ <;> decide

/-- **C90 (violated)** The iterators of a partition which does not exist delimit an empty range and say that they belong to
none.  For contiguous storage the range consists of all elements, and the first iterator of the reversed range even claims
to belong to partition 0. -/
theorem C90_missing_violated : ∃ (st : Storage Nat) (s : List (List Nat)) (b e rb re : PIter), Reached st s ∧
    st.first false 7 = .ok b ∧ st.last false 7 = .ok e ∧ e.diff b = .ok 2 ∧
    st.first true 7 = .ok rb ∧ st.last true 7 = .ok re ∧ re.diff rb = .ok 2 ∧ rb.aux = some 0 ∧ re.aux = none := by
  refine ⟨.contig ⟨[1, 2], [5, 6]⟩, [[5], [6]], ⟨none, ⟨0, 0, false⟩⟩, ⟨none, ⟨0, 2, false⟩⟩, ⟨some 0, ⟨0, 2, true⟩⟩,
    ⟨none, ⟨0, 0, true⟩⟩, ⟨[[5], [6]], [], [], ⟨[1, 2], [5, 6]⟩, ?_, ?_, ?_⟩, ?_, ?_, ?_, ?_, ?_, ?_, ?_, ?_⟩ <;> decide

/-- **C90 (part)** For contiguous storage the iterators of a partition which does not exist say that they belong to none, except
for the first of the reversed ones.  What is missing: that one, and that the range is empty; both are false. -/
theorem C90_missing_index_partial {α : Type} (c : Contig α) (i : Nat) (hi : c.bounds.length ≤ i) (b : PIter) :
    ((Storage.contig c).first false i = .ok b → b.aux = none) ∧ ((Storage.contig c).last false i = .ok b → b.aux = none) ∧
      ((Storage.contig c).last true i = .ok b → b.aux = none) := by
  have hi' : ¬ i < c.bounds.length := by omega
  have key : ∀ (x : Base) (n : Int) (r : PIter),
      (x.add [c.data] n).bind (fun b => Res.ok (⟨none, b⟩ : PIter)) = .ok r → r.aux = none := by
    intro y n r h
    cases hb : y.add [c.data] n with
    | ok x => rw [hb] at h; cases h; rfl
    | throws => rw [hb] at h; cases h
    | ub => rw [hb] at h; cases h
  refine ⟨?_, ?_, ?_⟩
  · intro h
    simp only [Storage.first, contigBegin, hi, if_true, Bool.false_eq_true, if_false, Iter.plus, Iter.addAssign] at h
    exact key _ _ _ h
  · intro h
    simp only [Storage.last, contigEnd, hi', Bool.false_eq_true, if_false, Iter.plus, Iter.addAssign] at h
    exact key _ _ _ h
  · intro h
    simp only [Storage.last, contigBegin, hi, if_true, Iter.minus, Iter.subAssign] at h
    exact key _ _ _ h

/-- a sequence without a third partition -/
example : ∃ b, (Storage.contig (α := Nat) ⟨[1, 2], [5, 6]⟩).first false 2 = .ok b := ⟨_, rfl⟩

/-- **C90** For bucketed storage they do, whichever partition is missing, unless there are no partitions at all, in which
case an exception is thrown. -/
theorem C90_missing_bucketed {α : Type} (s : List (List α)) (i : Nat) (hi : s.length ≤ i) (rev : Bool) :
    if s = [] then (Storage.bucket s).first rev i = .throws ∧ (Storage.bucket s).last rev i = .throws
    else ∃ b e, (Storage.bucket s).first rev i = .ok b ∧ (Storage.bucket s).last rev i = .ok e ∧ b.aux = none ∧
      e.aux = none ∧ e.diff b = .ok 0 ∧ b.eq e = .ok true := by
  by_cases h : s = []
  · subst h; simp [Storage.first, Storage.last]
  · rw [if_neg h]
    have he : s.isEmpty = false := by cases s <;> simp_all
    have hn : s[i]? = none := by simp; omega
    cases rev
    · have hb : backEnd s = .ok ⟨s.length - 1, (s.getLast h).length, false⟩ := by
        simp [backEnd, List.getLast?_eq_some_getLast h]
      refine ⟨⟨none, ⟨s.length - 1, (s.getLast h).length, false⟩⟩, ⟨none, ⟨s.length - 1, (s.getLast h).length, false⟩⟩, ?_⟩
      simp [Storage.first, Storage.last, he, hn, hb, Iter.diff, Iter.eq, Base.sub]
    · refine ⟨⟨none, ⟨0, 0, true⟩⟩, ⟨none, ⟨0, 0, true⟩⟩, ?_⟩
      simp [Storage.first, Storage.last, he, hn, Iter.diff, Iter.eq, Base.sub]

example : ([[5], [6]] : List (List Nat)).length ≤ 7 ∧ ([[5], [6]] : List (List Nat)) ≠ [] := by decide

end Verif.Props
