import Verif.Lemmas.Partitioned

/-! Properties C08 and C09: the two partitioned storages of /repo/Source/sequoia/Core/DataStructures/PartitionedData.hpp. -/
namespace Verif.Props
open Verif.Spec Verif.Partitioned

/-- C08.  Contiguous storage constructed from any nested list and put through any history for which the list-of-lists
specification is within its contract: construction succeeds, no call has undefined behaviour, every call shows the
caller what the specification shows (values, positions of returned iterators, exceptions), and afterwards the partitions
are those of the specification, in order and with nothing in between. -/
theorem C08_partitioned_sequence {α : Type} (ls s' : List (List α)) (ops : List (Op α)) (outs : List (Option (Val α)))
    (h : run lolStep ls ops = some (s', outs)) :
    ∃ c c' : Contig α, Contig.init ls = .ret c .unit ∧ run Contig.step c ops = some (c', outs) ∧
      c'.bounds.length = s'.length ∧ c'.data = s'.flatten ∧ ∀ i l, s'[i]? = some l → c'.partition i = l := by
  obtain ⟨c, hc, hR⟩ := init_spec ls
  obtain ⟨c', h1, h2⟩ := run_ref (R := R) (fun c s o h => Contig.sim c s o h) c ls hR ops s' outs h
  refine ⟨c, c', hc, h1, bounds_len h2, h2.2, ?_⟩
  intro i l hl
  have := Contig.sim c' s' (.partition i) h2
  simp only [lolStep, hl, Contig.step, OutRef, Val.list.injEq] at this
  exact this.2

/-- C08: `operator==`, which compares the representations, is equality of the lists of partitions, whatever the two
histories were. -/
theorem C08_partitioned_sequence_eq {α : Type} (ls ms l' m' : List (List α)) (ops ops' : List (Op α))
    (outs outs' : List (Option (Val α))) (h : run lolStep ls ops = some (l', outs))
    (h' : run lolStep ms ops' = some (m', outs')) :
    ∃ c c' d d' : Contig α, Contig.init ls = .ret c .unit ∧ run Contig.step c ops = some (c', outs) ∧
      Contig.init ms = .ret d .unit ∧ run Contig.step d ops' = some (d', outs') ∧ (c' = d' ↔ l' = m') := by
  obtain ⟨c, hc, hR⟩ := init_spec ls
  obtain ⟨c', h1, h2⟩ := run_ref (R := R) (fun c s o h => Contig.sim c s o h) c ls hR ops l' outs h
  obtain ⟨d, hd, hS⟩ := init_spec ms
  obtain ⟨d', h3, h4⟩ := run_ref (R := R) (fun c s o h => Contig.sim c s o h) d ms hS ops' m' outs' h'
  refine ⟨c, c', d, d', hc, h1, hd, h3, ?_, ?_⟩
  · intro he
    subst he
    apply List.ext_getElem
    · rw [← bounds_len h2, bounds_len h4]
    · intro i hi hj
      have a := Contig.sim c' l' (.partition i) h2
      have b := Contig.sim c' m' (.partition i) h4
      simp only [lolStep, List.getElem?_eq_getElem hi, List.getElem?_eq_getElem hj, Contig.step, OutRef,
        Val.list.injEq] at a b
      rw [← a.2, ← b.2]
  · intro he
    subst he
    cases c'; cases d'
    obtain ⟨a1, a2⟩ := h2
    obtain ⟨b1, b2⟩ := h4
    simp only at a1 a2 b1 b2
    rw [a1, a2, b1, b2]

/-- A history meeting the hypotheses, mixing all kinds of call. -/
example : run lolStep [[1, 2], [], [3]]
    [.swapPartitions 0 2, .insert 2 1 9, .insertSlot 1, .pushBack 1 7, .erase 0 0, .eraseSlot 2, .eraseRange 2 0 2 2,
      .pushBack 5 0, .partition 2, .size] =
    some ([[], [7], [2]], [some .unit, some (.iter 2 1), some .unit, some .unit, some (.iter 0 0), some .unit,
      some (.iter 2 0), none, some (.list [2]), some (.num 2)]) := by decide

/-- C09 (partial).  Full claim: contiguous and bucketed storage show their callers the same thing for every history.
Proved: they do for every history containing none of the three kinds of call listed in `Differs`; both go through
without undefined behaviour, show the same outputs and end with the same partitions.
Missing: for those three kinds the claim is false, see `C09_storages_interchangeable_violated`. -/
theorem C09_storages_interchangeable_partial {α : Type} (ls s' : List (List α)) (ops : List (Op α))
    (outs : List (Option (Val α))) (ha : Agreed ls ops) (h : run bucketStep ls ops = some (s', outs)) :
    ∃ c c' : Contig α, Contig.init ls = .ret c .unit ∧ run Contig.step c ops = some (c', outs) ∧
      c'.bounds.length = s'.length ∧ ∀ i l, s'[i]? = some l → c'.partition i = l := by
  rw [bucket_run ls ops ha] at h
  obtain ⟨c, c', h1, h2, h3, _, h5⟩ := C08_partitioned_sequence ls s' ops outs h
  exact ⟨c, c', h1, h2, h3, h5⟩

example : Agreed [[1, 2], []] [.insert 0 2 3, .erase 0 5, .erase 7 0, .insert 9 0 1, .partition 1] := by
  simp [Agreed, Differs, lolStep, atList]

/-- C09: the three differences.  Inserting beyond the end of a partition: bucketed storage throws, contiguous storage
inserts at the end.  Erasing when there are no partitions: bucketed storage throws, contiguous storage does nothing.
Asking for a missing partition: bucketed storage shows an empty range, contiguous storage shows all of its elements. -/
theorem C09_storages_interchangeable_violated :
    (∃ c, Contig.init [[1]] = .ret c .unit ∧
      run Contig.step c [.insert 0 5 2, .partition 0] ≠ none ∧
      (run Contig.step c [.insert 0 5 2, .partition 0]).map Prod.snd = some [some (.iter 0 1), some (.list [1, 2])] ∧
      (run bucketStep [[1]] [.insert 0 5 2, .partition 0]).map Prod.snd = some [none, some (.list [1])]) ∧
    (∃ c, Contig.init ([] : List (List Nat)) = .ret c .unit ∧
      (run Contig.step c [.erase 0 0]).map Prod.snd = some [some .npos] ∧
      (run bucketStep ([] : List (List Nat)) [.erase 0 0]).map Prod.snd = some [none]) ∧
    (∃ c, Contig.init [[1], [2]] = .ret c .unit ∧
      (run Contig.step c [.partition 2]).map Prod.snd = some [some (.list [1, 2])] ∧
      (run bucketStep [[1], [2]] [.partition 2]).map Prod.snd = some [some (.list [])]) := by
  refine ⟨⟨⟨[1], [1]⟩, ?_⟩, ⟨⟨[], []⟩, ?_⟩, ⟨⟨[1, 2], [1, 2]⟩, ?_⟩⟩ <;> decide

end Verif.Props
