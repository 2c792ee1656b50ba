import Verif.Lemmas.TypeLists
/-
C62: the algorithms on lists of types have the effects which their names promise.
-/
set_option linter.unusedSectionVars false

namespace Verif.Props
open Verif.TypeLists Verif.Spec

namespace TypeLists

/-! ### Nested lists -/

mutual
  /-- The types, other than instances of the class template, in their order. -/
  def leaves {α : Type} : Ty α → List α
    | .other a => [a]
    | .tt ts => leavesOf ts
  /-- The same for a list. -/
  def leavesOf {α : Type} : List (Ty α) → List α
    | [] => []
    | t :: ts => leaves t ++ leavesOf ts
end

/-- The same depth of nesting throughout. -/
def Uniform {α : Type} : Nat → Ty α → Prop
  | 0, .other _ => True
  | 0, .tt _ => False
  | _ + 1, .other _ => False
  | d + 1, .tt ts => ∀ t ∈ ts, Uniform d t

theorem leavesOf_append {α : Type} : ∀ (a b : List (Ty α)), leavesOf (a ++ b) = leavesOf a ++ leavesOf b
  | [], _ => by simp [leavesOf]
  | t :: a, b => by rw [List.cons_append, leavesOf, leavesOf_append a b, leavesOf, List.append_assoc]

theorem flatten_step {α : Type} (ts us vs : List (Ty α)) (fuel : Nat) : flatten (fuel + 1) (.tt ts :: .tt us :: vs) = flatten fuel (.tt (ts ++ us) :: vs) := rfl

/-- The entries of a list of lists are joined. -/
theorem flatten_join {α : Type} : ∀ (vs ts : List (Ty α)) (d : Nat), (∀ v ∈ vs, Uniform (d + 1) v) → (∀ t ∈ ts, Uniform d t) →
    ∃ all, leavesOf all = leavesOf ts ++ leavesOf vs ∧ (∀ t ∈ all, Uniform d t) ∧ ∀ fuel, flatten (fuel + 1 + vs.length) (.tt ts :: vs) = flatten fuel all
  | [], ts, d, _, ht => ⟨ts, by simp [leavesOf], ht, fun fuel => rfl⟩
  | .other a :: vs, ts, d, hv, _ => (hv (.other a) (by simp)).elim
  | .tt us :: vs, ts, d, hv, ht => by
    have hu : ∀ t ∈ us, Uniform d t := hv (.tt us) (by simp)
    obtain ⟨all, h1, h2, h3⟩ := flatten_join vs (ts ++ us) d (fun v h => hv v (by simp [h])) (by
      intro t h
      rcases List.mem_append.mp h with h | h
      · exact ht t h
      · exact hu t h)
    refine ⟨all, ?_, h2, ?_⟩
    · rw [h1, leavesOf_append, leavesOf, leaves, List.append_assoc]
    · intro fuel
      rw [List.length_cons, ← Nat.add_assoc, flatten_step]
      exact h3 fuel

theorem flatten_other {α : Type} (a : α) (ts : List (Ty α)) (fuel : Nat) : flatten (fuel + 1) (.other a :: ts) = some (.other a :: ts) := rfl

theorem leavesOf_uniform {α : Type} : ∀ (ts : List (Ty α)), (∀ t ∈ ts, Uniform 0 t) → (leavesOf ts).map .other = ts
  | [], _ => by simp [leavesOf]
  | .other a :: ts, h => by
    rw [leavesOf, leaves, List.map_append, leavesOf_uniform ts fun t ht => h t (by simp [ht])]
    rfl
  | .tt us :: ts, h => (h (.tt us) (by simp)).elim

theorem flatten_uniform {α : Type} : ∀ (d : Nat) (ts : List (Ty α)), (∀ t ∈ ts, Uniform d t) → ∃ n, ∀ fuel ≥ n, flatten fuel ts = some ((leavesOf ts).map .other)
  | 0, ts, h => by
    refine ⟨1, fun fuel hf => ?_⟩
    rw [leavesOf_uniform ts h]
    obtain ⟨fuel, rfl⟩ : ∃ k, fuel = k + 1 := ⟨fuel - 1, by omega⟩
    cases ts with
    | nil => rfl
    | cons t ts =>
      cases t with
      | other a => rfl
      | tt us => exact (h (.tt us) (by simp)).elim
  | d + 1, [], _ => ⟨1, fun fuel hf => by
      obtain ⟨fuel, rfl⟩ : ∃ k, fuel = k + 1 := ⟨fuel - 1, by omega⟩
      simp [leavesOf, flatten]⟩
  | d + 1, .other a :: ts, h => (h (.other a) (by simp)).elim
  | d + 1, .tt us :: ts, h => by
    obtain ⟨all, h1, h2, h3⟩ := flatten_join ts us d (fun v hv => h v (by simp [hv])) (h (.tt us) (by simp))
    obtain ⟨n, hn⟩ := flatten_uniform d all h2
    refine ⟨n + 1 + ts.length, fun fuel hf => ?_⟩
    rw [show fuel = (fuel - 1 - ts.length) + 1 + ts.length by omega, h3, hn _ (by omega), h1, leavesOf, leaves]

end TypeLists

section
variable {τ ε : Type} [DecidableEq τ] [DecidableEq ε]

/-- **C62** The algorithms on index sequences: concatenation, selection of the positions at which types have a property, rotation by one, reversal, translation and partial sums. -/
theorem C62_sequences (seqs : List (List Nat)) (hne : seqs ≠ []) (excluded : ε) (f : τ → ε) (ts : List τ) (is : List Nat) (n : Nat) :
    concatSequences seqs = some seqs.flatten ∧
    filteredSequence excluded f ts = (List.range ts.length).filter (fun i => (ts[i]?).any fun t => decide (excluded ≠ f t)) ∧
    rotateSequence is = is.drop 1 ++ is.take 1 ∧
    reverseSequence is = is.reverse ∧
    shiftSequence is n = is.map (· + n) ∧
    sequencePartialSum is = some ((List.range is.length).map fun k => (is.take (k + 1)).sum) := by
  refine ⟨concatSequences_eq seqs hne, ?_, ?_, reverseSequence_eq is, ?_, ?_⟩
  · have := aggregate_eq excluded f ts ts [] [] rfl
    simpa [filteredSequence] using this
  · cases is <;> rfl
  · unfold shiftSequence
    apply List.map_congr_left
    intro a _
    omega
  · cases is with
    | nil => rfl
    | cons i is =>
      rw [sequencePartialSum, partialSumImpl_eq]
      simp only [Option.map_some, reverseSequence_eq, Option.some.injEq]
      rw [List.length_cons, List.range_succ_eq_map]
      simp [Function.comp_def]

example : concatSequences [[1], [2, 3], [4]] = some [1, 2, 3, 4] ∧ sequencePartialSum [1, 2, 3] = some [1, 3, 6] := by decide +kernel

/-- **C62** The elementary algorithms on lists of types: dropping and keeping the first types, insertion, removal, selection by a trait, searching, concatenation and reversal.  Insertion and
removal are ill-formed exactly if the position is out of range. -/
theorem C62_elementary (ts us : List τ) (t : τ) (n : Nat) (trait : τ → Bool) :
    drop ts n = some (ts.drop n) ∧
    keep ts n = some (ts.take n) ∧
    insert ts t n = (if n ≤ ts.length then some (ts.take n ++ t :: ts.drop n) else none) ∧
    erase ts n = (if n < ts.length then some (ts.eraseIdx n) else none) ∧
    filterByTrait trait ts = some (ts.filter trait) ∧
    find t ts = ts.idxOf t ∧
    findIf trait ts = ts.findIdx trait ∧
    contains ts t = decide (t ∈ ts) ∧
    concat ts us = ts ++ us ∧
    reverse ts = ts.reverse :=
  ⟨drop_eq ts n, keep_eq ts n, insert_eq ts t n, erase_eq ts n, filterByTrait_eq trait ts, find_eq t ts, findIf_eq trait ts, contains_eq t ts, rfl, reverse_eq ts⟩

/-- **C62** In a sorted list of types `lower_bound` is the position which separates the types which are less than a given one from the others. -/
theorem C62_lower_bound (lt : τ → τ → Bool) (hlt : StrictWeak lt) (ts : List τ) (hs : Sorted lt ts) (u : τ) :
    ∃ p, lowerBound lt ts u = some p ∧ p ≤ ts.length ∧ (∀ x ∈ ts.take p, lt x u = true) ∧ ∀ x ∈ ts.drop p, lt x u = false :=
  lowerBound_eq hlt hs u

/-- **C62 (part)** Merging two sorted lists of types gives a sorted list of the types of both, with the same multiplicities.

What is missing: equivalent types need not keep their order, see `C62_merge_unstable_violated`. -/
theorem C62_merge_partial (lt : τ → τ → Bool) (hlt : StrictWeak lt) (ts us : List τ) (ht : Sorted lt ts) (hu : Sorted lt us) :
    ∃ l, merge lt ts us = some l ∧ l.Perm (ts ++ us) ∧ Sorted lt l :=
  merge_eq hlt ts us ht hu

/-- **C62 (part)** `stable_sort` always succeeds; its result is sorted and has the same types with the same multiplicities.

What is missing: it is not stable, see `C62_sort_unstable_violated`. -/
theorem C62_sort_partial (lt : τ → τ → Bool) (hlt : StrictWeak lt) (ts : List τ) : ∃ l, stableSortT lt ts = some l ∧ l.Perm ts ∧ Sorted lt l :=
  stableSort_eq hlt _ ts (by omega)

/-- **C62 (part)** If distinct types are never equivalent, there is no question of stability: what `stable_sort` gives is the only sorted list with these types. -/
theorem C62_sort_unique_partial (lt : τ → τ → Bool) (hlt : StrictWeak lt) (htot : ∀ a b, lt a b = false → lt b a = false → a = b) (ts l : List τ) (hp : l.Perm ts)
    (hs : Sorted lt l) : stableSortT lt ts = some l := by
  obtain ⟨l', h1, h2, h3⟩ := C62_sort_partial lt hlt ts
  rw [h1, Option.some.injEq]
  exact (h2.trans hp.symm).eq_of_pairwise (fun a b _ _ h h' => htot a b h' h) h3 hs

/-- Numbers, as an example. -/
example : StrictWeak (fun a b : Nat => decide (a < b)) ∧ stableSortT (fun a b : Nat => decide (a < b)) [3, 1, 4, 1, 5, 9, 2, 6] = some [1, 1, 2, 3, 4, 5, 6, 9] := by
  refine ⟨⟨fun a b h => ?_, fun a b c h h' => ?_⟩, by decide +kernel⟩
  · simp at h ⊢; omega
  · simp at h h' ⊢; omega

example : Sorted (fun a b : Nat => decide (a < b)) [1, 2, 2, 5] ∧ lowerBound (fun a b : Nat => decide (a < b)) [1, 2, 2, 5] 2 = some 1 :=
  ⟨by simp [Sorted], by decide +kernel⟩

/-- **C62 (violated)** `stable_sort` exchanges two equivalent types. -/
theorem C62_sort_unstable_violated (lt : τ → τ → Bool) (a b : τ) (h : lt a b = false) : stableSortT lt [a, b] = some [b, a] := by
  have hk : keep [a, b] ([a, b].length / 2) = some [a] := by rw [keep_eq]; simp
  have hd : drop [a, b] ([a, b].length / 2) = some [b] := by rw [drop_eq]; simp
  rw [show stableSortT lt [a, b] = (keep [a, b] ([a, b].length / 2)).bind fun a' => (drop [a, b] ([a, b].length / 2)).bind fun b' =>
    (stableSort lt 2 a').bind fun a => (stableSort lt 2 b').bind fun b => merge lt a b from rfl, hk, hd]
  simp [stableSort, merge, h]

/-- **C62 (violated)** Merging is not stable either: of three equivalent types of the first list, the first comes last.  (Types are pairs, compared by the first components.) -/
theorem C62_merge_unstable_violated : merge (fun a b : Nat × Nat => decide (a.1 < b.1)) [(1, 1), (1, 2), (1, 3)] [(0, 0), (0, 0)] = some [(0, 0), (0, 0), (1, 2), (1, 3), (1, 1)] := by
  decide +kernel

/-- **C62** A faithful type list has every type exactly once, in the order of first occurrences; the union of at least two lists is the faithful list of what they contain. -/
theorem C62_faithful (ts us : List τ) (rest : List (List τ)) :
    faithful ts = ts.eraseDups ∧ (faithful ts).Nodup ∧ (∀ t, t ∈ faithful ts ↔ t ∈ ts) ∧ union (ts :: us :: rest) = some (faithful (ts :: us :: rest).flatten) := by
  refine ⟨faithful_eq ts, ?_, ?_, ?_⟩
  · rw [faithful_eq]; exact eraseDups_nodup ts
  · intro t; rw [faithful_eq]; exact List.mem_eraseDups
  · rw [union_eq, faithful_eq]

example : union [[1, 2, 1], [3], [2, 4]] = some [1, 2, 3, 4] := by decide +kernel

/-- **C62 (violated)** The union of a single list is that list, with its repetitions. -/
theorem C62_union_single_violated : union [[1, 1]] = some [1, 1] := by decide +kernel

end

/-- **C62 (part)** A list which is nested to the same depth throughout is flattened: what is left are the types which are not lists, in their order.

What is missing: lists which are nested to different depths are not flattened, see `C62_flatten_violated`. -/
theorem C62_flatten_partial {α : Type} (depth : Nat) (ts : List (Ty α)) (h : ∀ t ∈ ts, TypeLists.Uniform depth t) :
    ∃ n, ∀ fuel ≥ n, flatten fuel ts = some ((TypeLists.leavesOf ts).map .other) :=
  TypeLists.flatten_uniform depth ts h

/-- A list of lists of lists. -/
example : ∀ t ∈ ([.tt [.tt [.other 1, .other 2], .tt []], .tt [.tt [.other 3]]] : List (Ty Nat)), TypeLists.Uniform 2 t := by
  simp [TypeLists.Uniform]

/-- **C62 (violated)** A list next to something else stays as it is. -/
theorem C62_flatten_violated (fuel : Nat) : flatten (fuel + 1) [.tt [.other 1], .other 2] = some [.tt [.other 1], .other 2] := rfl

end Verif.Props
