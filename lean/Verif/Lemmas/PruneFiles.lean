import Verif.Spec.PruneFiles
import Mathlib.Order.Nat
/- Lemmas about the algorithms on sorted ranges and about the files with test outcomes. -/
namespace Verif.PruneFiles
open Verif.Spec.Prune

section
variable {K : Type} [LinearOrder K]

abbrev Sorted (l : List K) : Prop := l.Pairwise (· ≤ ·)

theorem count_zero_of_lt {x k : K} {l : List K} (hs : Sorted (x :: l)) (h : k < x) : (x :: l).count k = 0 := by
  rw [List.count_eq_zero]
  intro hm
  rcases List.mem_cons.mp hm with rfl | hm
  · exact lt_irrefl _ h
  · exact lt_irrefl _ (lt_of_lt_of_le h ((List.pairwise_cons.mp hs).1 k hm))

theorem setUnionAux_count (k : K) : ∀ (f : Nat) (a b : List K), a.length + b.length < f → Sorted a → Sorted b →
    (setUnionAux f a b).count k = max (a.count k) (b.count k)
  | 0, _, _, h, _, _ => by omega
  | f + 1, [], b, _, _, _ => by simp [setUnionAux]
  | f + 1, x :: a, [], _, _, _ => by simp [setUnionAux]
  | f + 1, x :: a, y :: b, h, ha, hb => by
    simp only [List.length_cons] at h
    have ha' := (List.pairwise_cons.mp ha).2
    have hb' := (List.pairwise_cons.mp hb).2
    rw [setUnionAux]
    by_cases h1 : x < y
    · rw [if_pos h1, List.count_cons, setUnionAux_count k f a (y :: b) (by simp; omega) ha' hb, List.count_cons (a := k) (b := x)]
      by_cases hk : x = k
      · subst hk
        have := count_zero_of_lt hb h1
        simp [this]
      · simp [hk]
    · rw [if_neg h1]
      by_cases h2 : y < x
      · rw [if_pos h2, List.count_cons, setUnionAux_count k f (x :: a) b (by simp; omega) ha hb', List.count_cons (a := k) (b := y)]
        by_cases hk : y = k
        · subst hk
          have := count_zero_of_lt ha h2
          simp [this]
        · simp [hk]
      · rw [if_neg h2]
        have hxy : x = y := le_antisymm (not_lt.mp h2) (not_lt.mp h1)
        subst hxy
        rw [List.count_cons, setUnionAux_count k f a b (by omega) ha' hb', List.count_cons (a := k) (l := a), List.count_cons (a := k) (l := b)]
        omega

theorem setUnion_count (k : K) {a b : List K} (ha : Sorted a) (hb : Sorted b) : (setUnion a b).count k = max (a.count k) (b.count k) :=
  setUnionAux_count k _ a b (by omega) ha hb

theorem setDifferenceAux_count (k : K) : ∀ (f : Nat) (a b : List K), a.length + b.length < f → Sorted a → Sorted b →
    (setDifferenceAux f a b).count k = a.count k - b.count k
  | 0, _, _, h, _, _ => by omega
  | f + 1, [], b, _, _, _ => by simp [setDifferenceAux]
  | f + 1, x :: a, [], _, _, _ => by simp [setDifferenceAux]
  | f + 1, x :: a, y :: b, h, ha, hb => by
    simp only [List.length_cons] at h
    have ha' := (List.pairwise_cons.mp ha).2
    have hb' := (List.pairwise_cons.mp hb).2
    rw [setDifferenceAux]
    by_cases h1 : x < y
    · rw [if_pos h1, List.count_cons, setDifferenceAux_count k f a (y :: b) (by simp; omega) ha' hb, List.count_cons (a := k) (b := x)]
      by_cases hk : x = k
      · subst hk
        have := count_zero_of_lt hb h1
        simp [this]
      · simp [hk]
    · rw [if_neg h1]
      by_cases h2 : y < x
      · rw [if_pos h2, setDifferenceAux_count k f (x :: a) b (by simp; omega) ha hb', List.count_cons (a := k) (b := y)]
        by_cases hk : y = k
        · subst hk
          have := count_zero_of_lt ha h2
          simp [this]
        · simp [hk]
      · rw [if_neg h2]
        have hxy : x = y := le_antisymm (not_lt.mp h2) (not_lt.mp h1)
        subst hxy
        rw [setDifferenceAux_count k f a b (by omega) ha' hb', List.count_cons (a := k) (l := a), List.count_cons (a := k) (l := b)]
        omega

theorem setDifference_count (k : K) {a b : List K} (ha : Sorted a) (hb : Sorted b) : (setDifference a b).count k = a.count k - b.count k :=
  setDifferenceAux_count k _ a b (by omega) ha hb

theorem setIntersectionAux_count (k : K) : ∀ (f : Nat) (a b : List K), a.length + b.length < f → Sorted a → Sorted b →
    (setIntersectionAux f a b).count k = min (a.count k) (b.count k)
  | 0, _, _, h, _, _ => by omega
  | f + 1, [], b, _, _, _ => by simp [setIntersectionAux]
  | f + 1, x :: a, [], _, _, _ => by simp [setIntersectionAux]
  | f + 1, x :: a, y :: b, h, ha, hb => by
    simp only [List.length_cons] at h
    have ha' := (List.pairwise_cons.mp ha).2
    have hb' := (List.pairwise_cons.mp hb).2
    rw [setIntersectionAux]
    by_cases h1 : x < y
    · rw [if_pos h1, setIntersectionAux_count k f a (y :: b) (by simp; omega) ha' hb, List.count_cons (a := k) (b := x)]
      by_cases hk : x = k
      · subst hk
        have := count_zero_of_lt hb h1
        simp [this]
      · simp [hk]
    · rw [if_neg h1]
      by_cases h2 : y < x
      · rw [if_pos h2, setIntersectionAux_count k f (x :: a) b (by simp; omega) ha hb', List.count_cons (a := k) (b := y)]
        by_cases hk : y = k
        · subst hk
          have := count_zero_of_lt ha h2
          simp [this]
        · simp [hk]
      · rw [if_neg h2]
        have hxy : x = y := le_antisymm (not_lt.mp h2) (not_lt.mp h1)
        subst hxy
        rw [List.count_cons, setIntersectionAux_count k f a b (by omega) ha' hb', List.count_cons (a := k) (l := a), List.count_cons (a := k) (l := b)]
        omega

theorem setIntersection_count (k : K) {a b : List K} (ha : Sorted a) (hb : Sorted b) : (setIntersection a b).count k = min (a.count k) (b.count k) :=
  setIntersectionAux_count k _ a b (by omega) ha hb

/-! The results are sorted. -/

theorem setUnionAux_sub : ∀ (f : Nat) (a b : List K), ∀ z ∈ setUnionAux f a b, z ∈ a ∨ z ∈ b
  | 0, _, _ => by simp [setUnionAux]
  | f + 1, [], b => by simp [setUnionAux]
  | f + 1, x :: a, [] => by simp [setUnionAux]
  | f + 1, x :: a, y :: b => by
    intro z hz
    rw [setUnionAux] at hz
    split at hz
    · rcases List.mem_cons.mp hz with rfl | hz
      · simp
      · rcases setUnionAux_sub f _ _ z hz with h | h <;> simp_all
    · split at hz
      · rcases List.mem_cons.mp hz with rfl | hz
        · simp
        · rcases setUnionAux_sub f _ _ z hz with h | h <;> simp_all
      · rcases List.mem_cons.mp hz with rfl | hz
        · simp
        · rcases setUnionAux_sub f _ _ z hz with h | h <;> simp_all

theorem setUnionAux_sorted : ∀ (f : Nat) (a b : List K), Sorted a → Sorted b → Sorted (setUnionAux f a b)
  | 0, _, _, _, _ => by simp [setUnionAux]
  | f + 1, [], b, _, hb => by simpa [setUnionAux] using hb
  | f + 1, x :: a, [], ha, _ => by simpa [setUnionAux] using ha
  | f + 1, x :: a, y :: b, ha, hb => by
    have ha' := List.pairwise_cons.mp ha
    have hb' := List.pairwise_cons.mp hb
    rw [setUnionAux]
    by_cases h1 : x < y
    · rw [if_pos h1]
      refine List.pairwise_cons.mpr ⟨?_, setUnionAux_sorted f _ _ ha'.2 hb⟩
      intro z hz
      rcases setUnionAux_sub f _ _ z hz with h | h
      · exact ha'.1 z h
      · rcases List.mem_cons.mp h with rfl | h
        · exact le_of_lt h1
        · exact le_trans (le_of_lt h1) (hb'.1 z h)
    · rw [if_neg h1]
      by_cases h2 : y < x
      · rw [if_pos h2]
        refine List.pairwise_cons.mpr ⟨?_, setUnionAux_sorted f _ _ ha hb'.2⟩
        intro z hz
        rcases setUnionAux_sub f _ _ z hz with h | h
        · rcases List.mem_cons.mp h with rfl | h
          · exact le_of_lt h2
          · exact le_trans (le_of_lt h2) (ha'.1 z h)
        · exact hb'.1 z h
      · rw [if_neg h2]
        have hxy : x = y := le_antisymm (not_lt.mp h2) (not_lt.mp h1)
        subst hxy
        refine List.pairwise_cons.mpr ⟨?_, setUnionAux_sorted f _ _ ha'.2 hb'.2⟩
        intro z hz
        rcases setUnionAux_sub f _ _ z hz with h | h
        · exact ha'.1 z h
        · exact hb'.1 z h

theorem setUnion_sorted {a b : List K} (ha : Sorted a) (hb : Sorted b) : Sorted (setUnion a b) := setUnionAux_sorted _ a b ha hb

theorem setDifferenceAux_sub : ∀ (f : Nat) (a b : List K), (setDifferenceAux f a b).Sublist a
  | 0, _, _ => by simp [setDifferenceAux]
  | f + 1, [], b => by simp [setDifferenceAux]
  | f + 1, x :: a, [] => by simp [setDifferenceAux]
  | f + 1, x :: a, y :: b => by
    rw [setDifferenceAux]
    split
    · exact (setDifferenceAux_sub f a (y :: b)).cons_cons x
    · split
      · exact setDifferenceAux_sub f (x :: a) b
      · exact (setDifferenceAux_sub f a b).cons x

theorem setDifference_sorted {a b : List K} (ha : Sorted a) : Sorted (setDifference a b) := ha.sublist (setDifferenceAux_sub _ a b)

theorem setIntersectionAux_sub : ∀ (f : Nat) (a b : List K), (setIntersectionAux f a b).Sublist a
  | 0, _, _ => by simp [setIntersectionAux]
  | f + 1, [], b => by simp [setIntersectionAux]
  | f + 1, x :: a, [] => by simp [setIntersectionAux]
  | f + 1, x :: a, y :: b => by
    rw [setIntersectionAux]
    split
    · exact (setIntersectionAux_sub f a (y :: b)).cons x
    · split
      · exact setIntersectionAux_sub f (x :: a) b
      · exact (setIntersectionAux_sub f a b).cons_cons x

theorem setIntersection_sorted {a b : List K} (ha : Sorted a) : Sorted (setIntersection a b) := ha.sublist (setIntersectionAux_sub _ a b)

/-! Membership and repetitions. -/

theorem mem_setUnion {a b : List K} (ha : Sorted a) (hb : Sorted b) (k : K) : k ∈ setUnion a b ↔ k ∈ a ∨ k ∈ b := by
  rw [← List.count_pos_iff, setUnion_count k ha hb, ← List.count_pos_iff, ← List.count_pos_iff]
  omega

theorem mem_setIntersection {a b : List K} (ha : Sorted a) (hb : Sorted b) (k : K) : k ∈ setIntersection a b ↔ k ∈ a ∧ k ∈ b := by
  rw [← List.count_pos_iff, setIntersection_count k ha hb, ← List.count_pos_iff, ← List.count_pos_iff]
  omega

theorem mem_setDifference {a b : List K} (ha : Sorted a) (hb : Sorted b) (hn : a.Nodup) (k : K) : k ∈ setDifference a b ↔ k ∈ a ∧ k ∉ b := by
  have h1 := List.nodup_iff_count.mp hn k
  rw [← List.count_pos_iff, setDifference_count k ha hb, ← List.count_pos_iff, ← List.count_eq_zero]
  omega

theorem setUnion_nodup {a b : List K} (ha : Sorted a) (hb : Sorted b) (hna : a.Nodup) (hnb : b.Nodup) : (setUnion a b).Nodup := by
  rw [List.nodup_iff_count]
  intro k
  rw [setUnion_count k ha hb]
  have := List.nodup_iff_count.mp hna k
  have := List.nodup_iff_count.mp hnb k
  omega

theorem setDifference_nodup {a b : List K} (hna : a.Nodup) : (setDifference a b).Nodup := hna.sublist (setDifferenceAux_sub _ a b)

theorem setIntersection_nodup {a b : List K} (hna : a.Nodup) : (setIntersection a b).Nodup := hna.sublist (setIntersectionAux_sub _ a b)

theorem unique_spec : ∀ {l : List K}, Sorted l → (unique l).Pairwise (· < ·) ∧ ∀ k, k ∈ unique l ↔ k ∈ l
  | [], _ => by simp [unique]
  | [x], _ => by simp [unique]
  | x :: y :: l, h => by
    have h' := List.pairwise_cons.mp h
    obtain ⟨h1, h2⟩ := unique_spec h'.2
    rw [unique]
    by_cases hxy : x = y
    · subst hxy
      simp only [if_true]
      exact ⟨h1, fun k => by rw [h2]; simp⟩
    · rw [if_neg hxy]
      refine ⟨List.pairwise_cons.mpr ⟨?_, h1⟩, fun k => by simp only [List.mem_cons, h2]⟩
      intro k hk
      rw [h2] at hk
      have hlt : x < y := lt_of_le_of_ne (h'.1 y (by simp)) hxy
      rcases List.mem_cons.mp hk with rfl | hk
      · exact hlt
      · exact lt_of_lt_of_le hlt ((List.pairwise_cons.mp h'.2).1 k hk)

end

/-! ### Text -/

section
variable {K : Type} (form : Form K)

theorem wordsFrom_word (l : List Char) : ∀ (w cur : List Char), (∀ c ∈ w, isSpace c = false) → cur ++ w ≠ [] →
    wordsFrom cur (w ++ '\n' :: l) = (cur ++ w) :: wordsFrom [] l
  | [], cur, _, h => by
    have hc : cur ≠ [] := by simpa using h
    have : isSpace '\n' = true := by decide
    simp [wordsFrom, this, hc]
  | c :: w, cur, h, _ => by
    rw [List.cons_append, wordsFrom, if_neg (by simp [h c (by simp)])]
    rw [wordsFrom_word l w (cur ++ [c]) (fun c hc => h c (by simp [hc])) (by simp)]
    simp

theorem read_written : ∀ {tests : List K}, (∀ t ∈ tests, Legible form t) → readTests form (some (written form tests)) = tests
  | [], _ => by simp [readTests, written, wordsFrom]
  | t :: tests, h => by
    obtain ⟨h1, h2, h3⟩ := h t (by simp)
    have ih := read_written (tests := tests) fun t ht => h t (by simp [ht])
    simp only [readTests] at ih ⊢
    rw [written, List.flatMap_cons, List.append_assoc, List.singleton_append, wordsFrom_word _ _ _ h3 (by simpa using h2), List.map_cons, List.nil_append, h1]
    exact congrArg _ ih

theorem apply_putFailures (l : List Char) : ∀ (d : Disk), applyAll d (l.map .putFailures) = { d with failures := d.failures.map (· ++ l) } := by
  induction l with
  | nil => rintro ⟨_ | f, p, s⟩ <;> simp [applyAll]
  | cons c l ih =>
    intro d
    rw [List.map_cons, applyAll, List.foldl_cons]
    show applyAll _ _ = _
    rw [ih]
    obtain ⟨_ | f, p, s⟩ := d <;> simp [DiskOp.apply]

theorem apply_putPasses (l : List Char) : ∀ (d : Disk), applyAll d (l.map .putPasses) = { d with passes := d.passes.map (· ++ l) } := by
  induction l with
  | nil => rintro ⟨f, _ | p, s⟩ <;> simp [applyAll]
  | cons c l ih =>
    intro d
    rw [List.map_cons, applyAll, List.foldl_cons]
    show applyAll _ _ = _
    rw [ih]
    obtain ⟨f, _ | p, s⟩ := d <;> simp [DiskOp.apply]

theorem applyAll_append (d : Disk) (a b : List DiskOp) : applyAll d (a ++ b) = applyAll (applyAll d a) b := by
  simp [applyAll]

theorem updateAll_disk (sort : List K → List K) (failed : List K) (time : Nat) (d : Disk) :
    applyAll d (updateAll form sort failed time) = ⟨some (written form (sort failed)), none, some time⟩ := by
  rw [updateAll, applyAll_append]
  show applyAll (applyAll (DiskOp.apply d .openFailures) _) _ = _
  rw [apply_putFailures]
  simp [applyAll, DiskOp.apply]

variable [LinearOrder K]

theorem updateSelected_disk (sort : List K → List K) (executed failed : List K) (d : Disk) :
    applyAll d (updateSelected form sort executed failed d) =
      ⟨some (written form (newFailures (sort executed) (sort failed) (readTests form d.passes) (readTests form d.failures))),
       some (written form (newPasses (sort executed) (sort failed) (readTests form d.passes))), d.stamp⟩ := by
  simp only [updateSelected, applyAll_append]
  show applyAll (DiskOp.apply (applyAll (DiskOp.apply d .openFailures) _) .openPasses) _ = _
  rw [apply_putFailures, apply_putPasses]
  simp [DiskOp.apply]

/-! ### Histories -/

/-- The tests recorded as failing and as passing. -/
def fails (d : Disk) : List K := readTests form d.failures
def passes (d : Disk) : List K := readTests form d.passes

/-- Invariant of the files. -/
structure Good (d : Disk) : Prop where
  fs : Sorted (fails form d)
  fn : (fails form d).Nodup
  fl : ∀ k ∈ fails form d, Legible form k
  ps : Sorted (passes form d)
  pn : (passes form d).Nodup
  pl : ∀ k ∈ passes form d, Legible form k
  disjoint : ∀ k ∈ fails form d, k ∉ passes form d

variable {form}

theorem good_empty (t : Option Nat) : Good form ⟨none, none, t⟩ := by
  constructor <;> simp [fails, passes, readTests]

theorem step_all {sort : List K → List K} (hsort : Sorts sort) {failed : List K} {time : Nat} (hp : Proper form (.all failed time)) (d : Disk) :
    Good form (applyAll d ((Run.all failed time).ops form sort d)) ∧
      (∀ k, k ∈ fails form (applyAll d ((Run.all failed time).ops form sort d)) ↔ k ∈ failed) ∧
      passes form (applyAll d ((Run.all failed time).ops form sort d)) = [] := by
  obtain ⟨hn, hl⟩ := hp
  obtain ⟨h1, h2⟩ := hsort failed
  rw [Run.ops, updateAll_disk]
  have hr : fails form ⟨some (written form (sort failed)), none, some time⟩ = sort failed :=
    read_written form fun t ht => hl t (h1.mem_iff.mp ht)
  have hpz : passes form ⟨some (written form (sort failed)), none, some time⟩ = [] := rfl
  refine ⟨⟨?_, ?_, ?_, ?_, ?_, ?_, ?_⟩, ?_, hpz⟩
  · rw [hr]; exact h2
  · rw [hr]; exact h1.nodup_iff.mpr hn
  · rw [hr]; exact fun k hk => hl k (h1.mem_iff.mp hk)
  · rw [hpz]; exact List.Pairwise.nil
  · rw [hpz]; exact List.nodup_nil
  · rw [hpz]; simp
  · rw [hpz]; simp
  · rw [hr]; exact fun k => h1.mem_iff

theorem step_selected {sort : List K → List K} (hsort : Sorts sort) {executed failed : List K} (hp : Proper form (.selected executed failed)) {d : Disk}
    (hd : Good form d) :
    Good form (applyAll d ((Run.selected executed failed).ops form sort d)) ∧
      (∀ k, k ∈ fails form (applyAll d ((Run.selected executed failed).ops form sort d)) ↔ k ∈ failed ∨ k ∈ fails form d ∧ k ∉ executed) ∧
      (∀ k, k ∈ passes form (applyAll d ((Run.selected executed failed).ops form sort d)) ↔ (k ∈ executed ∨ k ∈ passes form d) ∧ k ∉ failed) := by
  obtain ⟨hnf, hne, hsub, hl⟩ := hp
  obtain ⟨f1, f2⟩ := hsort failed
  obtain ⟨e1, e2⟩ := hsort executed
  have hnf' := f1.nodup_iff.mpr hnf
  have hne' := e1.nodup_iff.mpr hne
  rw [Run.ops, updateSelected_disk]
  change Good form ⟨some (written form (newFailures (sort executed) (sort failed) (passes form d) (fails form d))),
       some (written form (newPasses (sort executed) (sort failed) (passes form d))), d.stamp⟩ ∧ _
  have us := setUnion_sorted e2 hd.ps
  have un := setUnion_nodup e2 hd.ps hne' hd.pn
  have dp : Sorted (newPasses (sort executed) (sort failed) (passes form d)) := setDifference_sorted us
  have dn : (newPasses (sort executed) (sort failed) (passes form d)).Nodup := setDifference_nodup un
  have dm : ∀ k, k ∈ newPasses (sort executed) (sort failed) (passes form d) ↔ (k ∈ executed ∨ k ∈ passes form d) ∧ k ∉ failed := by
    intro k
    rw [newPasses, mem_setDifference us f2 un, mem_setUnion e2 hd.ps, e1.mem_iff, f1.mem_iff]
  have rs : Sorted (setDifference (fails form d) (newPasses (sort executed) (sort failed) (passes form d))) := setDifference_sorted hd.fs
  have rn : (setDifference (fails form d) (newPasses (sort executed) (sort failed) (passes form d))).Nodup := setDifference_nodup hd.fn
  have fs' : Sorted (newFailures (sort executed) (sort failed) (passes form d) (fails form d)) := setUnion_sorted rs f2
  have fn' : (newFailures (sort executed) (sort failed) (passes form d) (fails form d)).Nodup := setUnion_nodup rs f2 rn hnf'
  have fm : ∀ k, k ∈ newFailures (sort executed) (sort failed) (passes form d) (fails form d) ↔ k ∈ failed ∨ k ∈ fails form d ∧ k ∉ executed := by
    intro k
    have hdis := hd.disjoint k
    have hs := hsub k
    have hm := dm k
    show k ∈ setUnion (setDifference (fails form d) (newPasses (sort executed) (sort failed) (passes form d))) (sort failed) ↔ _
    rw [mem_setUnion rs f2, mem_setDifference hd.fs dp hd.fn, hm, f1.mem_iff]
    constructor
    · rintro (⟨h1, h2⟩ | h)
      · by_cases hk : k ∈ failed
        · exact .inl hk
        · exact .inr ⟨h1, fun he => h2 ⟨.inl he, hk⟩⟩
      · exact .inl h
    · rintro (h | ⟨h1, h2⟩)
      · exact .inr h
      · exact .inl ⟨h1, fun h => h.1.elim h2 (hdis h1)⟩
  have hr1 : fails form ⟨some (written form (newFailures (sort executed) (sort failed) (passes form d) (fails form d))),
       some (written form (newPasses (sort executed) (sort failed) (passes form d))), d.stamp⟩ = newFailures (sort executed) (sort failed) (passes form d) (fails form d) := by
    refine read_written form fun t ht => ?_
    rcases (fm t).mp ht with h | h
    · exact hl t (hsub t h)
    · exact hd.fl t h.1
  have hr2 : passes form ⟨some (written form (newFailures (sort executed) (sort failed) (passes form d) (fails form d))),
       some (written form (newPasses (sort executed) (sort failed) (passes form d))), d.stamp⟩ = newPasses (sort executed) (sort failed) (passes form d) := by
    refine read_written form fun t ht => ?_
    rcases ((dm t).mp ht).1 with h | h
    · exact hl t h
    · exact hd.pl t h
  refine ⟨⟨?_, ?_, ?_, ?_, ?_, ?_, ?_⟩, ?_, ?_⟩
  · rw [hr1]; exact fs'
  · rw [hr1]; exact fn'
  · rw [hr1]
    intro k hk
    rcases (fm k).mp hk with h | h
    · exact hl k (hsub k h)
    · exact hd.fl k h.1
  · rw [hr2]; exact dp
  · rw [hr2]; exact dn
  · rw [hr2]
    intro k hk
    rcases ((dm k).mp hk).1 with h | h
    · exact hl k h
    · exact hd.pl k h
  · rw [hr1, hr2]
    intro k hk hk'
    rw [fm] at hk
    rw [dm] at hk'
    rcases hk with h | ⟨h1, h2⟩
    · exact hk'.2 h
    · exact hk'.1.elim h2 (hd.disjoint k h1)
  · rw [show readTests form d.passes = passes form d from rfl, show readTests form d.failures = fails form d from rfl, hr1]; exact fm
  · rw [show readTests form d.passes = passes form d from rfl, show readTests form d.failures = fails form d from rfl, hr2]; exact dm

theorem step_fails {sort : List K → List K} (hsort : Sorts sort) {r : Run K} (hp : Proper form r) {d : Disk} (hd : Good form d) :
    Good form (applyAll d (r.ops form sort d)) ∧ (∀ k, k ∈ fails form (applyAll d (r.ops form sort d)) ↔ Fails r k ∨ k ∈ fails form d ∧ ¬ Executes r k) ∧
      (∀ k, k ∈ passes form (applyAll d (r.ops form sort d)) ↔
        (∃ executed failed, r = .selected executed failed ∧ k ∈ executed ∧ k ∉ failed) ∨ k ∈ passes form d ∧ ¬ Executes r k) := by
  cases r with
  | all failed time =>
    obtain ⟨h1, h2, h3⟩ := step_all hsort hp d
    refine ⟨h1, fun k => by rw [h2]; simp [Fails, Executes], fun k => by rw [h3]; simp [Executes]⟩
  | selected executed failed =>
    obtain ⟨h1, h2, h3⟩ := step_selected hsort hp hd
    refine ⟨h1, fun k => by rw [h2]; simp [Fails, Executes], fun k => ?_⟩
    rw [h3]
    have := hp.2.2.1 k
    simp only [Executes]
    constructor
    · rintro ⟨h | h, hf⟩
      · exact .inl ⟨_, _, rfl, h, hf⟩
      · by_cases he : k ∈ executed
        · exact .inl ⟨_, _, rfl, he, hf⟩
        · exact .inr ⟨h, he⟩
    · rintro (⟨_, _, he, h1, h2⟩ | ⟨h, he⟩)
      · cases he
        exact ⟨.inl h1, h2⟩
      · exact ⟨.inr h, fun hf => he (this hf)⟩

omit [LinearOrder K] in
theorem latestFailed_cons {r : Run K} {rs : List (Run K)} {k : K} :
    LatestFailed (r :: rs) k ↔ LatestFailed rs k ∨ Fails r k ∧ ∀ r' ∈ rs, ¬ Executes r' k := by
  constructor
  · rintro ⟨b, r', a, he, hf, hn⟩
    cases b with
    | nil => cases he; exact .inr ⟨hf, hn⟩
    | cons x b => cases he; exact .inl ⟨b, r', a, rfl, hf, hn⟩
  · rintro (⟨b, r', a, rfl, hf, hn⟩ | ⟨hf, hn⟩)
    · exact ⟨r :: b, r', a, rfl, hf, hn⟩
    · exact ⟨[], r, rs, rfl, hf, hn⟩

omit [LinearOrder K] in
theorem latestPassed_cons {r : Run K} {rs : List (Run K)} {k : K} :
    LatestPassedSelected (r :: rs) k ↔ LatestPassedSelected rs k ∨
      (∃ executed failed, r = .selected executed failed ∧ k ∈ executed ∧ k ∉ failed) ∧ ∀ r' ∈ rs, ¬ Executes r' k := by
  constructor
  · rintro ⟨b, e, f, a, he, h1, h2, hn⟩
    cases b with
    | nil => cases he; exact .inr ⟨⟨e, f, rfl, h1, h2⟩, hn⟩
    | cons x b => cases he; exact .inl ⟨b, e, f, a, rfl, h1, h2, hn⟩
  · rintro (⟨b, e, f, a, rfl, h1, h2, hn⟩ | ⟨⟨e, f, rfl, h1, h2⟩, hn⟩)
    · exact ⟨r :: b, e, f, a, rfl, h1, h2, hn⟩
    · exact ⟨[], e, f, rs, rfl, h1, h2, hn⟩

theorem history_spec {sort : List K → List K} (hsort : Sorts sort) : ∀ {rs : List (Run K)} {d : Disk}, (∀ r ∈ rs, Proper form r) → Good form d →
    Good form (history form sort rs d) ∧
      (∀ k, k ∈ fails form (history form sort rs d) ↔ LatestFailed rs k ∨ k ∈ fails form d ∧ ∀ r ∈ rs, ¬ Executes r k) ∧
      (∀ k, k ∈ passes form (history form sort rs d) ↔ LatestPassedSelected rs k ∨ k ∈ passes form d ∧ ∀ r ∈ rs, ¬ Executes r k)
  | [], d, _, hd => ⟨hd, fun k => by simp [history, LatestFailed], fun k => by simp [history, LatestPassedSelected]⟩
  | r :: rs, d, hp, hd => by
    obtain ⟨s1, s2, s3⟩ := step_fails hsort (hp r (by simp)) hd
    obtain ⟨h1, h2, h3⟩ := history_spec hsort (rs := rs) (fun r hr => hp r (by simp [hr])) s1
    refine ⟨h1, fun k => ?_, fun k => ?_⟩
    · rw [history, h2, s2, latestFailed_cons]
      simp only [List.forall_mem_cons]
      constructor
      · rintro (h | ⟨h | h, hn⟩)
        · exact .inl (.inl h)
        · exact .inl (.inr ⟨h, hn⟩)
        · exact .inr ⟨h.1, h.2, hn⟩
      · rintro ((h | h) | ⟨h, he, hn⟩)
        · exact .inl h
        · exact .inr ⟨.inl h.1, h.2⟩
        · exact .inr ⟨.inr ⟨h, he⟩, hn⟩
    · rw [history, h3, s3, latestPassed_cons]
      simp only [List.forall_mem_cons]
      constructor
      · rintro (h | ⟨h | h, hn⟩)
        · exact .inl (.inl h)
        · exact .inl (.inr ⟨h, hn⟩)
        · exact .inr ⟨h.1, h.2, hn⟩
      · rintro ((h | h) | ⟨h, he, hn⟩)
        · exact .inl h
        · exact .inr ⟨.inl h.1, h.2⟩
        · exact .inr ⟨.inr ⟨h, he⟩, hn⟩

/-! ### Repetitions -/

theorem mem_aggregateFailures {sort : List K → List K} (hsort : Sorts sort) (files : List (Option (List Char))) :
    (aggregateFailures form sort files).Nodup ∧ ∀ k, k ∈ aggregateFailures form sort files ↔ ∃ f ∈ files, k ∈ readTests form f := by
  obtain ⟨h1, h2⟩ := hsort (files.flatMap (readTests form))
  obtain ⟨h3, h4⟩ := unique_spec h2
  refine ⟨h3.imp fun h => ne_of_lt h, fun k => ?_⟩
  rw [aggregateFailures, h4, h1.mem_iff, List.mem_flatMap]

theorem intersectPasses_spec : ∀ {ps : List (List K)} {inter : List K}, (∀ p ∈ ps, Sorted p ∧ p.Nodup ∧ ∀ k ∈ p, Legible form k) → Sorted inter → inter.Nodup →
    ∃ out, intersectPasses form inter (ps.map fun p => some (written form p)) = some out ∧ Sorted out ∧ out.Nodup ∧ ∀ k, k ∈ out ↔ k ∈ inter ∧ ∀ p ∈ ps, k ∈ p
  | [], inter, _, h1, h2 => ⟨inter, rfl, h1, h2, by simp⟩
  | p :: ps, inter, hp, h1, h2 => by
    obtain ⟨a, b, c⟩ := hp p (by simp)
    have hr : readTests form (some (written form p)) = p := read_written form c
    obtain ⟨out, o1, o2, o3, o4⟩ := intersectPasses_spec (ps := ps) (inter := setIntersection p inter) (fun p hp' => hp p (by simp [hp']))
      (setIntersection_sorted a) (setIntersection_nodup b)
    refine ⟨out, ?_, o2, o3, fun k => ?_⟩
    · rw [List.map_cons, intersectPasses, hr]
      exact o1
    · rw [o4, mem_setIntersection a h1]
      simp only [List.forall_mem_cons]
      exact ⟨fun h => ⟨h.1.2, h.1.1, h.2⟩, fun h => ⟨⟨h.2.1, h.1⟩, h.2.2⟩⟩

theorem aggregatePasses_spec {ps : List (List K)} (hne : ps ≠ []) (hp : ∀ p ∈ ps, Sorted p ∧ p.Nodup ∧ ∀ k ∈ p, Legible form k) :
    ∃ out, aggregatePasses form (ps.map fun p => some (written form p)) = some out ∧ out.Nodup ∧ ∀ k, k ∈ out ↔ ∀ p ∈ ps, k ∈ p := by
  cases ps with
  | nil => exact absurd rfl hne
  | cons p ps =>
    obtain ⟨a, b, c⟩ := hp p (by simp)
    have hr : readTests form (some (written form p)) = p := read_written form c
    obtain ⟨out, o1, _, o3, o4⟩ := intersectPasses_spec (ps := ps) (inter := p) (fun p hp' => hp p (by simp [hp'])) a b
    refine ⟨out, ?_, o3, fun k => by rw [o4]; simp⟩
    rw [List.map_cons, aggregatePasses, hr]
    exact o1

/-- The files of a repetition with selected tests. -/
theorem repetition_disk {sort : List K → List K} (hsort : Sorts sort) {executed failed : List K} (hp : Proper form (.selected executed failed)) :
    let p := newPasses (sort executed) (sort failed) []
    (history form sort [.selected executed failed] ⟨none, none, none⟩).passes = some (written form p) ∧ Sorted p ∧ p.Nodup ∧
      (∀ k ∈ p, Legible form k) ∧ (∀ k, k ∈ p ↔ k ∈ executed ∧ k ∉ failed) ∧
      ∀ k, k ∈ readTests form (history form sort [.selected executed failed] ⟨none, none, none⟩).failures ↔ k ∈ failed := by
  intro p
  obtain ⟨h1, h2, h3⟩ := step_selected hsort hp (good_empty (form := form) none)
  have hd : history form sort [.selected executed failed] ⟨none, none, none⟩ = applyAll ⟨none, none, none⟩ ((Run.selected executed failed).ops form sort ⟨none, none, none⟩) := rfl
  have hdisk := updateSelected_disk form sort executed failed ⟨none, none, none⟩
  have hpass : (history form sort [.selected executed failed] ⟨none, none, none⟩).passes = some (written form (newPasses (sort executed) (sort failed) [])) := by
    rw [hd, Run.ops, hdisk]
    rfl
  obtain ⟨f1, f2⟩ := hsort failed
  obtain ⟨e1, e2⟩ := hsort executed
  have hu : setUnion (sort executed) [] = sort executed := by
    rw [setUnion]
    cases sort executed <;> simp [setUnionAux]
  have hm : ∀ k, k ∈ newPasses (sort executed) (sort failed) [] ↔ k ∈ executed ∧ k ∉ failed := by
    intro k
    rw [newPasses, hu, mem_setDifference e2 f2 (e1.nodup_iff.mpr hp.2.1), e1.mem_iff, f1.mem_iff]
  refine ⟨hpass, ?_, ?_, fun k hk => hp.2.2.2 k ((hm k).mp hk).1, hm, fun k => ?_⟩
  · simp only [p, newPasses, hu]; exact setDifference_sorted e2
  · simp only [p, newPasses, hu]; exact setDifference_nodup (e1.nodup_iff.mpr hp.2.1)
  · rw [hd]
    have := h2 k
    simpa [fails, readTests] using this

end

end Verif.PruneFiles
