import Verif.Lemmas.PruneFiles
import Mathlib.Data.String.Basic
/-
C44 and C45: the files in which the outcomes of tests are recorded.
-/
namespace Verif.Props
open Verif.PruneFiles Verif.Spec.Prune

section
variable {K : Type} [LinearOrder K] {form : Form K} {sort : List K → List K}

/-- C44: after any sequence of runs, of all tests or of selected ones, which starts without records, a test is recorded as failing if and only if it failed
in the latest run which executed it, and as passing if and only if that was a run of selected tests in which it passed.  Never is it recorded as both, and
each is recorded once.

Partial: no two tests of a run may share a source file, and there may be no white space in paths; see the violations below. -/
theorem C44_latest_outcome_partial (hsort : Sorts sort) (runs : List (Run K)) (hp : ∀ r ∈ runs, Proper form r) (stamp : Option Nat) :
    let d := history form sort runs ⟨none, none, stamp⟩
    (∀ k, k ∈ readTests form d.failures ↔ LatestFailed runs k) ∧ (∀ k, k ∈ readTests form d.passes ↔ LatestPassedSelected runs k) ∧
      (∀ k ∈ readTests form d.failures, k ∉ readTests form d.passes) ∧ (readTests form d.failures).Nodup ∧ (readTests form d.passes).Nodup := by
  obtain ⟨h1, h2, h3⟩ := history_spec hsort hp (good_empty (form := form) stamp)
  refine ⟨fun k => (h2 k).trans ?_, fun k => (h3 k).trans ?_, h1.disjoint, h1.fn, h1.pn⟩ <;> simp [fails, passes, readTests]

/-- C44: several repetitions of selected tests are recorded as one run of these tests, in which a test fails if and only if it failed in some repetition. -/
theorem C44_repetitions_selected (hsort : Sorts sort) (executed : List K) (reps : List (List K)) (hne : reps ≠ [])
    (hp : ∀ failed ∈ reps, Proper form (.selected executed failed)) (time : Nat) :
    let disks := reps.map fun failed => history form sort [.selected executed failed] ⟨none, none, none⟩
    ∃ executed' failed', aggregate form sort true time (disks.map (·.failures)) (disks.map (·.passes)) = .selected executed' failed' ∧
      Proper form (.selected executed' failed') ∧ (∀ k, k ∈ failed' ↔ ∃ failed ∈ reps, k ∈ failed) ∧ ∀ k, k ∈ executed' ↔ k ∈ executed := by
  intro disks
  have hpass := fun failed h => repetition_disk hsort (hp failed h)
  let pass : List K → List K := fun failed => newPasses (sort executed) (sort failed) []
  have hmap : disks.map (·.passes) = (reps.map pass).map fun p => some (written form p) := by
    simp only [disks, List.map_map]
    refine List.map_congr_left fun failed h => ?_
    simp only [Function.comp]
    exact (hpass failed h).1
  obtain ⟨ps, q1, q2, q3⟩ := aggregatePasses_spec (form := form) (ps := reps.map pass) (by simpa using hne) (by
    intro p hp'
    obtain ⟨failed, h, rfl⟩ := List.mem_map.mp hp'
    exact ⟨(hpass failed h).2.1, (hpass failed h).2.2.1, (hpass failed h).2.2.2.1⟩)
  obtain ⟨f1, f2⟩ := mem_aggregateFailures (form := form) hsort (disks.map (·.failures))
  have hf : ∀ k, k ∈ aggregateFailures form sort (disks.map (·.failures)) ↔ ∃ failed ∈ reps, k ∈ failed := by
    intro k
    rw [f2]
    constructor
    · rintro ⟨f, hf, hk⟩
      simp only [disks, List.mem_map, exists_exists_and_eq_and] at hf
      obtain ⟨failed, h, rfl⟩ := hf
      exact ⟨failed, h, ((hpass failed h).2.2.2.2.2 k).mp hk⟩
    · rintro ⟨failed, h, hk⟩
      exact ⟨_, List.mem_map.mpr ⟨_, List.mem_map.mpr ⟨failed, h, rfl⟩, rfl⟩, ((hpass failed h).2.2.2.2.2 k).mpr hk⟩
  have hq : ∀ k, k ∈ ps ↔ k ∈ executed ∧ ∀ failed ∈ reps, k ∉ failed := by
    intro k
    rw [q3]
    constructor
    · intro h
      have h' : ∀ failed ∈ reps, k ∈ executed ∧ k ∉ failed := by
        intro failed hm
        have := h _ (List.mem_map.mpr ⟨failed, hm, rfl⟩)
        exact ((hpass failed hm).2.2.2.2.1 k).mp this
      obtain ⟨f0, hf0⟩ := List.exists_mem_of_ne_nil _ hne
      exact ⟨(h' f0 hf0).1, fun failed hm => (h' failed hm).2⟩
    · rintro ⟨h1, h2⟩ p hp'
      obtain ⟨failed, hm, rfl⟩ := List.mem_map.mp hp'
      exact ((hpass failed hm).2.2.2.2.1 k).mpr ⟨h1, h2 failed hm⟩
  have hE : ∀ k, k ∈ ps ++ aggregateFailures form sort (disks.map (·.failures)) ↔ k ∈ executed := by
    intro k
    rw [List.mem_append, hq, hf]
    constructor
    · rintro (h | ⟨failed, hm, hk⟩)
      · exact h.1
      · exact (hp failed hm).2.2.1 k hk
    · intro h
      by_cases hx : ∃ failed ∈ reps, k ∈ failed
      · exact .inr hx
      · exact .inl ⟨h, fun failed hm hk => hx ⟨failed, hm, hk⟩⟩
  refine ⟨ps ++ aggregateFailures form sort (disks.map (·.failures)), aggregateFailures form sort (disks.map (·.failures)), ?_, ⟨f1, ?_, ?_, ?_⟩, hf, hE⟩
  · simp only [aggregate, if_true]
    rw [hmap, q1]
  · refine List.nodup_append.mpr ⟨q2, f1, ?_⟩
    rintro a ha b hb rfl
    obtain ⟨failed, hm, hk⟩ := (hf a).mp hb
    exact ((hq a).mp ha).2 failed hm hk
  · exact fun k hk => List.mem_append_right _ hk
  · intro k hk
    obtain ⟨f0, hf0⟩ := List.exists_mem_of_ne_nil _ hne
    exact (hp f0 hf0).2.2.2 k ((hE k).mp hk)

/-- C44: several repetitions of all tests are recorded as one run of all tests, in which a test fails if and only if it failed in some repetition. -/
theorem C44_repetitions_all (hsort : Sorts sort) (reps : List (List K)) (hne : reps ≠ [])
    (hp : ∀ failed ∈ reps, Proper form (.all failed 0)) (passive : Bool) (time : Nat) :
    let disks := reps.map fun failed => history form sort [.all failed 0] ⟨none, none, none⟩
    ∃ failed', aggregate form sort passive time (disks.map (·.failures)) (disks.map (·.passes)) = .all failed' time ∧
      Proper form (.all failed' time) ∧ ∀ k, k ∈ failed' ↔ ∃ failed ∈ reps, k ∈ failed := by
  intro disks
  obtain ⟨f1, f2⟩ := mem_aggregateFailures (form := form) hsort (disks.map (·.failures))
  have hr : ∀ failed ∈ reps, ∀ k, k ∈ readTests form (history form sort [.all failed 0] ⟨none, none, none⟩).failures ↔ k ∈ failed :=
    fun failed hm => (step_all hsort (hp failed hm) ⟨none, none, none⟩).2.1
  have hf : ∀ k, k ∈ aggregateFailures form sort (disks.map (·.failures)) ↔ ∃ failed ∈ reps, k ∈ failed := by
    intro k
    rw [f2]
    constructor
    · rintro ⟨f, hf, hk⟩
      simp only [disks, List.mem_map, exists_exists_and_eq_and] at hf
      obtain ⟨failed, h, rfl⟩ := hf
      exact ⟨failed, h, (hr failed h k).mp hk⟩
    · rintro ⟨failed, h, hk⟩
      exact ⟨_, List.mem_map.mpr ⟨_, List.mem_map.mpr ⟨failed, h, rfl⟩, rfl⟩, (hr failed h k).mpr hk⟩
  refine ⟨aggregateFailures form sort (disks.map (·.failures)), ?_, ⟨f1, ?_⟩, hf⟩
  · cases passive with
    | false => rfl
    | true =>
      simp only [aggregate, if_true]
      have : aggregatePasses form (disks.map (·.passes)) = none := by
        cases reps with
        | nil => exact absurd rfl hne
        | cons r rs =>
          have hz : (history form sort [.all r 0] ⟨none, none, none⟩).passes = none := by
            show (applyAll ⟨none, none, none⟩ (updateAll form sort r 0)).passes = none
            rw [updateAll_disk]
          simp only [disks, List.map_cons, hz]
          rfl
      rw [this]
  · intro k hk
    obtain ⟨failed, hm, h⟩ := (hf k).mp hk
    exact (hp failed hm).2 k h

/-- C45: if the program is stopped while it records a run, either before it has started to write or once the file with failures is complete, then all tests
which failed last are still among those which the next pruned run selects, or no selection is made and all tests are run.

Partial: what is missing is the time between opening the file with failures and writing the last of them; see the violation below. -/
theorem C45_crash_partial (hsort : Sorts sort) (runs : List (Run K)) (hp : ∀ r ∈ runs, Proper form r) (stamp : Option Nat) (r : Run K) (hr : Proper form r)
    (n : Nat) (stale : List K) (hstale : stale.Pairwise (· ≤ ·)) :
    let d := history form sort runs ⟨none, none, stamp⟩
    let ops := r.ops form sort d
    let crashed := applyAll d (ops.take n)
    (n = 0 → ∀ k, LatestFailed runs k → ∀ toRun, testsToRun form stale crashed = some toRun → k ∈ toRun) ∧
    ((∀ op ∈ ops.drop n, op ≠ .openFailures ∧ ∀ c, op ≠ .putFailures c) →
      ∀ k, LatestFailed (runs ++ [r]) k → ∀ toRun, testsToRun form stale crashed = some toRun → k ∈ toRun) := by
  intro d ops crashed
  obtain ⟨h1, h2, h3⟩ := history_spec hsort hp (good_empty (form := form) stamp)
  obtain ⟨s1, s2, s3⟩ := step_fails hsort hr h1
  have key : ∀ (d' : Disk), Sorted (readTests form d'.failures) → ∀ k, k ∈ readTests form d'.failures → ∀ toRun, testsToRun form stale d' = some toRun → k ∈ toRun := by
    intro d' hs k hk toRun ht
    rw [testsToRun] at ht
    split at ht
    · simp at ht
    · cases ht
      exact (mem_setUnion hstale hs k).mpr (.inr hk)
  constructor
  · rintro rfl k hk
    exact key d h1.fs k ((h2 k).mpr (.inl hk))
  · intro hn k hk
    have hkeep : ∀ (rest : List DiskOp) (e : Disk), (∀ op ∈ rest, op ≠ .openFailures ∧ ∀ c, op ≠ .putFailures c) → (applyAll e rest).failures = e.failures := by
      intro rest
      induction rest with
      | nil => intro e _; rfl
      | cons op rest ih =>
        intro e h
        rw [show applyAll e (op :: rest) = applyAll (op.apply e) rest from rfl, ih _ fun op hop => h op (by simp [hop])]
        have := h op (by simp)
        cases op <;> simp_all [DiskOp.apply]
    have he : crashed.failures = (applyAll d ops).failures := by
      conv => rhs; rw [← List.take_append_drop n ops, applyAll_append]
      exact (hkeep _ _ hn).symm
    refine key crashed ?_ k ?_
    · rw [he]; exact s1.fs
    · rw [he]
      refine (s2 k).mpr ?_
      obtain ⟨b, r', a, heq, hf, hna⟩ := hk
      rcases List.eq_nil_or_concat a with rfl | ⟨a', x, rfl⟩
      · obtain ⟨rfl, he'⟩ := List.append_inj' heq rfl
        cases he'
        exact .inl hf
      · rw [show b ++ r' :: (a'.concat x) = (b ++ r' :: a') ++ [x] by simp] at heq
        obtain ⟨rfl, he'⟩ := List.append_inj' heq rfl
        cases he'
        exact .inr ⟨(h2 k).mpr (.inl ⟨b, r', a', rfl, hf, fun r'' h'' => hna r'' (by simp [h''])⟩), hna r (by simp)⟩

end

/-- The characters which separate words in the locale "C", by their numbers. -/
def separators : List Nat := [9, 10, 11, 12, 13, 32]

theorem isSpace_iff (c : Char) : isSpace c = true ↔ c.toNat ∈ separators := by
  have h : ∀ d : Char, c = d ↔ c.toNat = d.toNat := fun d => ⟨fun h => h ▸ rfl, fun h => Char.ext (UInt32.toNat_inj.mp h)⟩
  simp only [isSpace, separators, Bool.or_eq_true, decide_eq_true_eq, h, List.mem_cons, List.not_mem_nil, or_false]
  have e : ' '.toNat = 32 ∧ '\n'.toNat = 10 ∧ '\t'.toNat = 9 ∧ '\r'.toNat = 13 ∧ (Char.ofNat 11).toNat = 11 ∧ (Char.ofNat 12).toNat = 12 := by decide
  obtain ⟨e1, e2, e3, e4, e5, e6⟩ := e
  rw [e1, e2, e3, e4, e5, e6]
  omega

theorem wordsFrom_apart {sep : Char} (hs : isSpace sep = true) (l : List Char) : ∀ (w cur : List Char), (∀ c ∈ w, isSpace c = false) → cur ++ w ≠ [] →
    wordsFrom cur (w ++ sep :: l) = (cur ++ w) :: wordsFrom [] l
  | [], cur, _, h => by
    have hc : cur ≠ [] := by simpa using h
    simp [wordsFrom, hs, hc]
  | c :: w, cur, h, _ => by
    rw [List.cons_append, wordsFrom, if_neg (by simp [h c (by simp)])]
    rw [wordsFrom_apart hs l w (cur ++ [c]) (fun c hc => h c (by simp [hc])) (by simp)]
    simp

/-- C44: whatever white space there is between the paths in a file, and before the first of them, the paths are read, in this order. -/
theorem C44_white_space {K : Type} (form : Form K) (sep : Char) (hs : sep.toNat ∈ separators) (w rest : List Char) (hw : w ≠ []) (hc : ∀ c ∈ w, c.toNat ∉ separators) :
    readTests form (some (w ++ sep :: rest)) = form.ofStr w :: readTests form (some rest) ∧ readTests form (some (sep :: rest)) = readTests form (some rest) ∧
      readTests form (some w) = [form.ofStr w] := by
  have hs' := (isSpace_iff sep).mpr hs
  have hc' : ∀ c ∈ w, isSpace c = false := fun c h => by
    rw [← Bool.not_eq_true, isSpace_iff]; exact hc c h
  refine ⟨?_, ?_, ?_⟩
  · simp only [readTests, wordsFrom_apart hs' rest w [] hc' (by simpa using hw), List.nil_append, List.map_cons]
  · simp [readTests, wordsFrom, hs']
  · have h := wordsFrom_apart (show isSpace '\n' = true by decide) [] w [] hc' (by simpa using hw)
    have last : ∀ (w cur : List Char), (∀ c ∈ w, isSpace c = false) → cur ++ w ≠ [] → wordsFrom cur w = [cur ++ w] := by
      intro w
      induction w with
      | nil => intro cur _ h; simp_all [wordsFrom]
      | cons c w ih =>
        intro cur h _
        rw [wordsFrom, if_neg (by simp [h c (by simp)]), ih (cur ++ [c]) (fun c hc => h c (by simp [hc])) (by simp)]
        simp
    simp [readTests, last w [] hc' (by simpa using hw)]

example : '\t'.toNat ∈ separators ∧ "A.cpp".toList ≠ [] ∧ ∀ c ∈ "A.cpp".toList, c.toNat ∉ separators := by decide

/-! ### Examples and violations -/

/-- Numbers as paths: as many letters. -/
def letters : Form Nat := ⟨fun n => List.replicate (n + 1) 'a', fun l => l.length - 1⟩

theorem letters_legible (k : Nat) : Legible letters k := by
  refine ⟨by simp [letters], by simp [letters, List.replicate_succ], fun c hc => ?_⟩
  rw [List.eq_of_mem_replicate hc]
  decide

/-- Sorting by insertion. -/
def insertSorted (x : Nat) : List Nat → List Nat
  | [] => [x]
  | y :: l => if x ≤ y then x :: y :: l else y :: insertSorted x l

def sortNat : List Nat → List Nat
  | [] => []
  | x :: l => insertSorted x (sortNat l)

theorem insertSorted_spec (x : Nat) : ∀ {l : List Nat}, l.Pairwise (· ≤ ·) → (insertSorted x l).Perm (x :: l) ∧ (insertSorted x l).Pairwise (· ≤ ·)
  | [], _ => by simp [insertSorted]
  | y :: l, h => by
    have h' := List.pairwise_cons.mp h
    rw [insertSorted]
    by_cases hxy : x ≤ y
    · rw [if_pos hxy]
      refine ⟨.refl _, List.pairwise_cons.mpr ⟨fun z hz => ?_, h⟩⟩
      rcases List.mem_cons.mp hz with rfl | hz
      · exact hxy
      · exact le_trans hxy (h'.1 z hz)
    · rw [if_neg hxy]
      obtain ⟨p, s⟩ := insertSorted_spec x h'.2
      refine ⟨(List.Perm.cons y p).trans (.swap x y l), List.pairwise_cons.mpr ⟨fun z hz => ?_, s⟩⟩
      rcases List.mem_cons.mp (p.mem_iff.mp hz) with rfl | hz
      · exact le_of_lt (not_le.mp hxy)
      · exact h'.1 z hz

theorem sortNat_sorts : Sorts sortNat := by
  intro l
  induction l with
  | nil => simp [sortNat]
  | cons x l ih =>
    obtain ⟨p, s⟩ := insertSorted_spec x ih.2
    exact ⟨p.trans (ih.1.cons x), s⟩

/-- A history to which C44 and C45 apply: tests 2 and 1 fail in a run of all tests; 1 is run again and passes, 3 is run and fails. -/
example :
    let runs : List (Run Nat) := [.all [2, 1] 5, .selected [3, 1] [3]]
    (∀ r ∈ runs, Proper letters r) ∧ readTests letters (history letters sortNat runs ⟨none, none, none⟩).failures = [2, 3] ∧
      readTests letters (history letters sortNat runs ⟨none, none, none⟩).passes = [1] := by
  refine ⟨?_, by decide +kernel, by decide +kernel⟩
  intro r hr
  simp only [List.mem_cons, List.not_mem_nil, or_false] at hr
  rcases hr with rfl | rfl
  · exact ⟨by decide, fun k _ => letters_legible k⟩
  · exact ⟨by decide, by decide, by decide, fun k _ => letters_legible k⟩

/-- Repetitions to which C44 applies: 1 fails in the second one only. -/
example : (∀ failed ∈ [[], [1]], Proper letters (.selected [2, 1] failed)) ∧
    aggregateFailures letters sortNat ([[], [1]].map fun failed => (history letters sortNat [.selected [2, 1] failed] ⟨none, none, none⟩).failures) = [1] ∧
    aggregatePasses letters ([[], [1]].map fun failed => (history letters sortNat [.selected [2, 1] failed] ⟨none, none, none⟩).passes) = some [2] := by
  refine ⟨?_, by decide +kernel, by decide +kernel⟩
  intro r hr
  simp only [List.mem_cons, List.not_mem_nil, or_false] at hr
  rcases hr with rfl | rfl
  · exact ⟨by decide, by decide, by decide, fun k _ => letters_legible k⟩
  · exact ⟨by decide, by decide, by decide, fun k _ => letters_legible k⟩

/-- C44, violation: two tests in one source file, of which one fails.  The file is recorded as failing and as passing. -/
theorem C44_two_tests_in_a_file_violated : let d := history letters sortNat [.selected [1, 1] [1]] ⟨none, none, some 0⟩
    1 ∈ readTests letters d.failures ∧ 1 ∈ readTests letters d.passes := by decide +kernel

/-- Texts as paths. -/
def plain : Form String := ⟨String.toList, String.ofList⟩

/-- C44, violation: a path which contains a space is read as two paths, neither of which is that of the test. -/
theorem C44_space_violated : readTests plain (history plain id [.all ["a b.cpp"] 5] ⟨none, none, none⟩).failures = ["a", "b.cpp"] := by decide +kernel

/-- C45, violation: test 0 fails.  Later test 1 is selected and passes; the program is stopped when the file with failures has been opened for writing.
Test 0, which has not been run in between, is not selected by the next run. -/
theorem C45_crash_violated :
    let d := history letters sortNat [.all [0] 5] ⟨none, none, none⟩
    let crashed := applyAll d (((Run.selected [1] []).ops letters sortNat d).take 1)
    LatestFailed [.all [0] 5, .selected [1] []] 0 ∧ testsToRun letters [] d = some [0] ∧ testsToRun letters [] crashed = some [] := by
  refine ⟨⟨[], .all [0] 5, [.selected [1] []], rfl, by simp [Fails], by simp [Executes]⟩, by decide +kernel, by decide +kernel⟩

/-- A crash to which C45 applies: after the file with failures is complete, before the passes are. -/
example :
    let d := history letters sortNat [.all [0] 5] ⟨none, none, none⟩
    let ops := (Run.selected [1] []).ops letters sortNat d
    (∀ op ∈ ops.drop 3, op ≠ .openFailures ∧ ∀ c, op ≠ .putFailures c) ∧ testsToRun letters [] (applyAll d (ops.take 3)) = some [0] := by
  refine ⟨?_, by decide +kernel⟩
  intro op hop
  have : op = .openPasses ∨ op = .putPasses 'a' ∨ op = .putPasses '\n' := by
    have h : ((Run.selected [1] []).ops letters sortNat (history letters sortNat [.all [0] 5] ⟨none, none, none⟩)).drop 3 =
      [.openPasses, .putPasses 'a', .putPasses 'a', .putPasses '\n'] := rfl
    simp only [h] at hop
    simpa using hop
  rcases this with rfl | rfl | rfl <;> simp

end Verif.Props
