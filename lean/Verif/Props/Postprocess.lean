import Verif.Lemmas.Postprocess
/-
C85: the output of performance tests.
-/
namespace Verif.Props
open Verif.Postprocess Verif.Spec.Postprocess

/-- **C85** (exactly) The postprocessing of the output always comes to an end, and its result is the reference output if the differences are accepted line by line, and the
output of the test otherwise. -/
theorem C85_exactly (test ref : List Char) :
    (Accepted False (lines test) (lines ref) → postprocess test ref = some ref) ∧
    (¬ Accepted False (lines test) (lines ref) → postprocess test ref = some test) := by
  obtain ⟨v, h1, h2⟩ := acceptableMismatch_spec test ref
  unfold postprocess
  rw [h1]
  constructor
  · intro h
    simp [h2.2 h]
  · intro h
    cases v with
    | true => exact absurd (h2.1 rfl) h
    | false => rfl

/-- **C85 (part)** (other timings) If the output of a test and the reference are the same but for timings then the result is the reference.  What is missing: numbers
with negative exponents, for which this is false. -/
theorem C85_other_timings_partial {test ref : List Char} (hn : test.getLast? = some '\n') (h : List.Forall₂ OtherTimings (lines test) (lines ref)) :
    postprocess test ref = some ref := by
  apply (C85_exactly test ref).1
  refine accepted_of_fine (h.imp fun _ _ => upToTimings_of) (lines_ne_nil _) ?_ _
  have h1 := lines_getLast hn
  rw [h1, forall₂_getLast h (fun b hb => otherTimings_nil hb rfl) h1]

/-- What a test writes, and what is expected. -/
def perfTest : List Char := "Some check\nFast Task duration: 1.5s +- 4 * 0.1s\n\tSlow Task duration: 3s +- 4 * 0.25s [2; (1.8, 2.1)]\n".toList
def perfRef : List Char := "Some check\nFast Task duration: 1.75s +- 4 * 0.1s\n\tSlow Task duration: 3.5s +- 4 * 0.2s [2; (1.8, 2.1)]\n".toList

theorem perf_lines : List.Forall₂ OtherTimings (lines perfTest) (lines perfRef) := by
  have e1 : lines perfTest = ["Some check".toList, [] ++ fastLine "1.5".toList "4".toList "0.1".toList,
    ['\t'] ++ slowLine "3".toList "4".toList "0.25".toList "2".toList "1.8".toList "2.1".toList, []] := by decide +kernel
  have e2 : lines perfRef = ["Some check".toList, [] ++ fastLine "1.75".toList "4".toList "0.1".toList,
    ['\t'] ++ slowLine "3.5".toList "4".toList "0.2".toList "2".toList "1.8".toList "2.1".toList, []] := by decide +kernel
  rw [e1, e2]
  exact .cons (.ordinary _) (.cons (.fast (by unfold Numeral; decide +kernel) (by decide)) (.cons (.slow (by unfold Numeral; decide +kernel) (by decide)) (.cons (.ordinary _) .nil)))

example : perfTest.getLast? = some '\n' ∧ List.Forall₂ OtherTimings (lines perfTest) (lines perfRef) ∧ perfTest ≠ perfRef :=
  ⟨by decide +kernel, perf_lines, by decide +kernel⟩

/-- **C85 (part)** (nothing else) If the result is not the output of the test then the reference is the same up to timings, provided that no line with a timing is the same.
What is missing: other texts, for which this is false. -/
theorem C85_nothing_else_partial {test ref : List Char} (h : postprocess test ref ≠ some test)
    (hd : List.Forall₂ (fun a b => Mentions a → a ≠ b) (lines test) (lines ref)) : SameUpToTimings test ref := by
  apply accepted_strict id hd
  exact Classical.byContradiction fun h' => h ((C85_exactly test ref).2 h')

example : postprocess perfTest perfRef ≠ some perfTest ∧ List.Forall₂ (fun a b => Mentions a → a ≠ b) (lines perfTest) (lines perfRef) := by
  refine ⟨by decide +kernel, ?_⟩
  have e1 : lines perfTest = ["Some check".toList, "Fast Task duration: 1.5s +- 4 * 0.1s".toList,
    "\tSlow Task duration: 3s +- 4 * 0.25s [2; (1.8, 2.1)]".toList, []] := by decide +kernel
  have e2 : lines perfRef = ["Some check".toList, "Fast Task duration: 1.75s +- 4 * 0.1s".toList,
    "\tSlow Task duration: 3.5s +- 4 * 0.2s [2; (1.8, 2.1)]".toList, []] := by decide +kernel
  rw [e1, e2]
  refine .cons (fun h => ?_) (.cons (fun _ => by decide +kernel) (.cons (fun _ => by decide +kernel) (.cons (fun h => ?_) .nil)))
  · obtain ⟨u, v, h⟩ := h
    have := congrArg List.length h
    simp [taskDuration_eq, taskDuration] at this
    omega
  · obtain ⟨u, v, h⟩ := h
    have := congrArg List.length h
    simp [taskDuration_eq, taskDuration] at this

/-- **C85** (lines) If the result is not the output of the test then the reference has as many lines, and there is a line of the output with the words "Task duration:". -/
theorem C85_lines {test ref : List Char} (h : postprocess test ref ≠ some test) :
    (lines test).length = (lines ref).length ∧ ∃ a ∈ lines test, Mentions a := by
  have hA : Accepted False (lines test) (lines ref) := Classical.byContradiction fun h' => h ((C85_exactly test ref).2 h')
  refine ⟨accepted_length hA, Classical.byContradiction fun h' => h ?_⟩
  have e := lines_inj (accepted_silent id (fun a ha hm => h' ⟨a, ha, hm⟩) hA)
  rw [(C85_exactly test ref).1 hA, e]

/-- **C85 (violated)** (later lines) The output of a test may be replaced by a reference which is different in a line without timings. -/
theorem C85_later_lines_violated : ∃ test ref : List Char, postprocess test ref = some ref ∧ ref ≠ test ∧ ¬ SameUpToTimings test ref := by
  refine ⟨"Task duration: 1s\nfoo\n".toList, "Task duration: 1s\nbar\n".toList, by decide +kernel, by decide +kernel, ?_⟩
  intro h
  have e1 : lines "Task duration: 1s\nfoo\n".toList = ["Task duration: 1s".toList, ['f', 'o', 'o'], []] := by decide +kernel
  have e2 : lines "Task duration: 1s\nbar\n".toList = ["Task duration: 1s".toList, ['b', 'a', 'r'], []] := by decide +kernel
  unfold SameUpToTimings at h
  rw [e1, e2] at h
  cases h with
  | cons _ h =>
    cases h with
    | cons h _ =>
      rcases h with h | ⟨_, _, _, _, _, _, ⟨u, v, h, _⟩, _⟩
      · exact absurd h (by decide)
      · have := congrArg List.length h
        simp [taskDuration_eq, taskDuration] at this
        omega

/-- **C85 (violated)** (exponents) The output of a test may be kept although only a timing is different, if it is small. -/
theorem C85_exponents_violated : ∃ mean mean' sds sig : List Char,
    mean = "9.9e-05".toList ∧ mean' = "0.0001".toList ∧ (∀ c ∈ sds ++ sig, c.isDigit = true) ∧
    postprocess (fastLine mean sds sig ++ ['\n']) (fastLine mean' sds sig ++ ['\n']) = some (fastLine mean sds sig ++ ['\n']) :=
  ⟨_, _, ['4'], ['0'], rfl, rfl, by decide, by decide +kernel⟩

end Verif.Props
