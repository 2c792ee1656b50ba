import Verif.Lemmas.Performance
import Mathlib.Tactic.NormNum
/-
C84: checks of relative performance.
-/
set_option linter.unusedSimpArgs false

namespace Verif.Props
open Verif.Performance Verif.Spec.Performance

/-- Arguments for the examples. -/
noncomputable def perfParams : Params := ⟨3 / 2, 5 / 2, 5, 4, 3⟩

/-- The slow task takes twice as long; the tasks take turns. -/
noncomputable def perfWorld : World := ⟨fun _ x => if x = .fast then 1 else 2, fun tr => decide (tr.length % 4 = 0)⟩

theorem perfParams_sensible : Sensible perfParams := by
  refine ⟨?_, ?_, ?_, ?_, ?_⟩ <;> norm_num [perfParams]

theorem perfWorld_nonneg : ∀ tr x, 0 ≤ perfWorld.clock tr x := by
  intro tr x
  unfold perfWorld
  dsimp only
  split <;> norm_num

/-- **C84** (arguments) A check throws if the arguments do not make sense, and only then: whatever the tasks do, a check with arguments which do make sense has a verdict. -/
theorem C84_arguments (mode : Logger.Mode) (p : Params) (w : World) (hw : ∀ tr x, 0 ≤ w.clock tr x) :
    (¬ Sensible p → check mode p w = .throws) ∧ (Sensible p → ∃ r, check mode p w = .ok r) := by
  refine ⟨fun h => not_sensible h mode w, fun h => ?_⟩
  obtain ⟨segs, passed, h1, _⟩ := check_spec h mode hw
  exact ⟨_, h1⟩

example : Sensible perfParams ∧ ¬ Sensible { perfParams with trials := 4 } :=
  ⟨perfParams_sensible, fun h => absurd h.trials (by norm_num [perfParams])⟩

/-- **C84** (verdict) What is run is a sequence of attempts, and the verdict is that of the last one: the predicted range of speed-ups accounts for the timings of the attempt.
In each trial both tasks are run once, and an attempt has as many trials as requested times its number.  There is another attempt if the verdict is not the one
required, which for false-negative tests is that the prediction fails, up to the number of attempts allowed. -/
theorem C84_verdict (mode : Logger.Mode) {p : Params} (hp : Sensible p) {w : World} (hw : ∀ tr x, 0 ≤ w.clock tr x) :
    ∃ r segs, check mode p w = .ok r ∧ r.trace = segs.flatten ∧ Attempts p w (decide (mode ≠ .falseNegative)) 0 [] segs r.passed := by
  obtain ⟨segs, passed, h1, h2⟩ := check_spec hp mode hw
  exact ⟨_, segs, h1, rfl, h2⟩

example : Sensible perfParams ∧ ∀ tr x, 0 ≤ perfWorld.clock tr x := ⟨perfParams_sensible, perfWorld_nonneg⟩

/-- **C84** (log) Each check is logged as one top-level check and one performance check.  It is logged as a performance failure if the prediction fails, and as a
top-level failure if the verdict is not the one which the mode of the test requires. -/
theorem C84_logged (mode : Logger.Mode) (p : Params) (w : World) {r : Result} (h : check mode p w = .ok r) (s : Logger.State)
    (hs : s.sentinels = []) : ∃ s', Logger.runEvents mode s r.events = .ok s' ∧ s'.sentinels = [] ∧
      s'.results.topLevelChecks = s.results.topLevelChecks + 1 ∧
      s'.results.deepChecks = s.results.deepChecks + 1 ∧
      s'.results.performanceChecks = s.results.performanceChecks + 1 ∧
      s'.results.performanceFailures = s.results.performanceFailures + (if r.passed then 0 else 1) ∧
      s'.results.criticalFailures = s.results.criticalFailures ∧
      s'.results.topLevelFailures = s.results.topLevelFailures + (if (r.passed = true ↔ mode ≠ .falseNegative) then 0 else 1) := by
  by_cases hp : Sensible p
  · rw [check_sensible hp] at h
    cases ha : attempts mode p w p.maxAttempts false [] with
    | throws => rw [ha] at h; exact absurd h (by simp [Res.bind])
    | ub => rw [ha] at h; exact absurd h (by simp [Res.bind])
    | ok q =>
      rw [ha] at h
      simp only [Res.bind, Res.ok.injEq] at h
      obtain ⟨passed, tr⟩ := q
      subst h
      obtain ⟨res, sent⟩ := s
      subst hs
      cases passed <;> cases mode <;>
        simp [eventsOf, Logger.runEvents, Logger.step, Logger.enter, Logger.leave, Logger.conclude, Logger.logPerformanceCheck, Logger.logCheck,
          Logger.logPerformanceFailure, Logger.logFailure, Logger.addMessage, Logger.endMessage, Logger.logTopLevelFailure, Res.bind]
  · rw [not_sensible hp] at h
    exact absurd h (by simp)

example : ∃ r, check .standard perfParams perfWorld = .ok r :=
  (C84_arguments .standard perfParams perfWorld perfWorld_nonneg).2 perfParams_sensible

/-- **C84** (attempts) Allowing for more attempts does not change a verdict which is the one required, nor what is run. -/
theorem C84_more_attempts (mode : Logger.Mode) {p : Params} {w : World} {r : Result} (h : check mode p w = .ok r)
    (hr : r.passed = true ↔ mode ≠ .falseNegative) {n : Nat} (hn : p.maxAttempts ≤ n) : check mode { p with maxAttempts := n } w = .ok r := by
  by_cases hp : Sensible p
  · have hp' : Sensible { p with maxAttempts := n } := ⟨hp.speedUp, hp.range, hp.sds, lt_of_lt_of_le hp.attempts hn, hp.trials⟩
    rw [check_sensible hp] at h
    rw [check_sensible hp']
    cases ha : attempts mode p w p.maxAttempts false [] with
    | throws => rw [ha] at h; exact absurd h (by simp [Res.bind])
    | ub => rw [ha] at h; exact absurd h (by simp [Res.bind])
    | ok q =>
      rw [ha] at h
      simp only [Res.bind, Res.ok.injEq] at h
      rw [attempts_more mode p w n p.maxAttempts n false false [] q hn hp.attempts (Nat.le_refl _) (Nat.le_refl _) (by omega) ha]
      · simp only [Res.bind, h]
      · subst h
        rw [Bool.eq_iff_iff, hr, decide_eq_true_iff]
  · rw [not_sensible hp] at h
    exact absurd h (by simp)

/-- **C84** (units) The verdict and what is run do not depend on the unit of time. -/
theorem C84_units (mode : Logger.Mode) (p : Params) (w : World) (hw : ∀ tr x, 0 ≤ w.clock tr x) {c : ℝ} (hc : 0 < c) :
    check mode p { w with clock := fun tr x => c * w.clock tr x } = check mode p w := by
  classical
  by_cases hp : Sensible p
  · rw [check_sensible hp, check_sensible hp]
    congr 1
    apply attempts_congr
    intro k tr hk
    have h5 : 5 ≤ p.trials * k := hp.trials.trans (Nat.le_mul_of_pos_right _ hk)
    rw [attempt_eq hp hw h5, attempt_eq hp (fun tr x => mul_nonneg hc.le (hw tr x)) h5]
    simp only [times_scale]
    congr 2
    rw [Bool.eq_iff_iff, decide_eq_true_iff, decide_eq_true_iff]
    exact agrees_scale hc
  · rw [not_sensible hp, not_sensible hp]

example : (∀ tr x, 0 ≤ perfWorld.clock tr x) ∧ (0 : ℝ) < 1000 := ⟨perfWorld_nonneg, by norm_num⟩

/-- **C84** (range) A check which passes also passes, and with no more runs, if the range of speed-ups is widened or more standard deviations are allowed for. -/
theorem C84_wider (mode : Logger.Mode) (hm : mode ≠ .falseNegative) {p p' : Params} (hp' : Sensible p') (h1 : p'.minSpeedUp ≤ p.minSpeedUp)
    (h2 : p.maxSpeedUp ≤ p'.maxSpeedUp) (h3 : p.numSds ≤ p'.numSds) (h4 : p.trials = p'.trials) (h5 : p.maxAttempts = p'.maxAttempts)
    {w : World} (hw : ∀ tr x, 0 ≤ w.clock tr x) {r : Result} (h : check mode p w = .ok r) (hr : r.passed = true) :
    ∃ r', check mode p' w = .ok r' ∧ r'.passed = true ∧ r'.trace <+: r.trace := by
  by_cases hp : Sensible p
  · rw [check_sensible hp] at h
    cases ha : attempts mode p w p.maxAttempts false [] with
    | throws => rw [ha] at h; exact absurd h (by simp [Res.bind])
    | ub => rw [ha] at h; exact absurd h (by simp [Res.bind])
    | ok q =>
      rw [ha] at h
      simp only [Res.bind, Res.ok.injEq] at h
      obtain ⟨passed, tr⟩ := q
      subst h
      simp only at hr
      subst hr
      obtain ⟨tr', g1, g2⟩ := attempts_wider hp hp' h1 h2 h3 h4 h5 hw mode hm _ false [] tr hp.attempts ha
      rw [check_sensible hp', ← h5, g1]
      exact ⟨_, rfl, rfl, g2⟩
  · rw [not_sensible hp] at h
    exact absurd h (by simp)

/-- **C84** (steady tasks) If the durations of the tasks are constant then a check passes if and only if their ratio is within the range, boundaries included. -/
theorem C84_steady (mode : Logger.Mode) {p : Params} (hp : Sensible p) {w : World} {a b : ℝ} (ha : 0 ≤ a) (hb : 0 ≤ b)
    (hw : ∀ tr x, w.clock tr x = if x = .fast then a else b) : ∃ r, check mode p w = .ok r ∧
      (r.passed = true ↔ 0 < a ∧ p.minSpeedUp * a ≤ b ∧ b ≤ p.maxSpeedUp * a) := by
  have hw0 : ∀ tr x, 0 ≤ w.clock tr x := by
    intro tr x
    rw [hw]
    split
    · exact ha
    · exact hb
  have key : ∀ k tr l, Trials ((k + 1) * p.trials) l →
      (Agrees p (times w .fast tr l) (times w .slow tr l) ↔ 0 < a ∧ p.minSpeedUp * a ≤ b ∧ b ≤ p.maxSpeedUp * a) := by
    intro k tr l hl
    obtain ⟨l1, l2⟩ := trials_times (w := w) hl tr
    have h5 : 5 ≤ (k + 1) * p.trials := hp.trials.trans (Nat.le_mul_of_pos_left _ (by omega))
    refine agrees_const hp ha ?_ ?_ (by omega) (by omega)
    · intro x hx
      obtain ⟨tr', rfl⟩ := mem_times hx
      rw [hw, if_pos rfl]
    · intro x hx
      obtain ⟨tr', rfl⟩ := mem_times hx
      rw [hw, if_neg (by simp)]
  obtain ⟨segs, passed, h1, h2⟩ := check_spec hp mode hw0
  refine ⟨_, h1, ?_⟩
  simp only
  generalize hA : (0 < a ∧ p.minSpeedUp * a ≤ b ∧ b ≤ p.maxSpeedUp * a) = A at key ⊢
  generalize decide (mode ≠ .falseNegative) = required at h2
  by_cases hc : required = true ↔ A
  · rw [(attempts_first h2 fun tr l hl => by rw [key 0 tr l hl]; exact hc).1]
    exact hc
  · have hc' : required = true ↔ ¬ A := by
      cases required <;> by_cases h : A <;> simp [h] at hc ⊢
    rw [(attempts_all h2 fun k tr l hl => by rw [key k tr l hl]; exact hc').1]
    cases required <;> by_cases h : A <;> simp [h] at hc ⊢

example : (∀ tr x, perfWorld.clock tr x = if x = .fast then 1 else 2) ∧
    (0 : ℝ) < 1 ∧ perfParams.minSpeedUp * 1 ≤ 2 ∧ (2 : ℝ) ≤ perfParams.maxSpeedUp * 1 :=
  ⟨fun _ _ => rfl, by norm_num, by norm_num [perfParams], by norm_num [perfParams]⟩

/-- The check of the example passes. -/
example : ∃ r, check .standard perfParams perfWorld = .ok r ∧ r.passed = true := by
  obtain ⟨r, h1, h2⟩ := C84_steady .standard perfParams_sensible (w := perfWorld) (a := 1) (b := 2) (by norm_num) (by norm_num) fun _ _ => rfl
  exact ⟨r, h1, h2.2 ⟨by norm_num, by norm_num [perfParams], by norm_num [perfParams]⟩⟩

/-- **C84** (no speed-up) If a run of the slow task never takes longer than one of the fast task, then no check passes, whatever the parameters, and a check which is not one of
a false-negative test makes all its attempts. -/
theorem C84_no_speed_up (mode : Logger.Mode) {p : Params} (hp : Sensible p) {w : World} (hw : ∀ tr x, 0 ≤ w.clock tr x)
    {c : ℝ} (hf : ∀ tr, c ≤ w.clock tr .fast) (hs : ∀ tr, w.clock tr .slow ≤ c) :
    ∃ r segs, check mode p w = .ok r ∧ r.passed = false ∧ r.trace = segs.flatten ∧
      Attempts p w (decide (mode ≠ .falseNegative)) 0 [] segs false ∧ segs.length = if mode = .falseNegative then 1 else p.maxAttempts := by
  have key : ∀ k tr l, Trials ((k + 1) * p.trials) l → ¬ Agrees p (times w .fast tr l) (times w .slow tr l) := by
    intro k tr l hl
    obtain ⟨l1, l2⟩ := trials_times (w := w) hl tr
    have h5 : 5 ≤ (k + 1) * p.trials := hp.trials.trans (Nat.le_mul_of_pos_left _ (by omega))
    refine not_agrees (c := c) ?_ ?_ (by omega) (by omega)
    · intro x hx
      obtain ⟨tr', rfl⟩ := mem_times hx
      exact hf _
    · intro x hx
      obtain ⟨tr', rfl⟩ := mem_times hx
      exact hs _
  obtain ⟨segs, passed, h1, h2⟩ := check_spec hp mode hw
  by_cases hm : mode = .falseNegative
  · obtain ⟨e, l, hl, _⟩ := attempts_first h2 fun tr l hl => ⟨fun h => by simp [hm] at h, fun h => absurd h (key 0 tr l hl)⟩
    have : passed = false := by rw [e]; simp [hm]
    subst this
    exact ⟨_, segs, h1, rfl, rfl, h2, by rw [if_pos hm, hl]; rfl⟩
  · obtain ⟨e, hl⟩ := attempts_all h2 fun k tr l hl => ⟨fun _ => key k tr l hl, fun _ => by simp [hm]⟩
    have : passed = false := by rw [e]; simp [hm]
    subst this
    exact ⟨_, segs, h1, rfl, rfl, h2, by rw [if_neg hm]; omega⟩

example : let w : World := ⟨fun tr x => if x = .fast then 2 else if tr.length = 3 then 2 else 1, fun _ => true⟩
    (∀ tr x, 0 ≤ w.clock tr x) ∧ (∀ tr, 2 ≤ w.clock tr .fast) ∧ ∀ tr, w.clock tr .slow ≤ 2 := by
  refine ⟨fun tr x => ?_, fun tr => ?_, fun tr => ?_⟩
  · cases x
    · norm_num
    · simp only [reduceCtorEq, if_false]; split <;> norm_num
  · norm_num
  · simp only [reduceCtorEq, if_false]; split <;> norm_num

end Verif.Props
