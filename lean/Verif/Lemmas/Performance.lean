import Verif.Spec.Performance
import Mathlib.Data.List.Sort
import Mathlib.Tactic.Ring
import Mathlib.Tactic.FieldSimp
import Mathlib.Tactic.Linarith
import Mathlib.Tactic.Positivity
import Mathlib.Algebra.BigOperators.Group.List.Basic
import Mathlib.Algebra.Order.BigOperators.Group.List
/-
Lemmas on performance checks.
-/
set_option linter.unusedSimpArgs false
set_option linter.unusedVariables false

namespace Verif.Performance
open Verif.Spec.Performance Verif.Statistics

/-! ### Trimming -/

theorem pairwise_le_mergeSort (l : List ℝ) (le : ℝ → ℝ → Bool) (hle : ∀ a b, le a b = true ↔ a ≤ b) :
    (l.mergeSort le).Pairwise (· ≤ ·) := by
  have := List.pairwise_mergeSort (le := le) (fun a b c h1 h2 => (hle _ _).2 (((hle _ _).1 h1).trans ((hle _ _).1 h2)))
    (fun a b => by rw [Bool.or_eq_true, hle, hle]; exact le_total a b) l
  exact this.imp fun h => (hle _ _).1 h

theorem sorted_unique {l l' : List ℝ} (h : l.Perm l') (h1 : l.Pairwise (· ≤ ·)) (h2 : l'.Pairwise (· ≤ ·)) : l = l' :=
  h.eq_of_pairwise' h1 h2

theorem sorted_trim {a b : ℝ} {t : List ℝ} (h : ∀ x ∈ t, a ≤ x ∧ x ≤ b) (hab : a ≤ b) (ht : t.Pairwise (· ≤ ·)) :
    (a :: (t ++ [b])).Pairwise (· ≤ ·) := by
  rw [List.pairwise_cons, List.pairwise_append]
  refine ⟨?_, ht, List.pairwise_singleton _ _, ?_⟩
  · intro x hx
    rcases List.mem_append.1 hx with h1 | h1
    · exact (h x h1).1
    · rw [List.mem_singleton.1 h1]; exact hab
  · intro x hx y hy
    rw [List.mem_singleton.1 hy]
    exact (h x hx).2

/-- What remains is determined up to the order. -/
theorem trimmed_unique {l l' t t' : List ℝ} (hl : l.Perm l') (h : Trimmed l t) (h' : Trimmed l' t') : t.Perm t' := by
  classical
  obtain ⟨a, b, h1, h2, h3⟩ := h
  obtain ⟨a', b', g1, g2, g3⟩ := h'
  let le : ℝ → ℝ → Bool := fun a b => decide (a ≤ b)
  have hle : ∀ a b, le a b = true ↔ a ≤ b := fun a b => decide_eq_true_iff
  have p1 := List.mergeSort_perm t le
  have p2 := List.mergeSort_perm t' le
  have e : a :: (t.mergeSort le ++ [b]) = a' :: (t'.mergeSort le ++ [b']) := by
    apply sorted_unique
    · exact ((p1.append_right _).cons a).trans (h1.symm.trans (hl.trans (g1.trans ((p2.append_right _).cons a').symm)))
    · exact sorted_trim (fun x hx => h2 x (p1.mem_iff.1 hx)) h3 (pairwise_le_mergeSort _ _ hle)
    · exact sorted_trim (fun x hx => g2 x (p2.mem_iff.1 hx)) g3 (pairwise_le_mergeSort _ _ hle)
  have e2 := (List.cons.inj e).2
  have e3 := (List.append_inj' e2 rfl).1
  exact p1.symm.trans (e3 ▸ p2)

theorem trimmed_length {l t : List ℝ} (h : Trimmed l t) : l.length = t.length + 2 := by
  obtain ⟨a, b, h1, _⟩ := h
  rw [h1.length_eq]; simp

theorem mean_perm {l l' : List ℝ} (h : l.Perm l') : Spec.Performance.mean l = Spec.Performance.mean l' := by
  unfold Spec.Performance.mean
  rw [h.sum_eq, h.length_eq]

theorem deviation_perm {l l' : List ℝ} (h : l.Perm l') : deviation l = deviation l' := by
  unfold deviation
  rw [mean_perm h, (h.map _).sum_eq, h.length_eq]

theorem deviation_nonneg (l : List ℝ) : 0 ≤ deviation l := Real.sqrt_nonneg _

theorem mean_nonneg {l : List ℝ} (h : ∀ x ∈ l, 0 ≤ x) : 0 ≤ Spec.Performance.mean l := by
  unfold Spec.Performance.mean
  exact div_nonneg (List.sum_nonneg h) (by positivity)

theorem trimmed_mem {l t : List ℝ} (h : Trimmed l t) {x : ℝ} (hx : x ∈ t) : x ∈ l := by
  obtain ⟨a, b, h1, _⟩ := h
  exact h1.mem_iff.2 (by simp [hx])

/-! ### Statistics -/

theorem foldl_sum (l : List ℝ) : ∀ a : ℝ, l.foldl (· + ·) a = a + l.sum := by
  induction l with
  | nil => intro a; simp
  | cons x l ih => intro a; rw [List.foldl_cons, ih, List.sum_cons, add_assoc]

theorem foldl_squares (m : ℝ) (l : List ℝ) :
    ∀ a : ℝ, l.foldl (fun sum datum => sum + (datum - m) * (datum - m)) a = a + (l.map fun x => (x - m) ^ 2).sum := by
  induction l with
  | nil => intro a; simp
  | cons x l ih =>
    intro a
    rw [List.foldl_cons, ih, List.map_cons, List.sum_cons]
    ring

theorem sampleStandardDeviation_eq {l : List ℝ} (h : 2 ≤ l.length) :
    sampleStandardDeviation l = (some (deviation l), some (Spec.Performance.mean l)) := by
  unfold sampleStandardDeviation cumulativeSquareDiffs Statistics.mean
  rw [if_neg (by omega), if_neg (by omega), if_neg (by omega)]
  simp only [foldl_sum, foldl_squares, zero_add, Option.map_some]
  rfl

theorem stats_spec {l : List ℝ} (h : 4 ≤ l.length) :
    ∃ t, Trimmed l t ∧ stats l = .ok (deviation t, Spec.Performance.mean t) := by
  classical
  unfold stats
  generalize hs : l.mergeSort (fun a b => decide (a ≤ b)) = s
  have hp : s.Perm l := by rw [← hs]; exact List.mergeSort_perm _ _
  have ho : s.Pairwise (· ≤ ·) := by rw [← hs]; exact pairwise_le_mergeSort _ _ fun a b => decide_eq_true_iff
  have hlen := hp.length_eq
  obtain ⟨a, s, rfl⟩ : ∃ a s', s = a :: s' := by
    cases s with
    | nil => simp at hlen; omega
    | cons a s => exact ⟨a, s, rfl⟩
  have hne : s ≠ [] := by rintro rfl; simp at hlen; omega
  have e := List.dropLast_append_getLast hne
  refine ⟨s.dropLast, ⟨a, s.getLast hne, ?_, ?_, ?_⟩, ?_⟩
  · rw [e]; exact hp.symm
  · intro x hx
    rw [List.pairwise_cons] at ho
    refine ⟨ho.1 x (List.mem_of_mem_dropLast hx), ?_⟩
    rw [← e, List.pairwise_append] at ho
    exact ho.2.2.2 x hx _ (List.mem_singleton.2 rfl)
  · rw [List.pairwise_cons] at ho
    exact ho.1 _ (List.getLast_mem hne)
  · simp only [List.drop_one, List.tail_cons]
    rw [sampleStandardDeviation_eq (by rw [List.length_dropLast]; simp at hlen; omega)]

/-! ### The verdict -/

/-- A range of speed-ups, applied to the mean of the fast task. -/
theorem overlap_fast {lo hi f s d : ℝ} (hlo : lo ≤ hi) (hf : 0 ≤ f) (hd : 0 ≤ d) :
    (lo * f ≤ s + d ∧ hi * f ≥ s - d) ↔ ∃ r, lo ≤ r ∧ r ≤ hi ∧ |r * f - s| ≤ d := by
  constructor
  · rintro ⟨h1, h2⟩
    rcases le_total s (lo * f) with h3 | h3
    · exact ⟨lo, le_refl _, hlo, by rw [abs_le]; constructor <;> linarith⟩
    · rcases le_total (hi * f) s with h4 | h4
      · exact ⟨hi, hlo, le_refl _, by rw [abs_le]; constructor <;> linarith⟩
      · rcases hf.eq_or_lt with h5 | h5
        · subst h5
          exact ⟨lo, le_refl _, hlo, by rw [abs_le]; constructor <;> linarith⟩
        · refine ⟨s / f, by rwa [le_div_iff₀ h5], by rwa [div_le_iff₀ h5], ?_⟩
          rw [div_mul_cancel₀ _ h5.ne']
          simpa using hd
  · rintro ⟨r, h1, h2, h3⟩
    rw [abs_le] at h3
    have h4 := mul_le_mul_of_nonneg_right h1 hf
    have h5 := mul_le_mul_of_nonneg_right h2 hf
    constructor <;> linarith [h3.1, h3.2]

/-- A range of speed-ups, applied to the mean of the slow task. -/
theorem overlap_slow {lo hi f s d : ℝ} (h0 : 0 < lo) (hlo : lo ≤ hi) (hs : 0 < s) (hd : 0 ≤ d) :
    (s / hi ≤ f + d ∧ s / lo ≥ f - d) ↔ ∃ r, lo ≤ r ∧ r ≤ hi ∧ |s / r - f| ≤ d := by
  have h0' : 0 < hi := h0.trans_le hlo
  constructor
  · rintro ⟨h1, h2⟩
    rcases le_total (s / lo) f with h3 | h3
    · exact ⟨lo, le_refl _, hlo, by rw [abs_le]; constructor <;> linarith⟩
    · rcases le_total f (s / hi) with h4 | h4
      · exact ⟨hi, hlo, le_refl _, by rw [abs_le]; constructor <;> linarith⟩
      · have hf : 0 < f := (div_pos hs h0').trans_le h4
        refine ⟨s / f, ?_, ?_, ?_⟩
        · rw [le_div_iff₀ hf, mul_comm]; rwa [le_div_iff₀ h0] at h3
        · rw [div_le_iff₀ hf, mul_comm]; rwa [div_le_iff₀ h0'] at h4
        · rw [div_div_cancel₀ hs.ne']
          simpa using hd
  · rintro ⟨r, h1, h2, h3⟩
    rw [abs_le] at h3
    have hr : 0 < r := h0.trans_le h1
    have h4 : s / hi ≤ s / r := div_le_div_of_nonneg_left hs.le hr h2
    have h5 : s / r ≤ s / lo := div_le_div_of_nonneg_left hs.le h0 h1
    constructor <;> linarith [h3.1, h3.2]

theorem verdict_spec {p : Params} (hp : Sensible p) {fast slow f s : List ℝ} (hf : Trimmed fast f) (hs : Trimmed slow s)
    (h0 : ∀ x ∈ fast, 0 ≤ x) :
    verdict p (deviation f) (Spec.Performance.mean f) (deviation s) (Spec.Performance.mean s) = true ↔ Agrees p fast slow := by
  classical
  have hmf : 0 ≤ Spec.Performance.mean f := mean_nonneg fun x hx => h0 x (trimmed_mem hf hx)
  have hdf := deviation_nonneg f
  have hds := deviation_nonneg s
  have hp0 : 0 < p.minSpeedUp := zero_lt_one.trans hp.speedUp
  have hk : 0 ≤ p.numSds := (zero_lt_one.trans hp.sds).le
  have key : verdict p (deviation f) (Spec.Performance.mean f) (deviation s) (Spec.Performance.mean s) = true ↔
      (Spec.Performance.mean f + deviation f < Spec.Performance.mean s - deviation s ∧
        ∃ r, p.minSpeedUp ≤ r ∧ r ≤ p.maxSpeedUp ∧
          if deviation s ≤ deviation f then |r * Spec.Performance.mean f - Spec.Performance.mean s| ≤ p.numSds * deviation s
          else |Spec.Performance.mean s / r - Spec.Performance.mean f| ≤ p.numSds * deviation f) := by
    unfold verdict
    by_cases h1 : Spec.Performance.mean f + deviation f < Spec.Performance.mean s - deviation s
    · rw [if_pos h1]
      have hms : 0 < Spec.Performance.mean s := by linarith
      simp only [h1, true_and]
      by_cases h2 : deviation s ≤ deviation f
      · rw [if_pos h2]
        simp only [h2, if_true, Bool.and_eq_true, decide_eq_true_iff]
        exact overlap_fast hp.range hmf (mul_nonneg hk hds)
      · rw [if_neg h2]
        simp only [h2, if_false, Bool.and_eq_true, decide_eq_true_iff]
        exact overlap_slow hp0 hp.range hms (mul_nonneg hk hdf)
    · rw [if_neg h1]
      simp [h1]
  rw [key]
  constructor
  · rintro ⟨h1, h2⟩
    exact ⟨f, s, hf, hs, h1, h2⟩
  · rintro ⟨f', s', hf', hs', h1, h2⟩
    have e1 := trimmed_unique (List.Perm.refl _) hf' hf
    have e2 := trimmed_unique (List.Perm.refl _) hs' hs
    rw [mean_perm e1, deviation_perm e1, mean_perm e2, deviation_perm e2] at h1 h2
    exact ⟨h1, h2⟩

/-! ### Attempts -/

/-- What is run in `n` trials. -/
def runs (coin : List Task → Bool) : Nat → List Task → List Task
  | 0, _ => []
  | n + 1, tr => (if coin tr then [.fast, .slow] else [.slow, .fast]) ++
      runs coin n (tr ++ if coin tr then [.fast, .slow] else [.slow, .fast])

theorem runs_trials (coin : List Task → Bool) (n : Nat) (tr : List Task) : Trials n (runs coin n tr) := by
  induction n generalizing tr with
  | zero => exact .none
  | succ n ih =>
    unfold runs
    cases coin tr
    · exact .slowFirst (ih _)
    · exact .fastFirst (ih _)

theorem trials_eq (w : World) (n : Nat) (t : Timings) :
    trials w n t = ⟨t.trace ++ runs w.coin n t.trace, t.fastData ++ times w .fast t.trace (runs w.coin n t.trace),
      t.slowData ++ times w .slow t.trace (runs w.coin n t.trace)⟩ := by
  induction n generalizing t with
  | zero => simp [trials, runs, times]
  | succ n ih =>
    unfold trials runs
    rw [ih]
    unfold trial
    cases w.coin t.trace
    · simp [time, times]
    · simp [time, times]

theorem trials_times {w : World} {n : Nat} {l : List Task} (h : Trials n l) (tr : List Task) :
    (times w .fast tr l).length = n ∧ (times w .slow tr l).length = n := by
  induction h generalizing tr with
  | none => simp [times]
  | fastFirst h ih =>
    have := ih (tr ++ [.fast] ++ [.slow])
    simp [times] at this ⊢
    omega
  | slowFirst h ih =>
    have := ih (tr ++ [.slow] ++ [.fast])
    simp [times] at this ⊢
    omega

theorem times_nonneg {w : World} (hw : ∀ tr x, 0 ≤ w.clock tr x) (x : Task) (tr l : List Task) : ∀ y ∈ times w x tr l, 0 ≤ y := by
  induction l generalizing tr with
  | nil => simp [times]
  | cons a l ih =>
    intro y hy
    unfold times at hy
    rcases List.mem_append.1 hy with h | h
    · split at h
      · rw [List.mem_singleton.1 h]; exact hw _ _
      · simp at h
    · exact ih _ y h

open Classical in
theorem attempt_eq {p : Params} (hp : Sensible p) {w : World} (hw : ∀ tr x, 0 ≤ w.clock tr x) {n : Nat} (hn : 5 ≤ n) (tr : List Task) :
    attempt p w n tr = .ok (decide (Agrees p (times w .fast tr (runs w.coin n tr)) (times w .slow tr (runs w.coin n tr))),
      tr ++ runs w.coin n tr) := by
  unfold attempt
  rw [trials_eq]
  simp only [List.nil_append]
  obtain ⟨l1, l2⟩ := trials_times (w := w) (runs_trials w.coin n tr) tr
  obtain ⟨f, hf, ef⟩ := stats_spec (l := times w .fast tr (runs w.coin n tr)) (by omega)
  obtain ⟨s, hs, es⟩ := stats_spec (l := times w .slow tr (runs w.coin n tr)) (by omega)
  rw [ef, es]
  simp only [Res.bind]
  congr 2
  rw [Bool.eq_iff_iff, decide_eq_true_iff]
  exact verdict_spec hp hf hs (times_nonneg hw _ _ _)

theorem attempts_spec (mode : Logger.Mode) {p : Params} (hp : Sensible p) {w : World} (hw : ∀ tr x, 0 ≤ w.clock tr x)
    (remaining : Nat) (k : Nat) (hk : k + (remaining + 1) = p.maxAttempts) (b : Bool) (tr : List Task) :
    ∃ segs passed, attempts mode p w (remaining + 1) b tr = .ok (passed, tr ++ segs.flatten) ∧
      Attempts p w (decide (mode ≠ .falseNegative)) k tr segs passed := by
  classical
  induction remaining generalizing k b tr with
  | zero =>
    have hn : p.trials * (p.maxAttempts - (0 + 1) + 1) = (k + 1) * p.trials := by
      rw [show p.maxAttempts - (0 + 1) + 1 = k + 1 by omega, Nat.mul_comm]
    have h5 : 5 ≤ (k + 1) * p.trials := hp.trials.trans (Nat.le_mul_of_pos_left _ (by omega))
    unfold attempts
    rw [hn, attempt_eq hp hw h5]
    simp only [Res.bind]
    refine ⟨[runs w.coin ((k + 1) * p.trials) tr], _, ?_, runs_trials _ _ _, decide_eq_true_iff, .inr (by omega)⟩
    rw [List.flatten_cons, List.flatten_nil, List.append_nil]
    simp only [attempts, ite_self]
  | succ remaining ih =>
    have hn : p.trials * (p.maxAttempts - (remaining + 1 + 1) + 1) = (k + 1) * p.trials := by
      rw [show p.maxAttempts - (remaining + 1 + 1) + 1 = k + 1 by omega, Nat.mul_comm]
    have h5 : 5 ≤ (k + 1) * p.trials := hp.trials.trans (Nat.le_mul_of_pos_left _ (by omega))
    rw [attempts, hn, attempt_eq hp hw h5]
    simp only [Res.bind]
    by_cases hA : Agrees p (times w .fast tr (runs w.coin ((k + 1) * p.trials) tr)) (times w .slow tr (runs w.coin ((k + 1) * p.trials) tr))
    · simp only [hA, decide_true]
      by_cases hm : mode = .falseNegative
      · simp only [hm, if_true, Bool.not_true, Bool.false_eq_true, if_false]
        obtain ⟨segs, passed, h1, h2⟩ := ih (k + 1) (by omega) true (tr ++ runs w.coin ((k + 1) * p.trials) tr)
        rw [hm] at h1 h2
        refine ⟨runs w.coin ((k + 1) * p.trials) tr :: segs, passed, ?_, runs_trials _ _ _, ?_⟩
        · rw [h1, List.flatten_cons, List.append_assoc]
        · cases segs with
          | nil => exact absurd h2 id
          | cons a segs => exact ⟨by simp [hA], by omega, h2⟩
      · simp only [hm, if_false, if_true]
        exact ⟨[runs w.coin ((k + 1) * p.trials) tr], true, by simp, runs_trials _ _ _, by simp [hA], .inl (by simp [hm])⟩
    · simp only [hA, decide_false]
      by_cases hm : mode = .falseNegative
      · simp only [hm, if_true, Bool.not_false]
        exact ⟨[runs w.coin ((k + 1) * p.trials) tr], false, by simp, runs_trials _ _ _, by simp [hA], .inl (by simp)⟩
      · simp only [hm, if_false, Bool.false_eq_true]
        obtain ⟨segs, passed, h1, h2⟩ := ih (k + 1) (by omega) false (tr ++ runs w.coin ((k + 1) * p.trials) tr)
        refine ⟨runs w.coin ((k + 1) * p.trials) tr :: segs, passed, ?_, runs_trials _ _ _, ?_⟩
        · rw [h1, List.flatten_cons, List.append_assoc]
        · cases segs with
          | nil => exact absurd h2 id
          | cons a segs => exact ⟨by simp [hA, hm], by omega, by simpa [hm] using h2⟩

end Verif.Performance

namespace Verif.Performance
open Verif.Spec.Performance Verif.Statistics

/-! ### Relations between checks -/

theorem not_sensible {p : Params} (h : ¬ Sensible p) (mode : Logger.Mode) (w : World) : check mode p w = .throws := by
  unfold check
  split
  · rfl
  split
  · rfl
  split
  · rfl
  split
  · rfl
  split
  · rfl
  rename_i h1 h2 h3 h4 h5
  refine absurd ⟨?_, ?_, ?_, ?_, ?_⟩ h
  · exact not_le.1 fun h6 => h1 (.inl h6)
  · exact not_lt.1 h2
  · exact not_le.1 h3
  · omega
  · omega

/-- The events of a check. -/
def eventsOf (passed : Bool) : List Logger.Event :=
  [.enter, .performanceCheck] ++ (if !passed then [.performanceFailure] else []) ++ [.leave]

theorem check_sensible {p : Params} (h : Sensible p) (mode : Logger.Mode) (w : World) :
    check mode p w = (attempts mode p w p.maxAttempts false []).bind fun r => .ok ⟨r.1, r.2, eventsOf r.1⟩ := by
  unfold check
  rw [if_neg, if_neg (not_lt.2 h.range), if_neg (not_le.2 h.sds), if_neg (by have := h.attempts; omega),
    if_neg (by have := h.trials; omega)]
  · rfl
  · rintro (h1 | h1)
    · exact absurd h.speedUp (not_lt.2 h1)
    · exact absurd (h.speedUp.trans_le h.range) (not_lt.2 h1)

theorem check_spec {p : Params} (h : Sensible p) (mode : Logger.Mode) {w : World} (hw : ∀ tr x, 0 ≤ w.clock tr x) :
    ∃ segs passed, check mode p w = .ok ⟨passed, segs.flatten, eventsOf passed⟩ ∧
      Attempts p w (decide (mode ≠ .falseNegative)) 0 [] segs passed := by
  obtain ⟨n, hn⟩ : ∃ n, p.maxAttempts = n + 1 := ⟨p.maxAttempts - 1, by have := h.attempts; omega⟩
  obtain ⟨segs, passed, h1, h2⟩ := attempts_spec mode h hw n 0 (by omega) false []
  refine ⟨segs, passed, ?_, h2⟩
  rw [check_sensible h, hn, h1]
  rfl

/-- A verdict as required is not changed by allowing for more attempts. -/
theorem attempts_more (mode : Logger.Mode) (p : Params) (w : World) (n : Nat) (remaining : Nat) :
    ∀ (remaining' : Nat) (b b' : Bool) (tr : List Task) (r : Bool × List Task), remaining ≤ remaining' →
      0 < remaining → remaining ≤ p.maxAttempts → remaining' ≤ n → p.maxAttempts - remaining = n - remaining' → attempts mode p w remaining b tr = .ok r →
      r.1 = decide (mode ≠ .falseNegative) → attempts mode { p with maxAttempts := n } w remaining' b' tr = .ok r := by
  induction remaining with
  | zero => intro _ _ _ _ _ _ h; omega
  | succ k ih =>
    intro k' b b' tr r h1 _ h2 hn h3 h4 h5
    obtain ⟨k', rfl⟩ : ∃ k'', k' = k'' + 1 := ⟨k' - 1, by omega⟩
    rw [attempts] at h4 ⊢
    simp only at h4 ⊢
    rw [show p.trials * (p.maxAttempts - (k + 1) + 1) = p.trials * (n - (k' + 1) + 1) by rw [h3]] at h4
    change (attempt p w _ tr).bind _ = _
    cases ha : attempt p w (p.trials * (n - (k' + 1) + 1)) tr with
    | throws => rw [ha] at h4; exact absurd h4 (by simp [Res.bind])
    | ub => rw [ha] at h4; exact absurd h4 (by simp [Res.bind])
    | ok q =>
      rw [ha] at h4
      simp only [Res.bind] at h4 ⊢
      generalize hc : (if mode = .falseNegative then !q.1 else q.1) = c at h4 ⊢
      cases c with
      | true => exact h4
      | false =>
        simp only [Bool.false_eq_true, if_false] at h4 ⊢
        cases k with
        | zero =>
          simp only [attempts, Res.ok.injEq] at h4
          subst h4
          exfalso
          by_cases hm : mode = .falseNegative
          · simp [hm] at hc h5; simp [hc] at h5
          · simp [hm] at hc h5; simp [hc] at h5
        | succ k => exact ih k' q.1 q.1 q.2 r (by omega) (by omega) (by omega) (by omega) (by omega) h4 h5

/-- Two checks whose attempts have the same verdicts. -/
theorem attempts_congr (mode : Logger.Mode) (p : Params) (w w' : World) (remaining : Nat)
    (h : ∀ k tr, 0 < k → attempt p w (p.trials * k) tr = attempt p w' (p.trials * k) tr) :
    ∀ b tr, attempts mode p w remaining b tr = attempts mode p w' remaining b tr := by
  induction remaining with
  | zero => intro b tr; rfl
  | succ k ih =>
    intro b tr
    rw [attempts, attempts, h _ _ (by omega)]
    congr 1
    funext r
    rw [ih]

/-! ### Scaling -/

theorem trimmed_map {c : ℝ} (hc : 0 < c) {l t : List ℝ} (h : Trimmed l t) : Trimmed (l.map (c * ·)) (t.map (c * ·)) := by
  obtain ⟨a, b, h1, h2, h3⟩ := h
  refine ⟨c * a, c * b, ?_, ?_, mul_le_mul_of_nonneg_left h3 hc.le⟩
  · have := h1.map (c * ·)
    simpa using this
  · intro x hx
    obtain ⟨y, hy, rfl⟩ := List.mem_map.1 hx
    exact ⟨mul_le_mul_of_nonneg_left (h2 y hy).1 hc.le, mul_le_mul_of_nonneg_left (h2 y hy).2 hc.le⟩

theorem mean_map (c : ℝ) (l : List ℝ) : Spec.Performance.mean (l.map (c * ·)) = c * Spec.Performance.mean l := by
  unfold Spec.Performance.mean
  rw [List.sum_map_mul_left, List.length_map, mul_div_assoc, List.map_id']

theorem deviation_map {c : ℝ} (hc : 0 < c) (l : List ℝ) : deviation (l.map (c * ·)) = c * deviation l := by
  unfold deviation
  rw [mean_map, List.map_map, List.length_map]
  have e : ((fun x => (x - c * Spec.Performance.mean l) ^ 2) ∘ fun x => c * x) = fun x => c ^ 2 * (x - Spec.Performance.mean l) ^ 2 := by
    funext x
    simp only [Function.comp]
    ring
  rw [e, List.sum_map_mul_left, mul_div_assoc, Real.sqrt_mul (by positivity), Real.sqrt_sq hc.le]

theorem agrees_map {p : Params} {c : ℝ} (hc : 0 < c) {f s : List ℝ} (h : Agrees p f s) : Agrees p (f.map (c * ·)) (s.map (c * ·)) := by
  obtain ⟨f', s', h1, h2, h3, r, h4, h5, h6⟩ := h
  refine ⟨_, _, trimmed_map hc h1, trimmed_map hc h2, ?_, r, h4, h5, ?_⟩
  · rw [mean_map, mean_map, deviation_map hc, deviation_map hc, ← mul_add, ← mul_sub]
    exact mul_lt_mul_of_pos_left h3 hc
  · rw [mean_map, mean_map, deviation_map hc, deviation_map hc]
    by_cases hd : deviation s' ≤ deviation f'
    · rw [if_pos hd] at h6
      rw [if_pos (mul_le_mul_of_nonneg_left hd hc.le)]
      rw [show r * (c * Spec.Performance.mean f') - c * Spec.Performance.mean s' = c * (r * Spec.Performance.mean f' - Spec.Performance.mean s') by ring,
        abs_mul, abs_of_pos hc, mul_left_comm]
      exact mul_le_mul_of_nonneg_left h6 hc.le
    · rw [if_neg hd] at h6
      rw [if_neg (fun h => hd (le_of_mul_le_mul_left h hc))]
      rw [show c * Spec.Performance.mean s' / r - c * Spec.Performance.mean f' = c * (Spec.Performance.mean s' / r - Spec.Performance.mean f') by ring,
        abs_mul, abs_of_pos hc, mul_left_comm]
      exact mul_le_mul_of_nonneg_left h6 hc.le

theorem agrees_scale {p : Params} {c : ℝ} (hc : 0 < c) {f s : List ℝ} : Agrees p (f.map (c * ·)) (s.map (c * ·)) ↔ Agrees p f s := by
  refine ⟨fun h => ?_, agrees_map hc⟩
  have := agrees_map (inv_pos.2 hc) h
  have e : ∀ l : List ℝ, (l.map (c * ·)).map (c⁻¹ * ·) = l := by
    intro l
    rw [List.map_map]
    have : ((fun x => c⁻¹ * x) ∘ fun x => c * x) = id := by
      funext x
      simp only [Function.comp, id]
      rw [inv_mul_cancel_left₀ hc.ne']
    rw [this, List.map_id]
  rwa [e, e] at this

theorem times_scale (w : World) (c : ℝ) (x : Task) (tr l : List Task) :
    times { w with clock := fun tr x => c * w.clock tr x } x tr l = (times w x tr l).map (c * ·) := by
  induction l generalizing tr with
  | nil => rfl
  | cons a l ih =>
    unfold times
    rw [ih, List.map_append]
    split <;> rfl

/-! ### Wider ranges -/

theorem agrees_wider {p p' : Params} (hp : Sensible p) (h1 : p'.minSpeedUp ≤ p.minSpeedUp) (h2 : p.maxSpeedUp ≤ p'.maxSpeedUp)
    (h3 : p.numSds ≤ p'.numSds) {f s : List ℝ} (h : Agrees p f s) : Agrees p' f s := by
  obtain ⟨f', s', g1, g2, g3, r, g4, g5, g6⟩ := h
  refine ⟨f', s', g1, g2, g3, r, h1.trans g4, g5.trans h2, ?_⟩
  by_cases hd : deviation s' ≤ deviation f'
  · rw [if_pos hd] at g6 ⊢
    exact g6.trans (mul_le_mul_of_nonneg_right h3 (deviation_nonneg _))
  · rw [if_neg hd] at g6 ⊢
    exact g6.trans (mul_le_mul_of_nonneg_right h3 (deviation_nonneg _))

theorem attempts_wider {p p' : Params} (hp : Sensible p) (hp' : Sensible p') (h1 : p'.minSpeedUp ≤ p.minSpeedUp)
    (h2 : p.maxSpeedUp ≤ p'.maxSpeedUp) (h3 : p.numSds ≤ p'.numSds) (h4 : p.trials = p'.trials) (h5 : p.maxAttempts = p'.maxAttempts)
    {w : World} (hw : ∀ tr x, 0 ≤ w.clock tr x) (mode : Logger.Mode) (hm : mode ≠ .falseNegative) (remaining : Nat) :
    ∀ (b : Bool) (tr tr' : List Task), 0 < remaining → attempts mode p w remaining b tr = .ok (true, tr') →
      ∃ tr'', attempts mode p' w remaining b tr = .ok (true, tr'') ∧ tr'' <+: tr' := by
  classical
  have h6 : ∀ remaining b tr q, attempts mode p w remaining b tr = .ok q → tr <+: q.2 := by
    intro remaining
    induction remaining with
    | zero => intro b tr q h; simp only [attempts, Res.ok.injEq] at h; subst h; exact List.prefix_refl _
    | succ k ih =>
      intro b tr q h
      rw [attempts, attempt_eq hp hw (hp.trials.trans (Nat.le_mul_of_pos_right _ (by omega)))] at h
      simp only [Res.bind] at h
      split at h
      · split at h
        · simp only [Res.ok.injEq] at h; subst h; exact List.prefix_append _ _
        · exact (List.prefix_append _ _).trans (ih _ _ _ h)
      · split at h
        · simp only [Res.ok.injEq] at h; subst h; exact List.prefix_append _ _
        · exact (List.prefix_append _ _).trans (ih _ _ _ h)
  induction remaining with
  | zero => intro _ _ _ h; omega
  | succ k ih =>
    intro b tr tr' _ h
    have t1 := hp.trials.trans (Nat.le_mul_of_pos_right p.trials (show 0 < p.maxAttempts - (k + 1) + 1 by omega))
    have t2 := hp'.trials.trans (Nat.le_mul_of_pos_right p'.trials (show 0 < p'.maxAttempts - (k + 1) + 1 by omega))
    rw [attempts, attempt_eq hp hw t1] at h
    rw [attempts, attempt_eq hp' hw t2, ← h4, ← h5]
    simp only [Res.bind, hm, if_false, decide_eq_true_eq] at h ⊢
    generalize hl : runs w.coin (p.trials * (p.maxAttempts - (k + 1) + 1)) tr = l at h ⊢
    by_cases ha : Agrees p (times w .fast tr l) (times w .slow tr l)
    · have ha' := agrees_wider hp h1 h2 h3 ha
      rw [if_pos ha] at h
      rw [if_pos ha']
      simp only [ha, ha', decide_true, Res.ok.injEq, Prod.mk.injEq, true_and] at h ⊢
      exact ⟨_, rfl, h ▸ List.prefix_refl _⟩
    · rw [if_neg ha] at h
      by_cases ha' : Agrees p' (times w .fast tr l) (times w .slow tr l)
      · rw [if_pos ha']
        refine ⟨tr ++ l, by simp [ha'], ?_⟩
        exact h6 _ _ _ _ h
      · rw [if_neg ha']
        simp only [ha, ha', decide_false] at h ⊢
        cases k with
        | zero => simp [attempts] at h
        | succ k => exact ih _ _ _ (by omega) h

/-! ### Steady tasks -/

theorem mean_const {c : ℝ} {l : List ℝ} (h : ∀ x ∈ l, x = c) (hl : 0 < l.length) : Spec.Performance.mean l = c := by
  unfold Spec.Performance.mean
  rw [List.eq_replicate_of_mem h, List.sum_replicate, List.length_replicate, nsmul_eq_mul]
  have : (l.length : ℝ) ≠ 0 := by exact_mod_cast hl.ne'
  field_simp

theorem deviation_const {c : ℝ} {l : List ℝ} (h : ∀ x ∈ l, x = c) (hl : 0 < l.length) : deviation l = 0 := by
  unfold deviation
  rw [mean_const h hl]
  have : (l.map fun x => (x - c) ^ 2).sum = 0 := by
    apply List.sum_eq_zero
    intro y hy
    obtain ⟨x, hx, rfl⟩ := List.mem_map.1 hy
    rw [h x hx]; simp
  rw [this]; simp

theorem exists_trimmed {l : List ℝ} (h : 4 ≤ l.length) : ∃ t, Trimmed l t := by
  obtain ⟨t, ht, _⟩ := stats_spec h
  exact ⟨t, ht⟩

theorem agrees_const {p : Params} (hp : Sensible p) {a b : ℝ} (ha : 0 ≤ a) {f s : List ℝ} (hf : ∀ x ∈ f, x = a) (hs : ∀ x ∈ s, x = b)
    (lf : 5 ≤ f.length) (ls : 5 ≤ s.length) : Agrees p f s ↔ 0 < a ∧ p.minSpeedUp * a ≤ b ∧ b ≤ p.maxSpeedUp * a := by
  have hpm := hp.speedUp
  constructor
  · rintro ⟨f', s', h1, h2, h3, r, h4, h5, h6⟩
    have l1 := trimmed_length h1
    have l2 := trimmed_length h2
    have f1 : ∀ x ∈ f', x = a := fun x hx => hf x (trimmed_mem h1 hx)
    have s1 : ∀ x ∈ s', x = b := fun x hx => hs x (trimmed_mem h2 hx)
    rw [mean_const f1 (by omega), deviation_const f1 (by omega), mean_const s1 (by omega), deviation_const s1 (by omega)] at h3 h6
    simp only [le_refl, if_true, mul_zero, add_zero, sub_zero] at h3 h6
    have h7 : r * a = b := by
      have := abs_nonpos_iff.1 h6
      linarith
    have h8 : 0 < a := by
      rcases ha.eq_or_lt with h | h
      · rw [← h] at h7 h3; simp at h7; linarith
      · exact h
    exact ⟨h8, by rw [← h7]; exact mul_le_mul_of_nonneg_right h4 ha, by rw [← h7]; exact mul_le_mul_of_nonneg_right h5 ha⟩
  · rintro ⟨h0, h1, h2⟩
    obtain ⟨f', hf'⟩ := exists_trimmed (l := f) (by omega)
    obtain ⟨s', hs'⟩ := exists_trimmed (l := s) (by omega)
    have l1 := trimmed_length hf'
    have l2 := trimmed_length hs'
    have f1 : ∀ x ∈ f', x = a := fun x hx => hf x (trimmed_mem hf' hx)
    have s1 : ∀ x ∈ s', x = b := fun x hx => hs x (trimmed_mem hs' hx)
    refine ⟨f', s', hf', hs', ?_, b / a, ?_, ?_, ?_⟩
    · rw [mean_const f1 (by omega), deviation_const f1 (by omega), mean_const s1 (by omega), deviation_const s1 (by omega)]
      nlinarith
    · rwa [le_div_iff₀ h0]
    · rwa [div_le_iff₀ h0]
    · rw [mean_const f1 (by omega), deviation_const f1 (by omega), mean_const s1 (by omega), deviation_const s1 (by omega)]
      rw [if_pos le_rfl, div_mul_cancel₀ _ h0.ne']; simp

theorem mem_times {w : World} {x : Task} {tr l : List Task} {y : ℝ} (h : y ∈ times w x tr l) : ∃ tr', y = w.clock tr' x := by
  induction l generalizing tr with
  | nil => simp [times] at h
  | cons a l ih =>
    unfold times at h
    rcases List.mem_append.1 h with h | h
    · by_cases e : a = x
      · subst e; rw [if_pos rfl] at h; exact ⟨tr, List.mem_singleton.1 h⟩
      · rw [if_neg e] at h; simp at h
    · exact ih h

theorem mean_le {c : ℝ} {l : List ℝ} (h : ∀ x ∈ l, x ≤ c) (hl : 0 < l.length) : Spec.Performance.mean l ≤ c := by
  unfold Spec.Performance.mean
  rw [div_le_iff₀ (by exact_mod_cast hl)]
  have := List.sum_le_card_nsmul l c h
  rw [nsmul_eq_mul] at this
  linarith

theorem le_mean {c : ℝ} {l : List ℝ} (h : ∀ x ∈ l, c ≤ x) (hl : 0 < l.length) : c ≤ Spec.Performance.mean l := by
  unfold Spec.Performance.mean
  rw [le_div_iff₀ (by exact_mod_cast hl)]
  have := List.card_nsmul_le_sum l c h
  rw [nsmul_eq_mul] at this
  linarith

theorem not_agrees {p : Params} {c : ℝ} {f s : List ℝ} (hf : ∀ x ∈ f, c ≤ x) (hs : ∀ x ∈ s, x ≤ c) (lf : 5 ≤ f.length) (ls : 5 ≤ s.length) :
    ¬ Agrees p f s := by
  rintro ⟨f', s', h1, h2, h3, _⟩
  have l1 := trimmed_length h1
  have l2 := trimmed_length h2
  have a1 := le_mean (c := c) (l := f') (fun x hx => hf x (trimmed_mem h1 hx)) (by omega)
  have a2 := mean_le (c := c) (l := s') (fun x hx => hs x (trimmed_mem h2 hx)) (by omega)
  have a3 := deviation_nonneg f'
  have a4 := deviation_nonneg s'
  linarith

/-- If the verdict always is the one required, then there is but one attempt. -/
theorem attempts_first {p : Params} {w : World} {required : Bool} {k : Nat} {tr : List Task} {segs : List (List Task)} {passed : Bool}
    (h : Attempts p w required k tr segs passed)
    (hA : ∀ tr l, Trials ((k + 1) * p.trials) l → (required = true ↔ Agrees p (times w .fast tr l) (times w .slow tr l))) :
    passed = required ∧ ∃ l, segs = [l] ∧ Trials ((k + 1) * p.trials) l := by
  cases segs with
  | nil => exact absurd h id
  | cons l segs =>
    cases segs with
    | nil =>
      obtain ⟨h1, h2, _⟩ := h
      refine ⟨?_, l, rfl, h1⟩
      rw [Bool.eq_iff_iff, h2, hA _ _ h1]
    | cons l' segs =>
      obtain ⟨h1, h2, _⟩ := h
      have := (hA tr l h1).symm.trans h2
      exact absurd this (by by_cases h : Agrees p (times w .fast tr l) (times w .slow tr l) <;> simp [h])

/-- If the verdict never is the one required, then all attempts are made. -/
theorem attempts_all {p : Params} {w : World} {required : Bool} {k : Nat} {tr : List Task} {segs : List (List Task)} {passed : Bool}
    (h : Attempts p w required k tr segs passed)
    (hA : ∀ k tr l, Trials ((k + 1) * p.trials) l → (required = true ↔ ¬ Agrees p (times w .fast tr l) (times w .slow tr l))) :
    passed = !required ∧ k + segs.length = p.maxAttempts := by
  induction segs generalizing k tr with
  | nil => exact absurd h id
  | cons l segs ih =>
    cases segs with
    | nil =>
      obtain ⟨h1, h2, h3⟩ := h
      have h4 : passed = !required := by
        have h5 := hA _ tr l h1
        rw [Bool.eq_iff_iff, h2]
        cases required with
        | true => simpa using h5
        | false => simpa using h5
      refine ⟨h4, ?_⟩
      rcases h3 with h3 | h3
      · subst h3; cases passed <;> simp at h4
      · simpa using h3
    | cons l' segs =>
      obtain ⟨h1, h2, h3, h4⟩ := h
      obtain ⟨h5, h6⟩ := ih h4
      exact ⟨h5, by simp at h6 ⊢; omega⟩

end Verif.Performance
