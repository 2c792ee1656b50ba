import Verif.Lemmas.SummaryText
import Verif.Props.Logger
/- C91: the text which reports the results of tests. -/
namespace Verif.Props
open Verif.Text Verif.Logger Verif.LoggerSpec Verif.SummaryText Verif.Spec.SummaryText

/-- **C91** The text made of a log, whatever it holds and whatever is asked for, is a heading, a line for each kind of check
of which there were any, or all kinds if asked for, in a fixed order and with both columns of numbers aligned, what is to be
said about critical failures and the messages, if asked for. -/
theorem C91_text (render : Int → Nat → Str) (log : Summary) (messages suffix : Str) (duration : Option Int) (v : Detail)
    (ind₀ ind₁ : Str) : ∃ a b lines, List.Forall₂ (LaidOut (ind₀ ++ ind₁) a b) (shown v.absentChecks log) lines ∧
      SummaryText.summarize render log messages suffix duration v ind₀ ind₁ = .ok (heading render log suffix duration v.timings ind₀ ++
        lines.flatMap (· ++ ['\n']) ++ criticalText log.criticalFailures ++ messagesText v.failureMessages messages (ind₀ ++ ind₁)) := by
  obtain ⟨m, c, f, h1, h2⟩ := summarize_eq render log messages suffix duration v ind₀ ind₁
  refine ⟨m + 2 + c, m + 2 + c + 13 + f, _, ?_, h2⟩
  have hsub : ∀ r ∈ shown v.absentChecks log, r ∈ rows log := fun r hr => (List.mem_filter.1 hr).1
  generalize shown v.absentChecks log = rs at hsub
  induction rs with
  | nil => exact .nil
  | cons r rs ih =>
    obtain ⟨k1, k2, k3⟩ := h1 r (hsub r (by simp))
    exact .cons (lineOf_laid _ m c f r k1 k2 k3) (ih fun s hs => hsub s (List.mem_cons_of_mem _ hs))

/-- a log with checks of two kinds, one of which fails -/
def sampleLog : Summary :=
  { name := "Foo", standardTopLevelChecks := 12, standardDeepChecks := 123456789, falsePositiveChecks := 3, falsePositiveFailures := 1,
    criticalFailures := 2 }

example : SummaryText.summarize (fun _ _ => []) sampleLog ['b', 'a', 'd'] [':'] none ⟨false, true, false⟩ [] ['\t'] = .ok
    ("Foo:\n".toList ++
      "\tStandard Top Level Checks:                12;  Failures:  0  [Deep checks: 123456789]\n".toList ++
      "\tFalse Positive Checks:                     3;  Failures:  1\n".toList ++
      "\n******  Critical Failures:  2  ******\n".toList ++ "\n\n\tbad".toList) := by decide +kernel

/-- **C91** The text can be read back: if the texts of two logs with the same heading and the same messages agree, then the
logs agree in the number of checks of every kind, in the number of failures of every kind which is shown, and in the number of
critical failures. -/
theorem C91_readable (render : Int → Nat → Str) (log log' : Summary) (messages suffix : Str) (duration : Option Int) (v : Detail)
    (ind₀ ind₁ : Str) (hi : '\n' ∉ ind₀ ++ ind₁) (hname : log.name = log'.name) (hd : log.duration = log'.duration)
    (h : SummaryText.summarize render log messages suffix duration v ind₀ ind₁ =
      SummaryText.summarize render log' messages suffix duration v ind₀ ind₁) :
    List.Forall₂ (fun r r' => r.label = r'.label ∧ r.checks = r'.checks ∧
        ((v.absentChecks = true ∨ r.checks ≠ 0) → r.failures = r'.failures)) (rows log) (rows log') ∧
      (log.standardTopLevelChecks ≠ 0 → log.standardDeepChecks = log'.standardDeepChecks) ∧
      log.criticalFailures = log'.criticalFailures := by
  obtain ⟨m, c, f, _, h2⟩ := summarize_eq render log messages suffix duration v ind₀ ind₁
  obtain ⟨m', c', f', _, h2'⟩ := summarize_eq render log' messages suffix duration v ind₀ ind₁
  rw [h2, h2'] at h
  have hh : heading render log suffix duration v.timings ind₀ = heading render log' suffix duration v.timings ind₀ := by
    unfold heading reportTime; rw [hname, hd]
  rw [hh] at h
  simp only [Res.ok.injEq, List.append_assoc] at h
  have h := List.append_cancel_left h
  have hend : ∀ n, EndOk (criticalText n ++ messagesText v.failureMessages messages (ind₀ ++ ind₁)) := by
    intro n x hx
    unfold criticalText messagesText at hx
    rw [show "\n******  Critical Failures:  ".toList = '\n' :: "******  Critical Failures:  ".toList from by decide] at hx
    split at hx
    · split at hx
      · simp at hx; exact hx.symm
      · simp at hx
    · simp at hx; exact hx.symm
  obtain ⟨r1, r2⟩ := read_rows v.absentChecks hi (hend _) (hend _) (rows log) (rows log') (rows_labels _ _) (rows_apart _) (rows_apart _)
    (rows_ok _) (rows_ok _) h
  refine ⟨?_, ?_, ?_⟩
  · have := rows_labels log log'
    generalize rows log = rs at r1 this
    generalize rows log' = rs' at r1 this
    clear h h2 h2' r2
    induction r1 with
    | nil => exact .nil
    | cons a _ ih =>
      cases this with
      | cons b bs => exact .cons ⟨b, a.1, fun hx => (a.2 hx).1⟩ (ih bs)
  · intro h0
    cases r1 with
    | cons a _ =>
      obtain ⟨a1, a2⟩ := a
      dsimp only at a1 a2
      have a3 := (a2 (Or.inr h0)).2
      rw [if_neg h0, if_neg (by rw [← a1]; exact h0), List.append_assoc, List.append_assoc] at a3
      exact (StateTransition.digits_inj (List.append_cancel_left a3) (by intro c hc; rw [show "]".toList = [']'] from rfl] at hc; simp at hc; subst hc; decide)
        (by intro c hc; rw [show "]".toList = [']'] from rfl] at hc; simp at hc; subst hc; decide)).1
  · have r3 := List.append_cancel_right r2
    unfold criticalText at r3
    by_cases z : log.criticalFailures = 0 <;> by_cases z' : log'.criticalFailures = 0
    · rw [z, z']
    · rw [if_pos z, if_neg z'] at r3; simp at r3
    · rw [if_neg z, if_pos z'] at r3; simp at r3
    · rw [if_neg z, if_neg z', List.append_assoc, List.append_assoc] at r3
      refine (StateTransition.digits_inj (List.append_cancel_left r3) ?_ ?_).1 <;>
      · intro c hc
        rw [show "  ******\n\n".toList = ' ' :: " ******\n\n".toList from by decide] at hc
        simp at hc; subst hc; decide

/-- Two logs which differ only in the number of failures have different texts. -/
example : SummaryText.summarize (fun _ _ => []) sampleLog [] [] none ⟨false, true, false⟩ [] [] ≠
    SummaryText.summarize (fun _ _ => []) { sampleLog with falsePositiveFailures := 2 } [] [] none ⟨false, true, false⟩ [] [] := by
  intro h
  obtain ⟨h, _⟩ := C91_readable _ sampleLog { sampleLog with falsePositiveFailures := 2 } [] [] none ⟨false, true, false⟩ [] [] (by simp) rfl rfl h
  cases h with
  | cons _ h => cases h with
    | cons _ h => cases h with
      | cons h _ => exact absurd (h.2.2 (Or.inr (by decide))) (by decide)

namespace Summaries

theorem countP_and_le {α : Type} (p q : α → Prop) [DecidablePred p] [DecidablePred q] (l : List α) :
    l.countP (fun b => p b ∧ q b) ≤ l.countP (fun b => p b) := by
  apply List.countP_mono_left
  intro x _ h
  simp only [decide_eq_true_eq] at h ⊢
  exact h.1

theorem rows_le (log : Summary) : (∀ r ∈ rows log, r.failures ≤ r.checks) ↔
    log.standardTopLevelFailures ≤ log.standardTopLevelChecks ∧ log.standardPerformanceFailures ≤ log.standardPerformanceChecks ∧
    log.falsePositiveFailures ≤ log.falsePositiveChecks ∧ log.falsePositivePerformanceFailures ≤ log.falsePositivePerformanceChecks ∧
    log.falseNegativeFailures ≤ log.falseNegativeChecks ∧ log.falseNegativePerformanceFailures ≤ log.falseNegativePerformanceChecks := by
  simp only [rows, List.forall_mem_cons, List.not_mem_nil, false_implies, implies_true, and_true]

theorem rows_le_add (s t : Summary) (hs : ∀ r ∈ rows s, r.failures ≤ r.checks) (ht : ∀ r ∈ rows t, r.failures ≤ r.checks) :
    ∀ r ∈ rows (s.add t), r.failures ≤ r.checks := by
  rw [rows_le] at *
  simp only [Summary.add]
  omega

theorem rows_le_expected (name : String) (mode : Mode) (delta : Int) (r : Results) (checks : List (List Event))
    (h : Expected (Logger.summarize name mode delta r) mode checks) :
    ∀ w ∈ rows (Logger.summarize name mode delta r), w.failures ≤ w.checks := by
  rw [rows_le]
  cases mode with
  | standard =>
    obtain ⟨h1, h2, h3, h4, _⟩ := h.standard rfl
    rw [h1, h2, h3, h4]
    refine ⟨countP_and_le _ _ _, countP_and_le _ _ _, ?_, ?_, ?_, ?_⟩ <;> simp [Logger.summarize]
  | falsePositive =>
    obtain ⟨h1, h2, h3, h4⟩ := h.falsePositive rfl
    rw [h1, h2, h3, h4]
    refine ⟨?_, ?_, countP_and_le _ _ _, countP_and_le _ _ _, ?_, ?_⟩ <;> simp [Logger.summarize]
  | falseNegative =>
    obtain ⟨h1, h2, h3, h4⟩ := h.falseNegative rfl
    rw [h1, h2, h3, h4]
    refine ⟨?_, ?_, ?_, ?_, countP_and_le _ _ _, countP_and_le _ _ _⟩ <;> simp [Logger.summarize]

end Summaries

/-- **C91 (part)** No failure is kept out of the text: in the sum of the summaries of any number of loggers, a kind of check of
which some have failed is shown, even if kinds of which there are no checks are not.  What is missing: top-level checks which
contain checks of performance besides others, see below. -/
theorem C91_visible_partial (logs : List Summary) (start : Summary) (hstart : start = {} ∨ start ∈ logs)
    (hlogs : ∀ l ∈ logs, ∃ name mode delta checks s, (∀ b ∈ checks, Balanced b) ∧ (∀ b ∈ checks, PerformanceCheck b ∨ OrdinaryCheck b) ∧
      runEvents mode {} (history checks) = .ok s ∧ l = Logger.summarize name mode delta s.results) (absent : Bool) :
    ∀ r ∈ rows (logs.foldl Summary.add start), r.failures ≠ 0 → r ∈ shown absent (logs.foldl Summary.add start) := by
  have hgood : ∀ l ∈ logs, ∀ r ∈ rows l, r.failures ≤ r.checks := by
    intro l hl
    obtain ⟨name, mode, delta, checks, s, hb, hk, hs, rfl⟩ := hlogs l hl
    exact Summaries.rows_le_expected _ _ _ _ _ (C50_no_wrap_partial name mode delta checks hb hk s hs)
  have hstart : ∀ r ∈ rows start, r.failures ≤ r.checks := by
    rcases hstart with rfl | h
    · rw [Summaries.rows_le]; simp
    · exact hgood _ h
  have key : ∀ (logs : List Summary) (start : Summary), (∀ l ∈ logs, ∀ r ∈ rows l, r.failures ≤ r.checks) →
      (∀ r ∈ rows start, r.failures ≤ r.checks) → ∀ r ∈ rows (logs.foldl Summary.add start), r.failures ≤ r.checks := by
    intro logs
    induction logs with
    | nil => intro start _ h; exact h
    | cons l logs ih =>
      intro start hl hs
      exact ih _ (fun k hk => hl k (List.mem_cons_of_mem _ hk)) (Summaries.rows_le_add _ _ hs (hl l (by simp)))
  intro r hr hf
  have := key logs start hgood hstart r hr
  refine List.mem_filter.2 ⟨hr, ?_⟩
  simp only [Bool.or_eq_true, decide_eq_true_eq]
  right; omega

/-- A failing check next to a check of performance. -/
example : (runEvents .standard {} (history [[.check, .failure], [.performanceCheck]])).bind (fun s =>
      .ok ((shown false (Summary.add {} (Logger.summarize "" .standard 0 s.results))).map fun r => (r.checks, r.failures))) =
    .ok [(1, 1), (1, 0)] := by decide +kernel

/-- **C91 (violated)** If one top-level check contains a check which fails and a check of performance which does not, the kind of
the failing check is not shown. -/
theorem C91_hidden_violated :
    let checks : List (List Event) := [[.enter, .check, .failure, .leave, .enter, .performanceCheck, .leave]]
    (∀ b ∈ checks, Balanced b) ∧ ∃ s, runEvents .standard {} (history checks) = .ok s ∧
      (∃ r ∈ rows (Logger.summarize "" .standard 0 s.results), r.failures ≠ 0) ∧
      ∀ r ∈ shown false (Logger.summarize "" .standard 0 s.results), r.failures = 0 := by
  refine ⟨?_, ?_⟩
  · intro b hb
    simp only [List.mem_cons, List.not_mem_nil, or_false] at hb
    subst hb
    have h : Balanced [.check, .failure] := .leaf (by decide) (by decide) (.leaf (by decide) (by decide) .nil)
    have h' : Balanced [.performanceCheck] := .leaf (by decide) (by decide) .nil
    exact .nest h (.nest h' .nil)
  · refine ⟨_, rfl, ?_, ?_⟩
    · refine ⟨_, List.mem_cons_self, ?_⟩
      decide +kernel
    · intro r hr
      have h := List.mem_map_of_mem (f := Row.failures) hr
      have hall : ∀ n ∈ (shown false (Logger.summarize "" .standard 0 { ({} : Results) with
          topLevelChecks := 1, deepChecks := 2, performanceChecks := 1, failures := 1, topLevelFailures := 1 })).map Row.failures, n = 0 := by
        decide +kernel
      exact hall _ h

/-- **C91** A time is shown in the largest unit of which it is at least one; except for seconds it is less than a thousand of
these.  Times of less than a microsecond are exact. -/
theorem C91_units (render : Int → Nat → Str) (count : Int) : ∃ unit, (stringify render count).2 = unit ∧
    (unit = ['n', 's'] ∨ inUnit unit ≤ count) ∧ (unit = ['s'] ∨ count < 1000 * inUnit unit) ∧
    (stringify render count).1 = (if unit = ['n', 's'] then digitsInt count else render count (inUnit unit).toNat) := by
  refine ⟨_, rfl, ?_⟩
  unfold stringify
  split
  · exact ⟨Or.inr (by simpa [inUnit] using ‹_›), Or.inl rfl, rfl⟩
  · split
    · exact ⟨Or.inr (by simpa [inUnit] using ‹_›), Or.inr (by simp [inUnit]; omega), rfl⟩
    · split
      · exact ⟨Or.inr (by simpa [inUnit] using ‹_›), Or.inr (by simp [inUnit]; omega), rfl⟩
      · exact ⟨Or.inl rfl, Or.inr (by simp [inUnit]; omega), rfl⟩

/-- **C91** Nanoseconds are written as they are: the decimal digits, with a sign for times below zero only. -/
theorem C91_nanoseconds (render : Int → Nat → Str) (n : Nat) :
    (n < 1000 → stringify render n = (Nat.toDigits 10 n, ['n', 's'])) ∧ (0 < n → stringify render (-(n : Int)) = ('-' :: Nat.toDigits 10 n, ['n', 's'])) := by
  constructor <;> intro h
  · unfold stringify
    rw [if_neg (by omega), if_neg (by omega), if_neg (by omega)]
    simp [digitsInt, digits]
  · unfold stringify
    rw [if_neg (by omega), if_neg (by omega), if_neg (by omega)]
    simp [digitsInt, digits, h]

example : (stringify (fun _ u => digits u) 999999).2 = ['u', 's'] ∧ (stringify (fun _ u => digits u) 1000000).2 = ['m', 's'] := by decide

/-- **C91 (violated)** A number with three digits is nevertheless not what is shown: a stream told to write three digits makes
`1e+03` of 999.999, which is what is shown of a microsecond less than a millisecond. -/
theorem C91_rounding_violated (render : Int → Nat → Str) (h : render 999999 1000 = ['1', 'e', '+', '0', '3']) (log : Summary)
    (hd : log.duration = 999999) : reportTime render log none = "[Execution Time: 1e+03us]\n".toList := by
  have e : stringify render log.duration = (['1', 'e', '+', '0', '3'], ['u', 's']) := by
    rw [← h]
    unfold stringify
    rw [if_neg (by omega), if_neg (by omega), if_pos (by omega), hd]
  unfold reportTime
  rw [e]
  dsimp only
  decide +kernel

example : ∃ log : Summary, log.duration = 999999 := ⟨{ duration := 999999 }, rfl⟩

/-- **C91** Padding makes any number of strings equally long, by appending or by prepending spaces; when prepending, they are
at least as long as asked for, and no longer than needed. -/
theorem C91_pad (ss : List Str) (hs : ss ≠ []) (suffix : Str) (n : Nat) :
    (∃ m ts, padRight ss suffix = .ok ts ∧ (∃ s ∈ ss, s.length = m) ∧
      List.Forall₂ (fun s t => ∃ b, Blank b ∧ t = s ++ b ++ suffix ∧ (s ++ b).length = m) ss ts) ∧
    ∃ m ts, padLeft ss n = .ok ts ∧ (m = n ∨ ∃ s ∈ ss, s.length = m) ∧ n ≤ m ∧
      List.Forall₂ (fun s t => ∃ b, Blank b ∧ t = b ++ s ∧ t.length = m) ss ts := by
  obtain ⟨m, hm, hle⟩ := maxSize_ok ss hs
  obtain hmem := maxSize_mem ss m hm
  constructor
  · refine ⟨m, _, by simp only [padRight, hm, bind_ok]; rfl, hmem, ?_⟩
    rw [List.forall₂_map_right_iff, List.forall₂_same]
    intro s h
    have := hle s h
    exact ⟨_, blank_replicate _, (List.append_assoc ..).symm, by simp; omega⟩
  · refine ⟨max m n, _, by simp only [padLeft, hm, bind_ok]; rfl, ?_, by omega, ?_⟩
    · rcases Nat.le_total m n with h | h
      · left; omega
      · right; rwa [show max m n = m by omega]
    · rw [List.forall₂_map_right_iff, List.forall₂_same]
      intro s h
      have := hle s h
      exact ⟨_, blank_replicate _, rfl, by simp; omega⟩

example : padRight [['a'], ['b', 'c']] ['!'] = .ok [['a', ' ', '!'], ['b', 'c', '!']] ∧ padLeft [['a'], ['b', 'c']] 3 =
    .ok [[' ', ' ', 'a'], [' ', 'b', 'c']] := by decide

/-- **C91 (violated)** Padding no strings at all is undefined rather than harmless. -/
theorem C91_pad_empty_violated (suffix : Str) (n : Nat) : padRight [] suffix = .ub ∧ padLeft [] n = .ub := ⟨rfl, rfl⟩

end Verif.Props
