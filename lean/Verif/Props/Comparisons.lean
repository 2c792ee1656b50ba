import Verif.Spec.Comparisons
import Verif.Props.StringReports
/-
C108: checks with a comparison, and advice.
-/
set_option linter.unusedSimpArgs false
set_option linter.unusedVariables false
namespace Verif.Props
open Verif.Comparisons Verif.Spec.Comparisons Verif.MachineNumbers Verif.Messages Verif.StringReports
open Verif.Text (Str)

namespace Comparisons

theorem pow_split {w : Nat} (h : 1 ≤ w) : (2 : Int) ^ w = 2 * 2 ^ (w - 1) := by
  obtain ⟨k, rfl⟩ : ∃ k, w = k + 1 := ⟨w - 1, by omega⟩
  rw [Int.pow_succ, Nat.add_sub_cancel]
  omega

theorem pow_mono {v w : Nat} (h : v ≤ w) : (2 : Int) ^ v ≤ 2 ^ w := by
  have : (2 : Nat) ^ v ≤ 2 ^ w := Nat.pow_le_pow_right (by omega) h
  exact_mod_cast this

theorem pow_pos (w : Nat) : (0 : Int) < 2 ^ w := by
  have : 0 < (2 : Nat) ^ w := Nat.pow_pos (by omega)
  exact_mod_cast this

/-- The absolute value of the difference, if there is no overflow. -/
theorem within_exact (n : Nat) (T : IntTy) (w : Nat) (hT : promoted n T = .signed w) (tol x y : Int) (h1 : x - y < 2 ^ (w - 1)) (h2 : y - x < 2 ^ (w - 1)) :
    withinTolerance n T tol x y = .ok (decide (y - tol ≤ x ∧ x ≤ y + tol)) := by
  unfold withinTolerance
  rw [hT]
  have hc : ∀ d : Int, d < 2 ^ (w - 1) → -d < 2 ^ (w - 1) → computed (.signed w) d = .ok d := by
    intro d a b
    simp only [computed]
    rw [if_pos (by simp only [inRange]; omega)]
  rw [hc _ h1 (by omega)]
  have ha : absOf (.signed w) (x - y) = .ok (if x - y < 0 then -(x - y) else x - y) := by
    unfold absOf
    split
    · exact hc _ (by omega) (by omega)
    · rfl
  simp only [Res.bind]
  rw [ha]
  simp only [Res.bind, Res.ok.injEq, decide_eq_decide]
  split <;> omega

theorem holds_exact (n : Nat) (T : IntTy) (c : Comparison) (x y : Int)
    (h : ∀ tol, c = .within tol → ∃ w, promoted n T = .signed w ∧ x - y < 2 ^ (w - 1) ∧ y - x < 2 ^ (w - 1)) :
    ∃ b, c.holds n T x y = .ok b ∧ (b = true ↔ AsPredicted c x y) := by
  cases c with
  | within tol =>
    obtain ⟨w, hT, h1, h2⟩ := h tol rfl
    exact ⟨_, within_exact n T w hT tol x y h1 h2, by simp [AsPredicted]⟩
  | equal => exact ⟨_, rfl, by simp [AsPredicted]⟩
  | less => exact ⟨_, rfl, by simp [AsPredicted]⟩
  | lessEqual => exact ⟨_, rfl, by simp [AsPredicted]⟩
  | greater => exact ⟨_, rfl, by simp [AsPredicted]⟩
  | greaterEqual => exact ⟨_, rfl, by simp [AsPredicted]⟩

theorem split_char {k : Char} {a a' b b' : Str} (ha : k ∉ a) (ha' : k ∉ a') (h : a ++ k :: b = a' ++ k :: b') : a = a' ∧ b = b' := by
  induction a generalizing a' with
  | nil =>
    cases a' with
    | nil => simpa using h
    | cons y ys => simp only [List.nil_append, List.cons_append, List.cons.injEq] at h; rw [← h.1] at ha'; exact absurd (by simp) ha'
  | cons x xs ih =>
    cases a' with
    | nil => simp only [List.nil_append, List.cons_append, List.cons.injEq] at h; rw [h.1] at ha; exact absurd (by simp) ha
    | cons y ys =>
      simp only [List.cons_append, List.cons.injEq] at h
      obtain ⟨e1, e2⟩ := ih (fun m => ha (by simp [m])) (fun m => ha' (by simp [m])) h.2
      exact ⟨by rw [h.1, e1], e2⟩

theorem shown_char {x : Int} {c : Char} (h : c ∈ shown x) : c = '-' ∨ c.isDigit := by
  unfold shown at h
  rw [List.mem_append] at h
  rcases h with h | h
  · split at h
    · simp at h; exact Or.inl h
    · simp at h
  · exact Or.inr (Nat.isDigit_of_mem_toDigits (by omega) (by omega) h)

theorem shown_ne (x : Int) : shown x ≠ [] := by
  unfold shown
  intro h
  have := (List.append_eq_nil_iff.mp h).2
  exact absurd this (by have := Nat.length_toDigits_pos (b := 10) (n := x.natAbs); intro e; rw [e] at this; simp at this)

theorem shown_not {x : Int} {c : Char} (h1 : c ≠ '-') (h2 : c.isDigit = false) : c ∉ shown x := by
  intro h
  rcases shown_char h with e | e
  · exact h1 e
  · rw [h2] at e; cases e

theorem shown_inj {x y : Int} (h : shown x = shown y) : x = y := by
  have dig : ∀ n : Nat, '-' ∉ Nat.toDigits 10 n := fun n hm => by
    have := Nat.isDigit_of_mem_toDigits (b := 10) (by omega) (by omega) hm
    exact absurd this (by decide)
  have inj : ∀ a b : Nat, Nat.toDigits 10 a = Nat.toDigits 10 b → a = b := by
    intro a b e
    have := congrArg (Nat.ofDigitChars 10 · 0) e
    simpa using this
  unfold shown at h
  split at h <;> split at h
  · have := inj _ _ (List.append_cancel_left h); omega
  · simp only [List.singleton_append, List.nil_append] at h
    exact absurd (by rw [← h]; simp) (dig y.natAbs)
  · simp only [List.singleton_append, List.nil_append] at h
    exact absurd (by rw [h]; simp) (dig x.natAbs)
  · simp only [List.nil_append] at h
    have := inj _ _ h; omega

theorem reporter_shape (c : Comparison) (hc : c ≠ .equal) (x y : Int) : ∃ b, c.reporter x y = predictionMessage (shown x) b := by
  cases c with
  | equal => exact absurd rfl hc
  | less => exact ⟨"<".toList ++ [' '] ++ shown y, rfl⟩
  | lessEqual => exact ⟨"<=".toList ++ [' '] ++ shown y, rfl⟩
  | greater => exact ⟨">".toList ++ [' '] ++ shown y, rfl⟩
  | greaterEqual => exact ⟨">=".toList ++ [' '] ++ shown y, rfl⟩
  | within tol =>
    refine ⟨shown y ++ " +/- ".toList ++ shown tol, ?_⟩
    show predictionMessage (shown x) (shown y) ++ " +/- ".toList ++ shown tol = _
    rw [StringReports.prediction_eq, StringReports.prediction_eq]
    simp only [List.append_assoc]

end Comparisons
open Comparisons

/-- **C108** Checks of types narrower than `int` pass if and only if what was obtained is as predicted; otherwise there is a message.  This includes checks within a tolerance. -/
theorem C108_narrow (n : Nat) (hn : 2 ≤ n) (T : IntTy) (hT : T = .bool ∨ ∃ w, 1 ≤ w ∧ w < n ∧ (T = .unsigned w ∨ T = .signed w)) (c : Comparison) (tutor : Option Tutor) (x y : Int)
    (hx : inRange T x) (hy : inRange T y) :
    (AsPredicted c x y → compareWith n T c tutor x y = .ok none) ∧ (¬ AsPredicted c x y → ∃ m, compareWith n T c tutor x y = .ok (some m)) := by
  have bounds : promoted n T = .signed n ∧ x - y < 2 ^ (n - 1) ∧ y - x < 2 ^ (n - 1) := by
    rcases hT with rfl | ⟨w, h1, h2, rfl | rfl⟩
    · have := pow_mono (v := 1) (w := n - 1) (by omega)
      simp only [inRange] at hx hy
      exact ⟨rfl, by omega, by omega⟩
    · have := pow_mono (v := w) (w := n - 1) (by omega)
      simp only [inRange] at hx hy
      exact ⟨by simp only [promoted]; rw [if_pos h2], by omega, by omega⟩
    · have := pow_mono (v := w) (w := n - 1) (by omega)
      have := pow_split h1
      simp only [inRange] at hx hy
      exact ⟨by simp only [promoted]; rw [if_pos h2], by omega, by omega⟩
  obtain ⟨b, hb, hc⟩ := holds_exact n T c x y (fun _ _ => ⟨n, bounds⟩)
  unfold compareWith
  rw [hb]
  simp only [Res.bind]
  cases b with
  | true => exact ⟨fun _ => rfl, fun h => absurd (hc.mp rfl) h⟩
  | false => exact ⟨fun h => absurd (hc.mpr h) (by simp), fun _ => ⟨_, rfl⟩⟩

example : inRange (.signed 16) (-32768) ∧ inRange (.signed 16) 32767 ∧ AsPredicted (.within 65535) (-32768) 32767 ∧ ¬ AsPredicted (.within 65534) (-32768) 32767 := by
  unfold inRange AsPredicted; decide

/-- **C108 (part)** So do those of wider types, with the exception of checks within a tolerance of values whose difference is not less than any value of the type.
What is missing: these differences, `C108_tolerance_violated`. -/
theorem C108_wide_partial (n : Nat) (T : IntTy) (c : Comparison) (tutor : Option Tutor) (x y : Int)
    (h : ∀ tol, c = .within tol → ∃ w, n ≤ w ∧ T = .signed w ∧ x - y < 2 ^ (w - 1) ∧ y - x < 2 ^ (w - 1)) :
    (AsPredicted c x y → compareWith n T c tutor x y = .ok none) ∧ (¬ AsPredicted c x y → ∃ m, compareWith n T c tutor x y = .ok (some m)) := by
  obtain ⟨b, hb, hc⟩ := holds_exact n T c x y (fun tol e => by
    obtain ⟨w, h1, h2, h3⟩ := h tol e
    exact ⟨w, by rw [h2]; simp only [promoted]; rw [if_neg (by omega)], h3⟩)
  unfold compareWith
  rw [hb]
  simp only [Res.bind]
  cases b with
  | true => exact ⟨fun _ => rfl, fun h => absurd (hc.mp rfl) h⟩
  | false => exact ⟨fun h => absurd (hc.mpr h) (by simp), fun _ => ⟨_, rfl⟩⟩

/-- **C108 (violated)** If the difference is too large, then the behaviour is undefined. Whatever the width of `int`, there are such values. -/
theorem C108_tolerance_violated (n : Nat) (hn : 1 ≤ n) (tol : Int) (tutor : Option Tutor) :
    inRange (.signed n) (2 ^ (n - 1) - 1) ∧ inRange (.signed n) (-(2 ^ (n - 1))) ∧
    compareWith n (.signed n) (.within tol) tutor (2 ^ (n - 1) - 1) (-(2 ^ (n - 1))) = .ub ∧
    compareWith n (.signed n) (.within tol) tutor (-(2 ^ (n - 1))) 0 = .ub := by
  have := pow_pos (n - 1)
  refine ⟨by simp only [inRange]; omega, by simp only [inRange]; omega, ?_, ?_⟩
  · simp only [compareWith, Comparison.holds, withinTolerance, promoted, Nat.lt_irrefl, if_false]
    have : computed (.signed n) (2 ^ (n - 1) - 1 - -(2 ^ (n - 1))) = .ub := by
      simp only [computed]
      rw [if_neg (by simp only [inRange]; omega)]
    rw [this]
    rfl
  · simp only [compareWith, Comparison.holds, withinTolerance, promoted, Nat.lt_irrefl, if_false]
    have h1 : computed (.signed n) (-(2 ^ (n - 1)) - 0) = .ok (-(2 ^ (n - 1))) := by
      simp only [computed]
      rw [if_pos (by simp only [inRange]; omega), Int.sub_zero]
    have h2 : absOf (.signed n) (-(2 ^ (n - 1))) = .ub := by
      simp only [absOf, computed]
      rw [if_pos (by omega), if_neg (by simp only [inRange]; omega)]
    rw [h1]
    simp only [Res.bind]
    rw [h2]

/-- **C108** The comparison, what was obtained and what was predicted can be read off the message. -/
theorem C108_message (c c' : Comparison) (x x' y y' : Int) (h : c.reporter x y = c'.reporter x' y') : c = c' ∧ x = x' ∧ y = y' := by
  have one : ∀ x : Int, Spec.Messages.OneLine (shown x) := fun x => shown_not (by decide) (by decide)
  have eqn : ∀ x y : Int, Comparison.reporter .equal x y = "operator== returned false".toList ++ ['\n'] ++ predictionMessage (shown x) (shown y) := by
    intro x y
    show appendLine "operator== returned false".toList (predictionMessage (shown x) (shown y)) = _
    rw [Messages.appendLine_eq (by decide) (by rw [StringReports.prediction_eq]; exact StringReports.left_ne (StringReports.left_ne (StringReports.left_ne (by decide) _) _) _)]
  have wit : ∀ tol x y : Int, Comparison.reporter (.within tol) x y = predictionMessage (shown x) (shown y ++ " +/- ".toList ++ shown tol) := by
    intro tol x y
    show predictionMessage (shown x) (shown y) ++ " +/- ".toList ++ shown tol = _
    rw [StringReports.prediction_eq, StringReports.prediction_eq]
    simp only [List.append_assoc]
  have first : ∀ a b s : Str, predictionMessage a b ≠ "operator== returned false".toList ++ ['\n'] ++ s := by
    intro a b s e
    rw [StringReports.prediction_eq] at e
    have e' : ('O' :: ("btained : ".toList ++ a ++ ['\n'] ++ ("Predicted: ".toList ++ b))) = 'o' :: ("perator== returned false".toList ++ ['\n'] ++ s) := e
    exact absurd (List.cons.inj e').1 (by decide)
  have other : ∀ c : Comparison, c ≠ .equal → ∀ x y s, c.reporter x y ≠ "operator== returned false".toList ++ ['\n'] ++ s := by
    intro c hc x y s
    obtain ⟨b, hb⟩ := reporter_shape c hc x y
    rw [hb]
    exact first _ _ _
  -- the text of a prediction which is a comparison
  have rel : ∀ s s' : Str, ' ' ∉ s → ' ' ∉ s' → ∀ x y x' y', relational s x y = relational s' x' y' → s = s' ∧ x = x' ∧ y = y' := by
    intro s s' hs hs' x y x' y' e
    obtain ⟨e1, e2⟩ := C93_prediction _ _ _ _ (one x) (one x') e
    simp only [List.append_assoc, List.singleton_append] at e2
    obtain ⟨e3, e4⟩ := split_char hs hs' e2
    exact ⟨e3, shown_inj e1, shown_inj e4⟩
  have relW : ∀ (s : Str) (k : Char) (r : Str), s = k :: r → k ≠ '-' → k.isDigit = false → ∀ x y tol x' y' : Int,
      relational s x y ≠ Comparison.reporter (.within tol) x' y' := by
    intro s k r hs h1 h2 x y tol x' y' e
    rw [wit] at e
    obtain ⟨-, e2⟩ := C93_prediction _ _ _ _ (one x) (one x') e
    have hne := shown_ne y'
    cases hy : shown y' with
    | nil => exact hne hy
    | cons a t =>
      rw [hy, hs] at e2
      simp only [List.cons_append, List.cons.injEq] at e2
      have := shown_not (x := y') h1 h2
      rw [hy, ← e2.1] at this
      exact this (by simp)
  cases c <;> cases c'
  case equal.equal =>
    rw [eqn, eqn] at h
    obtain ⟨a, b⟩ := C93_prediction _ _ _ _ (one x) (one x') (List.append_cancel_left h)
    exact ⟨rfl, shown_inj a, shown_inj b⟩
  case within.within t t' =>
    rw [wit, wit] at h
    obtain ⟨a, b⟩ := C93_prediction _ _ _ _ (one x) (one x') h
    have sp : " +/- ".toList = ' ' :: "+/- ".toList := rfl
    rw [sp, List.append_assoc, List.append_assoc, List.cons_append, List.cons_append] at b
    obtain ⟨b1, b2⟩ := split_char (shown_not (by decide) (by decide)) (shown_not (by decide) (by decide)) b
    have := shown_inj (List.append_cancel_left b2)
    exact ⟨by rw [this], shown_inj a, shown_inj b1⟩
  case equal.less => rw [eqn] at h; exact absurd h.symm (other .less (by simp) _ _ _)
  case equal.lessEqual => rw [eqn] at h; exact absurd h.symm (other .lessEqual (by simp) _ _ _)
  case equal.greater => rw [eqn] at h; exact absurd h.symm (other .greater (by simp) _ _ _)
  case equal.greaterEqual => rw [eqn] at h; exact absurd h.symm (other .greaterEqual (by simp) _ _ _)
  case equal.within t => rw [eqn] at h; exact absurd h.symm (other (.within t) (by simp) _ _ _)
  case less.equal => rw [eqn] at h; exact absurd h (other .less (by simp) _ _ _)
  case less.less => obtain ⟨a, b, d⟩ := rel _ _ (by decide) (by decide) _ _ _ _ h; exact ⟨rfl, b, d⟩
  case less.lessEqual => obtain ⟨a, b, d⟩ := rel _ _ (by decide) (by decide) _ _ _ _ h; exact absurd a (by decide)
  case less.greater => obtain ⟨a, b, d⟩ := rel _ _ (by decide) (by decide) _ _ _ _ h; exact absurd a (by decide)
  case less.greaterEqual => obtain ⟨a, b, d⟩ := rel _ _ (by decide) (by decide) _ _ _ _ h; exact absurd a (by decide)
  case less.within t => exact absurd h (relW "<".toList _ _ rfl (by decide) (by decide) _ _ _ _ _)
  case lessEqual.equal => rw [eqn] at h; exact absurd h (other .lessEqual (by simp) _ _ _)
  case lessEqual.less => obtain ⟨a, b, d⟩ := rel _ _ (by decide) (by decide) _ _ _ _ h; exact absurd a (by decide)
  case lessEqual.lessEqual => obtain ⟨a, b, d⟩ := rel _ _ (by decide) (by decide) _ _ _ _ h; exact ⟨rfl, b, d⟩
  case lessEqual.greater => obtain ⟨a, b, d⟩ := rel _ _ (by decide) (by decide) _ _ _ _ h; exact absurd a (by decide)
  case lessEqual.greaterEqual => obtain ⟨a, b, d⟩ := rel _ _ (by decide) (by decide) _ _ _ _ h; exact absurd a (by decide)
  case lessEqual.within t => exact absurd h (relW "<=".toList _ _ rfl (by decide) (by decide) _ _ _ _ _)
  case greater.equal => rw [eqn] at h; exact absurd h (other .greater (by simp) _ _ _)
  case greater.less => obtain ⟨a, b, d⟩ := rel _ _ (by decide) (by decide) _ _ _ _ h; exact absurd a (by decide)
  case greater.lessEqual => obtain ⟨a, b, d⟩ := rel _ _ (by decide) (by decide) _ _ _ _ h; exact absurd a (by decide)
  case greater.greater => obtain ⟨a, b, d⟩ := rel _ _ (by decide) (by decide) _ _ _ _ h; exact ⟨rfl, b, d⟩
  case greater.greaterEqual => obtain ⟨a, b, d⟩ := rel _ _ (by decide) (by decide) _ _ _ _ h; exact absurd a (by decide)
  case greater.within t => exact absurd h (relW ">".toList _ _ rfl (by decide) (by decide) _ _ _ _ _)
  case greaterEqual.equal => rw [eqn] at h; exact absurd h (other .greaterEqual (by simp) _ _ _)
  case greaterEqual.less => obtain ⟨a, b, d⟩ := rel _ _ (by decide) (by decide) _ _ _ _ h; exact absurd a (by decide)
  case greaterEqual.lessEqual => obtain ⟨a, b, d⟩ := rel _ _ (by decide) (by decide) _ _ _ _ h; exact absurd a (by decide)
  case greaterEqual.greater => obtain ⟨a, b, d⟩ := rel _ _ (by decide) (by decide) _ _ _ _ h; exact absurd a (by decide)
  case greaterEqual.greaterEqual => obtain ⟨a, b, d⟩ := rel _ _ (by decide) (by decide) _ _ _ _ h; exact ⟨rfl, b, d⟩
  case greaterEqual.within t => exact absurd h (relW ">=".toList _ _ rfl (by decide) (by decide) _ _ _ _ _)
  case within.equal t => rw [eqn] at h; exact absurd h (other (.within t) (by simp) _ _ _)
  case within.less t => exact absurd h.symm (relW "<".toList _ _ rfl (by decide) (by decide) _ _ _ _ _)
  case within.lessEqual t => exact absurd h.symm (relW "<=".toList _ _ rfl (by decide) (by decide) _ _ _ _ _)
  case within.greater t => exact absurd h.symm (relW ">".toList _ _ rfl (by decide) (by decide) _ _ _ _ _)
  case within.greaterEqual t => exact absurd h.symm (relW ">=".toList _ _ rfl (by decide) (by decide) _ _ _ _ _)

example : Comparison.reporter .lessEqual 5 (-3) = "Obtained : 5\nPredicted: <= -3".toList := by decide

/-- **C108** The advice is added to the message of a check which fails, after the prefix, on a new line; if there is no advice, or none is sought, then nothing is added. No advice is sought for a check which
passes. -/
theorem C108_advice (n : Nat) (T : IntTy) (c : Comparison) (tutor : Option Tutor) (x y : Int) (m : Str) (h : compareWith n T c tutor x y = .ok (some m)) :
    (∃ a, tutor = some a ∧ useAdvisor n a.param T = true ∧ a.advice (converted a.param x) (converted a.param y) ≠ [] ∧
      m = c.reporter x y ++ (if a.leader = [] then [] else '\n' :: a.leader) ++ a.advice (converted a.param x) (converted a.param y)) ∨
    (m = c.reporter x y ∧ ∀ a, tutor = some a → useAdvisor n a.param T = true → a.advice (converted a.param x) (converted a.param y) = []) := by
  have hne : c.reporter x y ≠ [] := by
    have hp : ∀ a b, predictionMessage a b ≠ [] := fun x y => by rw [StringReports.prediction_eq]; exact StringReports.left_ne (StringReports.left_ne (StringReports.left_ne (by decide) _) _) _
    by_cases hc : c = .equal
    · subst hc
      show appendLine "operator== returned false".toList (predictionMessage (shown x) (shown y)) ≠ []
      rw [Messages.appendLine_eq (by decide) (hp _ _)]
      exact StringReports.left_ne (StringReports.left_ne (by decide) _) _
    · obtain ⟨b, hb⟩ := reporter_shape c hc x y
      rw [hb]
      exact hp _ _
  unfold compareWith at h
  cases hb : c.holds n T x y with
  | throws => rw [hb] at h; cases h
  | ub => rw [hb] at h; cases h
  | ok b =>
    rw [hb] at h
    simp only [Res.bind] at h
    cases b with
    | true => simp at h
    | false =>
      simp only [Bool.false_eq_true, if_false, Res.ok.injEq, Option.some.injEq] at h
      unfold appendAdvice adviceFor at h
      cases tutor with
      | none =>
        simp only [if_true] at h
        exact Or.inr ⟨h.symm, fun a e => by cases e⟩
      | some a =>
        dsimp only at h
        by_cases hu : useAdvisor n a.param T = true
        · simp only [hu, if_true] at h
          by_cases ha : a.advice (converted a.param x) (converted a.param y) = []
          · simp only [ha, if_true] at h
            exact Or.inr ⟨h.symm, fun a' e _ => by cases e; exact ha⟩
          · simp only [ha, if_false] at h
            refine Or.inl ⟨a, rfl, hu, ha, ?_⟩
            by_cases hl : a.leader = []
            · rw [hl, if_pos rfl]
              unfold appendLine Text.appendIndented at h
              rw [hl, if_pos rfl] at h
              rw [← h, List.append_nil]
            · rw [if_neg hl, ← h, Messages.appendLine_eq hne hl]
              simp
        · simp only [hu, Bool.false_eq_true, if_false, if_true] at h
          exact Or.inr ⟨h.symm, fun a' e hu' => by cases e; exact absurd hu' hu⟩

example : compareWith 32 (.signed 32) .less (some ⟨.signed 32, fun _ _ => "Try harder".toList, "Advice: ".toList⟩) 5 3 = .ok (some "Obtained : 5\nPredicted: < 3\nAdvice: Try harder".toList) := by decide

/-- **C108 (part)** If advice is sought, then the advisor is given the values which have been compared, unless its parameters are unsigned and the values are signed.
What is missing: this case, `C108_advice_violated`. -/
theorem C108_advice_partial (n : Nat) (A T : IntTy) (h : useAdvisor n A T = true) (hA : ∀ v w, A = .unsigned v → T ≠ .signed w) (hT : ∀ w, T = .signed w → 1 ≤ w) (hn : 2 ≤ n) :
    Lossless T A ∧ ∀ x, inRange T x → converted A x = x := by
  have conv : ∀ x, inRange A x → (∀ w, A = .signed w → 1 ≤ w) → converted A x = x := by
    intro x hx hw
    cases A with
    | bool => simp only [inRange] at hx; simp only [converted]; rcases hx with rfl | rfl <;> rfl
    | unsigned v =>
      simp only [inRange] at hx
      simp only [converted]
      exact Int.emod_eq_of_lt hx.1 hx.2
    | signed v =>
      simp only [inRange] at hx
      simp only [converted]
      have hv := pow_split (hw v rfl)
      have hv' : ((2 ^ v : Nat) : Int) = 2 ^ v := by norm_cast
      rw [Int.bmod_eq_of_le (by rw [hv', hv]; omega) (by rw [hv', hv]; omega)]
  unfold useAdvisor at h
  simp only [decide_eq_true_eq] at h
  unfold commonType at h
  by_cases e : A = T
  · subst e
    exact ⟨fun x hx => hx, fun x hx => conv x hx hT⟩
  · rw [if_neg e] at h
    have step : Lossless T A ∧ ∀ w, A = .signed w → 1 ≤ w := by
      have key : ∀ (v : Nat), (promoted n T = .signed v ∨ promoted n T = .unsigned v) → ∀ x, inRange T x → inRange (promoted n T) x := by
        intro v _ x hx
        cases T with
        | bool =>
          have := pow_mono (v := 1) (w := n - 1) (by omega)
          simp only [promoted, inRange] at *
          omega
        | unsigned w =>
          simp only [promoted]
          split
          · rename_i hw
            have := pow_mono (v := w) (w := n - 1) (by omega)
            have := pow_pos (n - 1)
            simp only [inRange] at *
            omega
          · exact hx
        | signed w =>
          simp only [promoted]
          split
          · rename_i hw
            have := pow_mono (v := w - 1) (w := n - 1) (by omega)
            simp only [inRange] at *
            omega
          · exact hx
      cases A with
      | bool =>
        exfalso
        have : promoted n IntTy.bool = .signed n := rfl
        rw [this] at h
        cases hp : promoted n T with
        | bool => cases T <;> simp only [promoted] at hp <;> (try split at hp) <;> cases hp
        | signed w => rw [hp] at h; cases h
        | unsigned w => rw [hp] at h; simp only [usual] at h; split at h <;> cases h
      | unsigned v =>
        refine ⟨?_, fun w e => by cases e⟩
        have hv : n ≤ v := by
          rcases Nat.lt_or_ge v n with k | k
          · exfalso
            have hp : promoted n (.unsigned v) = .signed n := by simp only [promoted]; rw [if_pos k]
            rw [hp] at h
            cases hq : promoted n T with
            | bool => cases T <;> simp only [promoted] at hq <;> (try split at hq) <;> cases hq
            | signed w => rw [hq] at h; cases h
            | unsigned w =>
              rw [hq] at h
              simp only [usual] at h
              split at h
              · have : n ≤ w := by assumption
                cases h; omega
              · cases h
          · exact k
        have hp : promoted n (.unsigned v) = .unsigned v := by simp only [promoted]; rw [if_neg (by omega)]
        rw [hp] at h
        intro x hx
        cases T with
        | bool =>
          have := pow_mono (v := 1) (w := v) (by omega)
          simp only [inRange] at *
          omega
        | signed w => exact absurd rfl (hA v w rfl)
        | unsigned w =>
          have hw : w ≤ v := by
            simp only [promoted] at h
            split at h
            · omega
            · simp only [usual] at h
              simp only [IntTy.unsigned.injEq] at h
              omega
          have := pow_mono hw
          simp only [inRange] at *
          omega
      | signed v =>
        have hv : n ≤ v := by
          rcases Nat.lt_or_ge v n with k | k
          · exfalso
            have hp : promoted n (.signed v) = .signed n := by simp only [promoted]; rw [if_pos k]
            rw [hp] at h
            cases hq : promoted n T with
            | bool => cases T <;> simp only [promoted] at hq <;> (try split at hq) <;> cases hq
            | signed w => rw [hq] at h; simp only [usual] at h; simp only [IntTy.signed.injEq] at h; omega
            | unsigned w =>
              rw [hq] at h
              simp only [usual] at h
              split at h
              · cases h
              · simp only [IntTy.signed.injEq] at h; omega
          · exact k
        refine ⟨?_, fun w e => by cases e; omega⟩
        have hp : promoted n (.signed v) = .signed v := by simp only [promoted]; rw [if_neg (by omega)]
        rw [hp] at h
        intro x hx
        cases hq : promoted n T with
        | bool => cases T <;> simp only [promoted] at hq <;> (try split at hq) <;> cases hq
        | signed w =>
          have hx' := key w (Or.inl hq) x hx
          rw [hq] at h hx'
          simp only [usual] at h
          simp only [IntTy.signed.injEq] at h
          have := pow_mono (v := w - 1) (w := v - 1) (by omega)
          simp only [inRange] at *
          omega
        | unsigned w =>
          have hx' := key w (Or.inr hq) x hx
          rw [hq] at h hx'
          simp only [usual] at h
          split at h
          · cases h
          · have := pow_mono (v := w) (w := v - 1) (by omega)
            have := pow_pos (v - 1)
            simp only [inRange] at *
            omega
    exact ⟨step.1, fun x hx => conv x (step.1 x hx) step.2⟩

example : useAdvisor 32 (.signed 64) (.unsigned 32) = true ∧ useAdvisor 32 (.unsigned 64) (.unsigned 8) = true ∧ useAdvisor 32 (.signed 32) (.signed 64) = false := by decide

/-- **C108 (violated)** An advisor with unsigned parameters is used for signed values, although this conversion is narrowing: it is given the wrong values. -/
theorem C108_advice_violated :
    useAdvisor 32 (.unsigned 32) (.signed 32) = true ∧ inRange (.signed 32) (-1) ∧ converted (.unsigned 32) (-1) = 4294967295 ∧ ¬ Lossless (.signed 32) (.unsigned 32) := by
  refine ⟨by decide, by unfold inRange; decide, by decide, fun h => ?_⟩
  have := h (-1) (by unfold inRange; decide)
  simp only [inRange] at this
  exact absurd this.1 (by decide)

/-- **C108 (violated)** An advisor whose parameters are narrower than `int` is ignored for values of all other types, including those which could be passed on without loss. -/
theorem C108_ignored_violated : Lossless (.signed 8) (.signed 16) ∧ useAdvisor 32 (.signed 16) (.signed 8) = false := by
  refine ⟨fun x hx => ?_, by decide⟩
  simp only [inRange] at *
  simp only [Nat.reducePow, Nat.reduceSub] at *
  omega

end Verif.Props
