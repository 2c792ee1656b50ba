import Verif.Spec.SummaryText
import Verif.Lemmas.StateTransition
set_option linter.unusedSimpArgs false
set_option linter.unusedVariables false
namespace Verif.SummaryText
open Verif.Text Verif.Logger Verif.Spec.SummaryText

@[simp] theorem bind_ok {α β : Type} (a : α) (f : α → Res β) : (Res.ok a).bind f = f a := rfl

theorem foldl_max (ss : List Str) : ∀ m, m ≤ ss.foldl (fun m t => max m t.length) m ∧
    ∀ s ∈ ss, s.length ≤ ss.foldl (fun m t => max m t.length) m := by
  induction ss with
  | nil => intro m; simp
  | cons s ss ih =>
    intro m
    obtain ⟨h1, h2⟩ := ih (max m s.length)
    refine ⟨by simp only [List.foldl_cons]; omega, ?_⟩
    intro t ht
    simp only [List.foldl_cons]
    rcases List.mem_cons.1 ht with rfl | ht
    · omega
    · exact h2 t ht

theorem maxSize_ok (ss : List Str) (h : ss ≠ []) : ∃ m, maxSize ss = .ok m ∧ ∀ s ∈ ss, s.length ≤ m := by
  cases ss with
  | nil => exact absurd rfl h
  | cons s ss =>
    refine ⟨_, rfl, ?_⟩
    obtain ⟨h1, h2⟩ := foldl_max ss s.length
    intro t ht
    rcases List.mem_cons.1 ht with rfl | ht
    · exact h1
    · exact h2 t ht

theorem maxSize_mem (ss : List Str) (m : Nat) (h : maxSize ss = .ok m) : ∃ s ∈ ss, s.length = m := by
  cases ss with
  | nil => cases h
  | cons s ss =>
    simp only [maxSize, Res.ok.injEq] at h
    subst h
    have key : ∀ (ss : List Str) (m : Nat), ss.foldl (fun m t => max m t.length) m = m ∨ ∃ t ∈ ss, t.length = ss.foldl (fun m t => max m t.length) m := by
      intro ss
      induction ss with
      | nil => intro m; simp
      | cons t ss ih =>
        intro m
        simp only [List.foldl_cons]
        rcases ih (max m t.length) with h | ⟨u, hu, he⟩
        · rw [h]
          rcases Nat.le_total m t.length with hl | hl
          · right; exact ⟨t, by simp, by omega⟩
          · left; omega
        · right; exact ⟨u, List.mem_cons_of_mem _ hu, he⟩
    rcases key ss s.length with h | ⟨t, ht, he⟩
    · exact ⟨s, by simp, h.symm⟩
    · exact ⟨t, List.mem_cons_of_mem _ ht, he⟩

theorem blank_replicate (n : Nat) : Blank (List.replicate n ' ') := fun c hc => (List.mem_replicate.1 hc).2

theorem blank_append {s t : Str} (hs : Blank s) (ht : Blank t) : Blank (s ++ t) := by
  intro c hc
  rcases List.mem_append.1 hc with h | h
  · exact hs c h
  · exact ht c h

/-- the line of one row -/
def lineOf (ind : Str) (m c f : Nat) (r : Row) : Str :=
  ind ++ r.label ++ (List.replicate (m - (ind ++ r.label).length) ' ' ++ [' ', ' ']) ++
    (List.replicate (c - (digits r.checks).length) ' ' ++ digits r.checks ++ [';']) ++ List.replicate 2 ' ' ++ "Failures: ".toList ++
    (List.replicate (f - (digits r.failures).length) ' ' ++ digits r.failures) ++ r.remark

theorem lineOf_laid (ind : Str) (m c f : Nat) (r : Row) (hm : (ind ++ r.label).length ≤ m) (hc : (digits r.checks).length ≤ c)
    (hf : (digits r.failures).length ≤ f) : LaidOut ind (m + 2 + c) (m + 2 + c + 13 + f) r (lineOf ind m c f r) := by
  refine ⟨List.replicate (m - (ind ++ r.label).length) ' ' ++ [' ', ' '] ++ List.replicate (c - (digits r.checks).length) ' ',
    List.replicate (f - (digits r.failures).length) ' ', ?_, blank_replicate _, ?_, ?_, ?_, ?_⟩
  · refine blank_append (blank_append (blank_replicate _) ?_) (blank_replicate _)
    intro c hc; simpa using hc
  · simp only [List.length_append, List.length_cons, List.length_nil]; omega
  · have e : ";  Failures: ".toList = [';'] ++ List.replicate 2 ' ' ++ "Failures: ".toList := by decide
    rw [e]
    simp only [lineOf, List.append_assoc]
  · simp only [List.length_append, List.length_replicate, List.length_cons, List.length_nil] at hm ⊢
    omega
  · have e : (";  Failures: ".toList).length = 13 := by decide
    simp only [List.length_append, List.length_replicate, List.length_cons, List.length_nil, e] at hm ⊢
    omega

theorem summaryLines_eq (log : Summary) (ind₀ ind₁ : Str) : ∃ m c f, summaryLines log ind₀ ind₁ =
      .ok ((rows log).map (lineOf (ind₀ ++ ind₁) m c f)) ∧
    ∀ r ∈ rows log, (ind₀ ++ ind₁ ++ r.label).length ≤ m ∧ (digits r.checks).length ≤ c ∧ (digits r.failures).length ≤ f := by
  obtain ⟨m, hm, hm'⟩ := maxSize_ok (labels.map fun l => ind₀ ++ ind₁ ++ l) (by simp [labels])
  obtain ⟨c, hc, hc'⟩ := maxSize_ok ((checkNums log).map digits) (by simp [checkNums])
  obtain ⟨f, hf, hf'⟩ := maxSize_ok ((failureNums log).map digits) (by simp [failureNums])
  refine ⟨m, max c 8, max f 2, ?_, ?_⟩
  · unfold summaryLines
    simp only [padRight, hm, bind_ok, padLeft, hc, hf]
    have hlen : 10 - min 8 (List.replicate (max c 8 - (digits log.standardTopLevelChecks).length) ' ' ++ digits log.standardTopLevelChecks).length = 2 := by
      have := hc' (digits log.standardTopLevelChecks) (by simp [checkNums])
      simp only [List.length_append, List.length_replicate]; omega
    simp only [labels, checkNums, failureNums, List.map_cons, List.map_nil, hlen, List.zipWith_cons_cons, List.zipWith_nil_left]
    by_cases h0 : log.standardTopLevelChecks = 0
    · simp only [h0, ne_eq, not_true_eq_false, if_false]
      simp only [rows, h0, if_true, List.map_cons, List.map_nil, lineOf, List.append_nil, List.append_assoc]
    · simp only [h0, ne_eq, not_false_eq_true, if_true, appendFront]
      simp only [rows, h0, if_false, List.map_cons, List.map_nil, lineOf, List.append_nil, List.append_assoc]
      rfl
  · intro r hr
    simp only [rows, List.mem_cons, List.not_mem_nil, or_false] at hr
    rcases hr with rfl | rfl | rfl | rfl | rfl | rfl <;>
    · refine ⟨hm' _ (by simp [labels]), ?_, ?_⟩
      · exact Nat.le_trans (hc' _ (by simp [checkNums])) (Nat.le_max_left _ _)
      · exact Nat.le_trans (hf' _ (by simp [failureNums])) (Nat.le_max_left _ _)

theorem fold_all (ss : List Str) (acc : Str) : ss.foldl (fun acc s => acc ++ s ++ ['\n']) acc = acc ++ ss.flatMap (· ++ ['\n']) := by
  induction ss generalizing acc with
  | nil => simp
  | cons s ss ih => rw [List.foldl_cons, ih, List.flatMap_cons]; simp only [List.append_assoc]

theorem fold_some (rs : List Row) (g : Row → Str) (acc : Str) :
    (List.zip (rs.map Row.checks) (rs.map g)).foldl (fun acc p => if p.1 ≠ 0 then acc ++ (p.2 ++ ['\n']) else acc) acc =
      acc ++ ((rs.filter fun r => decide (r.checks ≠ 0)).map g).flatMap (· ++ ['\n']) := by
  induction rs generalizing acc with
  | nil => simp
  | cons r rs ih =>
    simp only [List.map_cons, List.zip_cons_cons, List.foldl_cons, ih]
    by_cases h : r.checks = 0 <;> simp [h]

theorem indent_nil (ind : Str) : indent [] ind = [] := by simp [indent]

theorem reportTime_ne (render : Int → Nat → Str) (log : Summary) (d : Option Int) : reportTime render log d ≠ [] := by
  unfold reportTime
  simp

theorem heading_eq (render : Int → Nat → Str) (log : Summary) (suffix : Str) (duration : Option Int) (t : Bool) (ind : Str) :
    (if t = true then appendIndented (indent (if log.name.toList = [] then [] else log.name.toList ++ suffix) ind)
        (reportTime render log duration) ind
      else indent (if log.name.toList = [] then [] else log.name.toList ++ suffix) ind ++ ['\n']) =
      heading render log suffix duration t ind := by
  unfold heading appendIndented
  simp only [reportTime_ne, if_false]
  by_cases h : log.name.toList = []
  · simp [h, indent_nil]
  · simp [h]

theorem heading_ne (render : Int → Nat → Str) (log : Summary) (suffix : Str) (duration : Option Int) (t : Bool) (ind : Str) :
    heading render log suffix duration t ind ≠ [] := by
  unfold heading
  cases t
  · simp
  · simp only [if_true]
    have h := reportTime_ne render log duration
    by_cases hn : (if log.name.toList = [] then [] else indent (log.name.toList ++ suffix) ind) = []
    · simp only [hn, if_true]; exact h
    · simp only [hn, if_false]; simp

theorem summarize_eq (render : Int → Nat → Str) (log : Summary) (messages suffix : Str) (duration : Option Int) (v : Detail)
    (ind₀ ind₁ : Str) : ∃ m c f, (∀ r ∈ rows log, (ind₀ ++ ind₁ ++ r.label).length ≤ m ∧ (digits r.checks).length ≤ c ∧
        (digits r.failures).length ≤ f) ∧
    summarize render log messages suffix duration v ind₀ ind₁ = .ok (heading render log suffix duration v.timings ind₀ ++
      ((shown v.absentChecks log).map (lineOf (ind₀ ++ ind₁) m c f)).flatMap (· ++ ['\n']) ++ criticalText log.criticalFailures ++
      messagesText v.failureMessages messages (ind₀ ++ ind₁)) := by
  obtain ⟨m, c, f, h1, h2⟩ := summaryLines_eq log ind₀ ind₁
  refine ⟨m, c, f, h2, ?_⟩
  unfold summarize
  simp only [h1, bind_ok, heading_eq]
  have hlines : ∀ acc : Str, (if v.absentChecks = true then
        ((rows log).map (lineOf (ind₀ ++ ind₁) m c f)).foldl (fun acc s => acc ++ s ++ ['\n']) acc
      else (List.zip (checkNums log) ((rows log).map (lineOf (ind₀ ++ ind₁) m c f))).foldl
        (fun acc p => if p.1 ≠ 0 then acc ++ (p.2 ++ ['\n']) else acc) acc) =
      acc ++ ((shown v.absentChecks log).map (lineOf (ind₀ ++ ind₁) m c f)).flatMap (· ++ ['\n']) := by
    intro acc
    have hcheck : checkNums log = (rows log).map Row.checks := rfl
    rw [fold_all, hcheck, fold_some]
    cases hv : v.absentChecks
    · simp only [Bool.false_eq_true, if_false, shown, Bool.false_or]
    · simp only [if_true, shown, Bool.true_or, List.filter_true]
  rw [hlines]
  have hcrit : ∀ acc : Str, (if log.criticalFailures ≠ 0 then
        acc ++ "\n******  Critical Failures:  ".toList ++ digits log.criticalFailures ++ "  ******\n\n".toList else acc) =
      acc ++ criticalText log.criticalFailures := by
    intro acc
    unfold criticalText
    by_cases h : log.criticalFailures = 0 <;> simp [h]
  rw [hcrit]
  have hmess : ∀ acc : Str, acc ≠ [] → (if v.failureMessages = true then appendIndented acc messages (ind₀ ++ ind₁) else acc) =
      acc ++ messagesText v.failureMessages messages (ind₀ ++ ind₁) := by
    intro acc hacc
    unfold messagesText appendIndented
    cases v.failureMessages
    · simp
    · by_cases hm : messages = [] <;> simp [hm, hacc]
  rw [hmess]
  simp [heading_ne]

/-! ### Reading the text -/

theorem digits_ne (n : Nat) : digits n ≠ [] := by
  intro h
  have := congrArg (Nat.ofDigitChars 10 · 0) h
  have h2 : (digits n).length = 0 := by rw [h]; rfl
  unfold digits at h2
  have := Nat.length_toDigits_pos (b := 10) (n := n)
  omega

theorem digits_digit (n : Nat) : ∀ c ∈ digits n, c.isDigit := fun c hc => Nat.isDigit_of_mem_toDigits (by omega) (by omega) hc

theorem drop_blanks (i : Nat) (n : Nat) (u : Str) : (List.replicate i ' ' ++ digits n ++ u).dropWhile (· == ' ') = digits n ++ u := by
  induction i with
  | zero =>
    cases h : digits n with
    | nil => exact absurd h (digits_ne n)
    | cons c t =>
      have hc := digits_digit n c (by rw [h]; simp)
      have : c ≠ ' ' := by rintro rfl; revert hc; decide
      simp [this]
  | succ i ih =>
    rw [List.replicate_succ, List.cons_append, List.cons_append, List.dropWhile_cons]
    simpa using ih

/-- a number after blanks can be read, whatever the number of blanks -/
theorem read_number {i j a b : Nat} {u v : Str} (h : List.replicate i ' ' ++ digits a ++ u = List.replicate j ' ' ++ digits b ++ v)
    (hu : ∀ c, u.head? = some c → ¬ c.isDigit) (hv : ∀ c, v.head? = some c → ¬ c.isDigit) : a = b ∧ u = v := by
  have := congrArg (List.dropWhile (· == ' ')) h
  rw [drop_blanks, drop_blanks] at this
  exact StateTransition.digits_inj this hu hv

/-- the remark begins with something which is not a digit -/
def RemarkOk (r : Row) : Prop := ∀ c, r.remark.head? = some c → ¬ c.isDigit

theorem read_line {ind t t' : Str} {m c f m' c' f' : Nat} {r r' : Row} (hl : r.label = r'.label) (hr : RemarkOk r) (hr' : RemarkOk r')
    (h : lineOf ind m c f r ++ '\n' :: t = lineOf ind m' c' f' r' ++ '\n' :: t') :
    r.checks = r'.checks ∧ r.failures = r'.failures ∧ r.remark ++ '\n' :: t = r'.remark ++ '\n' :: t' := by
  unfold lineOf at h
  simp only [List.append_assoc] at h
  have h := List.append_cancel_left h
  rw [hl] at h
  have h := List.append_cancel_left h
  have e : ∀ (i j n : Nat) (u : Str), List.replicate i ' ' ++ ([' ', ' '] ++ (List.replicate j ' ' ++ (digits n ++ u))) =
      List.replicate (i + 2 + j) ' ' ++ digits n ++ u := by
    intro i j n u
    rw [show ([' ', ' '] : Str) = List.replicate 2 ' ' from rfl, List.replicate_add, List.replicate_add]
    simp only [List.append_assoc]
  rw [e, e] at h
  obtain ⟨h1, h⟩ := read_number h (by intro c hc; simp at hc; subst hc; decide) (by intro c hc; simp at hc; subst hc; decide)
  have h := List.append_cancel_left (List.append_cancel_left (List.append_cancel_left h))
  rw [← List.append_assoc, ← List.append_assoc (List.replicate _ _) (digits r'.failures)] at h
  have hd : ∀ (r : Row) (t : Str), RemarkOk r → ∀ c, (r.remark ++ '\n' :: t).head? = some c → ¬ c.isDigit := by
    intro r t hr c hc
    cases hk : r.remark with
    | nil => rw [hk] at hc; simp at hc; subst hc; decide
    | cons d k => rw [hk] at hc; simp at hc; subst hc; exact hr d (by rw [hk]; rfl)
  obtain ⟨h2, h⟩ := read_number h (hd r t hr) (hd r' t' hr')
  exact ⟨h1, h2, h⟩

/-- labels which cannot be confused -/
def Apart (r s : Row) : Prop := ¬ r.label <+: s.label ∧ ¬ s.label <+: r.label

theorem apart_ne {ind u v : Str} {m c f m' c' f' : Nat} {r s : Row} (h : Apart r s) : lineOf ind m c f r ++ u ≠ lineOf ind m' c' f' s ++ v := by
  intro he
  unfold lineOf at he
  simp only [List.append_assoc] at he
  have he := List.append_cancel_left he
  have key : ∀ a b x y : Str, a ++ x = b ++ y → a <+: b ∨ b <+: a := by
    intro a b x y hxy
    have h1 := List.prefix_append a x
    rw [hxy] at h1
    exact List.prefix_or_prefix_of_prefix h1 (List.prefix_append _ _)
  rcases key _ _ _ _ he with hp | hp
  · exact h.1 hp
  · exact h.2 hp

/-- what may follow the lines -/
def EndOk (e : Str) : Prop := ∀ c, e.head? = some c → c = '\n'

theorem line_end {ind u e : Str} {m c f : Nat} {r : Row} (hi : '\n' ∉ ind) (hl : r.label ≠ []) (hl' : '\n' ∉ r.label) (he : EndOk e) :
    lineOf ind m c f r ++ u ≠ e := by
  intro h
  subst h
  cases hk : ind with
  | cons d k =>
    have := he d (by simp [lineOf, hk])
    subst this
    exact hi (by rw [hk]; simp)
  | nil =>
    cases hlab : r.label with
    | nil => exact hl hlab
    | cons d k =>
      have := he d (by simp [lineOf, hk, hlab])
      subst this
      exact hl' (by rw [hlab]; simp)

def textOf (ind : Str) (m c f : Nat) (p : Row → Bool) (rs : List Row) : Str :=
  ((rs.filter p).map (lineOf ind m c f)).flatMap (· ++ ['\n'])

theorem textOf_cons (ind : Str) (m c f : Nat) (p : Row → Bool) (r : Row) (rs : List Row) (e : Str) :
    textOf ind m c f p (r :: rs) ++ e =
      if p r then lineOf ind m c f r ++ '\n' :: (textOf ind m c f p rs ++ e) else textOf ind m c f p rs ++ e := by
  unfold textOf
  by_cases h : p r <;> simp [h]

/-- the text of rows either is over or begins with a line of one of the rows -/
theorem textOf_form (ind : Str) (m c f : Nat) (p : Row → Bool) (rs : List Row) (e : Str) :
    textOf ind m c f p rs ++ e = e ∨ ∃ s ∈ rs, ∃ v, textOf ind m c f p rs ++ e = lineOf ind m c f s ++ v := by
  induction rs with
  | nil => left; rfl
  | cons r rs ih =>
    rw [textOf_cons]
    by_cases h : p r
    · rw [if_pos h]; right; exact ⟨r, by simp, _, rfl⟩
    · rw [if_neg h]
      rcases ih with h | ⟨s, hs, v, hv⟩
      · left; exact h
      · right; exact ⟨s, List.mem_cons_of_mem _ hs, v, hv⟩

/-- two rows say the same -/
def Same (absent : Bool) (r r' : Row) : Prop := r.checks = r'.checks ∧ ((absent = true ∨ r.checks ≠ 0) → r.failures = r'.failures ∧ r.remark = r'.remark)

theorem read_rows {ind e e' : Str} {m c f m' c' f' : Nat} (absent : Bool) (hi : '\n' ∉ ind) (he : EndOk e) (he' : EndOk e') :
    ∀ (rs rs' : List Row), List.Forall₂ (fun r r' => r.label = r'.label) rs rs' → List.Pairwise Apart rs → List.Pairwise Apart rs' →
    (∀ r ∈ rs, r.label ≠ [] ∧ '\n' ∉ r.label ∧ RemarkOk r ∧ '\n' ∉ r.remark) →
    (∀ r ∈ rs', r.label ≠ [] ∧ '\n' ∉ r.label ∧ RemarkOk r ∧ '\n' ∉ r.remark) →
    textOf ind m c f (fun r => absent || decide (r.checks ≠ 0)) rs ++ e = textOf ind m' c' f' (fun r => absent || decide (r.checks ≠ 0)) rs' ++ e' →
    List.Forall₂ (Same absent) rs rs' ∧ e = e' := by
  intro rs rs' hall
  induction hall with
  | nil => intro _ _ _ _ h; exact ⟨.nil, by simpa [textOf] using h⟩
  | @cons r r' rs rs' hl hall ih =>
    intro ha ha' hp hp' h
    obtain ⟨ha1, ha2⟩ := List.pairwise_cons.1 ha
    obtain ⟨ha1', ha2'⟩ := List.pairwise_cons.1 ha'
    have hs : ∀ s ∈ rs, s.label ≠ [] ∧ '\n' ∉ s.label ∧ RemarkOk s ∧ '\n' ∉ s.remark := fun s hs => hp s (List.mem_cons_of_mem _ hs)
    have hs' : ∀ s ∈ rs', s.label ≠ [] ∧ '\n' ∉ s.label ∧ RemarkOk s ∧ '\n' ∉ s.remark := fun s hs => hp' s (List.mem_cons_of_mem _ hs)
    obtain ⟨q1, q2, q3, q4⟩ := hp r (by simp)
    obtain ⟨q1', q2', q3', q4'⟩ := hp' r' (by simp)
    rw [textOf_cons, textOf_cons] at h
    by_cases h1 : (absent || decide (r.checks ≠ 0)) = true
    · by_cases h2 : (absent || decide (r'.checks ≠ 0)) = true
      · rw [if_pos h1, if_pos h2] at h
        obtain ⟨k1, k2, k3⟩ := read_line hl q3 q3' h
        have hrem : ∀ (a b : Str) (t t' : Str), '\n' ∉ a → '\n' ∉ b → a ++ '\n' :: t = b ++ '\n' :: t' → a = b ∧ t = t' := by
          intro a
          induction a with
          | nil =>
            intro b t t' _ hb h
            cases b with
            | nil => simpa using h
            | cons d b => simp at h; exact absurd h.1 (by intro hd; subst hd; simp at hb)
          | cons d a iha =>
            intro b t t' ha hb h
            cases b with
            | nil => simp at h; exact absurd h.1 (by intro hd; subst hd; simp at ha)
            | cons d' b =>
              simp only [List.cons_append, List.cons.injEq] at h
              obtain ⟨x, y⟩ := iha b t t' (fun hm => ha (List.mem_cons_of_mem _ hm)) (fun hm => hb (List.mem_cons_of_mem _ hm)) h.2
              exact ⟨by rw [h.1, x], y⟩
        obtain ⟨k4, k5⟩ := hrem _ _ _ _ q4 q4' k3
        obtain ⟨i1, i2⟩ := ih ha2 ha2' hs hs' k5
        exact ⟨.cons ⟨k1, fun _ => ⟨k2, k4⟩⟩ i1, i2⟩
      · exfalso
        rw [if_pos h1, if_neg h2] at h
        rcases textOf_form ind m' c' f' (fun r => absent || decide (r.checks ≠ 0)) rs' e' with hx | ⟨s, hs1, v, hv⟩
        · rw [hx] at h; exact line_end hi q1 q2 he' h
        · rw [hv] at h
          exact apart_ne (r := r) (s := s) (by have := ha1' s hs1; unfold Apart at this ⊢; rw [hl]; exact this) h
    · by_cases h2 : (absent || decide (r'.checks ≠ 0)) = true
      · exfalso
        rw [if_neg h1, if_pos h2] at h
        rcases textOf_form ind m c f (fun r => absent || decide (r.checks ≠ 0)) rs e with hx | ⟨s, hs1, v, hv⟩
        · rw [hx] at h; exact line_end hi q1' q2' he h.symm
        · rw [hv] at h
          exact apart_ne (r := r') (s := s) (by have := ha1 s hs1; unfold Apart at this ⊢; rw [← hl]; exact this) h.symm
      · rw [if_neg h1, if_neg h2] at h
        obtain ⟨i1, i2⟩ := ih ha2 ha2' hs hs' h
        have z1 : absent = false ∧ r.checks = 0 := by simpa using h1
        have z2 : absent = false ∧ r'.checks = 0 := by simpa using h2
        refine ⟨.cons ⟨by rw [z1.2, z2.2], ?_⟩ i1, i2⟩
        rintro (hx | hx)
        · rw [z1.1] at hx; cases hx
        · exact absurd z1.2 hx

theorem not_mem_digits (n : Nat) {d : Char} (hd : ¬ d.isDigit) : d ∉ digits n := fun h => hd (digits_digit n d h)

theorem rows_ok (log : Summary) : ∀ r ∈ rows log, r.label ≠ [] ∧ '\n' ∉ r.label ∧ RemarkOk r ∧ '\n' ∉ r.remark := by
  intro r hr
  simp only [rows, List.mem_cons, List.not_mem_nil, or_false] at hr
  rcases hr with rfl | rfl | rfl | rfl | rfl | rfl
  · dsimp only
    refine ⟨by decide, by decide, ?_, ?_⟩
    · intro c hc
      split at hc
      · cases hc
      · rw [show "  [Deep checks: ".toList = ' ' :: " [Deep checks: ".toList from by decide] at hc
        simp at hc; subst hc; decide
    · split
      · simp
      · intro hm
        rcases List.mem_append.1 hm with hm | hm
        · rcases List.mem_append.1 hm with hm | hm
          · revert hm; decide
          · exact not_mem_digits _ (by decide) hm
        · revert hm; decide
  all_goals
    dsimp only
    refine ⟨by decide, by decide, ?_, by decide⟩
    intro c hc; cases hc

theorem rows_labels (log log' : Summary) : List.Forall₂ (fun r r' => r.label = r'.label) (rows log) (rows log') := by
  refine .cons rfl (.cons rfl (.cons rfl (.cons rfl (.cons rfl (.cons rfl .nil)))))

theorem rows_apart (log : Summary) : List.Pairwise Apart (rows log) := by
  have : List.Pairwise (fun a b : Str => ¬ a <+: b ∧ ¬ b <+: a) labels := by decide
  have e : labels = (rows log).map Row.label := rfl
  rw [e, List.pairwise_map] at this
  exact this

end Verif.SummaryText
