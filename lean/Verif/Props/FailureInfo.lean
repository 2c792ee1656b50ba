import Verif.Model.FailureInfo
/-
C47, C48: records of failures are written and read back; runs of a test are compared.
-/
namespace Verif.Props
open Verif.Text Verif.FailureInfo

/-- Some line of the text consists of a dollar sign. -/
def DollarLine (m : Str) : Prop :=
  ∃ before after : Str, m = before ++ '$' :: after ∧ (before = [] ∨ ∃ b, before = b ++ ['\n']) ∧ (after = [] ∨ ∃ a, after = '\n' :: a)

namespace Failure

theorem takeWhile_append_stop {p : Char → Bool} {l r : Str} {c : Char} (h : ∀ x ∈ l, p x = true) (hc : p c = false) : (l ++ c :: r).takeWhile p = l := by
  induction l with
  | nil => simp [hc]
  | cons x l ih => simp [h x (by simp), ih (fun y hy => h y (by simp [hy]))]

theorem dropWhile_append_stop {p : Char → Bool} {l r : Str} {c : Char} (h : ∀ x ∈ l, p x = true) (hc : p c = false) : (l ++ c :: r).dropWhile p = c :: r := by
  induction l with
  | nil => simp [hc]
  | cons x l ih => simp [h x (by simp), ih (fun y hy => h y (by simp [hy]))]

theorem getline_line {l r : Str} (h : '\n' ∉ l) : getline (l ++ '\n' :: r) = some (l, r) := by
  have hl : ∀ x ∈ l, (decide (x ≠ '\n')) = true := fun x hx => decide_eq_true (fun e => h (e ▸ hx))
  have hc : (decide ('\n' ≠ '\n')) = false := by decide
  rw [getline, if_neg (by simp), takeWhile_append_stop (p := fun x => decide (x ≠ '\n')) hl hc, dropWhile_append_stop (p := fun x => decide (x ≠ '\n')) hl hc]
  rfl

theorem indent_none (l : Str) : indent l [] = l := by
  unfold indent
  split
  · rename_i h; exact h.symm
  · rfl

theorem popBreak_append (m : Str) : popBreak (m ++ ['\n']) = m := by simp [popBreak]

theorem popBreak_length (m : Str) : (popBreak m).length ≤ m.length := by
  unfold popBreak
  split <;> simp

/-- A text either is a single line or has a first line. -/
theorem first_line (m : Str) : '\n' ∉ m ∨ ∃ l m', m = l ++ '\n' :: m' ∧ '\n' ∉ l := by
  induction m with
  | nil => exact .inl (by simp)
  | cons c m ih =>
    by_cases hc : c = '\n'
    · exact .inr ⟨[], m, by simp [hc], by simp⟩
    · rcases ih with h | ⟨l, m', rfl, hl⟩
      · exact .inl (by simp [h, Ne.symm hc])
      · exact .inr ⟨c :: l, m', by simp, by simp [hl, Ne.symm hc]⟩

theorem dollar_single {m : Str} (h : '\n' ∉ m) : DollarLine m ↔ m = ['$'] := by
  constructor
  · rintro ⟨b, a, rfl, hb, ha⟩
    rcases hb with rfl | ⟨b', rfl⟩
    · rcases ha with rfl | ⟨a', rfl⟩
      · rfl
      · simp at h
    · simp at h
  · rintro rfl
    exact ⟨[], [], rfl, .inl rfl, .inl rfl⟩

theorem dollar_cons {l m : Str} (hl : '\n' ∉ l) : DollarLine (l ++ '\n' :: m) ↔ l = ['$'] ∨ DollarLine m := by
  constructor
  · rintro ⟨b, a, h, hb, ha⟩
    rcases List.append_eq_append_iff.mp h with ⟨c, rfl, hc⟩ | ⟨c, rfl, hc⟩
    · cases c with
      | nil => simp at hc
      | cons x c =>
        simp only [List.cons_append, List.cons.injEq] at hc
        obtain ⟨rfl, rfl⟩ := hc
        refine .inr ⟨c, a, rfl, ?_, ha⟩
        rcases hb with hb | ⟨b', hb⟩
        · simp at hb
        · rcases List.eq_nil_or_concat c with rfl | ⟨c', x, rfl⟩
          · exact .inl rfl
          · right
            refine ⟨c', ?_⟩
            rw [List.concat_eq_append] at hb ⊢
            have := congrArg List.getLast? hb
            rw [← List.cons_append, ← List.append_assoc, List.getLast?_concat, List.getLast?_concat] at this
            rw [Option.some.inj this]
    · rcases hb with rfl | ⟨b', rfl⟩
      · cases c with
        | nil => simp at hc
        | cons x c =>
          simp only [List.cons_append, List.cons.injEq] at hc
          obtain ⟨rfl, rfl⟩ := hc
          rcases ha with ha | ⟨a', ha⟩
          · simp at ha
          · cases c with
            | nil => exact .inl rfl
            | cons y c =>
              simp only [List.cons_append, List.cons.injEq] at ha
              exact absurd (by simp [ha.1]) hl
      · exact absurd (by simp) hl
  · rintro (rfl | ⟨b, a, rfl, hb, ha⟩)
    · exact ⟨[], '\n' :: m, rfl, .inl rfl, .inr ⟨m, rfl⟩⟩
    · refine ⟨l ++ '\n' :: b, a, by simp, .inr ?_, ha⟩
      rcases hb with rfl | ⟨b', rfl⟩
      · exact ⟨l, rfl⟩
      · exact ⟨l ++ '\n' :: b', by simp⟩

theorem readMessage_good (rest : Str) : ∀ (fuel : Nat) (m acc : Str), m.length + 2 ≤ fuel → ¬ DollarLine m →
    readMessage [] fuel acc (m ++ '\n' :: '$' :: '\n' :: rest) = some (acc ++ m, rest) := by
  intro fuel
  induction fuel with
  | zero => intro m acc h; omega
  | succ fuel ih =>
    intro m acc hf hd
    rcases first_line m with h | ⟨l, m', rfl, hl⟩
    · rw [readMessage, getline_line h]
      have hne : m ≠ ['$'] := fun e => hd ((dollar_single h).mpr e)
      obtain ⟨fuel', rfl⟩ : ∃ k, fuel = k + 1 := ⟨fuel - 1, by omega⟩
      have h2 : getline ('$' :: '\n' :: rest) = some (['$'], rest) := getline_line (l := ['$']) (by decide)
      simp only [if_neg hne, readMessage, h2, if_true, indent_none]
      rw [popBreak_append]
    · rw [List.append_assoc, List.cons_append, readMessage, getline_line hl]
      rw [dollar_cons hl] at hd
      have hne : l ≠ ['$'] := fun e => hd (.inl e)
      simp only [List.length_append, List.length_cons] at hf
      simp only [if_neg hne, indent_none]
      rw [ih m' _ (by omega) (fun h => hd (.inr h))]
      simp

theorem readMessage_bad (rest : Str) : ∀ (fuel : Nat) (m acc : Str), m.length + 2 ≤ fuel → DollarLine m →
    ∃ x r, readMessage [] fuel acc (m ++ '\n' :: '$' :: '\n' :: rest) = some (x, r) ∧ x.length < acc.length + m.length := by
  intro fuel
  induction fuel with
  | zero => intro m acc h; omega
  | succ fuel ih =>
    intro m acc hf hd
    rcases first_line m with h | ⟨l, m', rfl, hl⟩
    · have hm := (dollar_single h).mp hd
      subst hm
      rw [readMessage, getline_line h]
      refine ⟨_, _, by simp only [if_true]; rfl, ?_⟩
      have := popBreak_length acc
      simp only [List.length_singleton]
      omega
    · rw [List.append_assoc, List.cons_append, readMessage, getline_line hl]
      simp only [List.length_append, List.length_cons] at hf
      by_cases hne : l = ['$']
      · subst hne
        refine ⟨_, _, by simp only [if_true]; rfl, ?_⟩
        have := popBreak_length acc
        simp only [List.length_append, List.length_cons]
        omega
      · obtain ⟨x, r, e, hx⟩ := ih m' (acc ++ l ++ ['\n']) (by omega) (((dollar_cons hl).mp hd).resolve_left hne)
        refine ⟨x, r, ?_, ?_⟩
        · simp only [if_neg hne, indent_none]; exact e
        · simp only [List.length_append, List.length_cons, List.length_nil] at hx ⊢
          omega

theorem digit_not_space {c : Char} (h : c.isDigit = true) : isSpace c = false := by
  by_cases hs : isSpace c = true
  · simp only [isSpace, Bool.or_eq_true, decide_eq_true_eq] at hs
    rcases hs with ((((rfl | rfl) | rfl) | rfl) | rfl) | rfl <;> exact absurd h (by decide)
  · simpa using hs

/-- What reading the beginning of a written record leaves. -/
theorem readInfo_written (sp : Str) (hsp : ∀ c ∈ sp, isSpace c = true) (info : Info) (hi : info.checkIndex < 2 ^ 64) (rest : Str) :
    readInfo [] (sp ++ writeInfo info ++ rest) =
      match readMessage [] ((info.message ++ '\n' :: '$' :: '\n' :: rest).length + 1) [] (info.message ++ '\n' :: '$' :: '\n' :: rest) with
      | none => .throws
      | some (m, r) => .ok (some (⟨info.checkIndex, m⟩, r)) := by
  have e0 : writeInfo info ++ rest = marker ++ ' ' :: (Nat.toDigits 10 info.checkIndex ++ '\n' :: (info.message ++ '\n' :: '$' :: '\n' :: rest)) := by
    simp only [writeInfo, List.append_assoc, List.cons_append, List.nil_append]
  have e1 : (sp ++ writeInfo info ++ rest).dropWhile isSpace =
      marker ++ ' ' :: (Nat.toDigits 10 info.checkIndex ++ '\n' :: (info.message ++ '\n' :: '$' :: '\n' :: rest)) := by
    rw [List.append_assoc, e0]
    exact dropWhile_append_stop hsp (by decide)
  have hword : ∀ x ∈ marker, (!isSpace x) = true := by decide
  have hdig : ∀ x ∈ Nat.toDigits 10 info.checkIndex, Char.isDigit x = true := fun x hx => Nat.isDigit_of_mem_toDigits (by decide) (by decide) hx
  obtain ⟨d, ds, hds⟩ : ∃ d ds, Nat.toDigits 10 info.checkIndex = d :: ds := by
    cases h : Nat.toDigits 10 info.checkIndex with
    | nil => exact absurd h Nat.toDigits_ne_nil
    | cons d ds => exact ⟨d, ds, rfl⟩
  have e2 : (' ' :: (Nat.toDigits 10 info.checkIndex ++ '\n' :: (info.message ++ '\n' :: '$' :: '\n' :: rest))).dropWhile isSpace =
      Nat.toDigits 10 info.checkIndex ++ '\n' :: (info.message ++ '\n' :: '$' :: '\n' :: rest) := by
    have hd := digit_not_space (hdig d (by simp [hds]))
    rw [hds, List.dropWhile_cons_of_pos (by decide), List.cons_append, List.dropWhile_cons_of_neg (by simp [hd])]
  unfold readInfo
  rw [e1]
  simp only
  rw [if_neg (by simp [marker]), takeWhile_append_stop hword (by decide), if_neg (by simp), dropWhile_append_stop hword (by decide), e2]
  rw [takeWhile_append_stop (p := Char.isDigit) hdig (by decide), dropWhile_append_stop (p := Char.isDigit) hdig (by decide), Nat.ofDigitChars_ten_toDigits,
    if_neg (by simp only [not_or, not_le]; exact ⟨Nat.toDigits_ne_nil, hi⟩)]
  have e3 : ('\n' :: (info.message ++ '\n' :: '$' :: '\n' :: rest)).dropWhile (fun x => decide (x ≠ '\n')) = '\n' :: (info.message ++ '\n' :: '$' :: '\n' :: rest) := by simp
  rw [e3]
  rfl

theorem readOutput_nil (sp : Str) (hsp : ∀ c ∈ sp, isSpace c = true) (fuel : Nat) : readOutputFrom [] (fuel + 1) sp = .ok [] := by
  have : sp.dropWhile isSpace = [] := by
    induction sp with
    | nil => rfl
    | cons c l ih => rw [List.dropWhile_cons_of_pos (hsp c (by simp))]; exact ih (fun x hx => hsp x (by simp [hx]))
  simp only [readOutputFrom, readInfo, this, if_true]

theorem round_trip (rs : List Info) : ∀ (sp : Str) (fuel : Nat), (∀ i ∈ rs, i.checkIndex < 2 ^ 64) → (∀ c ∈ sp, isSpace c = true) → rs.length < fuel →
    (readOutputFrom [] fuel (sp ++ writeOutput rs) = .ok rs ↔ ∀ i ∈ rs, ¬ DollarLine i.message) := by
  induction rs with
  | nil =>
    intro sp fuel _ hsp hf
    obtain ⟨k, rfl⟩ : ∃ k, fuel = k + 1 := ⟨fuel - 1, by simp at hf; omega⟩
    simp only [writeOutput, List.flatMap_nil, List.append_nil, readOutput_nil sp hsp, List.not_mem_nil, false_imp_iff, implies_true]
  | cons i rs ih =>
    intro sp fuel hi hsp hf
    obtain ⟨k, rfl⟩ : ∃ k, fuel = k + 1 := ⟨fuel - 1, by simp at hf; omega⟩
    have e : sp ++ writeOutput (i :: rs) = sp ++ writeInfo i ++ ('\n' :: writeOutput rs) := by
      simp only [writeOutput, List.flatMap_cons, List.append_assoc, List.cons_append, List.nil_append]
    rw [e, readOutputFrom, readInfo_written sp hsp i (hi i (by simp))]
    have ih' := ih ['\n'] k (fun j hj => hi j (by simp [hj])) (by decide) (by simp at hf; omega)
    simp only [List.cons_append, List.nil_append] at ih'
    by_cases hd : DollarLine i.message
    · obtain ⟨x, r, ex, hx⟩ := readMessage_bad ('\n' :: writeOutput rs) ((i.message ++ '\n' :: '$' :: '\n' :: '\n' :: writeOutput rs).length + 1) i.message [] (by simp) hd
      rw [ex]
      simp only
      constructor
      · intro h
        cases hr : readOutputFrom [] k r with
        | ok l =>
          rw [hr] at h
          simp only [Res.bind, Res.ok.injEq, List.cons.injEq] at h
          have := congrArg (fun j => j.message.length) h.1
          simp at this hx
          omega
        | throws => rw [hr] at h; simp [Res.bind] at h
        | ub => rw [hr] at h; simp [Res.bind] at h
      · intro h
        exact absurd hd (h i (by simp))
    · rw [readMessage_good ('\n' :: writeOutput rs) _ i.message [] (by simp) hd]
      simp only [List.nil_append, List.forall_mem_cons, hd, not_false_eq_true, true_and]
      rw [← ih']
      constructor
      · intro h
        cases hr : readOutputFrom [] k ('\n' :: writeOutput rs) with
        | ok l => rw [hr] at h; simp only [Res.bind, Res.ok.injEq, List.cons.injEq] at h; rw [h.2]
        | throws => rw [hr] at h; simp [Res.bind] at h
        | ub => rw [hr] at h; simp [Res.bind] at h
      · intro h
        rw [h]
        rfl

theorem dropWhile_length (p : Char → Bool) (s : Str) : (s.dropWhile p).length ≤ s.length := (List.dropWhile_suffix p).length_le

theorem readMessage_length (ind : Str) : ∀ (fuel : Nat) (acc s m r : Str), readMessage ind fuel acc s = some (m, r) → r.length ≤ s.length := by
  intro fuel
  induction fuel with
  | zero => intro acc s m r h; simp [readMessage] at h
  | succ fuel ih =>
    intro acc s m r h
    rw [readMessage] at h
    by_cases hs : s = []
    · simp [getline, hs] at h
    · simp only [getline, if_neg hs] at h
      have h1 := dropWhile_length (fun x => decide (x ≠ '\n')) s
      have h2 := List.length_drop (i := 1) (l := s.dropWhile (fun x => decide (x ≠ '\n')))
      split at h
      · simp only [Option.some.injEq, Prod.mk.injEq] at h
        rw [← h.2]
        omega
      · have := ih _ _ _ _ h
        omega

theorem readInfo_length {ind s : Str} {i : Info} {r : Str} (h : readInfo ind s = .ok (some (i, r))) : r.length < s.length := by
  unfold readInfo at h
  simp only at h
  split at h
  · simp at h
  · rename_i hne
    split at h
    · simp at h
    · split at h
      · simp at h
      · rename_i hd
        split at h
        · simp at h
        · rename_i m rest hm
          simp only [Res.ok.injEq, Option.some.injEq, Prod.mk.injEq] at h
          have h1 := readMessage_length _ _ _ _ _ _ hm
          rw [← h.2]
          generalize hs1 : ((s.dropWhile isSpace).dropWhile (fun x => !isSpace x)).dropWhile isSpace = s1 at *
          have k1 : s1.length ≤ s.length := by
            rw [← hs1]
            exact le_trans (dropWhile_length _ _) (le_trans (dropWhile_length _ _) (dropWhile_length _ _))
          have k2 : (s1.dropWhile Char.isDigit).length < s1.length := by
            have := congrArg List.length (List.takeWhile_append_dropWhile (p := Char.isDigit) (l := s1))
            rw [List.length_append] at this
            have h0 : 0 < (s1.takeWhile Char.isDigit).length := List.length_pos_iff.mpr (fun e => hd (.inl e))
            omega
          have k3 := dropWhile_length (fun x => decide (x ≠ '\n')) (s1.dropWhile Char.isDigit)
          rw [List.length_drop] at h1
          omega

theorem readInfo_ne_ub (ind s : Str) : readInfo ind s ≠ .ub := by
  unfold readInfo
  simp only
  repeat' split
  all_goals simp

end Failure

/-- C47: reading never fails to end, whatever the text: there either is a result or an exception. -/
theorem C47_total (ind s : Str) : readOutput ind s ≠ .ub := by
  have key : ∀ (fuel : Nat) (s : Str), s.length < fuel → readOutputFrom ind fuel s ≠ .ub := by
    intro fuel
    induction fuel with
    | zero => intro s h; omega
    | succ fuel ih =>
      intro s h
      rw [readOutputFrom]
      cases hr : readInfo ind s with
      | throws => simp
      | ub => exact absurd hr (Failure.readInfo_ne_ub _ _)
      | ok o =>
        cases o with
        | none => simp
        | some p =>
          obtain ⟨i, rest⟩ := p
          have := Failure.readInfo_length hr
          have h2 := ih rest (by omega)
          simp only
          cases hr2 : readOutputFrom ind fuel rest with
          | ok l => simp [Res.bind]
          | throws => simp [Res.bind]
          | ub => exact absurd hr2 h2
  exact key _ s (by omega)

/-- C47: records which are written and read back are the same, provided that no line of a message consists of a dollar sign; and otherwise they are not.

Partial: the proviso. -/
theorem C47_round_trip_partial (records : List Info) (h : ∀ i ∈ records, i.checkIndex < 2 ^ 64) :
    readOutput [] (writeOutput records) = .ok records ↔ ∀ i ∈ records, ¬ DollarLine i.message := by
  refine Failure.round_trip records [] _ h (by simp) ?_
  have : records.length ≤ (writeOutput records).length := by
    clear h
    induction records with
    | nil => simp
    | cons i rs ih =>
      have e : writeOutput (i :: rs) = writeInfo i ++ ['\n'] ++ writeOutput rs := by simp [writeOutput]
      rw [e]
      simp only [List.length_cons, List.length_append, List.length_nil]
      omega
  omega

/-- Two records, with an empty message, a message which ends with a line break, and one in which dollar signs are not alone on a line. -/
example : let records : List Info := [⟨1, []⟩, ⟨42, "a $\n$$\n".toList⟩]
    readOutput [] (writeOutput records) = .ok records := by decide +kernel

/-- C47, violation: a message with a line that consists of a dollar sign. -/
theorem C47_dollar_violated :
    readOutput [] (writeOutput [⟨1, "$".toList⟩]) = .throws ∧ readOutput [] (writeOutput [⟨1, "a\n$\n$Check: 2\nb".toList⟩]) = .ok [⟨1, ['a']⟩, ⟨2, ['b']⟩] := by
  decide +kernel

/-! ### C48 -/

section Analysis
variable {K : Type} [LinearOrder K]

/-- What the report should contain: the frequencies are those of the different outcomes; for each outcome but the first, the messages include that of the first
failure in which it differs from the outcome before; and they include that of the first failure in which the first outcome differs from the second, if there is one. -/
structure ReportOf (message : K → Str) (runs : List (List K)) (report : List Nat × Str) : Prop where
  outcomes : ∃ outcomes : List (List K), outcomes.Nodup ∧ (∀ o, o ∈ outcomes ↔ o ∈ runs) ∧ 2 ≤ outcomes.length ∧
    report.1 = outcomes.map (fun o => runs.count o) ∧
    (∀ before a b after, outcomes = before ++ a :: b :: after →
      ∃ common x rest, b = common ++ x :: rest ∧ common <+: a ∧ ¬ (common ++ [x] <+: a) ∧ message x <:+: report.2) ∧
    ∀ a b after, outcomes = a :: b :: after →
      ∀ common x rest, a = common ++ x :: rest → common <+: b → ¬ (common ++ [x] <+: b) → message x <:+: report.2

namespace Failure

theorem mismatch_spec (l m : List K) : ∃ p, l = p ++ (mismatch l m).1 ∧ m = p ++ (mismatch l m).2 ∧
    ∀ a as b bs, (mismatch l m).1 = a :: as → (mismatch l m).2 = b :: bs → a ≠ b := by
  induction l generalizing m with
  | nil => exact ⟨[], by simp [mismatch], by simp [mismatch], by simp [mismatch]⟩
  | cons a l ih =>
    cases m with
    | nil => exact ⟨[], by simp [mismatch], by simp [mismatch], by simp [mismatch]⟩
    | cons b m =>
      by_cases h : a = b
      · subst h
        obtain ⟨p, h1, h2, h3⟩ := ih m
        have e : mismatch (a :: l) (a :: m) = mismatch l m := by simp [mismatch]
        rw [e]
        exact ⟨a :: p, by rw [List.cons_append, ← h1], by rw [List.cons_append, ← h2], h3⟩
      · have e : mismatch (a :: l) (b :: m) = (a :: l, b :: m) := by simp [mismatch, h]
        rw [e]
        refine ⟨[], rfl, rfl, ?_⟩
        intro x xs y ys h1 h2
        cases h1
        cases h2
        exact h

/-- A proper beginning of a sequence is less than the sequence. -/
theorem prefix_lt (p q : List K) (h : q ≠ []) : p < p ++ q := by
  induction p with
  | nil =>
    cases q with
    | nil => exact absurd rfl h
    | cons x q => exact List.nil_lt_cons _ _
  | cons x p ih => rw [List.cons_append]; exact List.Lex.cons ih

omit [LinearOrder K] in
theorem first_difference {p l js common rest : List K} {i j x : K} (hij : i ≠ j) (h : p ++ i :: l = common ++ x :: rest) (h1 : common <+: p ++ j :: js)
    (h2 : ¬ (common ++ [x] <+: p ++ j :: js)) : x = i := by
  induction p generalizing common with
  | nil =>
    cases common with
    | nil => simp only [List.nil_append, List.cons.injEq] at h; exact h.1.symm
    | cons c common =>
      simp only [List.nil_append, List.cons_append, List.cons.injEq] at h
      obtain ⟨t, ht⟩ := h1
      simp only [List.nil_append, List.cons_append, List.cons.injEq] at ht
      exact absurd (h.1.trans ht.1) hij
  | cons y p ih =>
    cases common with
    | nil =>
      exfalso
      simp only [List.nil_append, List.cons_append, List.cons.injEq] at h
      exact h2 ⟨p ++ j :: js, by simp [h.1]⟩
    | cons c common =>
      simp only [List.cons_append, List.cons.injEq] at h
      obtain ⟨rfl, h⟩ := h
      refine ih h ?_ ?_
      · obtain ⟨t, ht⟩ := h1
        simp only [List.cons_append, List.cons.injEq, true_and] at ht
        exact ⟨t, ht⟩
      · rintro ⟨t, ht⟩
        exact h2 ⟨t, by simp only [List.cons_append, ht]⟩

theorem differ_ok (message : K → Str) (atStart : Bool) (messages : Str) {current first : List K} (h : current < first) :
    ∃ m, differ message atStart messages current first = .ok m ∧ messages <+: m ∧
      (∃ common x rest, first = common ++ x :: rest ∧ common <+: current ∧ ¬ (common ++ [x] <+: current) ∧ message x <:+: m) ∧
      (atStart = true → ∀ common x rest, current = common ++ x :: rest → common <+: first → ¬ (common ++ [x] <+: first) → message x <:+: m) := by
  obtain ⟨p, h1, h2, h3⟩ := mismatch_spec current first
  unfold differ
  cases hm : mismatch current first with
  | mk l m =>
    rw [hm] at h1 h2 h3
    simp only at h1 h2 h3
    cases m with
    | nil =>
      exfalso
      rw [List.append_nil] at h2
      subst h2
      by_cases hl : l = []
      · subst hl; rw [List.append_nil] at h1; exact absurd h (by rw [h1]; exact lt_irrefl _)
      · have := prefix_lt first l hl
        rw [← h1] at this
        exact absurd (lt_trans h this) (lt_irrefl _)
    | cons j js =>
      have hcommon : ∃ common x rest, first = common ++ x :: rest ∧ common <+: current ∧ ¬ (common ++ [x] <+: current) ∧ x = j := by
        refine ⟨p, j, js, h2, ⟨l, h1.symm⟩, ?_, rfl⟩
        rintro ⟨t, ht⟩
        have e := ht.trans h1
        rw [List.append_assoc, List.append_cancel_left_eq] at e
        cases l with
        | nil => simp at e
        | cons i l => simp only [List.cons_append, List.nil_append, List.cons.injEq] at e; exact h3 i l j js rfl rfl e.1.symm
      obtain ⟨c, x, r, e1, e2, e3, rfl⟩ := hcommon
      cases l with
      | nil =>
        have hno : ∀ common y rest, current = common ++ y :: rest → common <+: first → ¬ (common ++ [y] <+: first) → False := by
          intro common y rest hc _ hn
          refine hn (List.IsPrefix.trans (l₂ := current) ⟨rest, by rw [hc]; simp⟩ ?_)
          rw [h1, List.append_nil, h2]
          exact List.prefix_append _ _
        simp only
        split
        · exact ⟨_, rfl, ⟨_, by rw [List.append_assoc]⟩, ⟨c, x, r, e1, e2, e3, ⟨_, [], by rw [List.append_nil]⟩⟩, fun _ c' y r' k1 k2 k3 => (hno c' y r' k1 k2 k3).elim⟩
        · exact ⟨_, rfl, ⟨_, by rw [List.append_assoc, List.append_assoc, List.append_assoc]⟩, ⟨c, x, r, e1, e2, e3, ⟨_, [], by rw [List.append_nil]⟩⟩, fun _ c' y r' k1 k2 k3 => (hno c' y r' k1 k2 k3).elim⟩
      | cons i l =>
        refine ⟨_, rfl, ⟨_, by rw [List.append_assoc, List.append_assoc]⟩, ⟨c, x, r, e1, e2, e3, ⟨_, [], by rw [List.append_nil]⟩⟩, ?_⟩
        intro hs c' y r' k1 k2 k3
        rw [h1] at k1
        rw [h2] at k2 k3
        rw [first_difference (h3 i l x js rfl rfl) k1 k2 k3, hs]
        refine ⟨messages, "\nvs.\n\n".toList ++ message x, ?_⟩
        simp only [if_true, List.append_assoc]

/-- Consecutive outcomes are told apart by the messages. -/
def Told (message : K → Str) (outcomes : List (List K)) (m : Str) : Prop :=
  ∀ before a b after, outcomes = before ++ a :: b :: after → ∃ common x rest, b = common ++ x :: rest ∧ common <+: a ∧ ¬ (common ++ [x] <+: a) ∧ message x <:+: m

/-- The first outcome is told apart from the second. -/
def FirstTold (message : K → Str) (outcomes : List (List K)) (m : Str) : Prop :=
  ∀ a b after, outcomes = a :: b :: after → ∀ common x rest, a = common ++ x :: rest → common <+: b → ¬ (common ++ [x] <+: b) → message x <:+: m

theorem analyse_loop (message : K → Str) (rest : List (List K)) : ∀ (atStart : Bool) (count : Nat) (current : List K) (freqs : List Nat) (messages : Str),
    (current :: rest).Pairwise (· ≤ ·) →
    ∃ os : List (List K), (current :: os).Pairwise (· < ·) ∧ (∀ o, o ∈ current :: os ↔ o ∈ current :: rest) ∧
      ((atStart = true ∧ os = [] ∧ analyseFrom message atStart count current freqs messages rest = .ok none) ∨
       ((atStart = false ∨ os ≠ []) ∧ ∃ m, messages <+: m ∧ Told message (current :: os) m ∧ (atStart = true → FirstTold message (current :: os) m) ∧
          analyseFrom message atStart count current freqs messages rest = .ok (some (freqs ++ (count + rest.count current) :: os.map (fun o => rest.count o), m)))) := by
  induction rest with
  | nil =>
    intro atStart count current freqs messages _
    refine ⟨[], by simp, by simp, ?_⟩
    cases atStart
    · refine .inr ⟨.inl rfl, messages, List.prefix_rfl, ?_, by simp, by simp [analyseFrom]⟩
      intro before a b after h
      have := congrArg List.length h
      simp only [List.length_append, List.length_cons, List.length_nil] at this
      omega
    · exact .inl ⟨rfl, rfl, by simp [analyseFrom]⟩
  | cons f rest ih =>
    intro atStart count current freqs messages hp
    rw [analyseFrom]
    by_cases hf : f = current
    · subst hf
      rw [if_neg (by simp)]
      obtain ⟨os, h1, h2, h3⟩ := ih atStart (count + 1) f freqs messages (List.pairwise_cons.mp hp).2
      refine ⟨os, h1, fun o => by rw [h2 o]; simp, ?_⟩
      have hne : ∀ o ∈ os, o ≠ f := fun o ho e => absurd ((List.pairwise_cons.mp h1).1 o ho) (by rw [e]; exact lt_irrefl _)
      rcases h3 with ⟨a1, a2, a3⟩ | ⟨a1, m, a2, a3, a5, a4⟩
      · exact .inl ⟨a1, a2, a3⟩
      · refine .inr ⟨a1, m, a2, a3, a5, ?_⟩
        rw [a4]
        have e1 : (f :: rest).count f = rest.count f + 1 := by simp
        have e2 : os.map (fun o => (f :: rest).count o) = os.map (fun o => rest.count o) := by
          refine List.map_congr_left fun o ho => ?_
          rw [List.count_cons_of_ne (fun e => hne o ho e.symm)]
        rw [e1, e2, Nat.add_assoc, Nat.add_comm 1]
    · rw [if_pos hf]
      obtain ⟨hp1, hp2⟩ := List.pairwise_cons.mp hp
      have hlt : current < f := lt_of_le_of_ne (hp1 f (by simp)) (fun e => hf e.symm)
      obtain ⟨m0, d1, d2, d3, d4⟩ := differ_ok message atStart messages hlt
      rw [d1]
      simp only [Res.bind]
      obtain ⟨os, h1, h2, h3⟩ := ih false 1 f (freqs ++ [count]) m0 hp2
      have hall : ∀ o ∈ f :: os, current < o := by
        intro o ho
        rcases List.mem_cons.mp ho with rfl | ho
        · exact hlt
        · exact lt_trans hlt ((List.pairwise_cons.mp h1).1 o ho)
      refine ⟨f :: os, List.pairwise_cons.mpr ⟨hall, h1⟩, ?_, ?_⟩
      · intro o
        rw [List.mem_cons, h2 o, ← List.mem_cons]
      · rcases h3 with ⟨a1, _, _⟩ | ⟨_, m, a2, a3, _, a4⟩
        · simp at a1
        · refine .inr ⟨.inr (by simp), m, d2.trans a2, ?_, ?_, ?_⟩
          · intro before a b after h
            cases before with
            | nil =>
              simp only [List.nil_append, List.cons.injEq] at h
              obtain ⟨rfl, rfl, _⟩ := h
              obtain ⟨c, x, r, e1, e2, e3, e4⟩ := d3
              exact ⟨c, x, r, e1, e2, e3, e4.trans a2.isInfix⟩
            | cons y before =>
              simp only [List.cons_append, List.cons.injEq] at h
              exact a3 before a b after h.2
          · intro hs a b after h
            simp only [List.cons.injEq] at h
            obtain ⟨rfl, rfl, _⟩ := h
            exact fun c x r k1 k2 k3 => (d4 hs c x r k1 k2 k3).trans a2.isInfix
          · rw [a4]
            have e0 : (f :: rest).count current = 0 := by
              rw [List.count_eq_zero]
              intro hmem
              rcases List.mem_cons.mp hmem with h | h
              · exact hf h.symm
              · have := (List.pairwise_cons.mp hp2).1 current h
                exact absurd (lt_of_lt_of_le hlt this) (lt_irrefl _)
            have e1 : (f :: rest).count f = rest.count f + 1 := by simp
            have e2 : os.map (fun o => (f :: rest).count o) = os.map (fun o => rest.count o) := by
              refine List.map_congr_left fun o ho => ?_
              rw [List.count_cons_of_ne (fun e => absurd ((List.pairwise_cons.mp h1).1 o ho) (by rw [e]; exact lt_irrefl _))]
            rw [e0, List.map_cons, e1, e2]
            simp [Nat.add_comm]

theorem analyse_sorted (message : K → Str) {runs : List (List K)} (h : runs.Pairwise (· ≤ ·)) :
    ∃ r, analyseOutput message runs = .ok r ∧ (r = none ↔ ∀ a ∈ runs, ∀ b ∈ runs, a = b) ∧ ∀ report, r = some report → ReportOf message runs report := by
  match runs with
  | [] => exact ⟨none, rfl, by simp, by simp⟩
  | [a] => exact ⟨none, rfl, by simp, by simp⟩
  | a :: b :: l =>
    obtain ⟨os, h1, h2, h3⟩ := analyse_loop message (b :: l) true 1 a [] [] h
    rw [show analyseOutput message (a :: b :: l) = analyseFrom message true 1 a [] [] (b :: l) from rfl]
    have hcount : ∀ o ∈ os, (a :: b :: l).count o = (b :: l).count o := fun o ho =>
      List.count_cons_of_ne (fun e => absurd ((List.pairwise_cons.mp h1).1 o ho) (by rw [e]; exact lt_irrefl _))
    rcases h3 with ⟨_, rfl, a3⟩ | ⟨a1, m, a2, a3, a5, a4⟩
    · refine ⟨none, a3, ?_, by simp⟩
      simp only [true_iff]
      intro x hx y hy
      have e1 := (h2 x).mpr hx
      have e2 := (h2 y).mpr hy
      simp only [List.mem_singleton] at e1 e2
      rw [e1, e2]
    · have hos : os ≠ [] := a1.resolve_left (by simp)
      obtain ⟨o, os', rfl⟩ : ∃ o os', os = o :: os' := by
        cases os with
        | nil => exact absurd rfl hos
        | cons o os' => exact ⟨o, os', rfl⟩
      refine ⟨_, a4, ?_, ?_⟩
      · simp only [reduceCtorEq, false_iff]
        intro hall
        have := hall a (by simp) o ((h2 o).mp (by simp))
        exact absurd ((List.pairwise_cons.mp h1).1 o (by simp)) (by rw [this]; exact lt_irrefl _)
      · intro report hr
        cases hr
        refine ⟨a :: o :: os', h1.imp ne_of_lt, h2, by simp, ?_, a3, a5 rfl⟩
        rw [List.map_cons (l := o :: os'), List.map_congr_left hcount]
        simp [Nat.add_comm]

end Failure

/-- C48: the analysis of a sorted list of runs never throws; it reports nothing exactly if all runs had the same failures; otherwise it reports how often each outcome
occurred, and the messages that tell one outcome from the next. -/
theorem C48_analysis (message : K → Str) {runs : List (List K)} (h : runs.Pairwise (· ≤ ·)) :
    ∃ r, analyseOutput message runs = .ok r ∧ (r = none ↔ ∀ a ∈ runs, ∀ b ∈ runs, a = b) ∧ ∀ report, r = some report → ReportOf message runs report :=
  Failure.analyse_sorted message h

namespace Failure

theorem report_perm {message : K → Str} {runs runs' : List (List K)} (h : runs.Perm runs') {report : List Nat × Str} (hr : ReportOf message runs report) :
    ReportOf message runs' report := by
  obtain ⟨os, h1, h2, h3, h4, h5⟩ := hr.outcomes
  refine ⟨os, h1, fun o => (h2 o).trans h.mem_iff, h3, ?_, h5⟩
  rw [h4]
  exact List.map_congr_left fun o _ => h.count_eq o

theorem groups (message : K → Str) {trials : Nat} (ht : 0 < trials) : ∀ (fuel : Nat) (k : Nat) (outputs : List (List K)), outputs.length = k * trials → outputs.length < fuel →
    ∃ reports, analyseGroups message trials fuel outputs = .ok reports ∧
      (reports = [] ↔ ∀ n < k, ∀ a ∈ (outputs.drop (n * trials)).take trials, ∀ b ∈ (outputs.drop (n * trials)).take trials, a = b) ∧
      ∀ report ∈ reports, ∃ n < k, ReportOf message ((outputs.drop (n * trials)).take trials) report := by
  intro fuel
  induction fuel with
  | zero => intro k outputs _ h; omega
  | succ fuel ih =>
    intro k outputs hk hf
    rw [analyseGroups]
    by_cases he : outputs = []
    · rw [if_pos he]
      subst he
      have : k = 0 := by
        simp only [List.length_nil] at hk
        rcases Nat.mul_eq_zero.mp hk.symm with h | h
        · exact h
        · omega
      subst this
      exact ⟨[], rfl, by simp, by simp⟩
    · rw [if_neg he]
      obtain ⟨k, rfl⟩ : ∃ j, k = j + 1 := by
        cases k with
        | zero => simp only [Nat.zero_mul, List.length_eq_zero_iff] at hk; exact absurd hk he
        | succ j => exact ⟨j, rfl⟩
      have hperm := List.perm_insertionSort (· ≤ ·) (outputs.take trials)
      obtain ⟨r, r1, r2, r3⟩ := analyse_sorted message (List.pairwise_insertionSort (· ≤ ·) (outputs.take trials))
      have hlen : (outputs.drop trials).length = k * trials := by rw [List.length_drop, hk, Nat.succ_mul, Nat.add_sub_cancel]
      have hpos : 0 < outputs.length := List.length_pos_iff.mpr he
      obtain ⟨rs, s1, s2, s3⟩ := ih k (outputs.drop trials) hlen (by rw [List.length_drop]; omega)
      rw [r1, s1]
      simp only [Res.bind]
      have hdrop : ∀ n, (outputs.drop trials).drop (n * trials) = outputs.drop ((n + 1) * trials) := fun n => by
        rw [List.drop_drop, Nat.succ_mul, Nat.add_comm]
      refine ⟨_, rfl, ?_, ?_⟩
      · rw [List.append_eq_nil_iff, s2]
        have : r.toList = [] ↔ r = none := by cases r <;> simp
        rw [this, r2]
        constructor
        · rintro ⟨h1, h2⟩ n hn a ha b hb
          cases n with
          | zero =>
            rw [Nat.zero_mul, List.drop_zero] at ha hb
            exact h1 a (hperm.mem_iff.mpr ha) b (hperm.mem_iff.mpr hb)
          | succ n =>
            rw [← hdrop] at ha hb
            exact h2 n (by omega) a ha b hb
        · intro h
          refine ⟨fun a ha b hb => h 0 (by omega) a ?_ b ?_, fun n hn a ha b hb => h (n + 1) (by omega) a ?_ b ?_⟩
          · rw [Nat.zero_mul, List.drop_zero]; exact hperm.mem_iff.mp ha
          · rw [Nat.zero_mul, List.drop_zero]; exact hperm.mem_iff.mp hb
          · rw [← hdrop]; exact ha
          · rw [← hdrop]; exact hb
      · intro report hr
        rcases List.mem_append.mp hr with hr | hr
        · have : r = some report := by cases r with
            | none => simp at hr
            | some x => simp at hr; rw [hr]
          refine ⟨0, by omega, ?_⟩
          rw [Nat.zero_mul, List.drop_zero]
          exact report_perm hperm (r3 report this)
        · obtain ⟨n, hn, hrep⟩ := s3 report hr
          rw [hdrop] at hrep
          exact ⟨n + 1, by omega, hrep⟩

end Failure

/-- C48: if there are several trials for each of `k` tests, the outputs of a test one after the other, the analysis of instabilities is completed; it reports
nothing exactly if the trials of each test had the same failures; and each report describes the trials of some test. -/
theorem C48_instability (message : K → Str) {trials k : Nat} (ht : 1 < trials) (outputs : List (List K)) (hk : outputs.length = k * trials) :
    ∃ reports, instabilityAnalysis message trials outputs = .ok reports ∧
      (reports = [] ↔ ∀ n < k, ∀ a ∈ (outputs.drop (n * trials)).take trials, ∀ b ∈ (outputs.drop (n * trials)).take trials, a = b) ∧
      ∀ report ∈ reports, ∃ n < k, ReportOf message ((outputs.drop (n * trials)).take trials) report := by
  rw [instabilityAnalysis, if_neg (by omega), if_neg (by rw [hk, Nat.mul_mod_left]; simp)]
  exact Failure.groups message (by omega) _ k outputs hk (by omega)

end Analysis

/-- Two tests with two trials, the second of which is unstable; and a list of runs which is not sorted, for which the analysis throws. -/
example :
    instabilityAnalysis (K := Nat) (fun n => [Char.ofNat (n + 97)]) 2 [[1], [1], [0, 2], [0]] = .ok [([1, 1], "a\nvs.\n\na\nc".toList)] ∧
      analyseOutput (K := Nat) (fun _ => []) [[0, 2], [0]] = .throws := by decide +kernel

end Verif.Props
