import Verif.Model.ShellRun
import Verif.Spec.ShellRun
/-
Lemmas for C112: how the shell reads commands which are put together.
-/
set_option linter.unusedSimpArgs false
set_option linter.unusedVariables false
namespace Verif.ShellRun
open Verif.Shell
open Verif.RunnerArgs (plainChar)
open Verif.Spec.ShellRun

/-! ### Tokens -/

/-- Reading several characters. -/
def steps : Current × Mode → Text → Option (List Tok × Current × Mode)
  | st, [] => some ([], st)
  | st, c :: s =>
    match step st c with
    | some (ts, st') => (steps st' s).map fun r => (ts ++ r.1, r.2)
    | none => none

theorem lex_steps : ∀ (a s : Text) (st : Current × Mode), lex st (a ++ s) = (steps st a).bind fun r => (lex r.2 s).map (r.1 ++ ·)
  | [], s, st => by simp [steps]
  | c :: a, s, st => by
    simp only [List.cons_append, lex, steps]
    cases hs : step st c with
    | none => rfl
    | some r =>
      obtain ⟨ts, st'⟩ := r
      simp only [lex_steps a s st']
      cases ha : steps st' a with
      | none => rfl
      | some q =>
        simp only [Option.bind_some, Option.map_some]
        cases lex q.2 s <;> simp

theorem steps_append : ∀ (a s : Text) (st : Current × Mode), steps st (a ++ s) = (steps st a).bind fun r => (steps r.2 s).map fun q => (r.1 ++ q.1, q.2)
  | [], s, st => by
    simp only [List.nil_append, steps, Option.bind_some]
    cases steps st s <;> simp
  | c :: a, s, st => by
    simp only [List.cons_append, steps]
    cases hs : step st c with
    | none => rfl
    | some r =>
      obtain ⟨ts, st'⟩ := r
      simp only [steps_append a s st']
      cases ha : steps st' a with
      | none => rfl
      | some q =>
        simp only [Option.bind_some, Option.map_some]
        cases steps q.2 s <;> simp

theorem lex_eq_steps (a : Text) (st : Current × Mode) : lex st a = (steps st a).bind fun r => (finish r.2).map (r.1 ++ ·) := by
  have := lex_steps a [] st
  simpa [lex] using this

theorem plain_ne {c : Char} (h : plainChar c = true) : c ≠ '"' ∧ c ≠ ' ' ∧ c ≠ '&' ∧ c ≠ '>' := by
  refine ⟨?_, ?_, ?_, ?_⟩ <;> (rintro rfl; revert h; decide)

theorem step_plain (cur : Current) (c : Char) (h : plainChar c = true) : step (cur, .normal) c = some ([], some (bare cur, soFar cur ++ [c]), .normal) := by
  obtain ⟨h1, h2, h3, h4⟩ := plain_ne h
  simp only [step, stepNormal, h1, h2, h3, h4, h, if_false, if_true]

theorem steps_plain : ∀ (w : Text) (cur : Current), w ≠ [] → (∀ c ∈ w, plainChar c = true) → steps (cur, .normal) w = some ([], some (bare cur, soFar cur ++ w), .normal)
  | [], _, h, _ => absurd rfl h
  | [c], cur, _, h => by simp [steps, step_plain cur c (h c (by simp))]
  | c :: d :: w, cur, _, h => by
    rw [steps, step_plain cur c (h c (by simp))]
    simp only []
    rw [steps_plain (d :: w) _ (by simp) (fun x hx => h x (by simp [hx]))]
    simp [bare, soFar]

/-- The state in which a text ends if it is read without an error: if a word without quotes is being read, then its last character is the last of the text. -/
theorem steps_last : ∀ (a : Text) (st : Current × Mode) (ts : List Tok) (cur : Current) (m : Mode), steps st a = some (ts, cur, m) → a ≠ [] → ∀ w, cur = some (true, w) → w.getLast? = a.getLast?
  | [], _, _, _, _, _, h => absurd rfl h
  | c :: a, st, ts, cur, m, hs, _ => by
    intro w hw
    rw [steps] at hs
    cases h1 : step st c with
    | none => rw [h1] at hs; cases hs
    | some r =>
      obtain ⟨ts1, cur1, m1⟩ := r
      rw [h1] at hs
      simp only [] at hs
      cases ha : steps (cur1, m1) a with
      | none => rw [ha] at hs; cases hs
      | some q =>
        obtain ⟨ts2, cur2, m2⟩ := q
        rw [ha] at hs
        simp only [Option.map_some, Option.some.injEq, Prod.mk.injEq] at hs
        obtain ⟨_, rfl, rfl⟩ := hs
        by_cases ha0 : a = []
        · subst ha0
          simp only [steps, Option.some.injEq, Prod.mk.injEq] at ha
          obtain ⟨_, rfl, rfl⟩ := ha
          subst hw
          have normal : ∀ (cur : Current) (t : List Tok) (m : Mode), stepNormal cur c = some (t, some (true, w), m) → w.getLast? = [c].getLast? := by
            intro cur t m h
            unfold stepNormal at h
            split at h
            · cases h
            · split at h
              · cases h
              · split at h
                · cases h
                · split at h
                  · cases h
                  · split at h
                    · simp only [Option.some.injEq, Prod.mk.injEq] at h
                      obtain ⟨_, ⟨_, rfl⟩, _⟩ := h
                      simp
                    · cases h
          obtain ⟨cur0, m0⟩ := st
          cases m0 with
          | normal => exact normal cur0 ts1 m1 h1
          | quoted =>
            simp only [step] at h1
            split at h1
            · cases h1
            · split at h1 <;> cases h1
          | ampersand => simp only [step] at h1; split at h1 <;> cases h1
          | greater fd =>
            simp only [step] at h1
            split at h1
            · cases h1
            · split at h1
              · cases h1
              · cases hn : stepNormal none c with
                | none => rw [hn] at h1; cases h1
                | some r =>
                  obtain ⟨t, u, v⟩ := r
                  rw [hn] at h1
                  simp only [Option.map_some, Option.some.injEq, Prod.mk.injEq] at h1
                  obtain ⟨_, rfl, rfl⟩ := h1
                  exact normal none t v hn
        · have := steps_last a (cur1, m1) ts2 cur2 m2 ha ha0 w hw
          rw [this]
          cases a with
          | nil => exact absurd rfl ha0
          | cons d a => simp

/-! ### Commands -/

theorem parse_and : ∀ (ts : List Tok) (c : Simple) (cs : List Simple) (us : List Tok), parse c ts = some cs →
    parse c (ts ++ .and :: us) = (parse ⟨[], []⟩ us).map (cs ++ ·)
  | [], c, cs, us, h => by
    rw [parse] at h
    rw [List.nil_append, parse]
    split at h
    · cases h
    · rename_i hc
      cases h
      simp only [hc, Bool.false_eq_true, if_false]
      cases parse ⟨[], []⟩ us <;> simp
  | .and :: ts, c, cs, us, h => by
    rw [parse] at h
    rw [List.cons_append, parse]
    split at h
    · cases h
    · rename_i hc
      simp only [hc, Bool.false_eq_true, if_false]
      cases hp : parse ⟨[], []⟩ ts with
      | none => rw [hp] at h; cases h
      | some ds =>
        rw [hp] at h; cases h
        rw [parse_and ts _ _ us hp]
        cases parse ⟨[], []⟩ us <;> simp
  | .word w :: ts, c, cs, us, h => by
    rw [parse] at h
    rw [List.cons_append, parse]
    exact parse_and ts _ _ us h
  | .redirect fd app :: [], c, cs, us, h => by simp [parse] at h
  | .redirect fd app :: .word w :: ts, c, cs, us, h => by
    rw [parse] at h
    rw [List.cons_append, List.cons_append, parse]
    cases hf : stream fd with
    | none => rw [hf] at h; cases h
    | some s =>
      rw [hf] at h
      exact parse_and ts _ _ us h
  | .redirect fd app :: .and :: ts, c, cs, us, h => by simp [parse] at h
  | .redirect fd app :: .redirect _ _ :: ts, c, cs, us, h => by simp [parse] at h
  | .redirect fd app :: .duplicate _ :: ts, c, cs, us, h => by simp [parse] at h
  | .duplicate fd :: [], c, cs, us, h => by simp [parse] at h
  | .duplicate fd :: .word w :: ts, c, cs, us, h => by
    rw [parse] at h
    rw [List.cons_append, List.cons_append, parse]
    cases hf : stream fd with
    | none => rw [hf] at h; cases h
    | some s =>
      cases hg : stream (some w) with
      | none => rw [hf, hg] at h; cases h
      | some t =>
        rw [hf, hg] at h
        exact parse_and ts _ _ us h
  | .duplicate fd :: .and :: ts, c, cs, us, h => by simp [parse] at h
  | .duplicate fd :: .redirect _ _ :: ts, c, cs, us, h => by simp [parse] at h
  | .duplicate fd :: .duplicate _ :: ts, c, cs, us, h => by simp [parse] at h

/-- A redirection needs a file. -/
theorem parse_redirect_last (fd : Option Text) (app : Bool) : ∀ (ts : List Tok) (c : Simple), parse c (ts ++ [.redirect fd app]) = none
  | [], c => by simp [parse]
  | .and :: ts, c => by
    rw [List.cons_append, parse, parse_redirect_last fd app ts]
    split <;> rfl
  | .word w :: ts, c => by
    rw [List.cons_append, parse]
    exact parse_redirect_last fd app ts _
  | .redirect _ _ :: [], c => by simp [parse]
  | .redirect fd' _ :: .word w :: ts, c => by
    rw [List.cons_append, List.cons_append, parse]
    cases stream fd' with
    | none => rfl
    | some s => exact parse_redirect_last fd app ts _
  | .redirect _ _ :: .and :: ts, c => by simp [parse]
  | .redirect _ _ :: .redirect _ _ :: ts, c => by simp [parse]
  | .redirect _ _ :: .duplicate _ :: ts, c => by simp [parse]
  | .duplicate _ :: [], c => by simp [parse]
  | .duplicate fd' :: .word w :: ts, c => by
    rw [List.cons_append, List.cons_append, parse]
    cases stream fd' with
    | none => rfl
    | some s =>
      cases stream (some w) with
      | none => rfl
      | some t => exact parse_redirect_last fd app ts _
  | .duplicate _ :: .and :: ts, c => by simp [parse]
  | .duplicate _ :: .redirect _ _ :: ts, c => by simp [parse]
  | .duplicate _ :: .duplicate _ :: ts, c => by simp [parse]

/-- There is at least one command. -/
theorem parse_ne_nil : ∀ (ts : List Tok) (c : Simple), parse c ts ≠ some []
  | [], c => by rw [parse]; split <;> simp
  | .and :: ts, c => by
    rw [parse]
    split
    · simp
    · cases parse ⟨[], []⟩ ts <;> simp
  | .word w :: ts, c => by rw [parse]; exact parse_ne_nil ts _
  | .redirect _ _ :: [], c => by simp [parse]
  | .redirect fd' _ :: .word w :: ts, c => by
    rw [parse]
    cases stream fd' with
    | none => simp
    | some s => exact parse_ne_nil ts _
  | .redirect _ _ :: .and :: ts, c => by simp [parse]
  | .redirect _ _ :: .redirect _ _ :: ts, c => by simp [parse]
  | .redirect _ _ :: .duplicate _ :: ts, c => by simp [parse]
  | .duplicate _ :: [], c => by simp [parse]
  | .duplicate fd' :: .word w :: ts, c => by
    rw [parse]
    cases stream fd' with
    | none => simp
    | some s =>
      cases stream (some w) with
      | none => simp
      | some t => exact parse_ne_nil ts _
  | .duplicate _ :: .and :: ts, c => by simp [parse]
  | .duplicate _ :: .redirect _ _ :: ts, c => by simp [parse]
  | .duplicate _ :: .duplicate _ :: ts, c => by simp [parse]

/-- A command without redirections consists of words. -/
theorem parse_words : ∀ (ts : List Tok) (c d : Simple), parse c ts = some [d] → d.redirections = [] → c.redirections = [] ∧ ∃ ws, ts = ws.map Tok.word ∧ d.words = c.words ++ ws
  | [], c, d, h, hd => by
    rw [parse] at h
    split at h
    · cases h
    · cases h
      exact ⟨hd, [], rfl, by simp⟩
  | .and :: ts, c, d, h, hd => by
    rw [parse] at h
    split at h
    · cases h
    · cases hp : parse ⟨[], []⟩ ts with
      | none => rw [hp] at h; cases h
      | some ds =>
        rw [hp] at h
        simp only [Option.map_some, Option.some.injEq, List.cons.injEq] at h
        obtain ⟨_, rfl⟩ := h
        exact absurd hp (parse_ne_nil ts _)
  | .word w :: ts, c, d, h, hd => by
    rw [parse] at h
    obtain ⟨h1, ws, h2, h3⟩ := parse_words ts _ d h hd
    exact ⟨h1, w :: ws, by simp [h2], by rw [h3]; simp⟩
  | .redirect fd app :: [], c, d, h, hd => by simp [parse] at h
  | .redirect fd app :: .word w :: ts, c, d, h, hd => by
    rw [parse] at h
    cases hf : stream fd with
    | none => rw [hf] at h; cases h
    | some s =>
      rw [hf] at h
      have := (parse_words ts _ d h hd).1
      simp at this
  | .redirect fd app :: .and :: ts, c, d, h, hd => by simp [parse] at h
  | .redirect fd app :: .redirect _ _ :: ts, c, d, h, hd => by simp [parse] at h
  | .redirect fd app :: .duplicate _ :: ts, c, d, h, hd => by simp [parse] at h
  | .duplicate fd :: [], c, d, h, hd => by simp [parse] at h
  | .duplicate fd :: .word w :: ts, c, d, h, hd => by
    rw [parse] at h
    cases hf : stream fd with
    | none => rw [hf] at h; cases h
    | some s =>
      cases hg : stream (some w) with
      | none => rw [hf, hg] at h; cases h
      | some t =>
        rw [hf, hg] at h
        have := (parse_words ts _ d h hd).1
        simp at this
  | .duplicate fd :: .and :: ts, c, d, h, hd => by simp [parse] at h
  | .duplicate fd :: .redirect _ _ :: ts, c, d, h, hd => by simp [parse] at h
  | .duplicate fd :: .duplicate _ :: ts, c, d, h, hd => by simp [parse] at h

theorem parse_map_word : ∀ (ws : List Text) (c : Simple) (us : List Tok), parse c (ws.map Tok.word ++ us) = parse { c with words := c.words ++ ws } us
  | [], c, us => by simp
  | w :: ws, c, us => by
    rw [List.map_cons, List.cons_append, parse, parse_map_word ws]
    simp

/-- What is known if a text is understood as commands. -/
theorem commands_inv {a : Text} {ca : List Simple} (h : commands a = some ca) (hne : ca ≠ []) :
    ∃ toks cur, steps (none, .normal) a = some (toks, cur, .normal) ∧ lex (none, .normal) a = some (toks ++ flush cur) ∧ parse ⟨[], []⟩ (toks ++ flush cur) = some ca := by
  unfold commands at h
  have hl := lex_eq_steps a (none, .normal)
  cases hs : steps (none, .normal) a with
  | none => rw [hs] at hl; rw [hl] at h; cases h
  | some r =>
    obtain ⟨toks, cur, m⟩ := r
    rw [hs] at hl
    simp only [Option.bind_some] at hl
    cases m with
    | normal =>
      simp only [finish, Option.map_some] at hl
      refine ⟨toks, cur, rfl, hl, ?_⟩
      rw [hl] at h
      cases ht : toks ++ flush cur with
      | nil => rw [ht] at h; cases h; exact absurd rfl hne
      | cons t ts => rw [ht] at h; exact h
    | quoted => simp only [finish, Option.map_none] at hl; rw [hl] at h; cases h
    | ampersand => simp only [finish, Option.map_none] at hl; rw [hl] at h; cases h
    | greater fd =>
      simp only [finish, Option.map_some] at hl
      rw [hl] at h
      cases ht : toks ++ [Tok.redirect fd false] with
      | nil => simp at ht
      | cons t ts =>
        rw [ht] at h
        have := parse_redirect_last fd false toks ⟨[], []⟩
        rw [ht] at this
        simp only [] at h
        rw [this] at h
        cases h

theorem commands_of_lex {a : Text} {ts : List Tok} {cs : List Simple} (h : lex (none, .normal) a = some ts) (hp : parse ⟨[], []⟩ ts = some cs) : commands a = some cs := by
  unfold commands
  rw [h]
  cases ts with
  | nil => simp [parse] at hp
  | cons t ts => exact hp

theorem commands_and {a b : Text} {ca cb : List Simple} (ha : commands a = some ca) (hca : ca ≠ []) (hb : commands b = some cb) (hcb : cb ≠ []) :
    commands (a ++ "&&".toList ++ b) = some (ca ++ cb) := by
  obtain ⟨ta, cura, hsa, hla, hpa⟩ := commands_inv ha hca
  obtain ⟨tb, curb, hsb, hlb, hpb⟩ := commands_inv hb hcb
  refine commands_of_lex (ts := ta ++ flush cura ++ .and :: (tb ++ flush curb)) ?_ ?_
  · rw [List.append_assoc, lex_steps, hsa]
    simp only [Option.bind_some]
    show (lex (cura, .normal) ('&' :: '&' :: b)).map _ = _
    simp only [lex, step, stepNormal, show ('&' : Char) ≠ '"' by decide, show ('&' : Char) ≠ ' ' by decide, if_false, if_true, hlb, Option.map_some]
    simp
  · rw [parse_and _ _ _ _ hpa, hpb]
    rfl

/-- What is appended for a redirection. -/
theorem lex_tail (out : Text) (h : Plain out) :
    lex (none, .normal) (' ' :: (out ++ " 2>&1".toList)) = some [.word out, .duplicate (some ['2']), .word ['1']] := by
  rw [lex]
  simp only [step, stepNormal, show (' ' : Char) ≠ '"' by decide, if_false, if_true, flush]
  rw [lex_steps, steps_plain out none h.1 h.2]
  simp only [bare, soFar, List.nil_append, Option.bind_some]
  have : ∀ w : Text, lex (some (true, w), .normal) " 2>&1".toList = some [.word w, .duplicate (some ['2']), .word ['1']] := by
    intro w
    show lex (some (true, w), .normal) [' ', '2', '>', '&', '1'] = _
    rw [lex]
    simp only [step, stepNormal, show (' ' : Char) ≠ '"' by decide, if_false, if_true, flush]
    have : lex (none, .normal) ['2', '>', '&', '1'] = some [.duplicate (some ['2']), .word ['1']] := by decide
    rw [this]
    rfl
  rw [this]
  rfl

theorem lex_redirection (out : Text) (app : Bool) (cur : Current) (h : Plain out) (hcur : beforeRedirect cur = (flush cur, none)) :
    lex (cur, .normal) ((if app then ">> ".toList else "> ".toList) ++ out ++ " 2>&1".toList) =
      some (flush cur ++ [.redirect none app, .word out, .duplicate (some ['2']), .word ['1']]) := by
  have ht := lex_tail out h
  cases app with
  | true =>
    show lex (cur, .normal) ('>' :: '>' :: ' ' :: (out ++ " 2>&1".toList)) = _
    rw [lex]
    simp only [step, stepNormal, show ('>' : Char) ≠ '"' by decide, show ('>' : Char) ≠ ' ' by decide, show ('>' : Char) ≠ '&' by decide, if_false, if_true, hcur]
    rw [lex]
    simp only [step, if_true]
    rw [ht]
    simp
  | false =>
    show lex (cur, .normal) ('>' :: ' ' :: (out ++ " 2>&1".toList)) = _
    rw [lex]
    simp only [step, stepNormal, show ('>' : Char) ≠ '"' by decide, show ('>' : Char) ≠ ' ' by decide, show ('>' : Char) ≠ '&' by decide, if_false, if_true, hcur]
    rw [lex]
    rw [lex] at ht
    simp only [step, stepNormal, show (' ' : Char) ≠ '"' by decide, show (' ' : Char) ≠ '>' by decide, show (' ' : Char) ≠ '&' by decide, if_false, if_true, flush, Option.map_some] at ht ⊢
    cases hl : lex (none, .normal) (out ++ " 2>&1".toList) with
    | none => rw [hl] at ht; cases ht
    | some ts =>
      rw [hl] at ht
      simp only [Option.map_some, List.nil_append, Option.some.injEq] at ht
      subst ht
      simp

/-- A command whose outputs go to a file. -/
theorem commands_redirected {cmd out : Text} {ws : List Text} (app : Bool) (hcmd : commands cmd = some [⟨ws, []⟩]) (h : Plain out) :
    commands (redirected cmd out app) = some [⟨ws, [.file .out app out, .same .err .out]⟩] := by
  obtain ⟨toks, cur, hs, hl, hp⟩ := commands_inv hcmd (by simp)
  obtain ⟨_, us, hus, hws⟩ := parse_words _ _ _ hp rfl
  simp only [List.nil_append] at hws
  subst hws
  have hcmdne : cmd ≠ [] := by
    rintro rfl
    have : commands [] = some [] := rfl
    rw [this] at hcmd
    cases hcmd
  have ho : out.isEmpty = false := by
    cases out with
    | nil => exact absurd rfl h.1
    | cons => rfl
  have hparse : parse ⟨[], []⟩ (toks ++ flush cur ++ [.redirect none app, .word out, .duplicate (some ['2']), .word ['1']]) =
      some [⟨ws, [.file .out app out, .same .err .out]⟩] := by
    rw [hus, parse_map_word]
    simp [parse, stream]
  have key : ∀ gap : Text, (gap = [' '] ∨ (gap = [] ∧ beforeRedirect cur = (flush cur, none))) →
      lex (none, .normal) (cmd ++ gap ++ (if app then ">> ".toList else "> ".toList) ++ out ++ " 2>&1".toList) =
        some (toks ++ flush cur ++ [.redirect none app, .word out, .duplicate (some ['2']), .word ['1']]) := by
    intro gap hg
    rw [List.append_assoc, List.append_assoc, List.append_assoc, lex_steps, hs]
    simp only [Option.bind_some]
    rcases hg with rfl | ⟨rfl, hb⟩
    · rw [List.cons_append, List.nil_append, lex]
      simp only [step, stepNormal, show (' ' : Char) ≠ '"' by decide, if_false, if_true]
      rw [← List.append_assoc, lex_redirection out app none h rfl]
      simp [flush]
    · rw [List.nil_append, ← List.append_assoc, lex_redirection out app cur h hb]
      simp
  have hlast := steps_last cmd _ _ _ _ hs hcmdne
  obtain ⟨d, hd⟩ : ∃ d, cmd.getLast? = some d := by
    cases hc : cmd.getLast? with
    | none => exact absurd (List.getLast?_eq_none_iff.mp hc) hcmdne
    | some d => exact ⟨d, rfl⟩
  refine commands_of_lex ?_ hparse
  simp only [redirected, ho, Bool.false_eq_true, if_false, hd]
  by_cases hdig : isDigit d = true
  · simp only [hdig, if_true]
    exact key [' '] (.inl rfl)
  · simp only [hdig, if_false]
    have := key [] (.inr ⟨rfl, by
      cases cur with
      | none => rfl
      | some x =>
        obtain ⟨b, w⟩ := x
        cases b with
        | false => simp [beforeRedirect, flush]
        | true =>
          have hw := hlast w rfl
          rw [hd] at hw
          have hall : w.all isDigit = false := by
            rw [Bool.eq_false_iff]
            intro hall
            rw [List.all_eq_true] at hall
            exact hdig (hall d (List.mem_of_getLast? hw))
          simp [beforeRedirect, flush, hall]⟩)
    rw [List.append_nil] at this
    exact this

/-! ### What is done -/

theorem runAll_append (sys : Sys) : ∀ (cs ds : List Simple) (w : World), runAll sys w (cs ++ ds) =
    match runAll sys w cs with
    | some (w', true) => runAll sys w' ds
    | r => r
  | [], ds, w => rfl
  | c :: cs, ds, w => by
    rw [List.cons_append, runAll, runAll]
    cases hr : runSimple sys w c with
    | none => rfl
    | some r =>
      obtain ⟨w', b⟩ := r
      cases b with
      | true => exact runAll_append sys cs ds w'
      | false => rfl

theorem unwords_eq : ∀ ws : List Text, unwords ws = line ws
  | [] => rfl
  | [w] => by simp [unwords, line, List.intercalate, List.intersperse]
  | w :: v :: ws => by
    have := unwords_eq (v :: ws)
    simp only [line, List.intercalate, List.intersperse, List.flatten_cons] at this ⊢
    rw [unwords, this]
    · simp
    · simp

theorem lex_words : ∀ (ws : List Text) (w : Text), (∀ v ∈ w :: ws, Plain v) → lex (none, .normal) (unwords (w :: ws)) = some ((w :: ws).map Tok.word)
  | [], w, h => by
    have hw := h w (by simp)
    simp only [unwords]
    have := lex_steps w [] (none, .normal)
    rw [List.append_nil] at this
    rw [this, steps_plain w none hw.1 hw.2]
    simp [lex, finish, flush, bare, soFar]
  | v :: ws, w, h => by
    have hw := h w (by simp)
    rw [show unwords (w :: v :: ws) = w ++ ' ' :: unwords (v :: ws) by rw [unwords]; simp]
    rw [lex_steps, steps_plain w none hw.1 hw.2]
    simp only [Option.bind_some]
    rw [lex]
    simp only [step, stepNormal, show (' ' : Char) ≠ '"' by decide, if_false, if_true]
    rw [lex_words ws v (fun x hx => h x (by simp only [List.mem_cons] at hx ⊢; exact .inr hx))]
    simp [flush, bare, soFar]

/-- Plain words are understood as they are. -/
theorem commands_words (w : Text) (ws : List Text) (h : ∀ v ∈ w :: ws, Plain v) : commands (unwords (w :: ws)) = some [⟨w :: ws, []⟩] := by
  refine commands_of_lex (lex_words ws w h) ?_
  have := parse_map_word (w :: ws) ⟨[], []⟩ []
  rw [List.append_nil] at this
  rw [this]
  simp [parse]

/-- The redirections for a file, if there is one. -/
def redirs (out : Text) (app : Bool) : List Redirection := if out = [] then [] else [.file .out app out, .same .err .out]

theorem commands_redirected' {cmd out : Text} {ws : List Text} (app : Bool) (hcmd : commands cmd = some [⟨ws, []⟩]) (h : out = [] ∨ Plain out) :
    commands (redirected cmd out app) = some [⟨ws, redirs out app⟩] := by
  rcases h with rfl | h
  · simpa [redirected, redirs] using hcmd
  · rw [commands_redirected app hcmd h, redirs, if_neg h.1]

theorem commands_ne_nil {a : Text} {cs : List Simple} (h : commands a = some cs) (hne : cs ≠ []) : a.isEmpty = false := by
  cases a with
  | nil =>
    have : commands [] = some [] := rfl
    rw [this] at h
    cases h
    exact absurd rfl hne
  | cons => rfl

theorem commands_shell_and {a b : Text} {ca cb : List Simple} (ha : commands a = some ca) (hca : ca ≠ []) (hb : commands b = some cb) (hcb : cb ≠ []) :
    commands (Shell.and a b) = some (ca ++ cb) := by
  rw [Shell.and, commands_ne_nil ha hca, commands_ne_nil hb hcb]
  simp only [Bool.false_eq_true, if_false]
  exact commands_and ha hca hb hcb

/-- The commands of which a command with a heading consists. -/
def stage (head ws : List Text) (out : Text) (app : Bool) : List Simple :=
  if head = [] then [⟨ws, redirs out app⟩]
  else [⟨[echoWord], redirs out app⟩, ⟨echoWord :: head, redirs out true⟩, ⟨[echoWord], redirs out true⟩, ⟨ws, redirs out true⟩]

theorem stage_ne_nil (head ws : List Text) (out : Text) (app : Bool) : stage head ws out app ≠ [] := by
  unfold stage; split <;> simp

theorem plain_echo : Plain echoWord := by
  refine ⟨by decide, ?_⟩
  decide

theorem commands_withPreamble {head ws : List Text} {cmd out : Text} (app : Bool) (hhead : ∀ w ∈ head, Plain w) (hcmd : commands cmd = some [⟨ws, []⟩])
    (h : out = [] ∨ Plain out) : commands (withPreamble (line head) cmd out app) = some (stage head ws out app) := by
  have he : commands "echo".toList = some [⟨[echoWord], []⟩] := commands_words echoWord [] (by simpa using plain_echo)
  unfold withPreamble
  cases head with
  | nil =>
    rw [stage, if_pos rfl]
    simp only [line, List.intercalate, List.intersperse, List.flatten_nil, preambleCmd, List.isEmpty_nil, if_true]
    rw [show Shell.and [] (redirected cmd out app) = redirected cmd out app by cases redirected cmd out app <;> simp [Shell.and]]
    exact commands_redirected' app hcmd h
  | cons v vs =>
    have hv := hhead v (by simp)
    have hl : (line (v :: vs)).isEmpty = false := by
      rw [← unwords_eq]
      refine commands_ne_nil (commands_words v vs hhead) (by simp)
    have h1 : commands ("echo ".toList ++ line (v :: vs)) = some [⟨echoWord :: v :: vs, []⟩] := by
      have e : "echo ".toList ++ unwords (v :: vs) = unwords (echoWord :: v :: vs) := by
        rw [show unwords (echoWord :: v :: vs) = echoWord ++ ' ' :: unwords (v :: vs) from rfl]
        rfl
      rw [← unwords_eq, e]
      exact commands_words echoWord (v :: vs) (by
        intro x hx
        rcases List.mem_cons.mp hx with rfl | hx
        · exact plain_echo
        · exact hhead x hx)
    have hp : commands (preambleCmd (line (v :: vs)) out app) =
        some [⟨[echoWord], redirs out app⟩, ⟨echoWord :: v :: vs, redirs out true⟩, ⟨[echoWord], redirs out true⟩] := by
      unfold preambleCmd
      rw [hl]
      simp only [Bool.false_eq_true, if_false]
      have := commands_shell_and (commands_shell_and (commands_redirected' app he h) (by simp) (commands_redirected' true h1 h) (by simp)) (by simp)
        (commands_redirected' true he h) (by simp)
      simpa using this
    simp only [commands_ne_nil hp (by simp), Bool.false_eq_true, if_false]
    rw [commands_shell_and hp (by simp) (commands_redirected' true hcmd h) (by simp)]
    simp [stage]

/-! ### Where outputs arrive -/

theorem received_received (w : World) (file : Text) (app : Bool) (t u : Text) : received (received w file app t) file true u = received w file app (t ++ u) := by
  unfold received
  by_cases hf : file = []
  · simp only [hf, if_true]
    simp
  · simp only [hf, if_false]
    congr 1
    funext q
    by_cases hq : q = resolve w.cwd file
    · subst hq
      simp [contents]
    · simp [hq]

theorem received_cwd (w : World) (file : Text) (app : Bool) (t : Text) : (received w file app t).cwd = w.cwd := by
  unfold received; split <;> rfl

theorem received_ran (w : World) (file : Text) (app : Bool) (t : Text) : (received w file app t).ran = w.ran := by
  unfold received; split <;> rfl

/-- Where outputs go. -/
def dest (w : World) (file : Text) : Dest := if file = [] then .terminal else .file (resolve w.cwd file)

theorem redirectAll_redirs (sys : Sys) (w : World) (out : Text) (app : Bool) (h : out = [] ∨ sys.writable (resolve w.cwd out) = true) :
    redirectAll sys w (.terminal, .terminal) (redirs out app) =
      (if out = [] then w else received w out app [], some (dest w out, dest w out)) := by
  unfold redirs dest
  by_cases ho : out = []
  · simp [ho, redirectAll]
  · have hw := h.resolve_left ho
    simp only [ho, if_false, redirectAll, hw, if_true]
    unfold received
    simp only [ho, if_false]
    congr 2
    funext q
    by_cases hq : q = resolve w.cwd out
    · subst hq; simp
    · simp [hq]

theorem emit_dest (w : World) (out : Text) (t : Text) : emit w (dest w out) t = received w out true t := by
  unfold emit dest received
  by_cases ho : out = []
  · simp [ho]
  · simp only [ho, if_false]
    congr 1
    funext q
    by_cases hq : q = resolve w.cwd out
    · subst hq; simp
    · simp [hq]

theorem dest_received (w : World) (out : Text) (app : Bool) (t : Text) : dest (received w out app t) out = dest w out := by
  unfold dest; rw [received_cwd]

theorem received_nil (w : World) (out : Text) (app : Bool) (h : out = []) : received w out app [] = w := by
  unfold received; simp [h]

theorem emitAll_dest (out : Text) : ∀ (cs : List (Stream × Text)) (w : World) (app : Bool) (t : Text),
    emitAll (dest w out, dest w out) (received w out app t) cs = received w out app (t ++ written cs)
  | [], w, app, t => by simp [emitAll, written]
  | (s, u) :: cs, w, app, t => by
    have e : emitAll (dest w out, dest w out) (received w out app t) ((s, u) :: cs) =
        emitAll (dest w out, dest w out) (emit (received w out app t) (dest w out) u) cs := by cases s <;> rfl
    have e2 : emit (received w out app t) (dest w out) u = received w out app (t ++ u) := by
      rw [← dest_received w out app t, emit_dest, received_received]
    rw [e, e2]
    rw [emitAll_dest out cs w app (t ++ u)]
    simp [written]

theorem redirected_world (w : World) (out : Text) (app : Bool) : (if out = [] then w else received w out app []) = received w out app [] := by
  split
  · rw [received_nil w out app ‹_›]
  · rfl

theorem runSimple_echo (sys : Sys) (w : World) (args : List Text) (out : Text) (app : Bool) (hargs : ∀ s, args.head? ≠ some ('-' :: s))
    (h : out = [] ∨ sys.writable (resolve w.cwd out) = true) :
    runSimple sys w ⟨echoWord :: args, redirs out app⟩ = some (received w out app (line args ++ ['\n']), true) := by
  unfold runSimple
  rw [redirectAll_redirs sys w out app h, redirected_world]
  simp only [show echoWord ≠ cdWord by decide, if_false, if_true]
  split
  · exact absurd rfl (hargs _)
  · rw [← dest_received w out app [], emit_dest, received_received, unwords_eq]
    simp

theorem runSimple_program (sys : Sys) (w : World) (ws : List Text) (out : Text) (app : Bool) (hws : IsProgram ws)
    (h : out = [] ∨ sys.writable (resolve w.cwd out) = true) :
    runSimple sys w ⟨ws, redirs out app⟩ = some (ranProgram sys w [] ws out app) := by
  obtain ⟨name, args, rfl, h1, h2⟩ := hws
  unfold runSimple
  rw [redirectAll_redirs sys w out app h, redirected_world]
  simp only [show name ≠ cdWord from h1, show name ≠ echoWord from h2, if_false, received_ran, received_cwd]
  rw [emitAll_dest]
  simp [ranProgram, heading]

/-- A command with a heading. -/
theorem runAll_stage (sys : Sys) (w : World) (head ws : List Text) (out : Text) (app : Bool) (hhead : ∀ s, head.head? ≠ some ('-' :: s)) (hws : IsProgram ws)
    (h : out = [] ∨ sys.writable (resolve w.cwd out) = true) :
    runAll sys w (stage head ws out app) = some (ranProgram sys w head ws out app) := by
  unfold stage
  by_cases hh : head = []
  · subst hh
    rw [if_pos rfl, runAll, runSimple_program sys w ws out app hws h]
    cases hr : ranProgram sys w [] ws out app with
    | mk a b => cases b <;> rfl
  · rw [if_neg hh, runAll, runSimple_echo sys w [] out app (by simp) h]
    simp only []
    rw [runAll, runSimple_echo sys _ head out true hhead (by rw [received_cwd]; exact h), received_received]
    simp only []
    rw [runAll, runSimple_echo sys _ [] out true (by simp) (by rw [received_cwd]; exact h), received_received]
    simp only []
    rw [runAll, runSimple_program sys _ ws out true hws (by rw [received_cwd]; exact h)]
    have : ranProgram sys (received w out app (line [] ++ ['\n'] ++ (line head ++ ['\n']) ++ (line [] ++ ['\n']))) [] ws out true = ranProgram sys w head ws out app := by
      unfold ranProgram
      simp only [received_ran, received_cwd, received_received]
      rw [show line [] ++ ['\n'] ++ (line head ++ ['\n']) ++ (line [] ++ ['\n']) ++ (heading [] ++ written (sys.program w.ran w.cwd ws).1) =
        heading head ++ written (sys.program w.ran w.cwd ws).1 by simp [heading, hh, line, List.intercalate, List.intersperse]]
    rw [this]
    cases hr : ranProgram sys w head ws out app with
    | mk a b => cases b <;> rfl

end Verif.ShellRun
