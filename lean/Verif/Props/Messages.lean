import Verif.Spec.Messages
import Verif.Props.LoggerText
import Verif.Lemmas.StateTransition
/-
C93: the messages about predictions, locations and exceptions.
-/
namespace Verif.Props
open Verif.Text Verif.Messages Verif.Spec.Messages

namespace Messages

theorem appendLine_eq {s t : Str} (hs : s ≠ []) (ht : t ≠ []) : appendLine s t = s ++ ['\n'] ++ t := by
  unfold appendLine appendIndented
  rw [if_neg ht, if_neg hs, Verif.LoggerText.indent_none]

theorem split_line {a a' b b' : Str} (ha : OneLine a) (ha' : OneLine a') (h : a ++ '\n' :: b = a' ++ '\n' :: b') : a = a' ∧ b = b' := by
  induction a generalizing a' with
  | nil =>
    cases a' with
    | nil => simpa using h
    | cons y ys => simp only [List.nil_append, List.cons_append, List.cons.injEq] at h; rw [← h.1] at ha'; exact absurd (by simp) ha'
  | cons x xs ih =>
    cases a' with
    | nil => simp only [List.nil_append, List.cons_append, List.cons.injEq] at h; rw [h.1] at ha; exact absurd (by simp) ha
    | cons y ys =>
      simp only [List.cons_append, List.cons.injEq] at h
      obtain ⟨h1, h2⟩ := ih (fun hm => ha (List.mem_cons_of_mem _ hm)) (fun hm => ha' (List.mem_cons_of_mem _ hm)) h.2
      exact ⟨by rw [h.1, h1], h2⟩

theorem toNat_ofNat {c : Nat} (hc : c < 256) : (Char.ofNat c).toNat = c := by
  have hv : c.isValidChar := Or.inl (by omega)
  unfold Char.ofNat
  rw [dif_pos hv]
  rfl

/-- the character which is displayed -/
def read : Str → Nat
  | [c] => c.toNat
  | [_, _, _] => 32
  | [_, _, c, _] =>
    if c = 'a' then 7 else if c = 'b' then 8 else if c = 'f' then 12 else if c = 'n' then 10 else if c = 'r' then 13 else if c = 't' then 9
    else if c = 'v' then 11 else 0
  | _ => 0

theorem read_display (c : Nat) (hc : c < 256) : read (displayCharacter c) = c := by
  unfold displayCharacter
  repeat' split
  all_goals first
    | (subst_vars; decide)
    | skip
  rw [Nat.mod_eq_of_lt hc]
  exact toNat_ofNat hc

theorem ofNat_inj {c d : Nat} (hc : c < 256) (hd : d < 256) (h : Char.ofNat c = Char.ofNat d) : c = d := by
  have := congrArg Char.toNat h
  rwa [toNat_ofNat hc, toNat_ofNat hd] at this

theorem display_oneLine (c : Nat) (hc : c < 256) : OneLine (displayCharacter c) := by
  unfold displayCharacter OneLine
  repeat' split
  all_goals first
    | decide
    | skip
  rw [Nat.mod_eq_of_lt hc]
  intro h
  simp only [List.mem_singleton] at h
  have := ofNat_inj (c := 10) (by omega) hc (by rw [← h])
  omega

end Messages
open Messages

/-- **C93** Different `char`s are displayed differently, and none of them breaks the line.  Those for which C++ has an escape sequence, and a blank, are displayed between quotes; the others are displayed as they are. -/
theorem C93_character (c d : Nat) (hc : c < 256) (hd : d < 256) :
    OneLine (displayCharacter c) ∧ (displayCharacter c = displayCharacter d → c = d) ∧
    displayCharacter c = (match escape c with
      | some x => ['\'', '\\', x, '\'']
      | none => if c = 32 then ['\'', ' ', '\''] else [Char.ofNat c]) := by
  refine ⟨display_oneLine c hc, fun h => ?_, ?_⟩
  · have := congrArg read h
    rwa [read_display c hc, read_display d hd] at this
  · by_cases h : c < 14
    · revert h; clear hc hd; revert c; decide
    · have he : escape c = none := by
        unfold escape
        split <;> first | omega | rfl
      unfold displayCharacter
      rw [he]
      simp only []
      rw [if_neg (by omega), if_neg (by omega), if_neg (by omega), if_neg (by omega), if_neg (by omega), if_neg (by omega), if_neg (by omega), if_neg (by omega), Nat.mod_eq_of_lt hc]
      rfl

example : displayCharacter 10 = "'\\n'".toList ∧ displayCharacter 97 = "a".toList := by decide

/-- **C93 (violated)** Wide characters are truncated: a report may show the same for what was obtained and for what was predicted. -/
theorem C93_wide_violated : ∃ c d, c ≠ d ∧ displayCharacter c = displayCharacter d ∧ characterMessage c d = "Obtained : A\nPredicted: A".toList :=
  ⟨0x41, 0x141, by decide, by decide, by decide⟩

/-- **C93** What was obtained and what was predicted can be read off a report, if what was obtained is displayed in one line. -/
theorem C93_prediction (o o' p p' : Str) (ho : OneLine o) (ho' : OneLine o') (h : predictionMessage o p = predictionMessage o' p') : o = o' ∧ p = p' := by
  unfold predictionMessage at h
  rw [appendLine_eq (by simp) (by simp), appendLine_eq (by simp) (by simp)] at h
  simp only [List.append_assoc, List.append_cancel_left_eq, List.singleton_append] at h
  obtain ⟨h1, h2⟩ := split_line ho ho' h
  exact ⟨h1, by simpa using h2⟩

example : predictionMessage "1".toList "2\n3".toList = "Obtained : 1\nPredicted: 2\n3".toList ∧ OneLine "1".toList := ⟨by decide, by unfold OneLine; decide⟩

/-- **C93** So can both of two characters. -/
theorem C93_characters (o o' p p' : Nat) (h1 : o < 256) (h2 : o' < 256) (h3 : p < 256) (h4 : p' < 256)
    (h : characterMessage o p = characterMessage o' p') : o = o' ∧ p = p' := by
  obtain ⟨a, b⟩ := C93_prediction _ _ _ _ (display_oneLine o h1) (display_oneLine o' h2) h
  exact ⟨(C93_character o o' h1 h2).2.1 a, (C93_character p p' h3 h4).2.1 b⟩

/-- **C93** And whether each of two pointers is null, which is what the report says unless neither of them is. -/
theorem C93_pointers (o o' p p' : Bool) :
    (pointerMessage o p = pointerMessage o' p' → o = o' ∧ p = p') ∧
    ((o && p) = false → pointerMessage o p = ("Obtained : " ++ nullness o ++ "\nPredicted: " ++ nullness p).toList) := by
  cases o <;> cases o' <;> cases p <;> cases p' <;> decide

/-- **C93** A file of the repository is reported by its path within, headed by the name of the repository, so different files are reported differently. -/
theorem C93_path_within (repo r r' : List Str) (hr : Absolute repo) (hn : repo.getLast? ≠ some ['/']) (h : Names r) (h' : Names r') :
    (∃ b, repo.getLast? = some b ∧ pathForReporting (repo ++ r) repo = b :: r) ∧
    (pathForReporting (repo ++ r) repo = pathForReporting (repo ++ r') repo → r = r') := by
  obtain ⟨l, rfl, hl⟩ := hr
  have rem : ∀ (a b : List Str), remaining (a ++ b) a = b := by
    intro a b
    induction a with
    | nil => cases b <;> rfl
    | cons x xs ih => simp [remaining, ih]
  obtain ⟨b, hb⟩ : ∃ b, (['/'] :: l).getLast? = some b := ⟨_, List.getLast?_eq_some_getLast (by simp)⟩
  have hb' : b ≠ ['/'] ∧ b ≠ [] := by
    refine ⟨fun h0 => hn (by rw [hb, h0]), fun h0 => ?_⟩
    have hm : b ∈ ['/'] :: l := List.mem_of_getLast? hb
    rcases List.mem_cons.1 hm with h1 | h1
    · rw [h0] at h1; cases h1
    · exact (hl _ h1).1 h0
  have fold : ∀ (r p : List Str), Names r → p ≠ [] → p ≠ [[]] → r.foldl slash p = p ++ r := by
    intro r
    induction r with
    | nil => intro p _ _ _; simp
    | cons e es ih =>
      intro p hr hp hp'
      have he := hr e (by simp)
      have he' : e ≠ ['/'] := by rintro rfl; exact he.2.1 (by simp)
      rw [List.foldl_cons]
      have : slash p e = p ++ [e] := by simp [slash, he', hp, hp']
      rw [this, ih (p ++ [e]) (fun x hx => hr x (List.mem_cons_of_mem _ hx)) (by simp) ?_]
      · simp
      · intro h0
        cases p with
        | nil => exact hp rfl
        | cons y ys => simp at h0
  have val : ∀ r, Names r → pathForReporting ((['/'] :: l) ++ r) (['/'] :: l) = b :: r := by
    intro r hr
    unfold pathForReporting
    have : isRelative ((['/'] :: l) ++ r) = false := by simp [isRelative]
    rw [this, hb]
    simp only [Bool.false_eq_true, if_false, rem]
    rw [fold r [b] hr (by simp) (by simp [hb'.2])]
    rfl
  refine ⟨⟨b, hb, val r h⟩, fun he => ?_⟩
  rw [val r h, val r' h'] at he
  simpa using he

example : pathForReporting ["/".toList, "home".toList, "proj".toList, "Tests".toList, "x.cpp".toList] ["/".toList, "home".toList, "proj".toList] =
    ["proj".toList, "Tests".toList, "x.cpp".toList] := by decide

/-- **C93** A relative path is reported without leading `..`. -/
theorem C93_path_relative (k : Nat) (r repo : List Str) (h : Names r) : pathForReporting (List.replicate k ['.', '.'] ++ r) repo = r := by
  have rel : isRelative (List.replicate k ['.', '.'] ++ r) = true := by
    unfold isRelative
    cases k with
    | zero =>
      cases r with
      | nil => rfl
      | cons e es =>
        have he := h e (by simp)
        have he' : e ≠ ['/'] := by rintro rfl; exact he.2.1 (by simp)
        simp [he']
    | succ k => simp [List.replicate_succ]
  have drop : (List.replicate k ['.', '.'] ++ r).dropWhile (· = ['.', '.']) = r := by
    induction k with
    | zero =>
      cases r with
      | nil => rfl
      | cons e es => simp [List.dropWhile, (h e (by simp)).2.2]
    | succ k ih => simp only [List.replicate_succ, List.cons_append, List.dropWhile, decide_true]; exact ih (by
        unfold isRelative
        cases k with
        | zero =>
          cases r with
          | nil => rfl
          | cons e es =>
            have he := h e (by simp)
            have he' : e ≠ ['/'] := by rintro rfl; exact he.2.1 (by simp)
            simp [he']
        | succ k => simp [List.replicate_succ])
  have fold : ∀ (r p : List Str), Names r → p ≠ [[]] → r.foldl slash p = p ++ r := by
    intro r
    induction r with
    | nil => intro p _ _; simp
    | cons e es ih =>
      intro p hr hp'
      have he := hr e (by simp)
      have he' : e ≠ ['/'] := by rintro rfl; exact he.2.1 (by simp)
      rw [List.foldl_cons]
      have : slash p e = p ++ [e] := by
        by_cases hp : p = []
        · simp [slash, he', hp]
        · simp [slash, he', hp, hp']
      rw [this, ih (p ++ [e]) (fun x hx => hr x (List.mem_cons_of_mem _ hx)) ?_]
      · simp
      · intro h0
        cases p with
        | nil => simp at h0; exact he.1 h0
        | cons y ys => simp at h0
  unfold pathForReporting
  rw [rel, if_pos rfl, drop, fold r [] h (by simp)]
  rfl

/-- **C93 (violated)** A file which is not in the repository is reported as though it were, and so like another file. -/
theorem C93_path_foreign_violated : ∃ repo file file' : List Str, Absolute repo ∧ Absolute file ∧ Absolute file' ∧ ¬ repo <+: file ∧ repo <+: file' ∧
    pathForReporting file repo = pathForReporting file' repo := by
  refine ⟨["/".toList, "home".toList], ["/".toList, "x.cpp".toList], ["/".toList, "home".toList, "x.cpp".toList],
    ⟨_, rfl, ?_⟩, ⟨_, rfl, ?_⟩, ⟨_, rfl, ?_⟩, ?_, ?_, ?_⟩ <;> decide

/-- **C93** The path, the number of the line and the message can be read off what is reported about a location, as long as names contain no line breaks. -/
theorem C93_report_line (m m' : Str) (repo file file' : List Str) (n n' : Nat) (hm : m ≠ []) (hm' : m' ≠ [])
    (h1 : OneLine (generic (pathForReporting file repo))) (h2 : OneLine (generic (pathForReporting file' repo)))
    (h : reportLine m repo file n = reportLine m' repo file' n') :
    generic (pathForReporting file repo) = generic (pathForReporting file' repo) ∧ n = n' ∧ m = m' := by
  have dig : ∀ n, ∀ c ∈ Nat.toDigits 10 n, c.isDigit := fun n c hc => Nat.isDigit_of_mem_toDigits (by omega) (by omega) hc
  have one : ∀ (x : Str) n, OneLine x → OneLine (x ++ ", Line ".toList ++ Nat.toDigits 10 n) := by
    intro x n hx hmem
    rcases List.mem_append.1 hmem with h0 | h0
    · rcases List.mem_append.1 h0 with h0 | h0
      · exact hx h0
      · revert h0; decide
    · have := dig n _ h0; revert this; decide
  unfold reportLine at h
  rw [appendLine_eq (by simp) hm, appendLine_eq (by simp) hm'] at h
  have h3 := List.append_cancel_right h
  obtain ⟨h4, h5⟩ := split_line (b := m) (b' := m') (one _ n h1) (one _ n' h2) (by simpa using h3)
  have h6 := congrArg List.reverse h4
  simp only [List.reverse_append] at h6
  have key : ∀ (d d' u u' : Str), (∀ c ∈ d, c.isDigit) → (∀ c ∈ d', c.isDigit) → d ++ ' ' :: u = d' ++ ' ' :: u' → d = d' ∧ u = u' := by
    intro d
    induction d with
    | nil =>
      intro d' u u' _ hd' he
      cases d' with
      | nil => simpa using he
      | cons y ys =>
        simp only [List.nil_append, List.cons_append, List.cons.injEq] at he
        have := hd' y (by simp); rw [← he.1] at this; exact absurd this (by decide)
    | cons x xs ih =>
      intro d' u u' hd hd' he
      cases d' with
      | nil =>
        simp only [List.nil_append, List.cons_append, List.cons.injEq] at he
        have := hd x (by simp); rw [he.1] at this; exact absurd this (by decide)
      | cons y ys =>
        simp only [List.cons_append, List.cons.injEq] at he
        obtain ⟨a, b⟩ := ih ys u u' (fun c hc => hd c (List.mem_cons_of_mem _ hc)) (fun c hc => hd' c (List.mem_cons_of_mem _ hc)) he.2
        exact ⟨by rw [he.1, a], b⟩
  have hl : ", Line ".toList.reverse = ' ' :: "eniL ,".toList := by decide
  rw [hl] at h6
  simp only [List.append_assoc, List.cons_append] at h6
  obtain ⟨h7, h8⟩ := key _ _ _ _ (fun c hc => dig n c (List.mem_reverse.1 hc)) (fun c hc => dig n' c (List.mem_reverse.1 hc)) h6
  refine ⟨?_, ?_, h5⟩
  · have := List.append_cancel_left h8
    exact List.reverse_injective.eq_iff.1 this
  · have h9 := congrArg (fun l => Nat.ofDigitChars 10 l.reverse 0) h7
    simpa [Nat.ofDigitChars_ten_toDigits] using h9

namespace Messages
open Verif.LoggerText Verif.Spec.LoggerText Verif.Logger

theorem heading_eq (tag what : Str) : appendLine ("Error -- ".toList ++ tag ++ " Exception:".toList) what ++ ['\n'] = heading tag what := by
  unfold heading
  by_cases hw : what = []
  · simp [appendLine, appendIndented, hw]
  · rw [appendLine_eq (by simp) hw, if_neg hw]; simp

theorem heading_ne (tag what : Str) : heading tag what ≠ [] := by unfold heading; exact List.append_ne_nil_of_right_ne_nil _ (by decide)

theorem exception_some (tag what last : Str) (file : List Str) (num : Int) (h : last ≠ []) :
    exceptionMessage tag file num last what = heading tag what ++ ['\n'] ++ ("Exception thrown ".toList ++
      (if num = 0 then "after check completed".toList else "during last check".toList)) ++ ['\n'] ++ "Last Recorded Message:\n".toList ++ ['\n'] ++ last := by
  unfold exceptionMessage
  simp only [heading_eq, if_pos h]
  have h1 : "Exception thrown ".toList ≠ [] := by decide
  have h2 : "Last Recorded Message:\n".toList ≠ [] := by decide
  generalize "Exception thrown ".toList = e at *
  generalize "Last Recorded Message:\n".toList = l at *
  have h3 := heading_ne tag what
  rw [appendLine_eq h3 (List.append_ne_nil_of_left_ne_nil h1 _), appendLine_eq (List.append_ne_nil_of_right_ne_nil _ (List.append_ne_nil_of_left_ne_nil h1 _)) h2,
    appendLine_eq (List.append_ne_nil_of_right_ne_nil _ h2) h]
  by_cases hn : num = 0
  · rw [if_neg (by simpa using hn), if_pos hn]
  · rw [if_pos hn, if_neg hn]

theorem exception_none (tag what : Str) (file : List Str) (num : Int) (hf : generic file ≠ []) :
    exceptionMessage tag file num [] what = heading tag what ++ ['\n'] ++ "Exception thrown before any checks performed in file".toList ++ ['\n'] ++ generic file := by
  unfold exceptionMessage
  have : ¬ ([] : Str) ≠ [] := by simp
  simp only [heading_eq, if_neg this]
  have h1 : "Exception thrown before any checks performed in file".toList ≠ [] := by decide
  generalize "Exception thrown before any checks performed in file".toList = e at *
  rw [appendLine_eq (heading_ne _ _) h1, appendLine_eq (List.append_ne_nil_of_right_ne_nil _ h1) hf]

theorem last_of_history (mode : Mode) (cs : List (Str × Body)) (m : Str) (b : Body) :
    ∃ s' t, runT mode {} ((cs ++ [(m, b)]).flatMap fun c => checkEvents c.1 c.2) = .ok s' ∧ s'.lastMessage = m ++ t := by
  obtain ⟨s₁, e1, i1, _⟩ := C92_history mode cs
  obtain ⟨s₂, e2, _, _, _, _, _, h⟩ := C92_report mode s₁ m b i1
  refine ⟨s₂, if mode = .falseNegative ∧ reports 0 (.nested m b .done) = [] then verdict m else [], ?_, ?_⟩
  · rw [List.flatMap_append, runT_append, e1]
    simpa using e2
  · rw [h]; split <;> simp

end Messages
open Verif.LoggerText Verif.Spec.LoggerText in
/-- **C93** If a test ends because of an exception, then it is reported whether this happened before the first check, in which case the file is named, or later, in which case the last message begins
with the description of the last check which was begun; and whether it was during that check. -/
theorem C93_exception (tag what : Str) (file : List Str) (hf : generic file ≠ []) (mode : Logger.Mode) (cs : List (Str × Body)) (m : Str) (b : Body) (hm : m ≠ []) (num : Int) :
    exceptionMessage tag file num ({} : TState).lastMessage what =
      heading tag what ++ ['\n'] ++ "Exception thrown before any checks performed in file".toList ++ ['\n'] ++ generic file ∧
    ∃ s' t, runT mode {} ((cs ++ [(m, b)]).flatMap fun c => checkEvents c.1 c.2) = .ok s' ∧
      exceptionMessage tag file num s'.lastMessage what = heading tag what ++ ['\n'] ++ ("Exception thrown ".toList ++
        (if num = 0 then "after check completed".toList else "during last check".toList)) ++ ['\n'] ++ "Last Recorded Message:\n".toList ++ ['\n'] ++
        (m ++ t) := by
  constructor
  · exact exception_none tag what file num hf
  · obtain ⟨s', t, h1, h2⟩ := last_of_history mode cs m b
    refine ⟨s', t, h1, ?_⟩
    rw [h2, exception_some _ _ _ _ _ (List.append_ne_nil_of_left_ne_nil hm _)]

example : generic ["/".toList, "home".toList, "x.cpp".toList] = "/home/x.cpp".toList := by decide

open Verif.LoggerText Verif.Spec.LoggerText in
/-- **C93 (violated)** After a check without description, what is reported is that there was none. -/
theorem C93_exception_violated (tag what : Str) (file : List Str) (hf : generic file ≠ []) (num : Int) :
    ∃ s', runT .standard {} (checkEvents [] (.item .check .done)) = .ok s' ∧ s'.core.results.topLevelChecks = 1 ∧
      "Exception thrown before any checks performed in file".toList <:+: exceptionMessage tag file num s'.lastMessage what := by
  refine ⟨_, rfl, rfl, ?_⟩
  show _ <:+: exceptionMessage tag file num [] what
  rw [exception_none tag what file num hf]
  exact ⟨heading tag what ++ ['\n'], ['\n'] ++ generic file, by simp only [List.append_assoc]⟩

end Verif.Props
