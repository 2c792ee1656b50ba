/-
C35 to C39 and C60: the text processing functions.
-/
import Verif.Lemmas.TextForms

namespace Verif.Props

open Verif.Text Verif.Spec.Text

/-! ### C35 -/

/-- C35: `replace_all` with a pattern that is not empty returns; it replaces the occurrences which are found by scanning from left to right and
resuming after each of them, and nothing else. -/
theorem C35_replace_all (text p to : Str) (hp : p ≠ []) :
    ∃ r, Replaced p to text r ∧ Returns (fun fuel => replaceAll fuel text p to) r ∧
      ∀ r', Returns (fun fuel => replaceAll fuel text p to) r' → r' = r := by
  obtain ⟨r, hr⟩ := replaceAllFrom_total (to := to) hp (text.length + 1) text [] (by omega)
  have key : ∀ {fuel r}, replaceAll fuel text p to = some r → Replaced p to text r := by
    intro fuel r h
    obtain ⟨u, hu, h⟩ := replaceAllFrom_spec (s := text) (d := []) (by simpa [replaceAll] using h)
    simpa [hu] using h
  have h1 : replaceAll (text.length + 1) text p to = some r := by simpa [replaceAll] using hr
  refine ⟨r, key h1, ⟨_, h1⟩, ?_⟩
  rintro r' ⟨fuel, h⟩
  exact replaced_functional (key h) (key h1)

/-- C35: the description determines the result. -/
theorem C35_unique {p to text r r' : Str} (h : Replaced p to text r) (h' : Replaced p to text r') : r = r' := replaced_functional h h'

/-- C35: if the pattern does not occur, then the text is not changed. -/
theorem C35_absent {p to text r : Str} (hn : ¬ p <:+: text) (h : Returns (fun fuel => replaceAll fuel text p to) r) : r = text := by
  obtain ⟨fuel, h⟩ := h
  obtain ⟨u, hu, h⟩ := replaceAllFrom_spec (s := text) (d := []) (by simpa [replaceAll] using h)
  simp only [List.nil_append] at hu
  rw [hu]
  exact replaced_functional h (.none hn)

/-- C35: replacing a single character replaces all of its occurrences at once. -/
theorem C35_character (text : Str) (c : Char) (to : Str) :
    Returns (fun fuel => replaceAll fuel text [c] to) (text.flatMap fun x => if x = c then to else [x]) := by
  obtain ⟨r, h, hr, _⟩ := C35_replace_all text [c] to (by simp)
  rwa [replaced_char h] at hr

/-- C35: replacing a pattern by itself changes nothing, and the length of the result is that of the text, corrected by the difference of the
lengths for each replacement. -/
theorem C35_length {p to text r : Str} (hp : p ≠ []) (h : Returns (fun fuel => replaceAll fuel text p to) r) :
    (to = p → r = text) ∧ ∃ n, text.length + n * to.length = r.length + n * p.length ∧ (p <:+: text ↔ 0 < n) := by
  obtain ⟨r', h1, _, h3⟩ := C35_replace_all text p to hp
  obtain rfl := h3 r h
  exact ⟨fun e => by subst e; exact replaced_same h1, replaced_count h1⟩

/-- C35: several replacements are made one after the other. -/
theorem C35_several (text : Str) : ∀ (rs : List (Str × Str)), (∀ r ∈ rs, r.1 ≠ []) →
    ∃ u, ReplacedList rs text u ∧ Returns (fun fuel => replaceAlls fuel text rs) u := by
  have mono1 : ∀ {p to : Str} {f g : Nat} {s : Str} {n : Nat} {r : Str}, replaceAllFrom p to f s n = some r → f ≤ g → replaceAllFrom p to g s n = some r := by
    intro p to f
    induction f with
    | zero => intro g s n r h; simp [replaceAllFrom] at h
    | succ f ih =>
      intro g s n r h hg
      cases g with
      | zero => omega
      | succ g =>
        rw [replaceAllFrom] at h ⊢
        split
        · rename_i h0; simpa [h0] using h
        · rename_i q h0; simp only [h0] at h; exact ih h (by omega)
  have mono : ∀ {rs : List (Str × Str)} {f g : Nat} {s r : Str}, replaceAlls f s rs = some r → f ≤ g → replaceAlls g s rs = some r := by
    intro rs
    induction rs with
    | nil => intro f g s r h _; simpa [replaceAlls] using h
    | cons x rs ih =>
      intro f g s r h hg
      rw [replaceAlls] at h ⊢
      obtain ⟨t, ht, h⟩ := Option.bind_eq_some_iff.mp h
      rw [show replaceAll g s x.1 x.2 = some t from mono1 ht hg]
      exact ih h hg
  intro rs
  induction rs generalizing text with
  | nil => intro _; exact ⟨text, .nil, 0, rfl⟩
  | cons x rs ih =>
    intro h
    obtain ⟨t, h1, ⟨f, h2⟩, _⟩ := C35_replace_all text x.1 x.2 (h x (by simp))
    obtain ⟨u, h3, ⟨g, h4⟩⟩ := ih t fun r hr => h r (by simp [hr])
    refine ⟨u, .cons h1 h3, max f g, ?_⟩
    show (replaceAll (max f g) text x.1 x.2).bind (fun t => replaceAlls (max f g) t rs) = some u
    rw [show replaceAll (max f g) text x.1 x.2 = some t from mono1 h2 (by omega)]
    exact mono h4 (by omega)

/-- C35: `tabs_to_spacing` replaces each tab. -/
theorem C35_tabs (text spacing : Str) : Returns (fun fuel => tabsToSpacing fuel text spacing) (text.flatMap fun x => if x = '\t' then spacing else [x]) := by
  by_cases h : spacing = ['\t']
  · refine ⟨0, ?_⟩
    simp only [tabsToSpacing, h, if_true, Option.some.injEq]
    induction text with
    | nil => rfl
    | cons c t ih =>
      by_cases hc : c = '\t' <;> simp [List.flatMap_cons, hc, ← ih]
  · obtain ⟨f, hf⟩ := C35_character text '\t' spacing
    exact ⟨f, by simpa [tabsToSpacing, h] using hf⟩

/-- C35, not as claimed: with an empty pattern `replace_all` never returns, whatever the text and the replacement. -/
theorem C35_empty_pattern_violated (text to : Str) : Diverges fun fuel => replaceAll fuel text [] to :=
  fun fuel => by simpa [replaceAll] using replaceAllFrom_empty (to := to) fuel text []

-- a case: the result is not scanned again, and overlapping occurrences count once
example : replaceAll 10 "aaa-aa".toList "aa".toList "a".toList = some "aa-a".toList := rfl
example : Replaced "aa".toList "a".toList "aaa-aa".toList "aa-a".toList := by
  obtain ⟨r, h, _, hr⟩ := C35_replace_all "aaa-aa".toList "aa".toList "a".toList (by decide)
  rwa [← hr _ ⟨10, rfl⟩] at h

/-! ### C36 -/

/-- C36: `replace_all_recursive` returns if and only if the replacement is empty, or the pattern does not occur in the replacement without its
first character, or it does not occur in the text. -/
theorem C36_terminates (text p to : Str) : (∃ r, Returns (fun fuel => replaceRec fuel text p to) r) ↔ (to = [] ∨ ¬ p <:+: to.tail ∨ ¬ p <:+: text) := by
  constructor
  · rintro ⟨r, fuel, h⟩
    refine Classical.byContradiction fun hn => ?_
    simp only [not_or, Classical.not_not] at hn
    have := replaceRecFrom_diverges hn.1 hn.2.1 fuel text [] hn.2.2
    simp only [List.nil_append, List.length_nil] at this
    exact absurd (this.symm.trans h) (by simp)
  · intro h
    by_cases ht : p <:+: text
    · have hp : to = [] ∨ ¬ p <:+: to.tail := by
        rcases h with h | h | h
        · exact .inl h
        · exact .inr h
        · exact absurd ht h
      obtain ⟨r, hr⟩ := replaceRecFrom_total hp (text.length + 1) (text.length + 2) text [] (by omega)
        (by rintro a b rfl _; simp; omega)
      exact ⟨r, _, by simpa [replaceRec] using hr⟩
    · refine ⟨text, 1, ?_⟩
      have := find_append [] text p
      simp only [List.nil_append, List.length_nil, search_none.mpr ht, Option.map_none] at this
      simp [replaceRec, replaceRecFrom, this]

/-- C36: it returns whenever the replacement does not contain the pattern. -/
theorem C36_terminates_if (text p to : Str) (h : ¬ p <:+: to) : ∃ r, Returns (fun fuel => replaceRec fuel text p to) r :=
  (C36_terminates text p to).mpr (.inr (.inl fun ht => h (ht.trans (List.tail_suffix to).isInfix)))

/-- C36 in part: no occurrence of the pattern is left if no occurrence can arise at or before the beginning of a replacement.  What is missing:
without the condition occurrences can be left, see below. -/
theorem C36_none_left_partial {text p to r : Str} (hp : p ≠ []) (hs : Safe p to) (h : Returns (fun fuel => replaceRec fuel text p to) r) : ¬ p <:+: r := by
  obtain ⟨fuel, h⟩ := h
  refine replaceRecFrom_clean (s := text) (d := []) hs hp (by simp) ?_ (f := fuel)
  simpa [replaceRec] using h

/-- C36: in particular if the first character of the replacement is not a character of the pattern. -/
theorem C36_fresh_character {text p t r : Str} {c : Char} (hp : p ≠ []) (hc : c ∉ p) (h : Returns (fun fuel => replaceRec fuel text p (c :: t)) r) :
    ¬ p <:+: r := by
  refine C36_none_left_partial hp ?_ h
  rintro x y rfl hy hcmp
  exfalso
  cases y with
  | nil => exact hy rfl
  | cons d y =>
    rcases hcmp with h | h <;>
    · simp only [List.cons_prefix_cons] at h
      exact hc (by simp [h.1])

/-- C36: the condition holds for the use which is made of the function in the test framework, to separate closing angle brackets. -/
theorem C36_angle_brackets (text : Str) : ∃ r, Returns (fun fuel => replaceRec fuel text ">>".toList "> >".toList) r ∧ ¬ ">>".toList <:+: r := by
  obtain ⟨r, hr⟩ := C36_terminates_if text ">>".toList "> >".toList (by decide)
  refine ⟨r, hr, C36_none_left_partial (by decide) ?_ hr⟩
  rintro x y he hy hcmp
  have he' : ['>', '>'] = x ++ y := he
  match x, y, he' with
  | [], y, he' =>
    simp only [List.nil_append] at he'
    subst he'
    exact absurd hcmp (by decide)
  | [a], y, he' =>
    simp only [List.singleton_append, List.cons.injEq] at he'
    obtain ⟨rfl, rfl⟩ := he'
    exact ⟨by simp, by decide⟩
  | a :: b :: x, y, he' =>
    simp only [List.cons_append, List.cons.injEq] at he'
    have := he'.2.2
    have h0 : y = [] := by
      have := this.symm
      simp at this
      exact this.2
    exact absurd h0 hy

/-- C36, not as claimed: an occurrence which overlaps the beginning of the replacement is left, and so is one that is adjacent, because the
position is moved past the first character in any case. -/
theorem C36_none_left_violated :
    Returns (fun fuel => replaceRec fuel "aa".toList "a".toList []) "a".toList ∧
    Returns (fun fuel => replaceRec fuel "aabb".toList "ab".toList []) "ab".toList ∧
    Returns (fun fuel => replaceRec fuel "\n\n\n".toList "\n\n".toList "\n".toList) "\n\n".toList :=
  ⟨⟨5, rfl⟩, ⟨5, rfl⟩, ⟨5, rfl⟩⟩

example : replaceRec 10 "a<b<c<d>>>>".toList ">>".toList "> >".toList = some "a<b<c<d> > > >".toList := rfl
example : ¬ (∃ r, Returns (fun fuel => replaceRec fuel "b".toList "b".toList "abb".toList) r) := by
  rw [C36_terminates]; decide

/-! ### C60 -/

/-- C60: `replace_all` with conditions on the neighbouring characters always returns. -/
theorem C60_terminates (text p to : Str) (l r : Char → Bool) : ∃ v, Returns (fun fuel => replaceIf fuel text l p r to) v := by
  obtain ⟨v, hv⟩ := replaceIfFrom_total (l := l) (r := r) (p := p) (to := to) (text.length + 2) text [] (by omega)
  exact ⟨v, _, by simpa [replaceIf] using hv⟩

/-- C60 in part: if no character of the pattern satisfies the condition on the left neighbour, then exactly the occurrences whose neighbours satisfy
the conditions are replaced.  What is missing: without this assumption occurrences are skipped, see below. -/
theorem C60_replaces_partial {text p to v : Str} {l r : Char → Bool} (hp : p ≠ []) (hl : ∀ c ∈ p, l c = false)
    (h : Returns (fun fuel => replaceIf fuel text l p r to) v) : ReplacedIf l r p to '\x00' text v := by
  obtain ⟨fuel, h⟩ := h
  obtain ⟨u, hu, h⟩ := replaceIfFrom_spec hp hl (s := text) (d := []) (by simpa [replaceIf] using h)
  simpa [hu, final] using h

/-- C60: the description determines the result. -/
theorem C60_unique {text p to v v' : Str} {l r : Char → Bool} (hp : p ≠ []) (h : ReplacedIf l r p to '\x00' text v) (h' : ReplacedIf l r p to '\x00' text v') :
    v = v' := replacedIf_functional hp h h'

/-- C60: with delimiters, none of which occurs in the pattern; an empty collection of delimiters on the right imposes no condition. -/
theorem C60_delimiters {text anyOfLeft p anyOfRight to v : Str} (hp : p ≠ []) (hne : anyOfLeft ≠ []) (hl : ∀ c ∈ p, c ∉ anyOfLeft)
    (h : Returns (fun fuel => replaceDelim fuel text anyOfLeft p anyOfRight to) v) :
    ReplacedIf (· ∈ anyOfLeft) (fun c => anyOfRight = [] ∨ c ∈ anyOfRight) p to '\x00' text v := by
  have := C60_replaces_partial hp (l := fun c => anyOfLeft.isEmpty || anyOfLeft.contains c)
    (by intro c hc; simp [hne, hl c hc]) h
  have e1 : (fun c => anyOfLeft.isEmpty || anyOfLeft.contains c) = fun c => decide (c ∈ anyOfLeft) := by
    funext c; simp [hne]
  have e2 : (fun c => anyOfRight.isEmpty || anyOfRight.contains c) = fun c => decide (anyOfRight = [] ∨ c ∈ anyOfRight) := by
    funext c; cases anyOfRight <;> simp
  rwa [e1, e2] at this

/-- C60, not as claimed: of two occurrences next to each other the second is skipped, although there is no condition on the neighbours. -/
theorem C60_adjacent_violated :
    Returns (fun fuel => replaceDelim fuel "aa".toList [] "a".toList [] "b".toList) "ba".toList ∧
    ReplacedIf (fun _ => true) (fun _ => true) "a".toList "b".toList '\x00' "aa".toList "bb".toList := by
  refine ⟨⟨5, rfl⟩, ?_⟩
  have h : Qualifies (fun _ => true) (fun _ => true) ['a'] '\x00' (['a'] ++ ['a']) := ⟨rfl, _, rfl, rfl⟩
  have h' : Qualifies (fun _ => true) (fun _ => true) ['a'] 'a' (['a'] ++ []) := ⟨rfl, _, rfl, rfl⟩
  exact .hit h (.hit h' .nil)

example : replaceDelim 20 "x<true,istrue, true>true".toList " <".toList "true".toList ",>".toList "1".toList = some "x<1,istrue, 1>true".toList := rfl

/-! ### C37 -/

/-- C37: what `to_camel_case` does: it always returns. -/
theorem C37_to_camel (s sep : Str) : toCamel (s.length + 2) s sep = some (camel sep s) := toCamel_spec s sep

/-- C37: what `camel_to_words` does. -/
theorem C37_to_words (s sep : Str) (f : Char → Char) : camelToWords s sep f = words sep f s := camelToWords_spec s sep f

/-- C37: from camel case to snake case and back. -/
theorem C37_camel_snake_camel {x : Str} (h : CamelName x) : Returns (fun fuel => toCamel fuel (toSnake x) []) x := by
  refine ⟨_, (toCamel_spec (toSnake x) []).trans ?_⟩
  rw [show toSnake x = words ['_'] Char.toLower x from camelToWords_spec _ _ _, camel_words h]

/-- C37: from snake case to camel case and back. -/
theorem C37_snake_camel_snake {y : Str} (h : SnakeName y) : ∃ x, Returns (fun fuel => toCamel fuel y []) x ∧ toSnake x = y := by
  refine ⟨_, ⟨_, toCamel_spec y []⟩, ?_⟩
  rw [show toSnake (camel [] y) = words ['_'] Char.toLower (camel [] y) from camelToWords_spec _ _ _, words_camel h]

/-- C37: consequently, different camel case names have different snake case names. -/
theorem C37_injective {x x' : Str} (h : CamelName x) (h' : CamelName x') (he : toSnake x = toSnake x') : x = x' := by
  have h1 := camel_words h
  have h2 := camel_words h'
  have e1 : toSnake x = words ['_'] Char.toLower x := camelToWords_spec _ _ _
  have e2 : toSnake x' = words ['_'] Char.toLower x' := camelToWords_spec _ _ _
  rw [← e1, he] at h1
  rw [← e2] at h2
  exact h1.symm.trans h2

example : CamelName "FooBarBaz".toList ∧ toSnake "FooBarBaz".toList = "foo_bar_baz".toList := ⟨⟨by decide, by decide⟩, rfl⟩
example : SnakeName "foo_bar2".toList := ⟨.char (by decide) (by decide) (.char (by decide) (by decide) (.char (by decide) (by decide)
  (.under (by decide) (.char (by decide) (by decide) (.char (by decide) (by decide) (.char (by decide) (by decide) .nil)))))), by decide⟩
-- names which are not well formed: a digit after an underscore, two underscores
example : toCamel 9 "a_1".toList [] = some "A1".toList ∧ toCamel 9 "a__b".toList [] = some "A_b".toList := ⟨rfl, rfl⟩

/-! ### C38 -/

/-- C38: `indent` puts the indentation in front of every line which is not empty, and changes nothing else. -/
theorem C38_indent (s ind : Str) : indent s ind = unlines ((lines s).map (indentLine ind)) := indent_spec s ind

/-- C38: lines contain no newlines, and the text consists of its lines. -/
theorem C38_lines (s : Str) : unlines (lines s) = s ∧ ∀ l ∈ lines s, '\n' ∉ l := ⟨unlines_lines s, fun _ => mem_lines⟩

/-- C38: `indent` works line by line. -/
theorem C38_homomorphism (a b ind : Str) : indent (a ++ '\n' :: b) ind = indent a ind ++ '\n' :: indent b ind := by
  rw [indent_spec, indent_spec, indent_spec, lines_newline, List.map_append,
    unlines_append (by simpa using lines_ne a) (by simpa using lines_ne b)]

/-- C38: indenting twice is indenting by both. -/
theorem C38_twice (s i₁ i₂ : Str) (h : '\n' ∉ i₁) : indent (indent s i₁) i₂ = indent s (i₂ ++ i₁) := by
  rw [indent_spec, indent_spec s, indent_spec s, lines_unlines (by simpa using lines_ne s), List.map_map]
  · congr 1
    apply List.map_congr_left
    intro l _
    by_cases hl : l = [] <;> simp [indentLine, hl]
  · intro l hl
    obtain ⟨l', hl', rfl⟩ := List.mem_map.mp hl
    by_cases h0 : l' = []
    · simp [indentLine, h0]
    · simp only [indentLine, h0, if_false, List.mem_append, not_or]
      exact ⟨h, mem_lines hl'⟩

/-- C38: `append_indented` joins two texts which are not empty with a newline; if one of them is empty, the result is the other one. -/
theorem C38_append (s₁ s₂ ind : Str) :
    (s₁ ≠ [] → s₂ ≠ [] → appendIndented s₁ s₂ ind = unlines (lines s₁ ++ (lines s₂).map (indentLine ind))) ∧
    (s₂ = [] → appendIndented s₁ s₂ ind = s₁) ∧ (s₁ = [] → appendIndented s₁ s₂ ind = s₂) := by
  refine ⟨fun h1 h2 => ?_, fun h => by simp [appendIndented, h], fun h => ?_⟩
  · rw [unlines_append (lines_ne _) (by simpa using lines_ne s₂), unlines_lines, ← indent_spec]
    simp [appendIndented, h1, h2]
  · by_cases h2 : s₂ = [] <;> simp [appendIndented, h, h2]

example : indent "a\n\n b\n".toList "..".toList = "..a\n\n.. b\n".toList := rfl

/-! ### C39 -/

/-- C39: nothing is reported exactly if there is no opening delimiter from the position on. -/
theorem C39_none (s : Str) (o c : Char) (pos : Nat) : findMatched s o c pos = none ↔ o ∉ s.drop pos := by
  rw [← find_char_none, findMatched]
  cases find s [o] pos with
  | none => simp
  | some q => simp; split <;> simp

/-- C39: a pair of different positions is reported exactly if the text between them begins with the first opening delimiter and ends with the one
that matches it. -/
theorem C39_matched (s : Str) (o c : Char) (hoc : o ≠ c) (pos q e : Nat) (hqe : q ≠ e) : findMatched s o c pos = some (q, e) ↔
    ∃ a m b, s = a ++ m ++ b ∧ q = a.length ∧ e = (a ++ m).length ∧ pos ≤ q ∧ o ∉ a.drop pos ∧ Matched o c m := by
  constructor
  · intro h
    obtain ⟨a, b, rfl, ha, hp, hn, hm⟩ := findMatched_some hoc h
    rcases hm with ⟨m, v, hmv, hM, he⟩ | ⟨he, _⟩
    · exact ⟨a, m, v, by rw [hmv]; simp, ha.symm, by simp; omega, hp, hn, hM⟩
    · exact absurd he.symm hqe
  · rintro ⟨a, m, b, rfl, rfl, rfl, hp, hn, hM⟩
    obtain ⟨t, rfl⟩ := hM.1
    have hf : find (a ++ (o :: t) ++ b) [o] pos = some a.length := find_char.mpr ⟨a, t ++ b, by simp, rfl, hp, hn⟩
    cases hr : findMatched (a ++ (o :: t) ++ b) o c pos with
    | none =>
      rw [C39_none, ← find_char_none, hf] at hr; cases hr
    | some x =>
      obtain ⟨q, e⟩ := x
      obtain ⟨a', b', he, ha', hp', hn', hm'⟩ := findMatched_some hoc hr
      have hf' : find (a ++ (o :: t) ++ b) [o] pos = some q := find_char.mpr ⟨a', b', he, ha', hp', hn'⟩
      rw [hf] at hf'
      cases hf'
      have hi := List.append_inj (by simpa using he : a ++ (o :: (t ++ b)) = a' ++ (o :: b')) ha'.symm
      obtain ⟨rfl, hb⟩ := hi
      rcases hm' with ⟨m, v, hmv, hM', rfl⟩ | ⟨_, hno⟩
      · have := matched_unique (s := o :: b') hM hM' ⟨b, by rw [← hb]; simp⟩ ⟨v, hmv.symm⟩
        rw [← this]; simp
      · exact absurd hM (hno _ ⟨b, by rw [← hb]; simp⟩)

/-- C39: a pair of equal positions is reported exactly if the first opening delimiter is there, and has no matching one. -/
theorem C39_unmatched (s : Str) (o c : Char) (hoc : o ≠ c) (pos q : Nat) : findMatched s o c pos = some (q, q) ↔
    ∃ a b, s = a ++ o :: b ∧ q = a.length ∧ pos ≤ q ∧ o ∉ a.drop pos ∧ ∀ m, m <+: o :: b → ¬ Matched o c m := by
  constructor
  · intro h
    obtain ⟨a, b, rfl, ha, hp, hn, hm⟩ := findMatched_some hoc h
    rcases hm with ⟨m, v, hmv, hM, he⟩ | ⟨_, hno⟩
    · obtain ⟨⟨t, rfl⟩, _⟩ := hM
      simp at he
    · exact ⟨a, b, rfl, ha.symm, hp, hn, hno⟩
  · rintro ⟨a, b, rfl, rfl, hp, hn, hno⟩
    have hf : find (a ++ o :: b) [o] pos = some a.length := find_char.mpr ⟨a, b, rfl, rfl, hp, hn⟩
    cases hr : findMatched (a ++ o :: b) o c pos with
    | none => rw [C39_none, ← find_char_none, hf] at hr; cases hr
    | some x =>
      obtain ⟨q, e⟩ := x
      obtain ⟨a', b', he, ha', hp', hn', hm'⟩ := findMatched_some hoc hr
      have hf' : find (a ++ o :: b) [o] pos = some q := find_char.mpr ⟨a', b', he, ha', hp', hn'⟩
      rw [hf] at hf'
      cases hf'
      obtain ⟨rfl, hb⟩ := List.append_inj he ha'.symm
      rcases hm' with ⟨m, v, hmv, hM', _⟩ | ⟨rfl, _⟩
      · exact absurd hM' (hno _ (by rw [hb]; exact ⟨v, hmv.symm⟩))
      · rfl

/-- C39: between matching delimiters the text is balanced: it has as many opening as closing delimiters, and no beginning of it has more closing than
opening ones. -/
theorem C39_balanced {o c : Char} (hoc : o ≠ c) {m : Str} (h : Matched o c m) : ∃ t, m = o :: t ++ [c] ∧ t.count o = t.count c ∧
    ∀ u, u <+: t → u.count c ≤ u.count o := by
  obtain ⟨⟨t, rfl⟩, h1, h2⟩ := h
  have e1 : ∀ w, excess o c (o :: w) = 1 + excess o c w := fun w => by rw [excess_cons hoc, if_pos rfl]
  rcases List.eq_nil_or_concat t with rfl | ⟨t, x, rfl⟩
  · simp [excess, hoc] at h1
  · have h3 : ∀ u, u <+: t → u.count c ≤ u.count o := by
      intro u hu
      have := h2 (o :: u) (by simpa using hu.trans (List.prefix_append t [x])) (by simp) (by
        intro he
        have := congrArg List.length he
        have := hu.length_le
        simp at *; omega)
      rw [e1] at this
      simp only [excess] at this
      omega
    have h4 := h3 t (List.prefix_refl t)
    rw [e1] at h1
    have hx : excess o c (t ++ [x]) = excess o c t + (if x = o then 1 else if x = c then -1 else 0) := by
      have : excess o c (t ++ [x]) = excess o c t + excess o c [x] := by simp [excess, List.count_append]; omega
      rw [this, excess_cons hoc]; simp [excess]
    rw [List.concat_eq_append, hx] at h1
    simp only [excess] at h1
    by_cases hxo : x = o
    · simp [hxo] at h1; omega
    · by_cases hxc : x = c
      · subst hxc
        simp [hxo] at h1
        exact ⟨t, by simp, by omega, h3⟩
      · simp [hxo, hxc] at h1; omega

/-- C39: if the delimiters are the same, then no match is ever reported. -/
theorem C39_same (s : Str) (o : Char) (pos q e : Nat) (h : findMatched s o o pos = some (q, e)) : e = q := by
  rw [findMatched] at h
  cases hf : find s [o] pos with
  | none => simp [hf] at h
  | some q' =>
    simp only [hf, matchLoop_same (by omega : (0 : Int) < 1), Option.some.injEq, Prod.mk.injEq] at h
    omega

/-- C39: `find_sandwiched_text`: the text between the first occurrence of the left pattern from the position on and the first occurrence of the right
pattern after it. -/
theorem C39_sandwiched (s l r : Str) (pos i j : Nat) : findSandwiched s l r pos = (some i, some j) ↔
    ∃ a m b, s = a ++ l ++ m ++ r ++ b ∧ i = (a ++ l).length ∧ j = (a ++ l ++ m).length ∧ pos ≤ a.length ∧
      First l (a.drop pos) (m ++ r ++ b) ∧ First r m b := by
  constructor
  · intro h
    rw [findSandwiched] at h
    cases hf : find s l pos with
    | none => simp [hf] at h
    | some q =>
      simp only [hf, Prod.mk.injEq, Option.some.injEq] at h
      obtain ⟨rfl, h⟩ := h
      obtain ⟨a, t, rfl, rfl, hp, hF⟩ := find_some.mp hf
      obtain ⟨x, b, he, hx, hp', hF'⟩ := find_some.mp h
      have hpre : a ++ l <+: x := List.prefix_of_prefix_length_le (l₃ := x ++ r ++ b) ⟨t, he⟩ ⟨r ++ b, by simp⟩ (by simp; omega)
      obtain ⟨m, rfl⟩ := hpre
      have ht : t = m ++ r ++ b := by
        have : a ++ l ++ t = a ++ l ++ (m ++ r ++ b) := by rw [he]; simp
        exact List.append_cancel_left this
      refine ⟨a, m, b, by rw [ht]; simp, by simp, hx.symm, hp, by rw [← ht]; exact hF, ?_⟩
      rw [show a.length + l.length = (a ++ l).length by simp, List.drop_left] at hF'
      exact hF'
  · rintro ⟨a, m, b, rfl, rfl, rfl, hp, h1, h2⟩
    have hf : find (a ++ l ++ m ++ r ++ b) l pos = some a.length := find_some.mpr ⟨a, m ++ r ++ b, by simp, rfl, hp, h1⟩
    have hg : find (a ++ l ++ m ++ r ++ b) r (a.length + l.length) = some (a ++ l ++ m).length := by
      refine find_some.mpr ⟨a ++ l ++ m, b, by simp, rfl, by simp, ?_⟩
      rw [show a.length + l.length = (a ++ l).length by simp, List.drop_left]
      exact h2
    rw [findSandwiched, hf]
    simp only [hg]
    simp

example : findMatched "f(a, g(b)) (".toList '(' ')' 0 = some (1, 10) ∧ findMatched "f(a, g(b)) (".toList '(' ')' 2 = some (6, 9) ∧
    findMatched "f(a, g(b)) (".toList '(' ')' 7 = some (11, 11) := ⟨rfl, rfl, rfl⟩
example : Matched '(' ')' "(a, g(b))".toList := by
  obtain ⟨a, m, b, h, h1, h2, _, _, hM⟩ := (C39_matched "(a, g(b))".toList '(' ')' (by decide) 0 0 9 (by decide)).mp rfl
  have ha : a = [] := List.length_eq_zero_iff.mp h1.symm
  subst ha
  have hb : b = [] := by
    have := congrArg List.length h
    have h9 : "(a, g(b))".toList.length = 9 := rfl
    rw [h9] at this
    simp at this h2
    exact List.length_eq_zero_iff.mp (by omega)
  subst hb
  simp only [List.nil_append, List.append_nil] at h
  rw [h]; exact hM

end Verif.Props
