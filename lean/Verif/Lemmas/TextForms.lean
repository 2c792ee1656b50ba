/-
Lemmas about conditional replacement, names, indentation and delimiters.
-/
import Verif.Lemmas.Text

namespace Verif.Text

open Verif.Spec.Text

/-! ### Conditional replacement -/

theorem final_append (z : Char) : ∀ (a b : Str), final z (a ++ b) = final (final z a) b
  | [], _ => rfl
  | c :: a, b => final_append c a b

theorem final_mem (z : Char) : ∀ {a : Str}, a ≠ [] → final z a ∈ a
  | [c], _ => by simp [final]
  | c :: d :: a, _ => by
    have := final_mem c (a := d :: a) (by simp)
    simp only [final] at this ⊢
    exact List.mem_cons_of_mem _ this

theorem getLast_final (z : Char) : ∀ a : Str, a.getLast?.elim z id = final z a
  | [] => rfl
  | [c] => rfl
  | c :: d :: a => by
    have := getLast_final c (d :: a)
    rw [List.getLast?_cons_cons]
    simp only [final] at this ⊢
    rw [← this]
    cases h : (d :: a).getLast? with
    | none => simp at h
    | some x => rfl

theorem head_next (a : Str) : a.head?.elim '\x00' id = next a := by cases a <;> rfl

theorem leftOf_append (a b : Str) {n : Nat} (h : n = a.length) : leftOf (a ++ b) n = final '\x00' a := by
  rw [leftOf, h, List.take_left, getLast_final]

theorem rightOf_append (a b : Str) {n k : Nat} (h : n + k = a.length) : rightOf (a ++ b) n k = next b := by
  rw [rightOf, h, List.drop_left, head_next]

theorem replacedIf_skip {l r : Char → Bool} {p to : Str} {s u : Str} : ∀ {a : Str} {prev : Char},
    (∀ x y, a = x ++ y → y ≠ [] → ¬ Qualifies l r p (final prev x) (y ++ s)) → ReplacedIf l r p to (final prev a) s u →
    ReplacedIf l r p to prev (a ++ s) (a ++ u)
  | [], _, _, h => h
  | c :: a, prev, hq, h => by
    refine .skip (by simpa [final] using hq [] (c :: a) rfl (by simp)) ?_
    refine replacedIf_skip (a := a) ?_ h
    intro x y hxy hy
    exact hq (c :: x) y (by simp [hxy]) hy

theorem replacedIf_functional {l r : Char → Bool} {p to : Str} (hp : p ≠ []) {prev : Char} {s u : Str} (h : ReplacedIf l r p to prev s u) :
    ∀ {u'}, ReplacedIf l r p to prev s u' → u = u' := by
  induction h with
  | nil =>
    intro u' h'
    generalize hs : ([] : Str) = s at h'
    cases h' with
    | nil => rfl
    | hit => simp at hs; exact absurd hs.1 hp
    | skip => simp at hs
  | @hit prev b u hq _ ih =>
    intro u' h'
    generalize hs : p ++ b = s at h'
    cases h' with
    | nil => simp at hs; exact absurd hs.1 hp
    | hit _ h' =>
      have := List.append_cancel_left hs
      subst this
      rw [ih h']
    | skip hn => rw [hs] at hq; exact absurd hq hn
  | @skip prev c t u hn _ ih =>
    intro u' h'
    generalize hs : c :: t = s at h'
    cases h' with
    | nil => simp at hs
    | hit hq _ => rw [← hs] at hq; exact absurd hq hn
    | skip _ h' => cases hs; rw [ih h']

/-- Nothing qualifies which begins behind a character of the pattern. -/
theorem not_qualifies_inside {l r : Char → Bool} {p : Str} (hl : ∀ c ∈ p, l c = false) {prev : Char} {x s : Str} (hx : x ≠ []) (hxp : ∀ c ∈ x, c ∈ p) :
    ¬ Qualifies l r p (final prev x) s := by
  rintro ⟨h, _⟩
  rw [hl _ (hxp _ (final_mem prev hx))] at h
  cases h

theorem replaceIfFrom_spec {l r : Char → Bool} {p to : Str} (hp : p ≠ []) (hl : ∀ c ∈ p, l c = false) : ∀ {f : Nat} {s d v : Str},
    replaceIfFrom l r p to f (d ++ s) d.length = some v → ∃ u, v = d ++ u ∧ ReplacedIf l r p to (final '\x00' d) s u
  | 0, _, _, _, h => by simp [replaceIfFrom] at h
  | f + 1, s, d, v, h => by
    rw [replaceIfFrom, find_append] at h
    cases hs : search p s with
    | none =>
      simp [hs] at h
      refine ⟨s, h.symm, ?_⟩
      have := replacedIf_skip (l := l) (r := r) (p := p) (to := to) (s := []) (u := []) (a := s) (prev := final '\x00' d) ?_ .nil
      · simpa using this
      · rintro x y rfl hy ⟨_, b, hb, _⟩
        refine search_none.mp hs ⟨x, b, ?_⟩
        simp only [List.append_nil] at hb
        simp [hb]
    | some i =>
      obtain ⟨a, b, rfl, ha, hf⟩ := search_some hs
      simp only [hs, Option.map_some] at h
      -- nothing qualifies before the first occurrence
      have hbefore : ∀ x y, a = x ++ y → y ≠ [] → ¬ Qualifies l r p (final (final '\x00' d) x) (y ++ (p ++ b)) := by
        rintro x y rfl hy ⟨_, b', hb', _⟩
        have := hf x b' (by simp only [List.append_assoc] at hb' ⊢; rw [hb'])
        have : 0 < y.length := List.length_pos_iff.mpr hy
        simp at *; omega
      have hleft : leftOf (d ++ (a ++ p ++ b)) (d.length + i) = final (final '\x00' d) a := by
        rw [← final_append, show d ++ (a ++ p ++ b) = (d ++ a) ++ (p ++ b) by simp]
        exact leftOf_append _ _ (by simp; omega)
      have hright : rightOf (d ++ (a ++ p ++ b)) (d.length + i) p.length = next b := by
        rw [show d ++ (a ++ p ++ b) = (d ++ a ++ p) ++ b by simp]
        exact rightOf_append _ _ (by simp; omega)
      rw [hleft, hright] at h
      -- the character after a treated occurrence
      have hafter : ∀ (d' : Str) (v : Str), replaceIfFrom l r p to f (d' ++ b) (d'.length + 1) = some v →
          ∃ u, v = d' ++ u ∧ ReplacedIf l r p to (final (final (final '\x00' d) a) p) b u := by
        intro d' v hv
        cases b with
        | nil =>
          refine ⟨[], ?_, .nil⟩
          cases f with
          | zero => simp [replaceIfFrom] at hv
          | succ f =>
            rw [replaceIfFrom, find_beyond (by simp)] at hv
            simpa using hv.symm
        | cons c b =>
          rw [show d' ++ c :: b = (d' ++ [c]) ++ b by simp, show d'.length + 1 = (d' ++ [c]).length by simp] at hv
          obtain ⟨u, hu, hr⟩ := replaceIfFrom_spec hp hl hv
          rw [final_append] at hr
          exact ⟨c :: u, by simp [hu], .skip (not_qualifies_inside hl hp (fun _ h => h)) hr⟩
      by_cases hq : (l (final (final '\x00' d) a) && r (next b)) = true
      · rw [if_pos hq, splice_append d a p b to (by omega),
          show d.length + i + (to.length + 1) = (d ++ a ++ to).length + 1 by simp; omega] at h
        obtain ⟨u, hu, hr⟩ := hafter _ _ h
        simp only [Bool.and_eq_true] at hq
        refine ⟨a ++ (to ++ u), by simp [hu], ?_⟩
        have h2 : ReplacedIf l r p to (final (final '\x00' d) a) (p ++ b) (to ++ u) := .hit ⟨hq.1, b, rfl, hq.2⟩ hr
        have := replacedIf_skip (s := p ++ b) hbefore h2
        simpa using this
      · rw [if_neg hq, show d ++ (a ++ p ++ b) = (d ++ a ++ p) ++ b by simp,
          show d.length + i + (p.length + 1) = (d ++ a ++ p).length + 1 by simp; omega] at h
        obtain ⟨u, hu, hr⟩ := hafter _ _ h
        refine ⟨a ++ (p ++ u), by simp [hu], ?_⟩
        have h2 : ReplacedIf l r p to (final (final '\x00' d) a) (p ++ b) (p ++ u) := by
          refine replacedIf_skip ?_ hr
          rintro x y rfl hy
          by_cases hx : x = []
          · subst hx
            rintro ⟨h1, b', hb', h3⟩
            simp only [List.nil_append, List.append_cancel_left_eq] at hb'
            simp only [final] at h1
            simp [h1, hb', h3] at hq
          · exact not_qualifies_inside hl hx fun c hc => by simp [hc]
        have := replacedIf_skip (s := p ++ b) hbefore h2
        simpa using this

theorem replaceIfFrom_total {l r : Char → Bool} {p to : Str} : ∀ (f : Nat) (s d : Str), s.length + 1 < f →
    ∃ v, replaceIfFrom l r p to f (d ++ s) d.length = some v
  | 0, _, _, h => by omega
  | f + 1, s, d, h => by
    rw [replaceIfFrom, find_append]
    cases hs : search p s with
    | none => simp
    | some i =>
      obtain ⟨a, b, rfl, ha, hf⟩ := search_some hs
      simp only [Option.map_some]
      have hafter : ∀ (d' : Str), ∃ v, replaceIfFrom l r p to f (d' ++ b) (d'.length + 1) = some v := by
        intro d'
        cases b with
        | nil =>
          cases f with
          | zero => simp at h
          | succ f =>
            rw [replaceIfFrom, find_beyond (by simp)]
            simp
        | cons c b =>
          rw [show d' ++ c :: b = (d' ++ [c]) ++ b by simp, show d'.length + 1 = (d' ++ [c]).length by simp]
          exact replaceIfFrom_total f b _ (by simp at h; omega)
      split
      · rw [splice_append d a p b to (by omega), show d.length + i + (to.length + 1) = (d ++ a ++ to).length + 1 by simp; omega]
        exact hafter _
      · rw [show d ++ (a ++ p ++ b) = (d ++ a ++ p) ++ b by simp,
          show d.length + i + (p.length + 1) = (d ++ a ++ p).length + 1 by simp; omega]
        exact hafter _

/-! ### Names -/

theorem camelTail_char {sep : Str} {c : Char} (h : c ≠ '_') (t : Str) : camelTail sep (c :: t) = c :: camelTail sep t := by
  cases t <;> simp [camelTail, h]

theorem camelTail_append {sep : Str} : ∀ {a : Str} (s : Str), '_' ∉ a → camelTail sep (a ++ s) = a ++ camelTail sep s
  | [], _, _ => rfl
  | c :: a, s, h => by
    simp only [List.mem_cons, not_or] at h
    rw [List.cons_append, camelTail_char (Ne.symm h.1), camelTail_append s h.2, List.cons_append]

theorem modify_length (d : Str) (c : Char) (t : Str) (f : Char → Char) {n : Nat} (h : n = d.length) : (d ++ c :: t).modify n f = d ++ f c :: t := by
  subst h
  induction d with
  | nil => simp
  | cons x d ih => simpa using ih

theorem search_char {c : Char} {s : Str} {i : Nat} (h : search [c] s = some i) : ∃ a b, s = a ++ c :: b ∧ a.length = i ∧ c ∉ a := by
  obtain ⟨a, b, rfl, ha, hf⟩ := search_some h
  refine ⟨a, b, by simp, ha, fun hc => ?_⟩
  obtain ⟨x, y, rfl⟩ := List.append_of_mem hc
  have := hf x (y ++ [c] ++ b) (by simp)
  simp at this; omega

theorem search_char_none {c : Char} {s : Str} (h : search [c] s = none) : c ∉ s := by
  intro hc
  obtain ⟨x, y, rfl⟩ := List.append_of_mem hc
  exact search_none.mp h ⟨x, y, by simp⟩

theorem camelFrom_spec {sep : Str} : ∀ (f : Nat) (s d : Str), s.length < f →
    camelFrom sep f (d ++ s) d.length = some (d ++ camelTail sep s)
  | 0, _, _, h => by omega
  | f + 1, s, d, h => by
    rw [camelFrom, find_append]
    cases hs : search ['_'] s with
    | none =>
      have := camelTail_append (sep := sep) [] (search_char_none hs)
      simp [camelTail] at this
      simp [this]
    | some i =>
      obtain ⟨a, b, rfl, ha, hn⟩ := search_char hs
      simp only [Option.map_some]
      have hsp := splice_append d a ['_'] b sep (n := d.length + i) (by omega)
      simp only [List.length_singleton, List.append_assoc, List.singleton_append] at hsp
      rw [hsp]
      cases b with
      | nil =>
        rw [if_neg (by simp; omega), camelTail_append _ hn]
        cases f with
        | zero => simp at h
        | succ f =>
          rw [camelFrom, find_beyond (by simp; omega)]
          simp [camelTail]
      | cons c b =>
        rw [if_pos (by simp; omega)]
        rw [show d ++ (a ++ (sep ++ c :: b)) = (d ++ a ++ sep) ++ c :: b by simp, modify_length _ _ _ _ (by simp; omega)]
        change camelFrom sep f (d ++ a ++ sep ++ up c :: b) _ = _
        rw [show d ++ a ++ sep ++ up c :: b = (d ++ a ++ sep ++ [up c]) ++ b by simp,
          show d.length + i + (sep.length + 1) = (d ++ a ++ sep ++ [up c]).length by simp; omega,
          camelFrom_spec f b _ (by simp at h; omega), camelTail_append _ hn]
        simp [camelTail]

theorem toCamel_spec (s sep : Str) : toCamel (s.length + 2) s sep = some (camel sep s) := by
  cases s with
  | nil => simp [toCamel, camel]
  | cons c t =>
    have := camelFrom_spec (sep := sep) ((c :: t).length + 2) (up c :: t) [] (by simp)
    simpa [toCamel, upperFront, camel, up, upper] using this

theorem toCamel_least (s sep : Str) : toCamel (s.length + 1) s sep = some (camel sep s) := by
  cases s with
  | nil => simp [toCamel, camel]
  | cons c t =>
    have := camelFrom_spec (sep := sep) ((c :: t).length + 1) (up c :: t) [] (by simp)
    simpa [toCamel, upperFront, camel, up, upper] using this

theorem wordsFrom_false (sep : Str) (f : Char → Char) : ∀ s : Str, wordsFrom sep f false s = wordsTail sep f s
  | [] => rfl
  | c :: t => by
    by_cases h : c.isUpper <;> simp [wordsFrom, wordsTail, h, wordsFrom_false sep f t]

theorem camelToWords_spec (s sep : Str) (f : Char → Char) : camelToWords s sep f = words sep f s := by
  cases s with
  | nil => rfl
  | cons c t =>
    by_cases h : c.isUpper <;> simp [camelToWords, wordsFrom, words, h, wordsFrom_false]

/-! ### Letters -/

theorem ascii {P : Char → Prop} (h : ∀ n < 128, P (Char.ofNat n)) {c : Char} (hc : c.toNat < 128) : P c := by
  have := h c.toNat hc
  rwa [Char.ofNat_toNat] at this

theorem toNat_of_upper {c : Char} (h : c.isUpper) : c.toNat < 128 := by
  have : c.val ≤ 'Z'.val := by simp [Char.isUpper] at h; exact h.2
  have : c.val.toNat ≤ 90 := this
  show c.val.toNat < 128
  omega

theorem toNat_of_lower {c : Char} (h : c.isLower) : c.toNat < 128 := by
  have : c.val ≤ 'z'.val := by simp [Char.isLower] at h; exact h.2
  have : c.val.toNat ≤ 122 := this
  show c.val.toNat < 128
  omega

theorem up_of_not_lower {c : Char} (h : ¬ c.isLower) : up c = c := by
  simp only [up]
  split
  · simp [Char.toUpper, Char.isLower] at h ⊢
    grind
  · rfl

theorem up_lower {c : Char} (h : c.isUpper) : up c.toLower = c :=
  ascii (P := fun c => c.isUpper → up c.toLower = c) (by decide +kernel) (toNat_of_upper h) h

theorem lower_up {c : Char} (h : c.isLower) : (up c).toLower = c ∧ (up c).isUpper ∧ up c ≠ '_' :=
  ascii (P := fun c => c.isLower → (up c).toLower = c ∧ (up c).isUpper ∧ up c ≠ '_') (by decide +kernel) (toNat_of_lower h) h

theorem not_upper_of_lower {c : Char} (h : c.isLower) : ¬ c.isUpper :=
  ascii (P := fun c => c.isLower → ¬ c.isUpper) (by decide +kernel) (toNat_of_lower h) h

/-! ### The round trips -/

theorem camelTail_wordsTail : ∀ {t : Str}, '_' ∉ t → camelTail [] (wordsTail ['_'] Char.toLower t) = t
  | [], _ => rfl
  | c :: t, h => by
    simp only [List.mem_cons, not_or] at h
    have ih := camelTail_wordsTail h.2
    by_cases hc : c.isUpper
    · have : wordsTail ['_'] Char.toLower (c :: t) = '_' :: c.toLower :: wordsTail ['_'] Char.toLower t := by simp [wordsTail, hc]
      rw [this, camelTail, if_pos rfl, up_lower hc, ih, List.nil_append]
    · have : wordsTail ['_'] Char.toLower (c :: t) = c :: wordsTail ['_'] Char.toLower t := by simp [wordsTail, hc]
      rw [this, camelTail_char (Ne.symm h.1), ih]

theorem camel_words {x : Str} (h : CamelName x) : camel [] (words ['_'] Char.toLower x) = x := by
  cases x with
  | nil => rfl
  | cons c t =>
    obtain ⟨hu, hl⟩ := h
    simp only [List.mem_cons, not_or] at hu
    have hl' : ¬ c.isLower := hl c (by simp)
    by_cases hc : c.isUpper
    · simp only [words, hc, if_true, camel]
      rw [up_lower hc, camelTail_char (Ne.symm hu.1), camelTail_wordsTail hu.2]
    · simp only [words, hc, camel]
      rw [if_neg (by simp), up_of_not_lower hl', camelTail_char (Ne.symm hu.1), camelTail_wordsTail hu.2]

theorem wordsTail_camelTail {t : Str} (h : SnakeRest t) : wordsTail ['_'] Char.toLower (camelTail [] t) = t := by
  induction h with
  | nil => rfl
  | @char c t h1 h2 _ ih =>
    rw [camelTail_char h1]
    have : wordsTail ['_'] Char.toLower (c :: camelTail [] t) = c :: wordsTail ['_'] Char.toLower (camelTail [] t) := by
      simp [wordsTail, h2]
    rw [this, ih]
  | @under c t h1 _ ih =>
    rw [camelTail, if_pos rfl, List.nil_append]
    obtain ⟨h2, h3, _⟩ := lower_up h1
    have : wordsTail ['_'] Char.toLower (up c :: camelTail [] t) = '_' :: (up c).toLower :: wordsTail ['_'] Char.toLower (camelTail [] t) := by
      simp [wordsTail, h3]
    rw [this, ih, h2]

theorem words_camel {y : Str} (h : SnakeName y) : words ['_'] Char.toLower (camel [] y) = y := by
  obtain ⟨h, hn⟩ := h
  cases h with
  | nil => rfl
  | under => simp at hn
  | @char c t h1 h2 h3 =>
    by_cases hl : c.isLower
    · obtain ⟨h4, h5, h6⟩ := lower_up hl
      simp only [camel, camelTail_char h6, words, h5, if_true, h4, wordsTail_camelTail h3]
    · simp only [camel, up_of_not_lower hl, camelTail_char h1, words, h2, wordsTail_camelTail h3]
      simp

/-! ### Indentation -/

theorem lines_ne (s : Str) : lines s ≠ [] := by
  cases s with
  | nil => simp [lines]
  | cons c t =>
    simp only [lines]
    split
    · simp
    · split <;> simp

theorem lines_line : ∀ {a : Str}, '\n' ∉ a → lines a = [a]
  | [], _ => rfl
  | c :: a, h => by
    simp only [List.mem_cons, not_or] at h
    simp [lines, Ne.symm h.1, lines_line h.2]

theorem lines_newline : ∀ (a b : Str), lines (a ++ '\n' :: b) = lines a ++ lines b
  | [], b => by simp [lines]
  | c :: a, b => by
    have ih := lines_newline a b
    by_cases h : c = '\n'
    · simp [lines, h, ih]
    · simp only [List.cons_append, lines, h, if_false, ih]
      cases ha : lines a with
      | nil => exact absurd ha (lines_ne a)
      | cons l ls => simp

theorem unlines_append : ∀ {a b : List Str}, a ≠ [] → b ≠ [] → unlines (a ++ b) = unlines a ++ '\n' :: unlines b
  | [], _, h, _ => absurd rfl h
  | [l], [], _, h => absurd rfl h
  | [l], m :: b, _, _ => by simp [unlines]
  | l :: l' :: a, b, _, hb => by
    have ih := unlines_append (a := l' :: a) (by simp) hb
    simp only [List.cons_append] at ih ⊢
    simp only [unlines, ih]
    simp

theorem mem_lines : ∀ {s l : Str}, l ∈ lines s → '\n' ∉ l
  | [], l, h => by simp [lines] at h; simp [h]
  | c :: t, l, h => by
    by_cases hc : c = '\n'
    · simp only [lines, hc, if_true, List.mem_cons] at h
      rcases h with rfl | h
      · simp
      · exact mem_lines h
    · simp only [lines, hc, if_false] at h
      cases ht : lines t with
      | nil => exact absurd ht (lines_ne t)
      | cons m ms =>
        simp only [ht, List.mem_cons] at h
        rcases h with rfl | h
        · have := mem_lines (s := t) (l := m) (by simp [ht])
          simp only [List.mem_cons, not_or]
          exact ⟨Ne.symm hc, this⟩
        · exact mem_lines (s := t) (by simp [ht, h])

theorem unlines_lines : ∀ s : Str, unlines (lines s) = s
  | [] => rfl
  | c :: t => by
    have ih := unlines_lines t
    by_cases hc : c = '\n'
    · simp only [lines, hc, if_true]
      cases ht : lines t with
      | nil => exact absurd ht (lines_ne t)
      | cons m ms => rw [ht] at ih; simp [unlines, ih]
    · simp only [lines, hc, if_false]
      cases ht : lines t with
      | nil => exact absurd ht (lines_ne t)
      | cons m ms =>
        rw [ht] at ih
        cases ms with
        | nil => simpa [unlines] using ih
        | cons n ns => simp only [unlines] at ih ⊢; simp [← ih]

theorem lines_unlines : ∀ {ls : List Str}, ls ≠ [] → (∀ l ∈ ls, '\n' ∉ l) → lines (unlines ls) = ls
  | [], h, _ => absurd rfl h
  | [l], _, h => by simpa [unlines] using lines_line (h l (by simp))
  | l :: m :: ls, _, h => by
    have ih := lines_unlines (ls := m :: ls) (by simp) fun k hk => h k (List.mem_cons_of_mem _ hk)
    rw [unlines, lines_newline, lines_line (h l (by simp)), ih]
    · rfl
    · simp

theorem indentFrom_spec {ind : Str} : ∀ (f : Nat) (s : Str), s.length < f → indentFrom ind f s = unlines ((lines s).map (indentLine ind))
  | 0, _, h => by omega
  | f + 1, [], _ => by simp [indentFrom, lines, unlines, indentLine]
  | f + 1, c :: t, h => by
    rw [indentFrom]
    cases hs : search ['\n'] (c :: t) with
    | none =>
      have hn := search_char_none hs
      rw [lines_line hn]
      have hc : c ≠ '\n' := fun hc => hn (by simp [hc])
      simp [unlines, indentLine, hc]
    | some i =>
      obtain ⟨a, b, he, ha, hn⟩ := search_char hs
      simp only [he]
      have h1 : (a ++ '\n' :: b).take (i + 1) = a ++ ['\n'] := by
        rw [show a ++ '\n' :: b = (a ++ ['\n']) ++ b by simp, show i + 1 = (a ++ ['\n']).length by simp [ha], List.take_left]
      have h2 : (a ++ '\n' :: b).drop (i + 1) = b := by
        rw [show a ++ '\n' :: b = (a ++ ['\n']) ++ b by simp, show i + 1 = (a ++ ['\n']).length by simp [ha], List.drop_left]
      rw [h1, h2, indentFrom_spec f b (by rw [he] at h; simp at h; omega), lines_newline, lines_line hn, List.map_append,
        unlines_append (by simp) (by simpa using lines_ne b)]
      cases a with
      | nil => simp [unlines, indentLine]
      | cons x a =>
        have hx : x ≠ '\n' := fun hx => hn (by simp [hx])
        simp [unlines, indentLine, hx]

theorem indentLine_nil : indentLine [] = id := by
  funext l
  by_cases h : l = [] <;> simp [indentLine, h]

theorem indent_spec (s ind : Str) : indent s ind = unlines ((lines s).map (indentLine ind)) := by
  rw [indent]
  split
  · subst s; simp [lines, unlines, indentLine]
  · split
    · subst ind; rw [indentLine_nil, List.map_id, unlines_lines]
    · exact indentFrom_spec _ _ (by omega)

/-! ### Delimiters -/

theorem excess_cons {o c : Char} (hoc : o ≠ c) (x : Char) (s : Str) :
    excess o c (x :: s) = (if x = o then 1 else if x = c then -1 else 0) + excess o c s := by
  simp only [excess, List.count_cons]
  by_cases h1 : x = o
  · subst h1; simp [hoc]; omega
  · by_cases h2 : x = c
    · subst h2; simp [h1]; omega
    · simp [h1, h2]

/-- The prefix after which the number of open delimiters becomes zero for the first time. -/
def Closes (o c : Char) (n : Int) (u : Str) : Prop := u ≠ [] ∧ n + excess o c u = 0 ∧ ∀ w, w <+: u → w ≠ u → 0 < n + excess o c w

theorem matchLoop_iff {o c : Char} (hoc : o ≠ c) : ∀ {t : Str} {pos : Nat} {n : Int} {e : Nat}, 0 < n →
    (matchLoop o c pos n t = some e ↔ ∃ u v, t = u ++ v ∧ e = pos + u.length ∧ Closes o c n u)
  | [], pos, n, e, hn => by
    simp only [matchLoop, reduceCtorEq, false_iff]
    rintro ⟨u, v, h, _, hu, _⟩
    simp at h; exact hu h.1
  | x :: t, pos, n, e, hn => by
    rw [matchLoop]
    have hx : (if x = o then n + 1 else if x = c then n - 1 else n) = n + (if x = o then 1 else if x = c then -1 else 0) := by
      split
      · rfl
      · split <;> omega
    simp only [hx]
    generalize hk : (if x = o then (1 : Int) else if x = c then -1 else 0) = k
    have hk1 : -1 ≤ k := by
      subst hk
      by_cases h1 : x = o
      · simp [h1]
      · rw [if_neg h1]
        by_cases h2 : x = c <;> simp [h2]
    split
    · rename_i h0
      simp only [Option.some.injEq]
      constructor
      · rintro rfl
        refine ⟨[x], t, rfl, rfl, by simp, ?_, ?_⟩
        · rw [excess_cons hoc, hk]; simp [excess]; omega
        · intro w hw hne
          cases w with
          | nil => simpa [excess] using hn
          | cons y w => simp at hw; simp [hw] at hne
      · rintro ⟨u, v, h, he, hu, h1, h2⟩
        cases u with
        | nil => exact absurd rfl hu
        | cons y u =>
          cases u with
          | nil => simp [he]
          | cons z u =>
            simp only [List.cons_append, List.cons.injEq] at h
            have := h2 [x] (by simp [h.1]) (by simp)
            rw [excess_cons hoc, hk] at this
            simp [excess] at this; omega
    · rename_i h0
      rw [matchLoop_iff hoc (by omega)]
      constructor
      · rintro ⟨u, v, rfl, rfl, hu, h1, h2⟩
        refine ⟨x :: u, v, rfl, by simp; omega, by simp, ?_, ?_⟩
        · rw [excess_cons hoc, hk]; omega
        · intro w hw hne
          cases w with
          | nil => simpa [excess] using hn
          | cons y w =>
            simp only [List.cons_prefix_cons] at hw
            obtain ⟨rfl, hw⟩ := hw
            have := h2 w hw (fun h => hne (by rw [h]))
            rw [excess_cons hoc, hk]; omega
      · rintro ⟨u, v, h, he, hu, h1, h2⟩
        cases u with
        | nil => exact absurd rfl hu
        | cons y u =>
          simp only [List.cons_append, List.cons.injEq] at h
          obtain ⟨rfl, rfl⟩ := h
          rw [excess_cons hoc, hk] at h1
          refine ⟨u, v, rfl, by simp at he; omega, ?_, by omega, ?_⟩
          · rintro rfl
            simp [excess] at h1; omega
          · intro w hw hne
            have := h2 (x :: w) (by simpa using hw) (by simpa using hne)
            rw [excess_cons hoc, hk] at this; omega

theorem matchLoop_same {o : Char} : ∀ {t : Str} {pos : Nat} {n : Int}, 0 < n → matchLoop o o pos n t = none
  | [], _, _, _ => rfl
  | x :: t, pos, n, hn => by
    rw [matchLoop]
    have hpos : 0 < (if x = o then n + 1 else if x = o then n - 1 else n) := by
      by_cases h : x = o <;> simp [h] <;> omega
    rw [if_neg (by omega)]
    exact matchLoop_same hpos

theorem matched_iff {o c : Char} (hoc : o ≠ c) {u : Str} : Matched o c (o :: u) ↔ Closes o c 1 u := by
  have e1 : ∀ w, excess o c (o :: w) = 1 + excess o c w := fun w => by rw [excess_cons hoc, if_pos rfl]
  constructor
  · rintro ⟨_, h1, h2⟩
    rw [e1] at h1
    refine ⟨?_, h1, fun w hw hne => ?_⟩
    · rintro rfl; simp [excess] at h1
    · have := h2 (o :: w) (by simpa using hw) (by simp) (by simpa using hne)
      rwa [e1] at this
  · rintro ⟨hu, h1, h2⟩
    refine ⟨⟨u, rfl⟩, by rw [e1]; exact h1, fun w hw hne hne' => ?_⟩
    cases w with
    | nil => exact absurd rfl hne
    | cons y w =>
      simp only [List.cons_prefix_cons] at hw
      obtain ⟨rfl, hw⟩ := hw
      rw [e1]
      exact h2 w hw fun h => hne' (by rw [h])

/-- Where the first of the opening delimiters is. -/
theorem find_char {s : Str} {o : Char} {pos q : Nat} : find s [o] pos = some q ↔
    ∃ a b, s = a ++ o :: b ∧ a.length = q ∧ pos ≤ q ∧ o ∉ a.drop pos := by
  constructor
  · intro h
    rw [find] at h
    split at h
    · obtain ⟨i, hi, rfl⟩ := Option.map_eq_some_iff.mp h
      obtain ⟨a, b, he, ha, hn⟩ := search_char hi
      have hl : (s.take pos).length = pos := by simp; omega
      refine ⟨s.take pos ++ a, b, ?_, by simp [ha]; omega, by omega, ?_⟩
      · rw [List.append_assoc, ← he, List.take_append_drop]
      · rw [List.drop_append, List.drop_eq_nil_of_le (by omega), hl]; simpa using hn
    · simp at h
  · rintro ⟨a, b, rfl, rfl, hp, hn⟩
    rw [find, if_pos (by simp; omega), List.drop_append_of_le_length hp]
    cases h : search [o] (a.drop pos ++ o :: b) with
    | none => exact absurd (by simp) (search_char_none h)
    | some i =>
      obtain ⟨x, y, he, hx, hnx⟩ := search_char h
      have : a.drop pos = x := by
        rcases List.append_eq_append_iff.mp he with ⟨z, hz1, hz2⟩ | ⟨z, hz1, hz2⟩
        · cases z with
          | nil => simpa using hz1.symm
          | cons w z => simp at hz2; exact absurd (by simp [hz1, hz2.1]) hnx
        · cases z with
          | nil => simpa using hz1
          | cons w z => simp at hz2; exact absurd (by simp [hz1, hz2.1]) hn
      have hlen : (a.drop pos).length = i := by rw [this]; exact hx
      simp at hlen
      simp; omega

theorem find_char_none {s : Str} {o : Char} {pos : Nat} : find s [o] pos = none ↔ o ∉ s.drop pos := by
  rw [find]
  split
  · simp only [Option.map_eq_none_iff]
    constructor
    · exact search_char_none
    · intro h
      cases hs : search [o] (s.drop pos) with
      | none => rfl
      | some i =>
        obtain ⟨a, b, he, _, _⟩ := search_char hs
        rw [he] at h; simp at h
  · rename_i h
    simp [List.drop_eq_nil_of_le (by omega : s.length ≤ pos)]

theorem findMatched_some {s : Str} {o c : Char} (hoc : o ≠ c) {pos q e : Nat} : findMatched s o c pos = some (q, e) →
    ∃ a b, s = a ++ o :: b ∧ a.length = q ∧ pos ≤ q ∧ o ∉ a.drop pos ∧
      ((∃ m v, o :: b = m ++ v ∧ Matched o c m ∧ e = q + m.length) ∨ (e = q ∧ ∀ m, m <+: o :: b → ¬ Matched o c m)) := by
  intro h
  rw [findMatched] at h
  cases hf : find s [o] pos with
  | none => simp [hf] at h
  | some q' =>
    obtain ⟨a, b, rfl, ha, hp, hn⟩ := find_char.mp hf
    have hd : (a ++ o :: b).drop (q' + 1) = b := by
      rw [show a ++ o :: b = (a ++ [o]) ++ b by simp, show q' + 1 = (a ++ [o]).length by simp [ha], List.drop_left]
    simp only [hf, hd] at h
    cases hm : matchLoop o c (q' + 1) 1 b with
    | some e' =>
      simp only [hm, Option.some.injEq, Prod.mk.injEq] at h
      obtain ⟨rfl, rfl⟩ := h
      obtain ⟨u, v, rfl, he, hc⟩ := (matchLoop_iff hoc (by omega)).mp hm
      refine ⟨a, u ++ v, rfl, ha, hp, hn, .inl ⟨o :: u, v, rfl, (matched_iff hoc).mpr hc, ?_⟩⟩
      simp; omega
    | none =>
      simp only [hm, Option.some.injEq, Prod.mk.injEq] at h
      obtain ⟨rfl, rfl⟩ := h
      refine ⟨a, b, rfl, ha, hp, hn, .inr ⟨rfl, fun m hm' hM => ?_⟩⟩
      cases m with
      | nil => obtain ⟨⟨t, ht⟩, _⟩ := hM; simp at ht
      | cons x m =>
        simp only [List.cons_prefix_cons] at hm'
        obtain ⟨rfl, v, rfl⟩ := hm'
        have := (matchLoop_iff (pos := q' + 1) hoc (by omega : (0 : Int) < 1)).mpr ⟨m, v, rfl, rfl, (matched_iff hoc).mp hM⟩
        rw [hm] at this; cases this

theorem matched_unique {o c : Char} {m m' : Str} {s : Str} (h : Matched o c m) (h' : Matched o c m') (hm : m <+: s) (hm' : m' <+: s) : m = m' := by
  have key : ∀ {x y : Str}, Matched o c x → Matched o c y → x <+: y → x = y := by
    intro x y hx hy hxy
    refine Classical.byContradiction fun hne => ?_
    have hx0 : x ≠ [] := by obtain ⟨⟨t, rfl⟩, _⟩ := hx; simp
    have := hy.2.2 x hxy hx0 hne
    have := hx.2.1
    omega
  rcases Nat.le_total m.length m'.length with hl | hl
  · exact key h h' (List.prefix_of_prefix_length_le hm hm' hl)
  · exact (key h' h (List.prefix_of_prefix_length_le hm' hm hl)).symm

theorem find_some {s p : Str} {pos q : Nat} : find s p pos = some q ↔
    ∃ a b, s = a ++ p ++ b ∧ a.length = q ∧ pos ≤ q ∧ First p (a.drop pos) b := by
  constructor
  · intro h
    rw [find] at h
    split at h
    · obtain ⟨i, hi, rfl⟩ := Option.map_eq_some_iff.mp h
      obtain ⟨a, b, he, ha, hn⟩ := search_some hi
      have hl : (s.take pos).length = pos := by simp; omega
      refine ⟨s.take pos ++ a, b, ?_, by simp [ha]; omega, by omega, ?_⟩
      · rw [show s.take pos ++ a ++ p ++ b = s.take pos ++ (a ++ p ++ b) by simp, ← he, List.take_append_drop]
      · rw [List.drop_append, List.drop_eq_nil_of_le (by omega), hl]; simpa using hn
    · simp at h
  · rintro ⟨a, b, rfl, rfl, hp, hn⟩
    rw [find, if_pos (by simp; omega), show a ++ p ++ b = a ++ (p ++ b) by simp, List.drop_append_of_le_length hp]
    cases h : search p (a.drop pos ++ (p ++ b)) with
    | none => exact absurd ⟨a.drop pos, b, by simp⟩ (search_none.mp h)
    | some i =>
      obtain ⟨x, y, he, hx, hnx⟩ := search_some h
      obtain ⟨h1, _⟩ := First.eq hn hnx (by simpa using he)
      have hlen : (a.drop pos).length = i := by rw [h1]; exact hx
      simp at hlen
      simp; omega

theorem find_none {s p : Str} {pos : Nat} : find s p pos = none ↔ s.length < pos ∨ ¬ p <:+: s.drop pos := by
  rw [find]
  split
  · simp only [Option.map_eq_none_iff, search_none]
    constructor
    · exact .inr
    · rintro (h | h)
      · omega
      · exact h
  · rename_i h
    simp; omega

end Verif.Text
