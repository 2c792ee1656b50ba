import Verif.Lemmas.TidyLiterals

/-
Lemmas about the names of types: spans, booleans and enumerators.
-/
set_option linter.unusedSimpArgs false
set_option linter.unusedVariables false

namespace Verif.TidyName
open Verif.Text Verif.Spec.Text Verif.Spec.TidyName

/-! ### Templates which are treated in a special way -/

theorem replaced_special {h : Char} {q to : Str} (hq : ∀ c ∈ [',', '<', '>'], c ∉ h :: q) : ∀ {w s r : Str}, '<' ∉ w → ¬ (h :: q) <:+ w →
    (s = [] ∨ ∃ c t, s = c :: t ∧ c ∈ [',', '<', '>']) → Replaced (h :: q ++ ['<']) to s r → Replaced (h :: q ++ ['<']) to (w ++ s) (w ++ r)
  | [], _, _, _, _, _, hr => hr
  | x :: w, s, r, hw, hsuf, hs, hr => by
    refine replaced_notPrefix ?_ (replaced_special hq (fun hm => hw (by simp [hm])) (fun hi => hsuf (hi.trans (List.suffix_cons x w))) hs hr)
    intro hp
    have hp' : h :: q ++ ['<'] <+: (x :: w) ++ s := hp
    rcases List.prefix_or_prefix_of_prefix hp' (List.prefix_append (x :: w) s) with h1 | h1
    · exact hw (h1.subset (by simp))
    · obtain ⟨y, hy⟩ := h1
      rw [← hy] at hp'
      have hy' := (List.prefix_append_right_inj _).1 hp'
      rcases List.eq_nil_or_concat y with rfl | ⟨z, c, rfl⟩
      · rw [List.append_nil] at hy
        exact hw (by rw [hy]; simp)
      · rw [List.concat_eq_append, ← List.append_assoc] at hy
        have h2 := List.append_inj_left' hy rfl
        cases z with
        | nil => exact hsuf (by rw [← h2, List.append_nil]; exact List.suffix_refl _)
        | cons c' z =>
          rcases hs with rfl | ⟨c'', t, rfl, hc⟩
          · simp at hy'
          · rw [List.concat_eq_append, List.cons_append] at hy'
            have := (List.cons_prefix_cons.1 hy').1
            subst this
            exact hq c' hc (by rw [← h2]; simp)

theorem last_of_suffix {q l : Str} (hq : q ≠ []) (h : q <:+ l) : q.getLast? = l.getLast? := by
  obtain ⟨t, rfl⟩ := h
  rw [List.getLast?_append]
  cases hl : q.getLast? with
  | none => exact absurd (List.getLast?_eq_none_iff.1 hl) hq
  | some z => rfl

theorem special_word {d : Dialect} {q : Str} {z : Char} (hz : q.getLast? = some z) (hzd : z.isDigit = false) (hzs : z ∉ ['u', 'l']) (hpl : ∀ n, Plain n → ¬ q <:+ n)
    (hk : ∀ k, d.keyword k = []) (hstd : ∀ abi, d.std abi = "std::".toList)
    (hfix : ∀ t ∈ fundamentals ++ [d.int64 true, d.int64 false, "unsigned ".toList ++ d.int64 true, "unsigned ".toList ++ d.int64 false, d.yes, d.no], search q t = none) (w : Word) (hw : w.Ok) : ¬ q <:+ w.show d := by
  have hq : q ≠ [] := by rintro rfl; simp at hz
  have hdig : ∀ {ds : Str} (x : Str), ds ≠ [] → (∀ c ∈ ds, c.isDigit = true) → ¬ q <:+ x ++ ds := by
    intro ds x hne hds hi
    have := last_of_suffix hq hi
    rw [List.getLast?_append] at this
    cases hl : ds.getLast? with
    | none => exact absurd (List.getLast?_eq_none_iff.1 hl) hne
    | some y =>
      rw [hl, hz] at this
      simp only [Option.some_or, Option.some.injEq] at this
      subst this
      have := hds _ (List.mem_of_getLast? hl)
      simp [hzd] at this
  match w, hw with
  | .user k n, hw => simp only [Word.show, hk, List.nil_append]; exact hpl n hw
  | .std k abi n, hw => simp only [Word.show, hk, hstd, List.nil_append]; exact hpl _ hw
  | .fundamental n, hw => exact fun h => search_none.1 (hfix n (List.mem_append_left _ hw)) h.isInfix
  | .int64 true l, hw => cases l <;> simp only [Word.show, if_true] <;> exact fun h => search_none.1 (hfix _ (by simp)) h.isInfix
  | .int64 false l, hw => cases l <;> simp only [Word.show, if_false, List.nil_append, Bool.false_eq_true] <;> exact fun h => search_none.1 (hfix _ (by simp)) h.isInfix
  | .integer neg ds sfx, hw =>
    simp only [Word.Ok] at hw
    intro hi
    simp only [Word.show] at hi
    by_cases hsf : d.suffixes = true
    · rw [if_pos hsf] at hi
      by_cases hs : sfx = []
      · rw [hs, List.append_nil] at hi
        exact hdig _ hw.1 hw.2.1 hi
      · have := last_of_suffix hq hi
        rw [List.getLast?_append] at this
        cases hl : sfx.getLast? with
        | none => exact absurd (List.getLast?_eq_none_iff.1 hl) hs
        | some y =>
          rw [hl, hz] at this
          simp only [Option.some_or, Option.some.injEq] at this
          subst this
          exact suffix_mem hw.2.2 hzs (List.mem_of_getLast? hl)
    · rw [if_neg hsf, List.append_nil] at hi
      exact hdig _ hw.1 hw.2.1 hi
  | .boolean true, hw => simp only [Word.show, if_true]; exact fun h => search_none.1 (hfix _ (by simp)) h.isInfix
  | .boolean false, hw => simp only [Word.show]; exact fun h => search_none.1 (hfix _ (by simp)) h.isInfix
  | .enumerator e ds, hw =>
    simp only [Word.Ok] at hw
    exact hdig _ hw.2.1 hw.2.2

/-- The templates which are treated in a special way do not occur. -/
theorem special_absent {d : Dialect} {h : Char} {q : Str} (z : Char) (hpu : ∀ c ∈ [',', '<', '>'], c ∉ h :: q) (hsp : h ≠ ' ') (hz : (h :: q).getLast? = some z)
    (hzd : z.isDigit = false) (hzs : z ∉ ['u', 'l']) (hpl : ∀ n, Plain n → ¬ (h :: q) <:+ n) (hk : ∀ k, d.keyword k = []) (hstd : ∀ abi, d.std abi = "std::".toList)
    (hfix : ∀ t ∈ fundamentals ++ [d.int64 true, d.int64 false, "unsigned ".toList ++ d.int64 true, "unsigned ".toList ++ d.int64 false, d.yes, d.no], search (h :: q) t = none) (hlt : '<' ∉ d.int64 true ++ d.int64 false ++ d.yes ++ d.no)
    (hc : d.comma = [','] ∨ d.comma = [',', ' ']) (t : Ty) (ho : t.Ok) : ¬ (h :: q ++ ['<']) <:+: t.show d := by
  have h1 : ',' ≠ h := fun e => hpu ',' (by simp) (by rw [← e]; simp)
  have h2 : '<' ≠ h := fun e => hpu '<' (by simp) (by rw [← e]; simp)
  have h3 : '>' ≠ h := fun e => hpu '>' (by simp) (by rw [← e]; simp)
  have hword : ∀ {w : Word} {s r : Str}, w.Ok → (s = [] ∨ ∃ c t, s = c :: t ∧ c ∈ [',', '<', '>']) → Replaced (h :: q ++ ['<']) [] s r →
      Replaced (h :: q ++ ['<']) [] (w.show d ++ s) (w.show d ++ r) := fun {w s r} hw hs hr =>
    replaced_special hpu (word_chars hk hstd '<' (by decide) (by decide) hlt w hw) (special_word hz hzd hzs hpl hk hstd hfix w hw) hs hr
  have hcm : ∀ {s r}, Replaced (h :: q ++ ['<']) [] s r → Replaced (h :: q ++ ['<']) [] (d.comma ++ s) (d.comma ++ r) := by
    intro s r hr
    rcases hc with hc | hc <;> rw [hc]
    · exact replaced_cons h1 hr
    · exact replaced_cons h1 (replaced_cons (fun e => hsp e.symm) hr)
  have hwalk : Walk d d (fun _ => Replaced (h :: q ++ ['<']) []) (fun _ => Replaced (h :: q ++ ['<']) []) (fun _ => Replaced (h :: q ++ ['<']) []) := by
    refine ⟨?_, fun hr => replaced_cons h2 hr, hcm, hcm, fun hr => replaced_cons h3 hr, ?_⟩
    · intro w n s r hw hf hr
      refine hword hw (.inr ?_) hr
      cases hf with
      | comma => exact ⟨_, _, rfl, by simp⟩
      | close => exact ⟨_, _, rfl, by simp⟩
      | opening _ _ => exact ⟨_, _, rfl, by simp⟩
    · intro n s r hr
      unfold closing
      split
      · exact replaced_cons (fun e => hsp e.symm) (replaced_cons h3 hr)
      · exact replaced_cons h3 hr
  match t, ho with
  | .mk w as, ho =>
    simp only [Ty.Ok] at ho
    refine not_infix_of_replaced (by simp) ?_
    simp only [Ty.show]
    cases as with
    | nil => exact hword ho.1 (.inl rfl) (.none (by simp [Args.show]))
    | cons a as =>
      have := hwalk.args (comma_cons hc) (.cons a as) (by simp) ho.2.2.2.1 (n := 0) (s := []) (r := []) (.none (by simp))
      rw [List.append_nil] at this
      exact hword ho.1 (.inr ⟨_, _, rfl, by simp⟩) this

theorem find_absent {s p : Str} (h : ¬ p <:+: s) (pos : Nat) : find s p pos = none := by
  rw [find_none]
  exact .inr fun hi => h (hi.trans (List.drop_suffix _ _).isInfix)

theorem pass_spans (t : Ty) (ho : t.Ok) : processSpans (t.show noSuffix) = .ok (t.show noSuffix) := by
  have h := special_absent (d := noSuffix) (h := ':') (q := ":span".toList) 'n' (by decide) (by decide) (by decide) (by decide) (by decide)
    (fun n hn => hn.notSpecial.1) (fun _ => rfl) (fun _ => rfl) (by decide) (by decide) (.inr rfl) t ho
  have h' : ¬ "::span<".toList <:+: t.show noSuffix := h
  rw [processSpans, findSandwiched, find_absent h']

theorem arrayIterators_absent (t : Ty) (ho : t.Ok) : ∀ m, 1 ≤ m → arrayIterators m (t.show common) 0 = some (.ok (t.show common)) := by
  intro m hm
  have h := special_absent (d := common) (h := 's') (q := "td::_Array_const_iterator".toList) 'r' (by decide) (by decide) (by decide) (by decide) (by decide)
    (fun n hn => hn.notSpecial.2) (fun _ => rfl) (fun _ => rfl) (by decide) (by decide) (.inr rfl) t ho
  have h' : ¬ "std::_Array_const_iterator<".toList <:+: t.show common := h
  cases m with
  | zero => omega
  | succ m => rw [arrayIterators, findSandwiched, find_absent h']

/-! ### Booleans -/

section
variable {l r : Char → Bool} {p to : Str}

theorem replaceDelim_of {left right s u : Str} (hp : p ≠ []) (hl : ∀ c ∈ p, (left.isEmpty || left.contains c) = false)
    (h : ReplacedIf (fun c => left.isEmpty || left.contains c) (fun c => right.isEmpty || right.contains c) p to '\x00' s u) :
    ∀ m, s.length + 2 ≤ m → replaceDelim m s left p right to = some u := by
  intro m hm
  obtain ⟨v, hv⟩ := replaceIfFrom_total (l := fun c => left.isEmpty || left.contains c) (r := fun c => right.isEmpty || right.contains c) (p := p) (to := to) m s []
    (by omega)
  obtain ⟨u', rfl, hu⟩ := replaceIfFrom_spec hp hl hv
  rw [replaceDelim, replaceIf]
  have := replacedIf_functional hp h hu
  subst this
  simpa using hv

/-- What may follow a word, or nothing. -/
def Stop (s : Str) : Prop := s = [] ∨ ∃ c t, s = c :: t ∧ c ∈ [',', '<', '>']

theorem Follows.stop {w : Word} {s : Str} (h : Follows w s) : Stop s := by
  cases h with
  | comma => exact .inr ⟨_, _, rfl, by simp⟩
  | close => exact .inr ⟨_, _, rfl, by simp⟩
  | opening _ _ => exact .inr ⟨_, _, rfl, by simp⟩

theorem skip_absent {w s u : Str} {prev : Char} (hw : ¬ p <:+: w) (hpu : ∀ c ∈ [',', '<', '>'], c ∉ p) (hs : Stop s) (h : ∀ prev, ReplacedIf l r p to prev s u) :
    ReplacedIf l r p to prev (w ++ s) (w ++ u) := by
  refine replacedIf_skip ?_ (h _)
  rintro x y rfl hy ⟨_, b, hb, _⟩
  have hp : p <+: y ++ s := ⟨b, hb.symm⟩
  rcases List.prefix_or_prefix_of_prefix hp (List.prefix_append y s) with h1 | h1
  · exact hw (h1.isInfix.trans (List.suffix_append x y).isInfix)
  · obtain ⟨z, rfl⟩ := h1
    have hz := (List.prefix_append_right_inj _).1 hp
    cases z with
    | nil => exact hw (by rw [List.append_nil]; exact (List.suffix_append x y).isInfix)
    | cons c z =>
      rcases hs with rfl | ⟨c', t, rfl, hc⟩
      · simp at hz
      · have := (List.cons_prefix_cons.1 hz).1
        subst this
        exact hpu c hc (by simp)

theorem final_mem : ∀ {x : Str} {prev : Char}, x ≠ [] → final prev x ∈ x
  | [], _, h => absurd rfl h
  | [c], _, _ => by simp [final]
  | c :: c' :: x, _, _ => by
    have := final_mem (x := c' :: x) (prev := c) (by simp)
    simp only [final] at this ⊢
    exact List.mem_cons_of_mem _ this

/-- No word contains a delimiter: only its beginning matters. -/
theorem skip_first {w s u : Str} {prev : Char} (hl : ∀ c ∈ w, l c = false) (hq : w ≠ [] → ¬ Qualifies l r p prev (w ++ s)) (h : ∀ prev, ReplacedIf l r p to prev s u) :
    ReplacedIf l r p to prev (w ++ s) (w ++ u) := by
  refine replacedIf_skip ?_ (h _)
  rintro x y rfl hy
  cases x with
  | nil => exact hq hy
  | cons c x =>
    rintro ⟨h1, _⟩
    have := hl _ (List.mem_append_left y (final_mem (x := c :: x) (prev := prev) (by simp)))
    rw [this] at h1
    exact absurd h1 (by simp)

end

def yesPass : Dialect := { longLong with yes := "1".toList }
def noPass : Dialect := { yesPass with no := "0".toList }

def atLeft (c : Char) : Bool := " <".toList.isEmpty || " <".toList.contains c
def atRight (c : Char) : Bool := ",>".toList.isEmpty || ",>".toList.contains c

theorem atLeft_false {c : Char} : atLeft c = false ↔ c ≠ ' ' ∧ c ≠ '<' := by
  simp [atLeft]

theorem plain_noLeft {n : Str} (h : Plain n) : ∀ c ∈ n, atLeft c = false := by
  intro c hc
  rw [atLeft_false]
  rcases h.chars c hc with h1 | h1 | h1
  · constructor <;> rintro rfl <;> simp [Char.isAlphanum] at h1
  · subst h1; decide
  · subst h1; decide

theorem plain_unqualified {p n s : Str} {prev : Char} (h : Plain n) (hne : n ≠ p) (hpu : ∀ c ∈ [',', '<', '>'], c ∉ p) (hs : Stop s) : ¬ Qualifies atLeft atRight p prev (n ++ s) := by
  rintro ⟨_, b, hb, hr⟩
  have hp : p <+: n ++ s := ⟨b, hb.symm⟩
  rcases List.prefix_or_prefix_of_prefix hp (List.prefix_append n s) with ⟨z, hz⟩ | ⟨z, hz⟩
  · subst hz
    rw [List.append_assoc, List.append_right_inj] at hb
    subst hb
    cases z with
    | nil => simp at hne
    | cons c z =>
      simp only [List.cons_append, Spec.Text.next] at hr
      refine plain_stops h c (by simp) ?_
      simpa [atRight] using hr
  · subst hz
    have hz := (List.prefix_append_right_inj _).1 hp
    cases z with
    | nil => simp at hne
    | cons c z =>
      rcases hs with rfl | ⟨c', t, rfl, hc⟩
      · simp at hz
      · have := (List.cons_prefix_cons.1 hz).1
        subst this
        exact hpu c hc (by simp)

theorem bool_word {d : Dialect} {h : Char} {p : Str} {to : Str} (hpu : ∀ c ∈ [',', '<', '>'], c ∉ h :: p) (hd : h.isDigit = false) (h1 : h ∉ ['-', '(', 'u', 'l'])
    (hpl : ∀ n, Plain n → n ≠ h :: p) (hk : ∀ k, d.keyword k = []) (hstd : ∀ abi, d.std abi = "std::".toList) (hca : d.casts = true)
    (hfix : ∀ t ∈ fundamentals ++ [d.int64 true, d.int64 false, "unsigned ".toList ++ d.int64 true, "unsigned ".toList ++ d.int64 false], search (h :: p) t = none) {w : Word} {s u : Str} (hw : w.Ok)
    (hb : ∀ b, w = .boolean b → search (h :: p) (w.show d) = none) (hs : Stop s)
    (hr : ∀ prev, ReplacedIf atLeft atRight (h :: p) to prev s u) (prev : Char) : ReplacedIf atLeft atRight (h :: p) to prev (w.show d ++ s) (w.show d ++ u) := by
  have habs : ∀ {t : Str}, search (h :: p) t = none → ReplacedIf atLeft atRight (h :: p) to prev (t ++ s) (t ++ u) := fun ht => skip_absent (search_none.1 ht) hpu hs hr
  have hn : ∀ {n : Str}, Plain n → ReplacedIf atLeft atRight (h :: p) to prev (n ++ s) (n ++ u) := fun hn =>
    skip_first (plain_noLeft hn) (fun _ => plain_unqualified hn (hpl _ hn) hpu hs) hr
  match w, hw, hb with
  | .user k n, hw, _ => simp only [Word.show, hk, List.nil_append]; exact hn hw
  | .std k abi n, hw, _ => simp only [Word.show, hk, hstd, List.nil_append]; exact hn hw
  | .fundamental n, hw, _ => exact habs (hfix n (List.mem_append_left _ hw))
  | .int64 true l, hw, _ => cases l <;> simp only [Word.show, if_true] <;> exact habs (hfix _ (by simp))
  | .int64 false l, hw, _ =>
    have : Word.show d (.int64 false l) = d.int64 l := rfl
    rw [this]
    cases l <;> exact habs (hfix _ (by simp))
  | .integer neg ds sfx, hw, _ =>
    simp only [Word.Ok] at hw
    refine skip_absent (fun hi => ?_) hpu hs hr
    have hm : h ∈ Word.show d (.integer neg ds sfx) := hi.subset (by simp)
    simp only [Word.show, List.mem_append] at hm
    rcases hm with (hm | hm) | hm
    · split at hm
      · simp at hm; subst hm; simp at h1
      · simp at hm
    · rw [hw.2.1 h hm] at hd; exact absurd hd (by simp)
    · split at hm
      · exact suffix_mem hw.2.2 (fun hc => h1 (by simp at hc ⊢; rcases hc with hc | hc <;> simp [hc])) hm
      · simp at hm
  | .boolean b, _, hb => exact habs (hb b rfl)
  | .enumerator e ds, hw, _ =>
    simp only [Word.Ok] at hw
    refine skip_first ?_ ?_ hr
    · intro c hc
      simp only [Word.show, hca, if_true, List.mem_append, List.mem_cons, List.not_mem_nil, or_false] at hc
      rcases hc with ((rfl | hc) | rfl) | hc
      · decide
      · exact plain_noLeft hw.1 c hc
      · decide
      · have := hw.2.2 c hc
        rw [atLeft_false]
        constructor <;> rintro rfl <;> simp at this
    · rintro _ ⟨_, b, hb, _⟩
      simp only [Word.show, hca, if_true, List.cons_append, List.cons.injEq] at hb
      exact h1 (by rw [← hb.1]; simp)

theorem cons_skip {l r : Char → Bool} {h : Char} {p to : Str} {c prev : Char} {s u : Str} (hc : c ≠ h) (hr : ReplacedIf l r (h :: p) to c s u) : ReplacedIf l r (h :: p) to prev (c :: s) (c :: u) := by
  refine .skip ?_ hr
  rintro ⟨_, b, hb, _⟩
  simp only [List.cons_append, List.cons.injEq] at hb
  exact hc hb.1

theorem bool_pass {d d' : Dialect} {h : Char} {p : Str} {to : Str} (v : Bool) (hpu : ∀ c ∈ [',', '<', '>'], c ∉ h :: p) (hd : h.isDigit = false)
    (h1 : h ∉ ['-', '(', 'u', 'l']) (hsp : h ≠ ' ') (hpl : ∀ n, Plain n → n ≠ h :: p) (hk : ∀ k, d.keyword k = []) (hstd : ∀ abi, d.std abi = "std::".toList)
    (hca : d.casts = true) (hfix : ∀ t ∈ fundamentals ++ [d.int64 true, d.int64 false, "unsigned ".toList ++ d.int64 true, "unsigned ".toList ++ d.int64 false], search (h :: p) t = none)
    (hv : Word.show d (.boolean v) = h :: p) (hv' : Word.show d' (.boolean v) = to) (hnv : search (h :: p) (Word.show d (.boolean !v)) = none)
    (hw : ∀ w : Word, w ≠ .boolean v → w.show d = w.show d') (hc : d.comma = [',', ' ']) (hc' : d'.comma = [',', ' ']) (hcl : closing d = [' ', '>'])
    (hcl' : closing d' = [' ', '>']) (t : Ty) (ho : t.Ok) :
    ReplacedIf atLeft atRight (h :: p) to '\x00' (t.show d) (t.show d') := by
  have h2 : ',' ≠ h := fun e => hpu ',' (by simp) (by rw [← e]; simp)
  have h3 : '<' ≠ h := fun e => hpu '<' (by simp) (by rw [← e]; simp)
  have h4 : '>' ≠ h := fun e => hpu '>' (by simp) (by rw [← e]; simp)
  have hword : ∀ {w : Word} {s u : Str}, w.Ok → w ≠ .boolean v → Stop s → (∀ prev, ReplacedIf atLeft atRight (h :: p) to prev s u) → ∀ prev,
      ReplacedIf atLeft atRight (h :: p) to prev (w.show d ++ s) (w.show d' ++ u) := by
    intro w s u ho hne hs hr prev
    rw [← hw w hne]
    refine bool_word hpu hd h1 hpl hk hstd hca hfix ho ?_ hs hr prev
    rintro b rfl
    have : b = !v := by
      cases b <;> cases v <;> simp at hne ⊢
    rw [this]; exact hnv
  have hwalk : Walk d d' (fun _ s u => ∀ prev ∈ [' ', '<'], ReplacedIf atLeft atRight (h :: p) to prev s u) (fun _ s u => ∀ prev, ReplacedIf atLeft atRight (h :: p) to prev s u)
      (fun _ s u => ∀ prev, ReplacedIf atLeft atRight (h :: p) to prev s u) := by
    refine ⟨?_, fun hr _ => cons_skip h3 (hr _ (by simp)), ?_, ?_, fun hr _ => cons_skip h4 (hr _), ?_⟩
    · intro w n s u ho hf hr prev hp
      by_cases hb : w = .boolean v
      · subst hb
        rw [hv, hv']
        have hq : Qualifies atLeft atRight (h :: p) prev (h :: p ++ s) := by
          refine ⟨?_, s, rfl, ?_⟩
          · simp at hp; rcases hp with rfl | rfl <;> decide
          · rcases follows_stop hf (by simp [Word.template]) with ⟨t, rfl⟩ | ⟨t, rfl⟩ <;> simp [Spec.Text.next, atRight]
        exact .hit hq (hr _)
      · exact hword ho hb hf.stop hr prev
    · intro n s u hr _
      rw [hc, hc']
      exact cons_skip h2 (cons_skip (fun e => hsp e.symm) (hr _ (by simp)))
    · intro n s u hr _
      rw [hc, hc']
      exact cons_skip h2 (cons_skip (fun e => hsp e.symm) (hr _ (by simp)))
    · intro n s u hr _
      rw [hcl, hcl']
      exact cons_skip (fun e => hsp e.symm) (cons_skip h4 (hr _))
  match t, ho with
  | .mk w as, ho =>
    simp only [Ty.Ok] at ho
    have hne : w ≠ .boolean v := by
      rintro rfl
      have := ho.2.1
      simp [Word.isType] at this
    simp only [Ty.show]
    cases as with
    | nil => exact hword ho.1 hne (.inl rfl) (fun _ => .nil) _
    | cons a as =>
      have := hwalk.args ⟨_, hc⟩ (.cons a as) (by simp) ho.2.2.2.1 (n := 0) (s := []) (r := []) (fun _ => .nil)
      rw [List.append_nil, List.append_nil] at this
      exact hword ho.1 hne (.inr ⟨_, _, rfl, by simp⟩) this _

theorem pass_true (t : Ty) (ho : t.Ok) : ∀ m, (t.show longLong).length + 2 ≤ m →
    replaceDelim m (t.show longLong) " <".toList "true".toList ",>".toList "1".toList = some (t.show yesPass) := by
  refine replaceDelim_of (by decide) (by decide) ?_
  refine bool_pass (d := longLong) (d' := yesPass) (h := 't') (p := "rue".toList) true (by decide) (by decide) (by decide) (by decide) (fun n hn => hn.notBool.1)
    (fun _ => rfl) (fun _ => rfl) rfl (by decide) (by decide) (by decide) (by decide) ?_ rfl rfl rfl rfl t ho
  intro w hw
  cases w with
  | boolean b => cases b with
    | true => exact absurd rfl hw
    | false => rfl
  | _ => rfl

theorem pass_false (t : Ty) (ho : t.Ok) : ∀ m, (t.show yesPass).length + 2 ≤ m →
    replaceDelim m (t.show yesPass) " <".toList "false".toList ",>".toList "0".toList = some (t.show noPass) := by
  refine replaceDelim_of (by decide) (by decide) ?_
  refine bool_pass (d := yesPass) (d' := noPass) (h := 'f') (p := "alse".toList) false (by decide) (by decide) (by decide) (by decide) (fun n hn => hn.notBool.2)
    (fun _ => rfl) (fun _ => rfl) rfl (by decide) (by decide) (by decide) (by decide) ?_ rfl rfl rfl rfl t ho
  intro w hw
  cases w with
  | boolean b => cases b with
    | false => exact absurd rfl hw
    | true => rfl
  | _ => rfl

/-! ### Enumerators -/

def Clean (s : Str) : Prop := '(' ∉ s ∧ ')' ∉ s

/-- The parentheses before a digit are removed, of which there are `n` pairs. -/
inductive Strip : Nat → Str → Str → Prop
  | nil : Strip 0 [] []
  | char {n c s r} : c ≠ '(' → c ≠ ')' → Strip n s r → Strip n (c :: s) (c :: r)
  | group {n e x s r} : Clean e → x.isDigit = true → Strip n (x :: s) r → Strip (n + 1) ('(' :: (e ++ ')' :: x :: s)) r

theorem Strip.append {n : Nat} {s r : Str} (h : Strip n s r) : ∀ {a : Str}, Clean a → Strip n (a ++ s) (a ++ r)
  | [], _ => h
  | c :: a, hc => by
    have h1 : c ≠ '(' := fun e => hc.1 (by simp [e])
    have h2 : c ≠ ')' := fun e => hc.2 (by simp [e])
    exact .char h1 h2 (Strip.append h ⟨fun hm => hc.1 (by simp [hm]), fun hm => hc.2 (by simp [hm])⟩)

theorem strip_zero {n : Nat} {s r : Str} (h : Strip n s r) : n = 0 → s = r ∧ Clean s := by
  induction h with
  | nil => exact fun _ => ⟨rfl, by simp [Clean]⟩
  | @char n c s r h1 h2 _ ih =>
    intro hn
    obtain ⟨rfl, h3, h4⟩ := ih hn
    refine ⟨rfl, ?_, ?_⟩
    · intro hm
      rcases List.mem_cons.1 hm with e | hm
      · exact h1 e.symm
      · exact h3 hm
    · intro hm
      rcases List.mem_cons.1 hm with e | hm
      · exact h2 e.symm
      · exact h4 hm
  | group _ _ _ _ => exact fun hn => by omega

theorem strip_succ {k : Nat} {s r : Str} (h : Strip k s r) : ∀ n, k = n + 1 →
    ∃ a e x t r', s = a ++ '(' :: (e ++ ')' :: x :: t) ∧ Clean a ∧ Clean e ∧ x.isDigit = true ∧ Strip n (x :: t) r' ∧ r = a ++ r' := by
  induction h with
  | nil => exact fun n hn => by omega
  | @char k c s r h1 h2 _ ih =>
    intro n hn
    obtain ⟨a, e, x, t, r', rfl, ha, he, hx, hs, rfl⟩ := ih n hn
    refine ⟨c :: a, e, x, t, r', rfl, ⟨?_, ?_⟩, he, hx, hs, rfl⟩
    · intro hm
      rcases List.mem_cons.1 hm with e | hm
      · exact h1 e.symm
      · exact ha.1 hm
    · intro hm
      rcases List.mem_cons.1 hm with e | hm
      · exact h2 e.symm
      · exact ha.2 hm
  | @group k e x s r he hx hs _ =>
    intro n hn
    have : k = n := by omega
    subst this
    exact ⟨[], e, x, s, r, rfl, by simp [Clean], he, hx, hs, rfl⟩

theorem find_paren {a b : Str} {pos : Nat} (ha : '(' ∉ a) (hp : pos ≤ a.length) : find (a ++ '(' :: b) ['('] pos = some a.length := by
  rw [find_some]
  refine ⟨a, b, by simp, rfl, hp, ?_⟩
  intro a' b' he
  by_cases hl : (a.drop pos).length ≤ a'.length
  · exact hl
  · exfalso
    have : a' ++ ['('] <+: a.drop pos := by
      have h1 : a' ++ ['('] <+: a.drop pos ++ ['('] ++ b := ⟨b', he⟩
      have h2 : a.drop pos <+: a.drop pos ++ ['('] ++ b := ⟨['('] ++ b, by simp⟩
      exact List.prefix_of_prefix_length_le h1 h2 (by simp at hl ⊢; omega)
    exact ha (List.mem_of_mem_drop (this.subset (by simp)))

theorem matchLoop_close {o c : Char} (hoc : o ≠ c) : ∀ {e : Str} {t : Str} {pos : Nat}, o ∉ e → c ∉ e → matchLoop o c pos 1 (e ++ c :: t) = some (pos + e.length + 1)
  | [], t, pos, _, _ => by simp [matchLoop, hoc.symm]
  | x :: e, t, pos, h1, h2 => by
    have hx1 : x ≠ o := fun h => h1 (by simp [h])
    have hx2 : x ≠ c := fun h => h2 (by simp [h])
    simp only [List.cons_append, matchLoop, hx1, hx2, if_false, List.length_cons]
    rw [if_neg (by decide), matchLoop_close hoc (fun hm => h1 (by simp [hm])) (fun hm => h2 (by simp [hm]))]
    congr 1; omega

theorem find_clean {s : Str} (h : '(' ∉ s) (pos : Nat) : find s ['('] pos = none := by
  rw [find_none]
  exact .inr fun hi => h (List.mem_of_mem_drop (hi.subset (by simp)))

theorem findMatched_group {a e t : Str} {pos : Nat} (ha : '(' ∉ a) (he : Clean e) (hp : pos ≤ a.length) :
    findMatched (a ++ '(' :: (e ++ ')' :: t)) '(' ')' pos = some (a.length, a.length + e.length + 2) := by
  rw [findMatched, find_paren ha hp]
  have : (a ++ '(' :: (e ++ ')' :: t)).drop (a.length + 1) = e ++ ')' :: t := by
    rw [← List.drop_drop]; simp
  simp only [this, matchLoop_close (by decide : '(' ≠ ')') he.1 he.2]
  congr 2; omega

theorem charAt_mid {a : Str} {c : Char} {b : Str} {n : Nat} (h : n = a.length) : charAt (a ++ c :: b) n = c := by
  subst h; simp [charAt]

theorem splice_group {a e t : Str} {n : Nat} (h : n = e.length + 2) : splice (a ++ '(' :: (e ++ ')' :: t)) a.length n [] = a ++ t := by
  subst h
  have h1 : a ++ '(' :: (e ++ ')' :: t) = (a ++ '(' :: (e ++ [')'])) ++ t := by simp
  have h2 : a.length + (e.length + 2) = (a ++ '(' :: (e ++ [')'])).length := by simp
  rw [splice, h2]
  conv => lhs; arg 2; rw [h1, List.drop_left]
  simp

theorem removeEnumSpec_clean {s : Str} (h : '(' ∉ s) {m : Nat} (hm : 1 ≤ m) (pos : Nat) : removeEnumSpec m s pos = some (.ok s) := by
  cases m with
  | zero => omega
  | succ m => rw [removeEnumSpec, findMatched, find_clean h]

theorem removeEnumSpec_group {a e t : Str} {x : Char} {pos m : Nat} (ha : '(' ∉ a) (he : Clean e) (hx : x.isDigit = true) (hp : pos ≤ a.length) :
    removeEnumSpec (m + 1) (a ++ '(' :: (e ++ ')' :: x :: t)) pos = removeEnumSpec m (a ++ x :: t) (a.length + e.length + 2) := by
  rw [removeEnumSpec, findMatched_group ha he hp]
  have hc : charAt (a ++ '(' :: (e ++ ')' :: x :: t)) (a.length + e.length + 2) = x := by
    have h1 : a ++ '(' :: (e ++ ')' :: x :: t) = (a ++ '(' :: (e ++ [')'])) ++ x :: t := by simp
    rw [h1]
    exact charAt_mid (by simp; omega)
  dsimp only
  rw [if_pos ⟨by omega, by simp only [List.length_append, List.length_cons]; omega, by rw [hc]; exact hx⟩, splice_group (by omega)]

theorem removeEnumSpec_one {a e t : Str} {x : Char} (ha : Clean a) (he : Clean e) (hx : x.isDigit = true) (ht : Clean (x :: t)) {m : Nat} (hm : 2 ≤ m) (pos : Nat) :
    removeEnumSpec m (a ++ '(' :: (e ++ ')' :: x :: t)) pos = some (.ok (a ++ '(' :: (e ++ ')' :: x :: t))) ∨
    removeEnumSpec m (a ++ '(' :: (e ++ ')' :: x :: t)) pos = some (.ok (a ++ x :: t)) := by
  cases m with
  | zero => omega
  | succ m =>
    by_cases hp : pos ≤ a.length
    · right
      rw [removeEnumSpec_group ha.1 he hx hp]
      refine removeEnumSpec_clean ?_ (by omega) _
      simp only [List.mem_append, not_or]
      exact ⟨ha.1, ht.1⟩
    · left
      have : '(' ∉ (a ++ '(' :: (e ++ ')' :: x :: t)).drop pos := by
        obtain ⟨k, rfl⟩ : ∃ k, pos = a.length + (k + 1) := ⟨pos - a.length - 1, by omega⟩
        rw [← List.drop_drop]
        simp only [List.drop_left, List.drop_succ_cons]
        intro hi
        have := List.mem_of_mem_drop hi
        simp only [List.mem_append, List.mem_cons] at this
        have h1 := he.1
        have h2 := ht.1
        simp only [List.mem_cons, not_or] at h2
        rcases this with h | h | h | h
        · exact h1 h
        · simp at h
        · exact h2.1 h
        · exact h2.2 h
      have hf : find (a ++ '(' :: (e ++ ')' :: x :: t)) ['('] pos = none := by
        rw [find_none]
        exact .inr fun hi => this (hi.subset (by simp))
      rw [removeEnumSpec, findMatched, hf]

theorem casts_group {a e t : Str} {x : Char} (hx : x.isDigit = true) (hc : '(' ∉ a ++ x :: t) : ∀ {e₂ e₁ : Str} {f : Nat}, e = e₁ ++ e₂ → Clean e₂ → e₂.length + 1 ≤ f →
    casts f (a ++ '(' :: (e ++ ')' :: x :: t)) a.length (a.length + 1 + e₁.length) 1 = some (.ok (a ++ x :: t))
  | [], e₁, 0, _, _, hf => by simp at hf
  | [], e₁, f + 1, he, _, _ => by
    subst he
    have h1 : charAt (a ++ '(' :: ((e₁ ++ []) ++ ')' :: x :: t)) (a.length + 1 + e₁.length) = ')' := by
      have : a ++ '(' :: ((e₁ ++ []) ++ ')' :: x :: t) = (a ++ '(' :: e₁) ++ ')' :: x :: t := by simp
      rw [this]
      exact charAt_mid (by simp; omega)
    have h2 : charAt (a ++ '(' :: ((e₁ ++ []) ++ ')' :: x :: t)) (a.length + 1 + e₁.length + 1) = x := by
      have : a ++ '(' :: ((e₁ ++ []) ++ ')' :: x :: t) = (a ++ '(' :: (e₁ ++ [')'])) ++ x :: t := by simp
      rw [this]
      exact charAt_mid (by simp; omega)
    rw [casts, if_neg (by simp; omega), h1, h2]
    simp only [(by decide : ¬ ')' = '('), if_false, if_true, Int.sub_self]
    rw [if_pos ⟨by simp; omega, hx⟩, splice_group (by simp; omega), find_clean hc]
  | y :: e₂, e₁, 0, _, _, hf => by simp at hf
  | y :: e₂, e₁, f + 1, he, hcl, hf => by
    have h1 : charAt (a ++ '(' :: (e ++ ')' :: x :: t)) (a.length + 1 + e₁.length) = y := by
      have : a ++ '(' :: (e ++ ')' :: x :: t) = (a ++ '(' :: e₁) ++ y :: (e₂ ++ ')' :: x :: t) := by simp [he]
      rw [this]
      exact charAt_mid (by simp; omega)
    have hy1 : y ≠ '(' := fun h => hcl.1 (by simp [h])
    have hy2 : y ≠ ')' := fun h => hcl.2 (by simp [h])
    rw [casts, if_neg (by simp [he]; omega), h1]
    simp only [hy1, hy2, if_false]
    rw [if_neg (by decide)]
    have := casts_group (a := a) (e := e) (t := t) hx hc (e₂ := e₂) (e₁ := e₁ ++ [y]) (f := f) (by simp [he])
      ⟨fun hm => hcl.1 (by simp [hm]), fun hm => hcl.2 (by simp [hm])⟩ (by simp at hf; omega)
    rw [← this]
    congr 1
    simp; omega

theorem removeCasts_clean {s : Str} (h : '(' ∉ s) (m : Nat) : removeCasts m s = some (.ok s) := by
  rw [removeCasts, find_clean h]

theorem removeCasts_one {a e t : Str} {x : Char} (ha : Clean a) (he : Clean e) (hx : x.isDigit = true) (ht : Clean (x :: t)) {m : Nat} (hm : e.length + 2 ≤ m) :
    removeCasts m (a ++ '(' :: (e ++ ')' :: x :: t)) = some (.ok (a ++ x :: t)) := by
  have hc : '(' ∉ a ++ x :: t := by
    simp only [List.mem_append, not_or]
    exact ⟨ha.1, ht.1⟩
  rw [removeCasts, find_paren ha.1 (by omega)]
  obtain ⟨f, rfl⟩ : ∃ f, m = f + 1 := ⟨m - 1, by omega⟩
  dsimp only
  rw [casts, if_neg (by simp), charAt_mid rfl]
  simp only [if_true]
  rw [if_neg (by decide)]
  exact casts_group hx hc (e₁ := []) rfl he (by omega)

/-- Up to two pairs of parentheses are removed. -/
theorem strip_two {n : Nat} {s r : Str} (h : Strip n s r) (hn : n ≤ 2) : ∀ m, s.length + 3 ≤ m →
    (removeEnumSpec m s 0).then (fun s => removeCasts m s) = some (.ok r) := by
  intro m hm
  have hone : ∀ {s r : Str}, Strip 1 s r → ∀ {k pos : Nat}, 2 ≤ k → s.length + 2 ≤ m → (removeEnumSpec k s pos).then (fun s => removeCasts m s) = some (.ok r) := by
    intro s r h k pos hk hl
    obtain ⟨a, e, x, t, r', rfl, ha, he, hx, hs, rfl⟩ := strip_succ h 0 rfl
    obtain ⟨rfl, ht⟩ := strip_zero hs rfl
    rcases removeEnumSpec_one ha he hx ht hk pos with h1 | h1
    · rw [h1]
      exact removeCasts_one ha he hx ht (by simp at hl ⊢; omega)
    · rw [h1]
      refine removeCasts_clean ?_ _
      simp only [List.mem_append, not_or]
      exact ⟨ha.1, ht.1⟩
  match n, hn, h with
  | 0, _, h =>
    obtain ⟨rfl, hc⟩ := strip_zero h rfl
    rw [removeEnumSpec_clean hc.1 (by omega)]
    exact removeCasts_clean hc.1 m
  | 1, _, h => exact hone h (by omega) (by omega)
  | 2, _, h =>
    obtain ⟨a, e, x, t, r', rfl, ha, he, hx, hs, rfl⟩ := strip_succ h 1 rfl
    obtain ⟨f, rfl⟩ : ∃ f, m = f + 1 := ⟨m - 1, by omega⟩
    rw [removeEnumSpec_group ha.1 he hx (by omega)]
    exact hone (hs.append ha) (by omega) (by simp at hm ⊢; omega)

theorem clean_of {s : Str} (h : ∀ c ∈ s, c ≠ '(' ∧ c ≠ ')') : Clean s := ⟨fun hm => (h _ hm).1 rfl, fun hm => (h _ hm).2 rfl⟩

theorem plain_clean {n : Str} (h : Plain n) : Clean n := by
  refine clean_of fun c hc => ?_
  rcases h.chars c hc with h1 | h1 | h1
  · constructor <;> rintro rfl <;> simp [Char.isAlphanum] at h1
  · subst h1; decide
  · subst h1; decide

theorem digits_clean {n : Str} (h : ∀ c ∈ n, c.isDigit = true) : Clean n := by
  refine clean_of fun c hc => ?_
  have := h c hc
  constructor <;> rintro rfl <;> simp at this

theorem clean_append {a b : Str} (ha : Clean a) (hb : Clean b) : Clean (a ++ b) := by
  simp only [Clean, List.mem_append, not_or]
  exact ⟨⟨ha.1, hb.1⟩, ha.2, hb.2⟩

theorem walk_casts : Walk noPass common Strip Strip Strip := by
  have hcl : ∀ {a : Str} {n s r}, Clean a → Strip n s r → Strip n (a ++ s) (a ++ r) := fun ha h => h.append ha
  refine ⟨?_, fun h => .char (by decide) (by decide) h, fun h => hcl (by unfold Clean; decide) h, fun h => hcl (by unfold Clean; decide) h,
    fun h => .char (by decide) (by decide) h, fun h => hcl (by unfold Clean; decide) h⟩
  intro w n s r hw hf h
  match w, hw with
  | .user k n, hw => rw [show Word.enumerators _ = 0 from rfl, Nat.zero_add]; exact hcl (plain_clean hw) h
  | .std k abi n, hw => rw [show Word.enumerators _ = 0 from rfl, Nat.zero_add]; exact hcl (plain_clean hw) h
  | .fundamental n, hw =>
    have : Clean n := by
      have : ∀ n ∈ fundamentals, '(' ∉ n ∧ ')' ∉ n := by decide
      exact this n hw
    rw [show Word.enumerators _ = 0 from rfl, Nat.zero_add]
    exact hcl this h
  | .int64 true l, _ =>
    rw [show Word.enumerators _ = 0 from rfl, Nat.zero_add]
    exact hcl (a := "unsigned long long".toList) ⟨by decide, by decide⟩ h
  | .int64 false l, _ =>
    rw [show Word.enumerators _ = 0 from rfl, Nat.zero_add]
    exact hcl (a := "long long".toList) ⟨by decide, by decide⟩ h
  | .integer neg ds sfx, hw =>
    simp only [Word.Ok] at hw
    rw [show Word.enumerators _ = 0 from rfl, Nat.zero_add]
    have : Clean (Word.show common (.integer neg ds sfx)) := by
      simp only [Word.show, common]
      refine clean_append (clean_append ?_ (digits_clean hw.2.1)) (by simp [Clean])
      cases neg <;> simp [Clean]
    exact hcl this h
  | .boolean true, _ =>
    rw [show Word.enumerators _ = 0 from rfl, Nat.zero_add]
    exact hcl (a := ['1']) ⟨by decide, by decide⟩ h
  | .boolean false, _ =>
    rw [show Word.enumerators _ = 0 from rfl, Nat.zero_add]
    exact hcl (a := ['0']) ⟨by decide, by decide⟩ h
  | .enumerator e ds, hw =>
    simp only [Word.Ok] at hw
    rw [Word.enumerators, Nat.add_comm]
    cases ds with
    | nil => exact absurd rfl hw.2.1
    | cons x ds =>
      have h1 : Strip n ((x :: ds) ++ s) ((x :: ds) ++ r) := hcl (digits_clean hw.2.2) h
      have h2 : Strip (n + 1) ('(' :: (e ++ ')' :: x :: (ds ++ s))) ((x :: ds) ++ r) := .group (plain_clean hw.1) (hw.2.2 x (by simp)) h1
      have e1 : Word.show noPass (.enumerator e (x :: ds)) ++ s = '(' :: (e ++ ')' :: x :: (ds ++ s)) := by
        have hc : noPass.casts = true := rfl
        simp [Word.show, hc]
      have e2 : Word.show common (.enumerator e (x :: ds)) ++ r = (x :: ds) ++ r := by
        simp [Word.show, common]
      rw [e1, e2]
      exact h2

theorem pass_casts (t : Ty) (ho : t.Ok) : ∀ m, (t.show noPass).length + 3 ≤ m →
    (removeEnumSpec m (t.show noPass) 0).then (fun s => removeCasts m s) = some (.ok (t.show common)) := by
  match t, ho with
  | .mk w as, ho =>
    simp only [Ty.Ok] at ho
    have hroot : w.show noPass = w.show common ∧ Clean (w.show common) := by
      match w, ho.1, ho.2.1 with
      | .user k n, hw, _ => exact ⟨rfl, plain_clean hw⟩
      | .std k abi n, hw, _ => exact ⟨rfl, plain_clean hw⟩
      | .fundamental n, hw, _ =>
        refine ⟨rfl, ?_⟩
        have : ∀ n ∈ fundamentals, '(' ∉ n ∧ ')' ∉ n := by decide
        exact this n hw
      | .int64 true l, _, _ => exact ⟨rfl, by cases l <;> decide, by cases l <;> decide⟩
      | .int64 false l, _, _ => exact ⟨rfl, by cases l <;> decide, by cases l <;> decide⟩
      | .integer _ _ _, _, h => simp [Word.isType] at h
      | .boolean _, _, h => simp [Word.isType] at h
      | .enumerator _ _, _, h => simp [Word.isType] at h
    have : ∃ n, n ≤ 2 ∧ Strip n (Ty.show noPass (.mk w as)) (Ty.show common (.mk w as)) := by
      simp only [Ty.show]
      rw [hroot.1]
      cases as with
      | nil => exact ⟨0, by omega, Strip.append .nil hroot.2⟩
      | cons a as =>
        have := walk_casts.args ⟨_, rfl⟩ (.cons a as) (by simp) ho.2.2.2.1 (n := 0) (s := []) (r := []) .nil
        rw [List.append_nil, List.append_nil] at this
        exact ⟨_, ho.2.2.2.2, Strip.append this hroot.2⟩
    obtain ⟨n, hn, hs⟩ := this
    exact strip_two hs hn

end Verif.TidyName
