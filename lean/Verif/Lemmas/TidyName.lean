import Verif.Model.TidyName
import Verif.Spec.Text
import Verif.Spec.TidyName
import Verif.Lemmas.TextForms

/-
Lemmas about the names of types: how a pass over the text of a name acts on its parts.
-/
set_option linter.unusedSimpArgs false
set_option linter.unusedVariables false

namespace Verif.TidyName
open Verif.Text Verif.Spec.Text Verif.Spec.TidyName

/-! ### A pass over a name -/

/-- What may follow a word. -/
inductive Follows (w : Word) : Str → Prop
  | comma {t} : Follows w (',' :: t)
  | close {t} : Follows w ('>' :: t)
  | opening {t} : w.template → w.noDigits → Follows w ('<' :: t)

/-- What is before a closing bracket which follows another one. -/
def closing (d : Dialect) : Str := if d.spaced then [' ', '>'] else ['>']

/-- A relation between texts which can be established part by part, from the end to the beginning: `A` before a template argument, `B` after a word and `C` after a bracket. -/
structure Walk (d d' : Dialect) (A B C : Nat → Str → Str → Prop) : Prop where
  word : ∀ {w n s r}, w.Ok → Follows w s → B n s r → A (w.enumerators + n) (w.show d ++ s) (w.show d' ++ r)
  opening : ∀ {n s r}, A n s r → B n ('<' :: s) ('<' :: r)
  commaB : ∀ {n s r}, A n s r → B n (d.comma ++ s) (d'.comma ++ r)
  commaC : ∀ {n s r}, A n s r → C n (d.comma ++ s) (d'.comma ++ r)
  close : ∀ {n s r}, C n s r → B n ('>' :: s) ('>' :: r)
  closing : ∀ {n s r}, C n s r → C n (closing d ++ s) (closing d' ++ r)

variable {d d' : Dialect} {A B C : Nat → Str → Str → Prop}

mutual
theorem Walk.type (h : Walk d d' A B C) (hc : ∃ t, d.comma = ',' :: t) : ∀ (a : Ty), a.OkArg → ∀ {n s r}, (a.nested = true → C n s r) →
    (a.nested = false → B n s r ∧ ((∃ t, s = ',' :: t) ∨ ∃ t, s = '>' :: t)) → A (a.enumerators + n) (a.show d ++ s) (a.show d' ++ r)
  | .mk w .nil, hok, n, s, r, _, h2 => by
    obtain ⟨hB, hs⟩ := h2 rfl
    simp only [Ty.OkArg] at hok
    simp only [Ty.show, Args.show, Ty.enumerators, Args.enumerators, List.append_nil, Nat.add_zero]
    refine h.word hok.1 ?_ hB
    rcases hs with ⟨t, rfl⟩ | ⟨t, rfl⟩
    · exact .comma
    · exact .close
  | .mk w (.cons b bs), hok, n, s, r, h1, _ => by
    simp only [Ty.OkArg] at hok
    have := Walk.args h hc (.cons b bs) (by simp) hok.2.2 (h1 rfl)
    simp only [Ty.show, Ty.enumerators, List.append_assoc, Nat.add_assoc]
    refine h.word hok.1 ?_ this
    simp only [Args.show, List.cons_append]
    have := hok.2.1 (by simp)
    exact .opening this.1 this.2
theorem Walk.args (h : Walk d d' A B C) (hc : ∃ t, d.comma = ',' :: t) : ∀ (as : Args), as ≠ .nil → as.Ok → ∀ {n s r}, C n s r →
    B (as.enumerators + n) (as.show d ++ s) (as.show d' ++ r)
  | .nil, hne, _, _, _, _, _ => absurd rfl hne
  | .cons a as, _, hok, n, s, r, hC => by
    simp only [Args.Ok] at hok
    simp only [Args.show, Args.enumerators, List.cons_append, List.append_assoc, Nat.add_assoc]
    refine h.opening (Walk.type h hc a hok.1 ?_ ?_)
    · intro hn; rw [hn]; exact (Walk.rest h hc as hok.2 hC).2
    · intro hn; rw [hn]; exact (Walk.rest h hc as hok.2 hC).1
theorem Walk.rest (h : Walk d d' A B C) (hc : ∃ t, d.comma = ',' :: t) : ∀ (as : Args), as.Ok → ∀ {n s r}, C n s r →
    (B (as.enumerators + n) (as.showRest d false ++ s) (as.showRest d' false ++ r) ∧ ((∃ t, as.showRest d false ++ s = ',' :: t) ∨ ∃ t, as.showRest d false ++ s = '>' :: t)) ∧
    C (as.enumerators + n) (as.showRest d true ++ s) (as.showRest d' true ++ r)
  | .nil, _, n, s, r, hC => by
    simp only [Args.showRest, Args.enumerators, Nat.zero_add, Bool.false_and, Bool.true_and]
    exact ⟨⟨h.close hC, .inr ⟨_, rfl⟩⟩, h.closing hC⟩
  | .cons a as, hok, n, s, r, hC => by
    simp only [Args.Ok] at hok
    have key : A (a.enumerators + (as.enumerators + n)) (a.show d ++ (as.showRest d a.nested ++ s)) (a.show d' ++ (as.showRest d' a.nested ++ r)) := by
      refine Walk.type h hc a hok.1 ?_ ?_
      · intro hn; rw [hn]; exact (Walk.rest h hc as hok.2 hC).2
      · intro hn; rw [hn]; exact (Walk.rest h hc as hok.2 hC).1
    simp only [Args.showRest, Args.enumerators, List.append_assoc, Nat.add_assoc]
    refine ⟨⟨h.commaB key, ?_⟩, h.commaC key⟩
    obtain ⟨t, ht⟩ := hc
    exact .inl ⟨_, by rw [ht]; rfl⟩
end

/-! ### Replacements -/

theorem replaced_notPrefix {p to : Str} {c : Char} {s r : Str} (hc : ¬ p <+: c :: s) (h : Replaced p to s r) : Replaced p to (c :: s) (c :: r) := by
  cases h with
  | none hn =>
    exact .none fun hi => by
      rcases List.infix_cons_iff.1 hi with h | h
      · exact hc h
      · exact hn h
  | @step a b r hf hr =>
    refine (Replaced.step (a := c :: a) ?_ hr : Replaced p to (c :: a ++ p ++ b) (c :: a ++ to ++ r))
    intro a' b' he
    cases a' with
    | nil => exact absurd ⟨b', by simpa using he⟩ hc
    | cons x a' =>
      simp only [List.cons_append, List.cons.injEq] at he
      have := hf a' b' he.2
      simp; omega

theorem replaced_cons {h : Char} {p to : Str} {c : Char} {s r : Str} (hc : c ≠ h) (hr : Replaced (h :: p) to s r) : Replaced (h :: p) to (c :: s) (c :: r) :=
  replaced_notPrefix (fun hp => hc (by simpa using (List.cons_prefix_cons.1 hp).1.symm)) hr

theorem replaced_hit {p to s r : Str} (h : Replaced p to s r) : Replaced p to (p ++ s) (to ++ r) := by
  have := Replaced.step (a := []) (p := p) (to := to) (b := s) (fun _ _ _ => by simp) h
  simpa using this

theorem replaced_append {p to w w' : Str} (h : Replaced p to w w') : ∀ {s r : Str}, (s = [] ∨ ∃ c t, s = c :: t ∧ c ∉ p) → Replaced p to s r →
    Replaced p to (w ++ s) (w' ++ r) := by
  induction h with
  | @none w hn =>
    intro s r hs hr
    induction w with
    | nil => exact hr
    | cons c w ih =>
      refine replaced_notPrefix ?_ (ih fun hi => hn (hi.trans (List.suffix_cons c w).isInfix))
      intro hp
      rcases hs with rfl | ⟨x, t, rfl, hx⟩
      · exact hn (by simpa using hp.isInfix)
      · have hp' : p <+: (c :: w) ++ x :: t := hp
        rcases List.prefix_or_prefix_of_prefix hp' (List.prefix_append (c :: w) (x :: t)) with h1 | h1
        · exact hn h1.isInfix
        · obtain ⟨q, hq⟩ := h1
          rw [← hq] at hp'
          have hq' := (List.prefix_append_right_inj _).1 hp'
          cases q with
          | nil => exact hn ⟨[], [], by simp only [List.append_nil] at hq; simp [hq]⟩
          | cons y q =>
            have : y = x := (List.cons_prefix_cons.1 hq').1
            exact hx (by rw [← hq, ← this]; simp)
  | @step a b u hf hu ih =>
    intro s r hs hr
    have := Replaced.step (a := a) (b := b ++ s) (p := p) (to := to) ?_ (ih hs hr)
    · simpa [List.append_assoc] using this
    · intro a' b' he
      refine Nat.le_of_not_lt fun hlt => ?_
      -- the occurrence is within `a ++ p`
      have h1 : a' ++ p <+: a ++ p := by
        refine List.prefix_of_prefix_length_le (l₃ := a ++ p ++ (b ++ s)) ⟨b', he⟩ (List.prefix_append _ _) (by simp; omega)
      obtain ⟨q, hq⟩ := h1
      have := hf a' (q ++ b) (by rw [← hq]; simp [List.append_assoc])
      omega

theorem replaced_chars {h : Char} {p to : Str} : ∀ {w s r : Str}, (∀ c ∈ w, c ≠ h) → Replaced (h :: p) to s r → Replaced (h :: p) to (w ++ s) (w ++ r)
  | [], _, _, _, hr => hr
  | c :: w, _, _, hw, hr => replaced_cons (hw c (by simp)) (replaced_chars (fun x hx => hw x (by simp [hx])) hr)

theorem replaceAll_of {p to s r : Str} (hp : p ≠ []) (h : Replaced p to s r) : ∀ m, s.length + 1 ≤ m → replaceAll m s p to = some r := by
  intro m hm
  obtain ⟨r', hr'⟩ := replaceAllFrom_total (to := to) hp m s [] (by omega)
  have h1 : replaceAll m s p to = some r' := by simpa [replaceAll] using hr'
  obtain ⟨u, hu, h2⟩ := replaceAllFrom_spec (s := s) (d := []) (by simpa [replaceAll] using h1)
  simp only [List.nil_append] at hu
  rw [h1, hu, replaced_functional h2 h]

theorem replaced_eval {p to s r : Str} (n : Nat) (h : replaceAll n s p to = some r) : Replaced p to s r := by
  obtain ⟨u, hu, h2⟩ := replaceAllFrom_spec (s := s) (d := []) (by simpa [replaceAll] using h)
  simp only [List.nil_append] at hu
  rwa [hu]

theorem not_infix_of_replaced {p s : Str} (hp : p ≠ []) (h : Replaced p [] s s) : ¬ p <:+: s := by
  obtain ⟨n, h1, h2⟩ := replaced_count h
  intro hi
  have := h2.1 hi
  have hl : 0 < p.length := by cases p with | nil => exact absurd rfl hp | cons => simp
  have : 0 < n * p.length := Nat.mul_pos this hl
  simp at h1; omega

theorem infix_mem {p s : Str} {c : Char} (h : p <:+: s) (hc : c ∈ p) : c ∈ s := by
  obtain ⟨a, b, rfl⟩ := h; simp [hc]

theorem infix_sep {p a b : Str} {c : Char} (hc : c ∉ p) (h : p <:+: a ++ c :: b) : p <:+: a ∨ p <:+: b := by
  by_cases ha : p <:+: a
  · exact .inl ha
  by_cases hb : p <:+: b
  · exact .inr hb
  exfalso
  by_cases hp : p = []
  · exact ha ⟨[], a, by simp [hp]⟩
  refine not_infix_of_replaced hp (replaced_append (.none ha) (.inr ⟨c, b, rfl, hc⟩) (replaced_notPrefix ?_ (.none hb))) h
  intro hpc
  cases p with
  | nil => exact hp rfl
  | cons x p => exact hc (by simp [(List.cons_prefix_cons.1 hpc).1])

theorem infix_cons_sep {p b : Str} {c : Char} (hp : p ≠ []) (hc : c ∉ p) (h : p <:+: c :: b) : p <:+: b := by
  rcases infix_sep (a := []) hc h with h | h
  · exact absurd (List.infix_nil.1 h) hp
  · exact h

/-! ### Words in which something does not occur -/

theorem digit_mem {ds : Str} (h : ∀ c ∈ ds, c.isDigit = true) {x : Char} (hx : x.isDigit = false) : x ∉ ds := fun hm => by simp [h x hm] at hx

theorem suffix_mem {t : Str} (h : t ∈ suffixes) {x : Char} (hx : x ∉ ['u', 'l']) : x ∉ t := by
  intro hm
  have : ∀ t ∈ suffixes, ∀ c ∈ t, c ∈ ['u', 'l'] := by decide
  exact hx (this t h x hm)

/-- A text which does not occur in names, nor in the other words, does not occur in any word. -/
theorem absent {p : Str} {d : Dialect} (x : Char) (hx : x ∈ p) (hxd : x.isDigit = false) (hxs : x ∉ ['u', 'l']) (hxm : x ≠ '-') (ho : '(' ∉ p) (hcl : ')' ∉ p)
    (hpl : ∀ n, Plain n → ¬ p <:+: n) (hk : ∀ k, d.keyword k = []) (hstd : ∀ abi, d.std abi = "std::".toList)
    (hfix : ∀ t ∈ fundamentals ++ [d.int64 true, d.int64 false, "unsigned ".toList ++ d.int64 true, "unsigned ".toList ++ d.int64 false, d.yes, d.no], search p t = none) : ∀ w : Word, w.Ok → ¬ p <:+: w.show d := by
  have hp : p ≠ [] := List.ne_nil_of_mem hx
  intro w hw
  match w, hw with
  | .user k n, hw => simp only [Word.show, hk, List.nil_append]; exact hpl n hw
  | .std k abi n, hw => simp only [Word.show, hk, hstd, List.nil_append]; exact hpl _ hw
  | .fundamental n, hw => exact search_none.1 (hfix n (List.mem_append_left _ hw))
  | .int64 true l, hw => cases l <;> simp only [Word.show, if_true] <;> exact search_none.1 (hfix _ (by simp))
  | .int64 false l, hw => cases l <;> exact search_none.1 (hfix (d.int64 _) (by simp))
  | .integer neg ds sfx, hw =>
    intro hi
    have hm := infix_mem hi hx
    simp only [Word.Ok] at hw
    simp only [Word.show, List.mem_append] at hm
    rcases hm with (hm | hm) | hm
    · cases neg <;> simp at hm; exact hxm hm
    · exact digit_mem hw.2.1 hxd hm
    · split at hm
      · exact suffix_mem hw.2.2 hxs hm
      · simp at hm
  | .boolean true, hw => simp only [Word.show, if_true]; exact search_none.1 (hfix _ (by simp))
  | .boolean false, hw => simp only [Word.show]; exact search_none.1 (hfix _ (by simp))
  | .enumerator e ds, hw =>
    simp only [Word.Ok] at hw
    have hds : ¬ p <:+: ds := fun h => digit_mem hw.2.2 hxd (infix_mem h hx)
    intro hi
    simp only [Word.show] at hi
    split at hi
    · simp only [List.cons_append, List.append_assoc, List.nil_append] at hi
      rcases infix_sep hcl (infix_cons_sep hp ho hi) with h | h
      · exact hpl e hw.1 h
      · exact hds h
    · exact hds (by simpa using hi)

/-- Replacements in words carry over to names. -/
theorem walk_replaced {h : Char} {p to : Str} (hpu : ∀ c ∈ [',', '<', '>'], c ∉ h :: p) (hsp : h ≠ ' ') (hcd : d.comma = d'.comma)
    (hc : d.comma = [','] ∨ d.comma = [',', ' ']) (hs : d.spaced = d'.spaced) (hw : ∀ w : Word, w.Ok → Replaced (h :: p) to (w.show d) (w.show d')) :
    Walk d d' (fun _ => Replaced (h :: p) to) (fun _ => Replaced (h :: p) to) (fun _ => Replaced (h :: p) to) := by
  have h1 : ',' ≠ h := fun e => hpu ',' (by simp) (by rw [← e]; simp)
  have h2 : '<' ≠ h := fun e => hpu '<' (by simp) (by rw [← e]; simp)
  have h3 : '>' ≠ h := fun e => hpu '>' (by simp) (by rw [← e]; simp)
  have hcm : ∀ {s r}, Replaced (h :: p) to s r → Replaced (h :: p) to (d.comma ++ s) (d'.comma ++ r) := by
    intro s r hr
    rw [← hcd]
    rcases hc with hc | hc <;> rw [hc]
    · exact replaced_cons h1 hr
    · exact replaced_cons h1 (replaced_cons (fun e => hsp e.symm) hr)
  refine ⟨?_, fun hr => replaced_cons h2 hr, hcm, hcm, fun hr => replaced_cons h3 hr, ?_⟩
  · intro w n s r hok hf hr
    refine replaced_append (hw w hok) (.inr ?_) hr
    cases hf with
    | comma => exact ⟨_, _, rfl, hpu _ (by simp)⟩
    | close => exact ⟨_, _, rfl, hpu _ (by simp)⟩
    | opening _ _ => exact ⟨_, _, rfl, hpu _ (by simp)⟩
  · intro n s r hr
    unfold closing
    rw [← hs]
    split
    · exact replaced_cons (fun e => hsp e.symm) (replaced_cons h3 hr)
    · exact replaced_cons h3 hr

theorem comma_cons (hc : d.comma = [','] ∨ d.comma = [',', ' ']) : ∃ t, d.comma = ',' :: t := by
  rcases hc with h | h <;> exact ⟨_, h⟩

theorem args_replaced {h : Char} {p to : Str} (hpu : ∀ c ∈ [',', '<', '>'], c ∉ h :: p) (hsp : h ≠ ' ') (hcd : d.comma = d'.comma)
    (hc : d.comma = [','] ∨ d.comma = [',', ' ']) (hs : d.spaced = d'.spaced) (hw : ∀ w : Word, w.Ok → Replaced (h :: p) to (w.show d) (w.show d'))
    (as : Args) (ho : as.Ok) : Replaced (h :: p) to (as.show d) (as.show d') := by
  cases as with
  | nil => exact .none (by simp [Args.show])
  | cons a as =>
    have := (walk_replaced hpu hsp hcd hc hs hw).args (comma_cons hc) (.cons a as) (by simp) ho (n := 0) (s := []) (r := []) (.none (by simp))
    simpa using this

theorem type_replaced {h : Char} {p to : Str} (hpu : ∀ c ∈ [',', '<', '>'], c ∉ h :: p) (hsp : h ≠ ' ') (hcd : d.comma = d'.comma)
    (hc : d.comma = [','] ∨ d.comma = [',', ' ']) (hs : d.spaced = d'.spaced) (hw : ∀ w : Word, w.Ok → Replaced (h :: p) to (w.show d) (w.show d'))
    (t : Ty) (ho : t.Ok) : Replaced (h :: p) to (t.show d) (t.show d') := by
  cases t with
  | mk w as =>
    simp only [Ty.Ok] at ho
    simp only [Ty.show]
    refine replaced_append (hw w ho.1) ?_ (args_replaced hpu hsp hcd hc hs hw as ho.2.2.2.1)
    cases as with
    | nil => exact .inl rfl
    | cons a as => exact .inr ⟨_, _, rfl, hpu _ (by simp)⟩

/-! ### The passes which replace a text -/

/-- Names without inline namespaces. -/
def plainStd (spaced : Bool) : Dialect := { clang spaced with std := fun _ => "std::".toList }

/-- ... and without suffixes, with blanks between closing brackets. -/
def noSuffix : Dialect := { plainStd true with suffixes := false }

def longOnly : Dialect := { noSuffix with int64 := fun _ => "long".toList }

def longLong : Dialect := { noSuffix with int64 := fun _ => "long long".toList }

theorem plain_absent {n p : Str} (h : Plain n) (hp : p ∈ reserved) : ¬ p <:+: n := h.reserved p hp

theorem plain_tail {n p : Str} (h : Plain ("std::".toList ++ n)) (hp : p ∈ reserved) : ¬ p <:+: n :=
  fun hi => h.reserved p hp (hi.trans (List.suffix_append _ _).isInfix)

theorem word_cases {p to : Str} (hw : ∀ w : Word, w.Ok → ¬ p <:+: w.show d) : ∀ w : Word, w.Ok → Replaced p to (w.show d) (w.show d) := fun w h => .none (hw w h)

theorem pass_clang1 (b : Bool) (t : Ty) (ho : t.Ok) : Replaced "::__1::".toList "::".toList (t.show (clang b)) (t.show (plainStd b)) := by
  refine type_replaced (h := ':') (p := ":__1::".toList) (d := clang b) (d' := plainStd b) (by decide) (by decide) rfl (.inr rfl) rfl ?_ t ho
  have hab := absent (p := "::__1::".toList) (d := plainStd b) '_' (by decide) (by decide) (by decide) (by decide) (by decide) (by decide)
    (fun n hn => plain_absent hn (by decide)) (fun _ => rfl) (fun _ => rfl) (by cases b <;> decide)
  intro w hw
  match w, hw with
  | .std k abi n, hw =>
    have h1 : Replaced "::__1::".toList "::".toList n n := .none (plain_tail hw (by decide))
    exact replaced_cons (by decide) (replaced_cons (by decide) (replaced_cons (by decide) (replaced_hit h1)))
  | .user k n, hw => exact .none (hab _ hw)
  | .fundamental n, hw => exact .none (hab (.fundamental n) hw)
  | .int64 u l, hw => exact .none (hab (.int64 u l) hw)
  | .integer neg ds sfx, hw => exact .none (hab (.integer neg ds sfx) hw)
  | .boolean v, hw => exact .none (hab (.boolean v) hw)
  | .enumerator e ds, hw => exact .none (hab (.enumerator e ds) hw)

theorem pass_clang2 (b : Bool) (t : Ty) (ho : t.Ok) : Replaced "::__fs::".toList "::".toList (t.show (plainStd b)) (t.show (plainStd b)) :=
  type_replaced (h := ':') (p := ":__fs::".toList) (d := plainStd b) (d' := plainStd b) (by decide) (by decide) rfl (.inr rfl) rfl
    (word_cases (absent '_' (by decide) (by decide) (by decide) (by decide) (by decide) (by decide)
      (fun n hn => plain_absent hn (by decide)) (fun _ => rfl) (fun _ => rfl) (by cases b <;> decide))) t ho

theorem pass_gcc1 (b : Bool) (t : Ty) (ho : t.Ok) : Replaced "__cxx11::".toList [] (t.show (gcc b)) (t.show (plainStd b)) := by
  refine type_replaced (h := '_') (p := "_cxx11::".toList) (d := gcc b) (d' := plainStd b) (by decide) (by decide) rfl (.inr rfl) rfl ?_ t ho
  have hab := absent (p := "__cxx11::".toList) (d := plainStd b) '_' (by decide) (by decide) (by decide) (by decide) (by decide) (by decide)
    (fun n hn => plain_absent hn (by decide)) (fun _ => rfl) (fun _ => rfl) (by cases b <;> decide)
  intro w hw
  match w, hw with
  | .std k true n, hw =>
    have h1 : Replaced "__cxx11::".toList [] n n := .none (plain_tail hw (by decide))
    exact replaced_cons (by decide) (replaced_cons (by decide) (replaced_cons (by decide) (replaced_cons (by decide) (replaced_cons (by decide) (replaced_hit h1)))))
  | .std k false n, hw => exact .none (hab (.std k false n) hw)
  | .user k n, hw => exact .none (hab _ hw)
  | .fundamental n, hw => exact .none (hab (.fundamental n) hw)
  | .int64 u l, hw => exact .none (hab (.int64 u l) hw)
  | .integer neg ds sfx, hw => exact .none (hab (.integer neg ds sfx) hw)
  | .boolean v, hw => exact .none (hab (.boolean v) hw)
  | .enumerator e ds, hw => exact .none (hab (.enumerator e ds) hw)

theorem pass_gcc2 (b : Bool) (t : Ty) (ho : t.Ok) : Replaced "_V2::".toList [] (t.show (plainStd b)) (t.show (plainStd b)) :=
  type_replaced (h := '_') (p := "V2::".toList) (d := plainStd b) (d' := plainStd b) (by decide) (by decide) rfl (.inr rfl) rfl
    (word_cases (absent '_' (by decide) (by decide) (by decide) (by decide) (by decide) (by decide)
      (fun n hn => plain_absent hn (by decide)) (fun _ => rfl) (fun _ => rfl) (by cases b <;> decide))) t ho

theorem pass_long1 (t : Ty) (ho : t.Ok) : Replaced "long long".toList "long".toList (t.show noSuffix) (t.show longOnly) := by
  refine type_replaced (h := 'l') (p := "ong long".toList) (d := noSuffix) (d' := longOnly) (by decide) (by decide) rfl (.inr rfl) rfl ?_ t ho
  have hab := absent (p := "long long".toList) (d := longOnly) 'o' (by decide) (by decide) (by decide) (by decide) (by decide) (by decide)
    (fun n hn hi => plain_absent (p := "long".toList) hn (by decide) (List.IsInfix.trans ⟨[], " long".toList, rfl⟩ hi)) (fun _ => rfl) (fun _ => rfl) (by decide)
  intro w hw
  match w, hw with
  | .int64 true l, hw => cases l <;> exact replaced_eval 5 (by decide)
  | .int64 false l, hw => cases l <;> exact replaced_eval 5 (by decide)
  | .std k abi n, hw => exact .none (hab (.std k abi n) hw)
  | .user k n, hw => exact .none (hab _ hw)
  | .fundamental n, hw => exact .none (hab (.fundamental n) hw)
  | .integer neg ds sfx, hw => exact .none (hab (.integer neg ds sfx) hw)
  | .boolean v, hw => exact .none (hab (.boolean v) hw)
  | .enumerator e ds, hw => exact .none (hab (.enumerator e ds) hw)

theorem pass_long2 (t : Ty) (ho : t.Ok) : Replaced "long".toList "long long".toList (t.show longOnly) (t.show longLong) := by
  refine type_replaced (h := 'l') (p := "ong".toList) (d := longOnly) (d' := longLong) (by decide) (by decide) rfl (.inr rfl) rfl ?_ t ho
  have hab := absent (p := "long".toList) (d := { noSuffix with int64 := fun _ => [] }) 'o' (by decide) (by decide) (by decide) (by decide) (by decide) (by decide)
    (fun n hn => plain_absent hn (by decide)) (fun _ => rfl) (fun _ => rfl) (by decide)
  intro w hw
  match w, hw with
  | .int64 true l, hw => cases l <;> exact replaced_eval 5 (by decide)
  | .int64 false l, hw => cases l <;> exact replaced_eval 5 (by decide)
  | .std k abi n, hw => exact .none (hab (.std k abi n) hw)
  | .user k n, hw => exact .none (hab _ hw)
  | .fundamental n, hw => exact .none (hab (.fundamental n) hw)
  | .integer neg ds sfx, hw => exact .none (hab (.integer neg ds sfx) hw)
  | .boolean v, hw => exact .none (hab (.boolean v) hw)
  | .enumerator e ds, hw => exact .none (hab (.enumerator e ds) hw)

/-! ### Closing brackets -/

/-- A blank between any two closing brackets. -/
def gaps : Str → Str
  | [] => []
  | c :: t => if c = '>' ∧ t.head? = some '>' then '>' :: ' ' :: gaps t else c :: gaps t

/-- What becomes of a text after a closing bracket. -/
def gapsAfter (s : Str) : Str := if s.head? = some '>' then ' ' :: gaps s else gaps s

theorem gaps_close (s : Str) : gaps ('>' :: s) = '>' :: gapsAfter s := by
  simp only [gaps, gapsAfter, true_and]
  split <;> rfl

theorem gaps_char {c : Char} (hc : c ≠ '>') (s : Str) : gaps (c :: s) = c :: gaps s := by simp [gaps, hc]

theorem gaps_word : ∀ {w : Str}, (∀ c ∈ w, c ≠ '>') → ∀ s, gaps (w ++ s) = w ++ gaps s
  | [], _, _ => rfl
  | c :: w, h, s => by
    rw [List.cons_append, gaps_char (h c (by simp)), gaps_word (fun x hx => h x (by simp [hx]))]; rfl

theorem gaps_none : ∀ {s : Str}, ¬ ['>', '>'] <:+: s → gaps s = s
  | [], _ => rfl
  | c :: t, h => by
    have ht := gaps_none fun hi => h (hi.trans (List.suffix_cons c t).isInfix)
    simp only [gaps]
    split
    · rename_i hc
      obtain ⟨rfl, hc⟩ := hc
      cases t with
      | nil => simp at hc
      | cons x t =>
        simp only [List.head?_cons, Option.some.injEq] at hc
        subst hc
        exact absurd ⟨[], t, rfl⟩ h
    · rw [ht]

theorem gaps_first {b : Str} : ∀ {a : Str}, First ['>', '>'] a b → gaps (a ++ ['>', '>'] ++ b) = a ++ ['>', ' '] ++ gaps ('>' :: b)
  | [], _ => by simp [gaps]
  | c :: a, h => by
    have h' : First ['>', '>'] a b := by
      intro a' b' he
      have := h (c :: a') b' (by simp only [List.cons_append]; rw [he])
      simpa using this
    have hn : ¬ (c = '>' ∧ (a ++ ['>', '>'] ++ b).head? = some '>') := by
      rintro ⟨rfl, hh⟩
      cases hx : a ++ ['>', '>'] ++ b with
      | nil => simp at hx
      | cons x t =>
        rw [hx] at hh
        simp only [List.head?_cons, Option.some.injEq] at hh
        subst hh
        have := h [] t (by simp only [List.cons_append]; rw [hx]; rfl)
        simp at this
    have ih := gaps_first h'
    simp only [List.cons_append] at hn ih ⊢
    rw [gaps, if_neg hn, ih]

theorem replaceRecFrom_gaps : ∀ (f : Nat) (s d : Str), s.count '>' < f → replaceRecFrom ['>', '>'] ['>', ' ', '>'] f (d ++ s) d.length = some (d ++ gaps s)
  | 0, s, d, hf => by omega
  | f + 1, s, d, hf => by
    rw [replaceRecFrom, find_append]
    cases hs : search ['>', '>'] s with
    | none => simp only [Option.map_none]; rw [gaps_none (search_none.1 hs)]
    | some i =>
      obtain ⟨a, b, rfl, rfl, hfirst⟩ := search_some hs
      simp only [Option.map_some]
      rw [show splice (d ++ (a ++ ['>', '>'] ++ b)) (d.length + a.length) ['>', '>'].length ['>', ' ', '>'] = (d ++ a ++ ['>']) ++ (' ' :: '>' :: b) by
        rw [splice_append _ _ _ _ _ rfl]; simp]
      rw [show d.length + a.length + 1 = (d ++ a ++ ['>']).length by simp; omega]
      simp only [List.count_append, List.count_cons, List.count_nil] at hf
      have := replaceRecFrom_gaps f (' ' :: '>' :: b) (d ++ a ++ ['>']) (by simp at hf ⊢; omega)
      rw [this, gaps_first hfirst, gaps_char (by decide)]; simp

theorem replaceRec_gaps (s : Str) : ∀ m, s.length + 1 ≤ m → replaceRec m s ">>".toList "> >".toList = some (gaps s) := fun m hm => by
  have := replaceRecFrom_gaps m s [] (Nat.lt_of_le_of_lt List.count_le_length (by omega))
  exact this

/-- The characters which are not in words. -/
theorem word_chars (hk : ∀ k, d.keyword k = []) (hstd : ∀ abi, d.std abi = "std::".toList) (x : Char) (hx : x.isAlphanum = false) (h1 : x ∉ ['_', ':', '-', ' ', '(', ')'])
    (hfix : x ∉ d.int64 true ++ d.int64 false ++ d.yes ++ d.no) (w : Word) (hw : w.Ok) : x ∉ w.show d := by
  have hpl : ∀ n, Plain n → x ∉ n := by
    intro n hn hm
    rcases hn.chars x hm with h | rfl | rfl
    · simp [h] at hx
    · simp at h1
    · simp at h1
  have hd : x.isDigit = false := by
    simp only [Char.isAlphanum, Bool.or_eq_false_iff] at hx; exact hx.2
  have ha : x.isAlpha = false := by
    simp only [Char.isAlphanum, Bool.or_eq_false_iff] at hx; exact hx.1
  simp only [List.mem_append, not_or] at hfix
  match w, hw with
  | .user k n, hw => simp only [Word.show, hk, List.nil_append]; exact hpl n hw
  | .std k abi n, hw => simp only [Word.show, hk, hstd, List.nil_append]; exact hpl _ hw
  | .fundamental n, hw =>
    intro hm
    have : ∀ n ∈ fundamentals, ∀ c ∈ n, c.isAlphanum = true ∨ c = ' ' := by decide
    rcases this n hw x hm with h | rfl
    · simp [h] at hx
    · simp at h1
  | .int64 u l, hw =>
    intro hm
    simp only [Word.show, List.mem_append] at hm
    rcases hm with hm | hm
    · split at hm
      · have : ∀ c ∈ "unsigned ".toList, c.isAlphanum = true ∨ c = ' ' := by decide
        rcases this x hm with h | rfl
        · simp [h] at hx
        · simp at h1
      · simp at hm
    · cases l
      · exact hfix.1.1.2 hm
      · exact hfix.1.1.1 hm
  | .integer neg ds sfx, hw =>
    simp only [Word.Ok] at hw
    simp only [Word.show, List.mem_append, not_or]
    refine ⟨⟨?_, digit_mem hw.2.1 hd⟩, ?_⟩
    · cases neg
      · simp
      · simp at h1 ⊢; exact h1.2.2.1
    · split
      · refine suffix_mem hw.2.2 ?_
        intro hm
        simp only [List.mem_cons, List.not_mem_nil, or_false] at hm
        rcases hm with rfl | rfl <;> simp at ha
      · simp
  | .boolean b, hw =>
    cases b
    · exact hfix.2
    · exact hfix.1.2
  | .enumerator e ds, hw =>
    simp only [Word.Ok] at hw
    simp only [Word.show, List.mem_append, not_or]
    refine ⟨?_, digit_mem hw.2.2 hd⟩
    split
    · simp only [List.cons_append, List.mem_cons, List.mem_append, not_or]
      simp at h1
      exact ⟨h1.2.2.2.2.1, hpl e hw.1, h1.2.2.2.2.2, by simp⟩
    · simp

theorem walk_gaps (b : Bool) : Walk (plainStd b) (plainStd true) (fun _ s r => gaps s = r) (fun _ s r => gaps s = r) (fun _ s r => gapsAfter s = r) where
  word := by
    intro w n s r hw _ hr
    have hx := word_chars (d := plainStd b) (fun _ => rfl) (fun _ => rfl) '>' (by decide) (by decide) (by cases b <;> decide) w hw
    rw [gaps_word (fun c hc e => hx (e ▸ hc)), hr]
    cases w <;> rfl
  opening := by intro n s r hr; rw [gaps_char (by decide), hr]
  commaB := by
    intro n s r hr
    show gaps (',' :: ' ' :: s) = ',' :: ' ' :: r
    rw [gaps_char (by decide), gaps_char (by decide), hr]
  commaC := by
    intro n s r hr
    show gapsAfter (',' :: ' ' :: s) = ',' :: ' ' :: r
    rw [gapsAfter, if_neg (by simp), gaps_char (by decide), gaps_char (by decide), hr]
  close := by intro n s r hr; rw [gaps_close, hr]
  closing := by
    intro n s r hr
    cases b
    · show gapsAfter ('>' :: s) = ' ' :: '>' :: r
      rw [gapsAfter, if_pos (by simp), gaps_close, hr]
    · show gapsAfter (' ' :: '>' :: s) = ' ' :: '>' :: r
      rw [gapsAfter, if_neg (by simp), gaps_char (by decide), gaps_close, hr]

theorem pass_gaps (b : Bool) (t : Ty) (ho : t.Ok) : gaps (t.show (plainStd b)) = t.show (plainStd true) := by
  cases t with
  | mk w as =>
    simp only [Ty.Ok] at ho
    simp only [Ty.show]
    have hx := word_chars (d := plainStd b) (fun _ => rfl) (fun _ => rfl) '>' (by decide) (by decide) (by cases b <;> decide) w ho.1
    rw [gaps_word (fun c hc e => hx (e ▸ hc))]
    have h1 : w.show (plainStd b) = w.show (plainStd true) := by cases w <;> rfl
    rw [h1]
    cases as with
    | nil => rfl
    | cons a as =>
      have := (walk_gaps b).args ⟨_, rfl⟩ (.cons a as) (by simp) ho.2.2.2.1 (n := 0) (s := []) (r := []) rfl
      rw [List.append_nil, List.append_nil] at this
      rw [this]

end Verif.TidyName
