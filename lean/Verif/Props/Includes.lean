import Verif.Lemmas.Includes

/-! Property C56: the files included by a file. -/
namespace Verif.Props
open Verif.Includes Verif.Spec.Includes

namespace Includes

theorem mem_takeWhile {p : Char → Bool} {c : Char} {l : List Char} (h : c ∈ l.takeWhile p) : p c = true := by
  induction l with
  | nil => simp at h
  | cons d l ih =>
    rw [List.takeWhile_cons] at h
    split at h
    · rename_i hd
      rcases List.mem_cons.mp h with rfl | h
      · exact hd
      · exact ih h
    · simp at h

theorem dropWhile_head {p : Char → Bool} {d : Char} {l t : List Char} (h : l.dropWhile p = d :: t) : p d = false := by
  induction l with
  | nil => simp at h
  | cons c l ih =>
    rw [List.dropWhile_cons] at h
    split at h
    · exact ih h
    · rename_i hc
      cases h
      simpa using hc

/-- Where a name in an include directive is taken to be, for a file in `dir`. -/
def located (dir name : List Char) : List Char := if name.contains '/' then name else append dir name

/-- The name has an extension: the last part of the path, `file`, has a dot which is not its first character; but the dots of ".." do not count. -/
def HasExtension (p : List Char) : Prop :=
  ∃ parent file, p = parent ++ file ∧ (parent = [] ∨ parent.getLast? = some '/') ∧ '/' ∉ file ∧ file ≠ ['.', '.'] ∧ ∃ a b, file = a ++ '.' :: b ∧ a ≠ []

theorem extension_iff (p : List Char) : hasExtension p = true ↔ HasExtension p := by
  have hsplit : p = (p.reverse.dropWhile (· ≠ '/')).reverse ++ filename p := by
    unfold filename
    rw [← List.reverse_append, List.takeWhile_append_dropWhile, List.reverse_reverse]
  have hno : '/' ∉ filename p := by
    unfold filename
    rw [List.mem_reverse]
    intro h
    exact absurd (mem_takeWhile h) (by simp)
  constructor
  · intro h
    unfold hasExtension at h
    simp only [Bool.and_eq_true, decide_eq_true_eq, List.contains_eq_mem] at h
    refine ⟨_, _, hsplit, ?_, hno, h.1, ?_⟩
    · rw [List.getLast?_reverse]
      cases hd : p.reverse.dropWhile (· ≠ '/') with
      | nil => exact .inl rfl
      | cons c l =>
        right
        have := dropWhile_head hd
        simp only [List.head?_cons, Option.some.injEq]
        simpa using this
    · cases hf : filename p with
      | nil => rw [hf] at h; simp at h
      | cons c l =>
        rw [hf] at h
        simp only [List.drop_succ_cons, List.drop_zero] at h
        obtain ⟨a, b, e⟩ := List.append_of_mem h.2
        exact ⟨c :: a, b, by rw [e]; rfl, by simp⟩
  · rintro ⟨parent, file, rfl, hp, hn, hne, a, b, rfl, ha⟩
    have hall : ∀ c ∈ (a ++ '.' :: b).reverse, decide (c ≠ '/') = true := by
      intro c hc
      have hc' : c ∈ a ++ '.' :: b := List.mem_reverse.mp hc
      simp only [decide_eq_true_eq]
      rintro rfl
      exact hn hc'
    have hfile : filename (parent ++ (a ++ '.' :: b)) = a ++ '.' :: b := by
      unfold filename
      rw [List.reverse_append, List.takeWhile_append_of_pos hall]
      have : parent.reverse.takeWhile (fun c => decide (c ≠ '/')) = [] := by
        rcases hp with rfl | hp
        · rfl
        · rw [← List.head?_reverse] at hp
          cases hr : parent.reverse with
          | nil => rfl
          | cons c l =>
            rw [hr] at hp
            simp only [List.head?_cons, Option.some.injEq] at hp
            subst hp
            simp
      rw [this, List.append_nil, List.reverse_reverse]
    unfold hasExtension
    rw [hfile]
    cases a with
    | nil => exact absurd rfl ha
    | cons c a =>
      rw [Bool.and_eq_true]
      exact ⟨decide_eq_true hne, by simp⟩

theorem pushed_eq (dir p : List Char) : pushed dir p = if hasExtension p then [located dir p] else [] := rfl

/-- A cut-off which can be met: it is part of a line, and does not start with a blank or a character which is treated specially. -/
def GoodCutoff (cutoff : List Char) : Prop :=
  (∀ c, cutoff.head? = some c → ¬ isBlank c ∧ c ≠ '\n' ∧ c ≠ '"' ∧ c ≠ '/' ∧ c ≠ '#') ∧ ∀ c ∈ cutoff, c ≠ '\n'

/-- The result is exactly what is named in include directives before the cut-off, in order, apart from names without extension. -/
def Finds (dir cutoff : List Char) (items : List Item) : Prop :=
  getIncludes dir cutoff (text items) = ((names items).filter hasExtension).map (located dir)

theorem from_stream_eq (ds s : List Char) : s = (fromStream ds s).1 ∨ ∃ d ∈ ds, s = (fromStream ds s).1 ++ d :: (fromStream ds s).2 := by
  have h := List.takeWhile_append_dropWhile (p := fun c => !ds.contains c) (l := s)
  cases hd : s.dropWhile (fun c => !ds.contains c) with
  | nil => rw [hd, List.append_nil] at h; exact .inl h.symm
  | cons d t =>
    right
    have := dropWhile_head hd
    refine ⟨d, by simpa using this, ?_⟩
    unfold fromStream
    simp only
    rw [hd, List.drop_succ_cons, List.drop_zero]
    conv => lhs; rw [← h, hd]

theorem from_stream_mem {ds s : List Char} : ∀ c ∈ (fromStream ds s).1, c ∉ ds := by
  intro c hc hm
  have := mem_takeWhile hc
  simp at this
  exact this hm

theorem skip_suffix (s : List Char) : skipBlock s <:+ s := by
  induction s with
  | nil => exact List.suffix_refl _
  | cons c s ih =>
    rw [skipBlock.eq_def]
    simp only
    split
    · split
      · exact (List.suffix_cons _ _).trans (List.suffix_cons _ _)
      · exact ih.trans (List.suffix_cons _ _)
    · exact ih.trans (List.suffix_cons _ _)

theorem ignore_suffix (d : Char) (s : List Char) : ignoreTo d s <:+ s := (List.drop_suffix _ _).trans (List.dropWhile_suffix _)

theorem from_stream_suffix (ds s : List Char) : (fromStream ds s).2 <:+ s := (List.drop_suffix _ _).trans (List.dropWhile_suffix _)

theorem white_iff {c : Char} : isSpace c = true ↔ c ∈ whiteSpace := by
  simp [isSpace, whiteSpace, or_assoc]

/-- What there has to be in a text for a file to be found. -/
def NamedIn (s : List Char) (name : List Char) : Prop :=
  ∃ pre sep gap close post, s = pre ++ '#' :: (includeWord ++ sep :: (gap ++ (if close = '"' then '"' else '<') :: (name ++ post))) ∧ (sep = ' ' ∨ sep = '\n') ∧
    (∀ c ∈ gap, c ∈ whiteSpace) ∧ (close = '"' ∨ close = '>') ∧ close ∉ name ∧ (post = [] ∨ post.head? = some close)

theorem named_suffix {s t name : List Char} (h : t <:+ s) (hn : NamedIn t name) : NamedIn s name := by
  obtain ⟨u, rfl⟩ := h
  obtain ⟨pre, sep, gap, close, post, e, r⟩ := hn
  exact ⟨u ++ pre, sep, gap, close, post, by rw [e, List.append_assoc], r⟩

theorem scan_named {dir cutoff : List Char} (fuel : Nat) : ∀ (s : List Char), ∀ p ∈ scan dir cutoff fuel s, ∃ name, NamedIn s name ∧ hasExtension name = true ∧ p = located dir name := by
  induction fuel with
  | zero => intro s p hp; simp [scan] at hp
  | succ fuel ih =>
    intro s p hp
    have lift : ∀ t, t <:+ s → p ∈ scan dir cutoff fuel t → ∃ name, NamedIn s name ∧ hasExtension name = true ∧ p = located dir name := by
      intro t ht h
      obtain ⟨name, h1, h2⟩ := ih t p h
      exact ⟨name, named_suffix ht h1, h2⟩
    cases s with
    | nil => simp [scan] at hp
    | cons c s =>
      by_cases hc : c = '/'
      · subst hc
        rw [scan_slash] at hp
        split at hp
        · exact lift _ ((ignore_suffix _ _).trans (List.suffix_cons _ _)) hp
        · exact lift _ ((skip_suffix _).trans ((List.suffix_cons _ _).trans (List.suffix_cons _ _))) hp
        · exact lift _ (List.suffix_cons _ _) hp
      · rw [scan_other _ _ hc] at hp
        split at hp
        · rename_i hh
          subst hh
          simp only at hp
          have hs1 := (from_stream_suffix [' ', '\n'] s).trans (List.suffix_cons '#' s)
          split at hp
          · rename_i hw
            split at hp
            · rename_i q rest hq
              unfold included at hq
              have hsp := List.takeWhile_append_dropWhile (p := isSpace) (l := (fromStream [' ', '\n'] s).2)
              cases hd : (fromStream [' ', '\n'] s).2.dropWhile isSpace with
              | nil => rw [hd] at hq; simp at hq
              | cons o t =>
                rw [hd] at hq hsp
                have hot : o :: t <:+ (fromStream [' ', '\n'] s).2 := by rw [← hd]; exact List.dropWhile_suffix _
                have hsep : ∃ sep, (sep = ' ' ∨ sep = '\n') ∧ s = includeWord ++ sep :: ((fromStream [' ', '\n'] s).2.takeWhile isSpace ++ o :: t) := by
                  rcases from_stream_eq [' ', '\n'] s with h | ⟨sep, h1, h2⟩
                  · exfalso
                    have : (fromStream [' ', '\n'] s).2 = [] := by
                      rw [h, fromStream_all]
                      intro c hc
                      simpa using from_stream_mem c hc
                    rw [this] at hd; simp at hd
                  · refine ⟨sep, by simpa using h1, ?_⟩
                    rw [hsp]
                    rw [hw] at h2
                    exact h2
                obtain ⟨sep, hsep, hs⟩ := hsep
                have key : ∀ (close : Char), (close = '"' ∨ close = '>') → o = (if close = '"' then '"' else '<') →
                    q = (fromStream [close] t).1 → rest = (fromStream [close] t).2 → ∃ name, NamedIn ('#' :: s) name ∧ hasExtension name = true ∧ p = located dir name := by
                  intro close hcl ho hq1 hq2
                  rcases List.mem_append.mp hp with h | h
                  · rw [pushed_eq] at h
                    split at h
                    · rename_i hext
                      refine ⟨q, ?_, hext, by simpa using h⟩
                      have hno : close ∉ q := fun hm => from_stream_mem close (hq1 ▸ hm) (by simp)
                      rcases from_stream_eq [close] t with h' | ⟨d, h1, h2⟩
                      · refine ⟨[], sep, (fromStream [' ', '\n'] s).2.takeWhile isSpace, close, [], ?_, hsep, fun c hc => white_iff.1 (mem_takeWhile hc), hcl, hno, .inl rfl⟩
                        rw [List.nil_append, ← ho, List.append_nil, hq1, ← h']
                        rw [← hs]
                      · have hd' : d = close := by simpa using h1
                        refine ⟨[], sep, (fromStream [' ', '\n'] s).2.takeWhile isSpace, close, d :: (fromStream [close] t).2, ?_, hsep, fun c hc => white_iff.1 (mem_takeWhile hc), hcl, hno, .inr (by rw [hd']; rfl)⟩
                        rw [List.nil_append, ← ho, hq1, ← h2]
                        rw [← hs]
                    · simp at h
                  · refine lift rest ?_ h
                    rw [hq2]
                    exact (from_stream_suffix _ _).trans ((List.suffix_cons _ _).trans (hot.trans hs1))
                simp only at hq
                split at hq
                · rename_i ho
                  obtain ⟨h1, h2⟩ := Prod.mk.inj hq
                  exact key '"' (.inl rfl) ho (Option.some.inj h1).symm h2.symm
                · split at hq
                  · rename_i ho
                    obtain ⟨h1, h2⟩ := Prod.mk.inj hq
                    exact key '>' (.inr rfl) ho (Option.some.inj h1).symm h2.symm
                  · obtain ⟨h1, h2⟩ := Prod.mk.inj hq
                    rw [← Option.some.inj h1] at hp
                    rw [show pushed dir [] = [] from rfl, List.nil_append] at hp
                    refine lift rest ?_ hp
                    rw [← h2]
                    exact (List.suffix_cons _ _).trans (hot.trans hs1)
            · rename_i rest hq
              unfold included at hq
              split at hq
              · obtain ⟨h1, h2⟩ := Prod.mk.inj hq
                rw [← h2] at hp
                exact lift [] (List.nil_suffix) hp
              · split at hq
                · simp at hq
                · split at hq <;> simp at hq
          · exact lift _ hs1 hp
        · split at hp
          · simp only at hp
            split at hp
            · simp at hp
            · exact lift _ (from_stream_suffix _ _) hp
          · exact lift _ (List.suffix_cons _ _) hp

end Includes

open Includes

/-- C56 for files which are tame (see Spec/Includes.lean): exactly the files named in include directives before the cut-off are found, in order, whatever the comments and
other code; names without extension are left out, and names without '/' are taken relative to the directory of the file. -/
theorem C56_finds_partial (dir cutoff : List Char) (hc : GoodCutoff cutoff) (items : List Item) (hw : WellFormed cutoff true items) (ht : Tame cutoff false items) :
    Finds dir cutoff items := by
  have h := (scan_items (dir := dir) hc.1 hc.2 items true hw).1 ht _ (Nat.le_refl _)
  unfold Finds getIncludes
  rw [h, expected]
  generalize names items = l
  induction l with
  | nil => rfl
  | cons n l ih =>
    rw [List.flatMap_cons, ih, pushed_eq, List.filter_cons]
    split <;> simp

/-- C56, the converse for all files: whatever is found has been named after `#include` somewhere in the file, and its name has an extension. -/
theorem C56_only_named (dir cutoff content p : List Char) (h : p ∈ getIncludes dir cutoff content) :
    ∃ name, NamedIn content name ∧ HasExtension name ∧ p = located dir name := by
  obtain ⟨name, h1, h2, h3⟩ := scan_named _ _ p h
  exact ⟨name, h1, (extension_iff name).mp h2, h3⟩

/-- Between `#include`, followed by a space or the end of the line, and the name there may be any white space. -/
theorem C56_white_space (dir cutoff gap name : List Char) (sep : Char) (angled : Bool) (hsep : sep = ' ' ∨ sep = '\n') (hgap : ∀ c ∈ gap, c ∈ whiteSpace)
    (hname : (if angled then '>' else '"') ∉ name) (hext : HasExtension name) :
    getIncludes dir cutoff ('#' :: (includeWord ++ sep :: (gap ++ (if angled then '<' else '"') :: (name ++ [if angled then '>' else '"'])))) = [located dir name] := by
  have hstream : ∀ (d : Char) (u t : List Char), d ∉ u → fromStream [d] (u ++ [d] ++ t) = (u, t) := by
    intro d u t hd
    have hp : ∀ x ∈ u, (!([d] : List Char).contains x) = true := by
      intro x hx
      simp
      rintro rfl; exact hd hx
    unfold fromStream
    rw [List.append_assoc, List.takeWhile_append_of_pos hp, List.dropWhile_append_of_pos hp]
    simp
  have hdrop : ∀ (o : Char) (u : List Char), isSpace o = false → (gap ++ o :: u).dropWhile isSpace = o :: u := by
    intro o u ho
    rw [List.dropWhile_append_of_pos fun x hx => white_iff.2 (hgap x hx), List.dropWhile_cons]
    simp [ho]
  have hinc : included (gap ++ (if angled then '<' else '"') :: (name ++ [if angled then '>' else '"'])) = (some name, []) := by
    unfold included
    cases angled with
    | false =>
      have := hstream '"' name [] hname
      simp only [List.append_nil] at this
      simp only [Bool.false_eq_true, if_false]
      rw [hdrop _ _ (by decide)]
      simp only [if_true]
      rw [this]
    | true =>
      have := hstream '>' name [] hname
      simp only [List.append_nil] at this
      simp only [if_true]
      rw [hdrop _ _ (by decide)]
      simp only [if_true, show ¬ ('<' = '"') by decide, if_false]
      rw [this]
  have hword : ∀ u, fromStream [' ', '\n'] (includeWord ++ sep :: u) = (includeWord, u) := by
    intro u
    rcases hsep with rfl | rfl <;> simp [fromStream, includeWord]
  unfold getIncludes
  simp only [List.length_cons, scan, show ¬ ('#' = '/') by decide, if_false, if_true, hword]
  simp only [includeWord, if_true, hinc]
  have hnil : ∀ n, scan dir cutoff n [] = [] := by intro n; cases n <;> rfl
  rw [hnil, pushed_eq, if_pos ((extension_iff name).2 hext)]
  rfl

example : getIncludes [] [] "#include \t\r\n \"a.h\"".toList = ["a.h".toList] := by decide +kernel

/-- The meaning of the names which are kept. -/
theorem C56_extension (p : List Char) : hasExtension p = true ↔ HasExtension p := extension_iff p

/-- C56 does not hold in general: no space is needed before the name of the file, but without it the file is not found. -/
theorem C56_no_space_violated : ∃ items, WellFormed [] true items ∧ ¬ Finds [] [] items :=
  ⟨[.inclusion [] [] true ['a', '.', 'h'], .newline], by decide +kernel, by unfold Finds; decide +kernel⟩

/-- Nor is it found if there is a tab. -/
theorem C56_tab_violated : ∃ items, WellFormed [] true items ∧ ¬ Finds [] [] items :=
  ⟨[.inclusion [] ['\t'] false ['a', '.', 'h'], .newline], by decide +kernel, by unfold Finds; decide +kernel⟩

/-- Nor if there is a space after `#`. -/
theorem C56_space_after_hash_violated : ∃ items, WellFormed [] true items ∧ ¬ Finds [] [] items :=
  ⟨[.inclusion [' '] [' '] false ['a', '.', 'h'], .newline], by decide +kernel, by unfold Finds; decide +kernel⟩

/-- A comment is not recognized if it follows the name of a directive immediately; then an include in the comment counts. -/
theorem C56_comment_violated : ∃ items, WellFormed [] true items ∧ ¬ Finds [] [] items :=
  ⟨[.directive [] ['e', 'n', 'd', 'i', 'f'], .blockComment ("\n#include \"a.h\"\n".toList), .newline], by
    decide +kernel, by unfold Finds; decide +kernel⟩

/-- Nor is one recognized if the first character of the cut-off precedes it on the line, wherever that may be. -/
theorem C56_cutoff_violated : ∃ items, GoodCutoff "namespace".toList ∧ WellFormed "namespace".toList true items ∧ ¬ Finds [] "namespace".toList items :=
  ⟨[.code 'i', .code 'n', .code 't', .blockComment ("\n#include \"a.h\"\n".toList), .newline], by
    refine ⟨?_, by decide +kernel⟩
    intro c hc
    have : c = 'n' := by simpa using hc.symm
    subst this
    decide, by decide +kernel, by
    unfold Finds; decide +kernel⟩

/-- The hypotheses are met: a file with all kinds of items, and what is found in it. -/
def someFile : List Item :=
  [.lineComment " #include <x.h>".toList, .newline, .blockComment "\n#include <y.h> **".toList, .blank ' ', .inclusion [] [' ', '\t'] false "a/b.hpp".toList, .newline,
   .inclusion [] [' '] true "vector".toList, .code '/', .newline, .directive [] "pragma".toList, .blank ' ', .code 'o', .code 'n', .code 'e', .newline,
   .inclusion [] [' '] false "c.h".toList, .newline, .rest "namespace x\n#include \"z.h\"".toList]

example : WellFormed "namespace".toList true someFile ∧ Tame "namespace".toList false someFile := by decide +kernel

example : getIncludes "src".toList "namespace".toList (text someFile) = ["a/b.hpp".toList, "src/c.h".toList] := by decide +kernel

end Verif.Props
