import Verif.Model.FileEditors
import Verif.Spec.FileEditors
import Verif.Lemmas.TextForms

/-
Lemmas about searching backwards and adding includes.
-/
set_option linter.unusedSimpArgs false
set_option linter.unusedVariables false

namespace Verif.FileEditors
open Text Verif.Spec.Text Verif.Spec.FileEditors

/-! ### Searching -/

/-- There is no later occurrence. -/
def Last (p a b : Str) : Prop := ∀ a' b', a' ++ p ++ b' = a ++ p ++ b → a'.length ≤ a.length

theorem rsearch_none {p : Str} : ∀ {s : Str}, rsearch p s = none ↔ ¬ p <:+: s
  | [] => by cases p <;> simp [rsearch, List.isPrefixOf]
  | c :: t => by
    have ih := rsearch_none (p := p) (s := t)
    rw [rsearch]
    cases h : rsearch p t with
    | some i =>
      have : p <:+: t := by
        have := mt ih.2 (by rw [h]; simp)
        exact Classical.not_not.1 this
      simp only [reduceCtorEq, false_iff, Classical.not_not]
      exact this.trans (List.suffix_cons c t).isInfix
    | none =>
      have hn := ih.1 h
      by_cases hp : p.isPrefixOf (c :: t)
      · have : p <+: c :: t := by simpa [List.isPrefixOf_iff_prefix] using hp
        simp [hp, this.isInfix]
      · have h' : ¬ p <+: c :: t := by simpa [List.isPrefixOf_iff_prefix] using hp
        simp [hp, List.infix_cons_iff, h', hn]

theorem rsearch_some {p : Str} : ∀ {s : Str} {i : Nat}, rsearch p s = some i → ∃ a b, s = a ++ p ++ b ∧ a.length = i ∧ Last p a b
  | [], i, h => by
    cases p with
    | nil =>
      simp [rsearch] at h
      refine ⟨[], [], by simp, by simp [h], ?_⟩
      intro a' b' he
      simp at he
      simp [he]
    | cons x p => simp [rsearch, List.isPrefixOf] at h
  | c :: t, i, h => by
    rw [rsearch] at h
    cases ht : rsearch p t with
    | some j =>
      rw [ht] at h
      simp only [Option.some.injEq] at h
      obtain ⟨a, b, hs, ha, hf⟩ := rsearch_some ht
      refine ⟨c :: a, b, by simp [hs], by simp [ha, h], ?_⟩
      intro a' b' he
      cases a' with
      | nil => simp
      | cons x a' =>
        simp only [List.cons_append, List.cons.injEq] at he
        simpa using hf a' b' he.2
    | none =>
      rw [ht] at h
      by_cases hp : p.isPrefixOf (c :: t)
      · simp only [hp, if_true, Option.some.injEq] at h
        have : p <+: c :: t := by simpa [List.isPrefixOf_iff_prefix] using hp
        obtain ⟨b, hb⟩ := this
        refine ⟨[], b, by simp [hb], by simp [h], ?_⟩
        intro a' b' he
        cases a' with
        | nil => simp
        | cons x a' =>
          exfalso
          have hn := rsearch_none.1 ht
          simp only [List.nil_append, hb, List.cons_append, List.cons.injEq] at he
          exact hn ⟨a', b', he.2⟩
      · simp [hp] at h

theorem rsearch_eq {p a b : Str} (h : Last p a b) : rsearch p (a ++ p ++ b) = some a.length := by
  cases hr : rsearch p (a ++ p ++ b) with
  | none => exact absurd ⟨a, b, rfl⟩ (rsearch_none.1 hr)
  | some i =>
    obtain ⟨a', b', he, ha, hl⟩ := rsearch_some hr
    have h1 := h a' b' he.symm
    have h2 := hl a b he
    rw [← ha]
    congr 1
    omega

/-- An occurrence does not include a character which is not in the pattern. -/
theorem infix_split {p x y : Str} {c : Char} (hc : c ∉ p) (h : p <:+: x ++ c :: y) : p <:+: x ∨ p <:+: y := by
  obtain ⟨u, v, he⟩ := h
  rw [List.append_assoc] at he
  rcases List.append_eq_append_iff.1 he with ⟨z, h1, h2⟩ | ⟨z, h1, h2⟩
  · rcases List.append_eq_append_iff.1 h2 with ⟨w, h3, h4⟩ | ⟨w, h3, h4⟩
    · exact .inl ⟨u, w, by rw [h1, h3]; simp⟩
    · cases w with
      | nil => exact .inl ⟨u, [], by rw [h1]; simp [h3]⟩
      | cons d w =>
        simp at h4
        exact absurd (by rw [h3]; simp [h4.1]) hc
  · cases z with
    | nil =>
      simp at h2
      cases p with
      | nil => exact .inl List.nil_infix
      | cons d p => simp at h2; exact absurd (by simp [h2.1]) hc
    | cons d z =>
      simp at h2
      exact .inr ⟨z, v, by rw [h2.2]; simp⟩

/-- A pattern within two lines is within one of them. -/
theorem infix_lines {p : Str} (hc : '\n' ∉ p) (hp : p ≠ []) : ∀ {ls : List Str} {s : Str}, p <:+: ls.flatMap (· ++ ['\n']) ++ s → (∃ l ∈ ls, p <:+: l) ∨ p <:+: s
  | [], s, h => .inr (by simpa using h)
  | l :: ls, s, h => by
    simp only [List.flatMap_cons, List.append_assoc, List.cons_append, List.nil_append] at h
    rcases infix_split hc h with h | h
    · exact .inl ⟨l, by simp, h⟩
    · rcases infix_lines hc hp h with ⟨m, hm, h⟩ | h
      · exact .inl ⟨m, by simp [hm], h⟩
      · exact .inr h

/-- The first occurrence starts a line, possibly after other characters. -/
theorem first_of {p a x b : Str} {c : Char} {p' : Str} (hp : p = c :: p') (hn : '\n' ∉ p) (ha : ¬ p <:+: a) (hx : c ∉ x) (hend : a = [] ∨ ∃ a', a = a' ++ ['\n']) : First p (a ++ x) b := by
  intro u v he
  apply Classical.byContradiction
  intro hlt
  simp only [Nat.not_le, List.length_append] at hlt
  have hpu : u ++ p <+: a ++ x ++ (p ++ b) := ⟨v, by rw [he]; simp⟩
  by_cases h1 : a.length ≤ u.length
  · have h2 : (a ++ x ++ (p ++ b))[u.length]? = some c := by
      rw [← List.append_assoc, ← he, List.append_assoc, List.getElem?_append_right (Nat.le_refl _), hp]
      simp
    rw [List.getElem?_append_left (by simp; omega), List.getElem?_append_right h1] at h2
    exact hx (List.mem_of_getElem? h2)
  · rcases hend with rfl | ⟨a', rfl⟩
    · simp at h1
    · by_cases h2 : u.length + p.length ≤ (a' ++ ['\n']).length
      · have h3 : u ++ p <+: a' ++ ['\n'] := by
          refine List.prefix_of_prefix_length_le hpu ?_ (by simpa using h2)
          exact ⟨x ++ (p ++ b), by simp⟩
        obtain ⟨r, hr⟩ := h3
        exact ha ⟨u, r, hr⟩
      · simp at h1 h2
        have h3 : (a' ++ ['\n'] ++ x ++ (p ++ b))[a'.length]? = some '\n' := by simp
        rw [← List.append_assoc, ← he, List.append_assoc, List.getElem?_append_right (by omega), List.getElem?_append_left (by omega)] at h3
        exact hn (List.mem_of_getElem? h3)

theorem find_at {d a p b : Str} (h : First p a b) : find (d ++ (a ++ p ++ b)) p d.length = some (d.length + a.length) := by
  rw [find_some]
  exact ⟨d ++ a, b, by simp, by simp, by omega, by simpa using h⟩

theorem find_newline {d l r : Str} (hl : '\n' ∉ l) : find (d ++ (l ++ '\n' :: r)) ['\n'] d.length = some (d.length + l.length) := by
  rw [find_char]
  exact ⟨d ++ l, r, by simp, by simp, by omega, by simpa using hl⟩

theorem search_first {p a b : Str} (h : search p (a ++ p ++ b) = some a.length) : First p a b := by
  obtain ⟨a', b', h1, h2, h3⟩ := search_some h
  obtain ⟨rfl, h4⟩ := List.append_inj (h1.trans (List.append_assoc _ _ _) |> (List.append_assoc _ _ _).symm.trans) h2.symm
  rw [List.append_cancel_left h4]
  exact h3

end Verif.FileEditors
