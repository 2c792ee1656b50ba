import Verif.Spec.ProjectCreatorText
import Verif.Lemmas.Text
import Verif.Lemmas.TextForms
import Verif.Lemmas.FileEditors
import Verif.Lemmas.AddToSuite

set_option linter.unusedVariables false
set_option linter.unusedSimpArgs false

/-
Lemmas on the texts of new projects.
-/
namespace Verif.ProjectCreator
open Verif.Text Verif.FileEditors Verif.Spec.Text Verif.Spec.ProjectCreator

theorem first_of_clear {p a b : Str} {c : Char} (hc : c ∉ p) (hp : p ≠ []) (h : ¬ p <:+: a ++ [c]) : First p (a ++ [c]) b := by
  intro a' b' he
  apply Classical.byContradiction
  intro hlt
  rw [List.append_assoc, List.append_assoc] at he
  rcases List.append_eq_append_iff.1 he with ⟨z, h1, h2⟩ | ⟨z, h1, h2⟩
  · -- the occurrence begins in `a`
    have hz : z ≠ [] := by
      rintro rfl
      rw [h1] at hlt
      simp at hlt
    rcases List.append_eq_append_iff.1 h2 with ⟨w, h3, h4⟩ | ⟨w, h3, h4⟩
    · exact h ⟨a', w, by rw [h1, h3]; simp⟩
    · obtain ⟨z', d, rfl⟩ : ∃ z' d, z = z' ++ [d] := ⟨z.dropLast, z.getLast hz, (List.dropLast_append_getLast hz).symm⟩
      rw [← List.append_assoc] at h1
      have := List.append_inj' h1 rfl
      have hd : c = d := by simpa using this.2
      exact hc (by rw [h3, hd]; simp)
  · rw [h1] at hlt
    simp at hlt

theorem replaceAll_eq {p new s r : Str} {f : Nat} (hp : p ≠ []) (hf : s.length < f) (h : Replaced p new s r) : replaceAll f s p new = some r := by
  obtain ⟨r', hr'⟩ := replaceAllFrom_total (p := p) («to» := new) hp f s [] hf
  obtain ⟨u, h1, h2⟩ := replaceAllFrom_spec (d := []) hr'
  rw [List.nil_append] at h1
  subst h1
  have := replaced_functional h h2
  subst this
  exact hr'

/-- The blanks of one kind are filled. -/
theorem replaced_form (p new : Str) (hp : p ≠ []) (b : Blank) (other : Str) (ho : ¬ p <:+: other) (l : List (Blank × Str)) (hl : ∀ e ∈ l, (∃ c ∈ e.2.head?, c ∉ p) ∧ (∃ c ∈ e.2.getLast?, c ∉ p) ∧ ¬ p <:+: e.2)
    (a : Str) (ha : ∃ c ∈ a.getLast?, c ∉ p) (hn : ¬ p <:+: a) :
    Replaced p new (a ++ l.flatMap fun e => (if e.1 = b then p else other) ++ e.2) (a ++ l.flatMap fun e => (if e.1 = b then new else other) ++ e.2) := by
  induction l generalizing a with
  | nil => simpa using .none hn
  | cons e l ih =>
    obtain ⟨⟨h, hh1, hh2⟩, ⟨t, ht1, ht2⟩, hne⟩ := hl e (by simp)
    obtain ⟨c, hc1, hc2⟩ := ha
    obtain ⟨a, rfl⟩ : ∃ a', a = a' ++ [c] := by
      have : a ≠ [] := by rintro rfl; simp at hc1
      refine ⟨a.dropLast, ?_⟩
      rw [List.getLast?_eq_some_getLast this] at hc1
      have : a.getLast this = c := by simpa using hc1
      rw [← this, List.dropLast_append_getLast]
    rw [List.flatMap_cons, List.flatMap_cons]
    by_cases hb : e.1 = b
    · rw [if_pos hb, if_pos hb]
      have := ih (fun e he => hl e (List.mem_cons_of_mem _ he)) e.2 ⟨t, ht1, ht2⟩ hne
      have := Replaced.step (first_of_clear hc2 hp hn) this
      simpa using this
    · rw [if_neg hb, if_neg hb]
      have := ih (fun e he => hl e (List.mem_cons_of_mem _ he)) (a ++ [c] ++ other ++ e.2) ⟨t, by
        have : e.2 ≠ [] := by rintro h; rw [h] at ht1; simp at ht1
        rw [List.getLast?_append_of_ne_nil _ this]; exact ht1, ht2⟩ (by
        intro hi
        obtain ⟨h', s, hs⟩ : ∃ h' s, e.2 = h' :: s := by
          cases he : e.2 with
          | nil => rw [he] at hh1; simp at hh1
          | cons x y => exact ⟨x, y, rfl⟩
        have hh : h' = h := by rw [hs] at hh1; simpa using hh1
        subst hh
        rw [hs] at hi
        rcases infix_split hh2 hi with hi | hi
        · rw [List.append_assoc] at hi
          rcases infix_split hc2 (by simpa using hi) with hi | hi
          · exact hn (hi.trans (List.prefix_append _ _).isInfix)
          · exact ho hi
        · exact hne (hi.trans (by rw [hs]; exact (List.suffix_cons _ _).isInfix)))
      simpa using this

theorem no_spaces {name : Str} (h : ' ' ∉ name) : replaceAll (name.length + 1) name [' '] ['_'] = some name :=
  replaceAll_eq (by simp) (by omega) (.none fun ⟨a, b, e⟩ => h (by rw [← e]; simp))

/-- `set_proj_name` for a form. -/
theorem setProjName_form {name : Str} (hs : ' ' ∉ name) (hn : ¬ littleMark <:+: name) {f : Form} (hf : f.Clean) :
    setProjName name (f.filled bigMark littleMark) = some (f.filled name (uncapitalize name)) := by
  have h1 : Replaced bigMark name (f.filled bigMark littleMark) (f.filled name littleMark) := by
    have := replaced_form bigMark name (by decide) .capital littleMark (by decide +kernel) f.rest
      (fun e he => by
        obtain ⟨⟨c, k1, k2⟩, ⟨c', k3, k4⟩, k5, k6⟩ := hf.2 e he
        exact ⟨⟨c, k1, k2.1⟩, ⟨c', k3, k4.1⟩, k5⟩) f.start
      (by
        obtain ⟨⟨c', k3, k4⟩, -⟩ := hf.1
        exact ⟨c', k3, k4.1⟩) hf.1.2.1
    have e : ∀ x : Str, f.filled x littleMark = f.start ++ f.rest.flatMap fun e => (if e.1 = .capital then x else littleMark) ++ e.2 := by
      intro x
      unfold Form.filled
      congr 2
      funext e
      cases e.1 <;> rfl
    rw [e, e]
    exact this
  have h2 : Replaced littleMark (uncapitalize name) (f.filled name littleMark) (f.filled name (uncapitalize name)) := by
    have := replaced_form littleMark (uncapitalize name) (by decide) .small name hn f.rest
      (fun e he => by
        obtain ⟨⟨c, k1, k2⟩, ⟨c', k3, k4⟩, k5, k6⟩ := hf.2 e he
        exact ⟨⟨c, k1, k2.2⟩, ⟨c', k3, k4.2⟩, k6⟩) f.start
      (by
        obtain ⟨⟨c', k3, k4⟩, -⟩ := hf.1
        exact ⟨c', k3, k4.2⟩) hf.1.2.2
    have e : ∀ x : Str, f.filled name x = f.start ++ f.rest.flatMap fun e => (if e.1 = .small then x else name) ++ e.2 := by
      intro x
      unfold Form.filled
      congr 2
      funext e
      cases e.1 <;> rfl
    rw [e, e]
    exact this
  unfold setProjName
  rw [no_spaces hs, Option.bind_some]
  rw [show "MyProject".toList = bigMark from rfl, show "myProject".toList = littleMark from rfl]
  rw [replaceAll_eq (by decide) (by omega) h1, Option.bind_some]
  exact replaceAll_eq (by decide) (by omega) h2

/-- In general. -/
theorem setProjName_spec {name : Str} (hs : ' ' ∉ name) (text : Str) :
    ∃ mid res, setProjName name text = some res ∧ Replaced bigMark name text mid ∧ Replaced littleMark (uncapitalize name) mid res := by
  obtain ⟨mid, hm⟩ := replaceAllFrom_total (p := bigMark) («to» := name) (by decide) (text.length + 1) text [] (by omega)
  obtain ⟨u, h1, h2⟩ := replaceAllFrom_spec (d := []) hm
  rw [List.nil_append] at h1
  subst h1
  obtain ⟨res, hr⟩ := replaceAllFrom_total (p := littleMark) («to» := uncapitalize name) (by decide) (mid.length + 1) mid [] (by omega)
  obtain ⟨v, k1, k2⟩ := replaceAllFrom_spec (d := []) hr
  rw [List.nil_append] at k1
  subst k1
  refine ⟨mid, res, ?_, h2, k2⟩
  unfold setProjName
  rw [no_spaces hs, Option.bind_some]
  rw [show "MyProject".toList = bigMark from rfl, show "myProject".toList = littleMark from rfl]
  rw [replaceAll_eq (by decide) (by omega) h2, Option.bind_some]
  exact replaceAll_eq (by decide) (by omega) k2

end Verif.ProjectCreator
