import Verif.Model.ProjectPaths
import Verif.Spec.ProjectPaths
set_option linter.unusedSimpArgs false
set_option linter.unusedVariables false
/-
Lemmas about the paths of a project.
-/
namespace Verif.ProjectPaths
open Verif.PathEquivalence Verif.Spec.ProjectPaths

theorem splitAtBuild_eq {root rest : Path} (h : "build" ∉ root) : splitAtBuild (root ++ "build" :: rest) = (root, "build" :: rest) := by
  induction root with
  | nil => simp [splitAtBuild]
  | cons x l ih =>
    simp only [List.mem_cons, not_or] at h
    simp only [List.cons_append, splitAtBuild, ih h.2]
    rw [if_neg]
    simpa using fun e => h.1 e.symm

theorem splitAtBuild_append (p : Path) : (splitAtBuild p).1 ++ (splitAtBuild p).2 = p := by
  induction p with
  | nil => rfl
  | cons x l ih =>
    simp only [splitAtBuild]
    split
    · rfl
    · simp [ih]

theorem splitAtBuild_fst (p : Path) : "build" ∉ (splitAtBuild p).1 := by
  induction p with
  | nil => simp [splitAtBuild]
  | cons x l ih =>
    simp only [splitAtBuild]
    split
    · simp
    · rename_i h
      simp only [List.mem_cons, not_or]
      exact ⟨fun e => h (by simp [e]), ih⟩

theorem splitAtBuild_snd (p : Path) : (splitAtBuild p).2 = [] ∨ ∃ l, (splitAtBuild p).2 = "build" :: l := by
  induction p with
  | nil => simp [splitAtBuild]
  | cons x l ih =>
    simp only [splitAtBuild]
    split
    · rename_i h
      exact Or.inr ⟨l, by simpa using h⟩
    · exact ih

theorem parent_concat {d : Path} (h : d ≠ []) (n : String) : parent (d ++ [n]) = d := by
  unfold parent
  rw [if_neg]
  · simp
  · cases d with
    | nil => simp at h
    | cons => simp

theorem mismatch_append (d r : Path) : mismatch (d ++ r) d = (r, []) := by
  induction d with
  | nil => cases r <;> simp [mismatch]
  | cons x l ih => simp [mismatch, ih]

theorem relative_append (d r : Path) : relative (d ++ r) d = if r = [] then ["."] else r := by
  unfold relative
  rw [mismatch_append]
  cases r <;> simp

/-- Names are determined by what comes before the last dot, and what comes after. -/
theorem dot_inj {a b s t : List Char} (hs : '.' ∉ s) (ht : '.' ∉ t) (h : a ++ '.' :: s = b ++ '.' :: t) : a = b ∧ s = t := by
  induction a generalizing b with
  | nil =>
    cases b with
    | nil => simpa using h
    | cons x b =>
      simp only [List.nil_append, List.cons_append, List.cons.injEq] at h
      exact absurd (h.2 ▸ List.mem_append.mpr (Or.inr List.mem_cons_self)) hs
  | cons x a ih =>
    cases b with
    | nil =>
      simp only [List.nil_append, List.cons_append, List.cons.injEq] at h
      exact absurd (h.2.symm ▸ List.mem_append.mpr (Or.inr List.mem_cons_self)) ht
    | cons y b =>
      simp only [List.cons_append, List.cons.injEq] at h
      obtain ⟨h1, h2⟩ := ih h.2
      exact ⟨by rw [h.1, h1], h2⟩

theorem toString_getLast (n : Nat) : ∃ l c, (toString n).toList = l ++ [c] ∧ c.isDigit = true := by
  have h : (toString n).toList = Nat.toDigits 10 n := by
    simp [toString, Nat.repr]
  have h0 : (Nat.toDigits 10 n) ≠ [] := by
    intro e
    have := Nat.length_toDigits_pos (b := 10) (n := n)
    rw [e] at this
    simp at this
  refine ⟨(Nat.toDigits 10 n).dropLast, (Nat.toDigits 10 n).getLast h0, ?_, ?_⟩
  · rw [h, List.dropLast_concat_getLast]
  · exact Nat.isDigit_of_mem_toDigits (by omega) (by omega) (List.getLast_mem h0)

theorem file_append (p q : Path) : file (p ++ q) = file p ++ file q := by simp [file]

theorem file_of_not_mem {p : Path} (h : "." ∉ p) : file p = p := by
  unfold file
  rw [List.filter_eq_self]
  intro x hx
  simp only [decide_eq_true_eq, ne_eq]
  rintro rfl
  exact h hx

theorem getCacheIn_ok {sys : System} {dir c : Path} (h : getCacheIn sys dir = .ok (some c)) :
    c = dir ++ ["CMakeCache.txt"] ∧ ∃ es, sys.entries dir = some es ∧ "CMakeCache.txt" ∈ es := by
  unfold getCacheIn at h
  cases he : sys.entries dir with
  | none => simp [he] at h
  | some es =>
    rw [he] at h
    simp only [Res.ok.injEq] at h
    split at h
    · rename_i hm
      exact ⟨by simpa using h.symm, es, rfl, by simpa using hm⟩
    · simp at h

theorem getCache_ok {sys : System} {dir c : Path} (h : getCache sys dir = .ok c) :
    ∃ d, (d = dir ∨ d = parent dir) ∧ c = d ++ ["CMakeCache.txt"] ∧ ∃ es, sys.entries d = some es ∧ "CMakeCache.txt" ∈ es := by
  unfold getCache at h
  cases h1 : getCacheIn sys dir with
  | throws => simp [h1, Res.bind] at h
  | ub => simp [h1, Res.bind] at h
  | ok o =>
    cases o with
    | some c' =>
      simp only [h1, Res.bind, Res.ok.injEq] at h
      subst h
      exact ⟨dir, Or.inl rfl, getCacheIn_ok h1⟩
    | none =>
      cases h2 : getCacheIn sys (parent dir) with
      | throws => simp [h1, h2, Res.bind] at h
      | ub => simp [h1, h2, Res.bind] at h
      | ok o =>
        cases o with
        | none => simp [h1, h2, Res.bind] at h
        | some c' =>
          simp only [h1, h2, Res.bind, Res.ok.injEq] at h
          subst h
          exact ⟨parent dir, Or.inr rfl, getCacheIn_ok h2⟩

end Verif.ProjectPaths
