import Verif.Model.PathEquivalence
import Verif.Spec.PathEquivalence
/-
C71: selection of tests by path.
-/
namespace Verif.Props
open Verif.PathEquivalence Verif.Spec.PathEquivalence

namespace PathEquivalence

theorem rfind_none {x : String} : ∀ {l : List String}, x ∉ l → rfind x l = []
  | [], _ => rfl
  | a :: l, h => by
    have h1 : rfind x l = [] := rfind_none fun e => h (List.mem_cons_of_mem _ e)
    have h2 : a ≠ x := fun e => h (by rw [e]; exact List.mem_cons_self)
    simp [rfind, h1, h2]

theorem rfind_append {x : String} {t : List String} (h : x ∉ t) : ∀ l : List String, rfind x (l ++ x :: t) = x :: t
  | [] => by simp [rfind, rfind_none h]
  | a :: l => by
    rw [List.cons_append, rfind, rfind_append h l]
    simp

theorem mismatch_append : ∀ t r : List String, mismatch (t ++ r) t = (r, [])
  | [], r => by cases r <;> rfl
  | a :: t, r => by simp [mismatch, mismatch_append t r]

theorem dropWhile_ups (k : Nat) {x : String} (h : x ≠ "..") (l : List String) : (List.replicate k ".." ++ x :: l).dropWhile (· == "..") = x :: l := by
  induction k with
  | zero => simp [h]
  | succ k ih => rw [List.replicate_succ, List.cons_append, List.dropWhile_cons]; simpa using ih

theorem relative_append {dir r : List String} (hr : r ≠ []) : relative (dir ++ r) dir = r := by
  unfold relative
  rw [mismatch_append]
  cases r with
  | nil => exact absurd rfl hr
  | cons a r => rfl

theorem isAbsolute_append {dir r : List String} (hd : Absolute dir) : isAbsolute (dir ++ r) = true := by
  obtain ⟨l, rfl, _⟩ := hd
  simp [isAbsolute]

theorem isAbsolute_ups {k : Nat} {x : String} {l : List String} (h : x ≠ "/") : isAbsolute (List.replicate k ".." ++ x :: l) = false := by
  cases k with
  | zero => simp [isAbsolute, h]
  | succ k => simp [isAbsolute, List.replicate_succ]

/-- A clear path is rebased to what is meant. -/
theorem rebaseFrom_clear {dir p r : List String} (hd : Absolute dir) (hr : Relative r) (h : Clear dir p r) : rebaseFrom p dir = .ok r := by
  have hd0 : dir ≠ [] := by obtain ⟨l, rfl, _⟩ := hd; simp
  unfold rebaseFrom
  cases h with
  | absolute =>
    rw [if_neg (by simp [hd0]), if_neg (by simpa using hd0), if_pos]
    · rw [relative_append hr.1]
    · have := isAbsolute_append (r := []) hd
      rw [List.append_nil] at this
      rw [isAbsolute_append hd, this]
      rfl
  | overlap k x t _ hs hx ht =>
    have hx1 : x ≠ "/" := fun e => ht.2.1 (by rw [e]; exact List.mem_cons_self)
    have hx2 : x ≠ ".." := fun e => ht.2.2.1 (by rw [e]; exact List.mem_cons_self)
    have hx3 : x ≠ "" := fun e => ht.2.2.2 (by rw [e]; exact List.mem_cons_self)
    rw [List.append_assoc, List.cons_append]
    rw [if_neg (by simp), if_neg (by simpa using hd0), if_neg (by rw [isAbsolute_ups hx1]; simp), dropWhile_ups k hx2]
    simp only [beq_iff_eq, if_neg hx3]
    obtain ⟨d, rfl⟩ := hs
    rw [rfind_append hx, ← List.cons_append, mismatch_append]
  | within k x t hx =>
    have hx1 : x ≠ "/" := fun e => hr.2.1 (by rw [e]; exact List.mem_cons_self)
    have hx2 : x ≠ ".." := fun e => hr.2.2.1 (by rw [e]; exact List.mem_cons_self)
    have hx3 : x ≠ "" := fun e => hr.2.2.2 (by rw [e]; exact List.mem_cons_self)
    rw [if_neg (by simp), if_neg (by simpa using hd0), if_neg (by rw [isAbsolute_ups hx1]; simp), dropWhile_ups k hx2]
    simp only [beq_iff_eq, if_neg hx3]
    rw [rfind_none hx]
    rfl

theorem clear_ne {dir p r : List String} (hr : Relative r) (h : Clear dir p r) : p ≠ [] := by
  cases h with
  | absolute => simp [hr.1]
  | overlap => simp
  | within => simp

theorem clear_suffix {dir p r : List String} (h : Clear dir p r) : r <:+ p := by
  cases h with
  | absolute => exact List.suffix_append _ _
  | overlap => exact List.suffix_append _ _
  | within => exact List.suffix_append _ _

theorem getLast?_suffix {p r : List String} (hr : r ≠ []) (h : r <:+ p) : p.getLast? = r.getLast? := by
  obtain ⟨t, rfl⟩ := h
  rw [List.getLast?_append]
  cases e : r.getLast? with
  | none => exact absurd (List.getLast?_eq_none_iff.1 e) hr
  | some a => rfl

theorem clear_denotes {dir p r : List String} (hr : Relative r) (h : Clear dir p r) : Denotes p (dir ++ r) := by
  cases h with
  | absolute => exact Or.inl rfl
  | overlap k x t _ hs hx ht =>
    refine Or.inr ⟨(x :: t) ++ r, ⟨k, by simp⟩, ⟨by simp, ?_, ?_, ?_⟩, ?_⟩
    · rw [List.mem_append]; exact fun e => e.elim ht.2.1 hr.2.1
    · rw [List.mem_append]; exact fun e => e.elim ht.2.2.1 hr.2.2.1
    · rw [List.mem_append]; exact fun e => e.elim ht.2.2.2 hr.2.2.2
    · obtain ⟨d, rfl⟩ := hs
      exact ⟨d, by simp⟩
  | within k x t hx => exact Or.inr ⟨x :: t, ⟨k, rfl⟩, hr, List.suffix_append _ _⟩

/-- What is found in the tree ends with what has been looked for. -/
theorem findInTree_spec {root : List String} {entries : List (List String)} {p : List String} (h : findInTree root entries p ≠ []) :
    ∃ e ∈ entries, findInTree root entries p = root ++ e ∧ p <:+ root ++ e := by
  unfold findInTree at h ⊢
  split at h
  · exact absurd rfl h
  · next h0 =>
    rw [if_neg h0]
    cases hf : entries.find? fun e => p.isSuffixOf (root ++ e) with
    | none => rw [hf] at h; exact absurd rfl h
    | some e => exact ⟨e, List.mem_of_find?_eq_some hf, rfl, by simpa using List.find?_some hf⟩

theorem relative_suffix_absolute {p dir r : List String} (hd : Absolute dir) (hr : Relative r) (h : p <:+ dir ++ r) (hp : p ≠ []) : p = dir ++ r ∨ Relative p := by
  obtain ⟨d, hd'⟩ := h
  cases d with
  | nil => exact Or.inl hd'
  | cons a d =>
    obtain ⟨l, rfl, h1, h2, h3⟩ := hd
    rw [List.cons_append, List.cons_append] at hd'
    injection hd' with _ hd'
    have hm : ∀ x ∈ p, x ∈ l ++ r := fun x hx => by rw [← hd']; exact List.mem_append_right _ hx
    refine Or.inr ⟨hp, fun e => ?_, fun e => ?_, fun e => ?_⟩
    · exact (List.mem_append.1 (hm _ e)).elim h1 hr.2.1
    · exact (List.mem_append.1 (hm _ e)).elim h2 hr.2.2.1
    · exact (List.mem_append.1 (hm _ e)).elim h3 hr.2.2.2

end PathEquivalence
open PathEquivalence

section
variable {repo : List String} {entries : List (List String)} {selected file r : List String}

/-- **C71** A test is selected if the path given is clear and means its source, however the compiler has recorded the latter, provided that is clear. -/
theorem C71_selected (hd : Absolute repo) (hr : Relative r) (hs : Clear repo selected r) (hf : Clear repo file r) : equivalent repo entries selected file = .ok true := by
  have hd0 : repo ≠ [] := by obtain ⟨l, rfl, _⟩ := hd; simp
  unfold equivalent
  rw [if_neg]
  · split
    · rfl
    · unfold inRepo
      rw [if_neg (by simpa using hd0), rebaseFrom_clear hd hr hs, rebaseFrom_clear hd hr hf]
      simp [Res.bind]
  · rw [getLast?_suffix hr.1 (clear_suffix hs), getLast?_suffix hr.1 (clear_suffix hf)]
    simp [clear_ne hr hs, clear_ne hr hf]

/-- **C71 (part)** A test is selected by a relative path, for example by the name of its source, if there is no other file in the repository to which the path may refer.

What is missing: see `C71_ambiguous_violated`. -/
theorem C71_unique_partial (hd : Absolute repo) (hr : Relative r) (hf : Clear repo file r) (hs : Relative selected) (hrs : selected <:+ repo ++ r) (hin : r ∈ entries)
    (hu : ∀ e ∈ entries, selected <:+ repo ++ e → e = r) : equivalent repo entries selected file = .ok true := by
  have hd0 : repo ≠ [] := by obtain ⟨l, rfl, _⟩ := hd; simp
  unfold equivalent
  rw [if_neg]
  · split
    · rfl
    · unfold inRepo
      have hfind : findInTree repo entries selected = repo ++ r := by
        unfold findInTree
        rw [if_neg (by simpa using hs.1)]
        cases hx : entries.find? fun e => selected.isSuffixOf (repo ++ e) with
        | none =>
          have := List.find?_eq_none.1 hx r hin
          exact absurd (by simpa using hrs) this
        | some e => rw [hu e (List.mem_of_find?_eq_some hx) (by simpa using List.find?_some hx)]
      have hreb : ∃ s, rebaseFrom selected repo = .ok s := by
        unfold rebaseFrom
        cases selected with
        | nil => exact absurd rfl hs.1
        | cons x l =>
          have hx2 : x ≠ ".." := fun e => hs.2.2.1 (by rw [e]; exact List.mem_cons_self)
          have hx3 : x ≠ "" := fun e => hs.2.2.2 (by rw [e]; exact List.mem_cons_self)
          rw [if_neg (by simp), if_neg (by simpa using hd0)]
          split
          · exact ⟨_, rfl⟩
          · rw [List.dropWhile_cons]
            simp [hx2, hx3]
      obtain ⟨s, hs'⟩ := hreb
      rw [if_neg (by simpa using hd0), hs', rebaseFrom_clear hd hr hf, hfind, rebaseFrom_clear hd hr (.absolute r)]
      simp only [Res.bind]
      split
      · rfl
      · rw [if_neg (by simp [hd0])]
        simp
  · rw [getLast?_suffix hr.1 (clear_suffix hf), ← getLast?_suffix hs.1 hrs, getLast?_suffix hr.1 (List.suffix_append _ _)]
    simp [clear_ne hr hf, hs.1]

/-- **C71 (part)** A test is selected only by a path which may refer to its source.

What is missing: this is false for paths which are not clear, see `C71_other_file_violated`. -/
theorem C71_sound_partial (hd : Absolute repo) (hr : Relative r) (hf : Clear repo file r) (hent : ∀ e ∈ entries, Relative e) {s : List String} (hrs : Relative s) (hs : Clear repo selected s)
    (h : equivalent repo entries selected file = .ok true) : Denotes selected (repo ++ r) := by
  have hd0 : repo ≠ [] := by obtain ⟨l, rfl, _⟩ := hd; simp
  unfold equivalent at h
  split at h
  · cases h
  · split at h
    · next he =>
      have : file = selected := by simpa using he
      rw [← this]
      exact clear_denotes hr hf
    · unfold inRepo at h
      rw [if_neg (by simpa using hd0), rebaseFrom_clear hd hrs hs, rebaseFrom_clear hd hr hf] at h
      simp only [Res.bind] at h
      split at h
      · next he =>
        have : s = r := by simpa using he
        rw [← this]
        exact clear_denotes hrs hs
      · split at h
        · cases h
        · next hn =>
          obtain ⟨e, he, h1, h2⟩ := findInTree_spec (by simpa using hn)
          rw [h1, rebaseFrom_clear hd (hent e he) (.absolute e)] at h
          simp only [Res.ok.injEq, beq_iff_eq] at h
          subst h
          rcases relative_suffix_absolute hd (hent e he) h2 (clear_ne hrs hs) with h3 | h3
          · exact Or.inl h3
          · exact Or.inr ⟨selected, ⟨0, by simp⟩, h3, h2⟩

/-- **C71** An absolute path selects the tests of that source and no others. -/
theorem C71_absolute (hd : Absolute repo) (hr : Relative r) (hf : Clear repo file r) (hent : ∀ e ∈ entries, Relative e) {s : List String} (hrs : Relative s) :
    equivalent repo entries (repo ++ s) file = .ok true ↔ s = r := by
  constructor
  · intro h
    rcases C71_sound_partial hd hr hf hent hrs (.absolute s) h with h | ⟨q, ⟨k, hk⟩, hq, _⟩
    · exact List.append_cancel_left h
    · obtain ⟨l, rfl, _⟩ := hd
      cases k with
      | zero =>
        simp only [List.replicate_zero, List.nil_append] at hk
        exact absurd (by rw [← hk]; simp) hq.2.1
      | succ k => simp [List.replicate_succ] at hk
  · rintro rfl
    exact C71_selected hd hr (.absolute _) hf

/-- **C71** A path given without any `..` and without ambiguity, and clear, selects the tests of that source and no others. -/
theorem C71_exact (hd : Absolute repo) (hr : Relative r) (hf : Clear repo file r) (hent : ∀ e ∈ entries, Relative e) (hin : r ∈ entries) {s : List String} (hrs : Relative s)
    (hs : Clear repo selected s) (hrel : Relative selected) (hu : ∀ e ∈ entries, selected <:+ repo ++ e → e = s) : equivalent repo entries selected file = .ok true ↔ r = s := by
  constructor
  · intro h
    rcases C71_sound_partial hd hr hf hent hrs hs h with h | ⟨q, ⟨k, hk⟩, _, hq⟩
    · exact hu r hin (by rw [h]; exact List.suffix_rfl)
    · cases k with
      | zero =>
        simp only [List.replicate_zero, List.nil_append] at hk
        exact hu r hin (by rw [hk]; exact hq)
      | succ k =>
        rw [hk] at hrel
        exact absurd (by simp [List.replicate_succ]) hrel.2.2.1
  · rintro rfl
    exact C71_selected hd hrs hs hf

end

namespace PathEquivalence

/-- The repository of the tests of a project which is in a directory called `Maths`. -/
def repo : List String := ["/", "Maths", "Project", "Tests"]

end PathEquivalence

/- The hypotheses are met. -/
example : Absolute repo := ⟨_, rfl, by decide, by decide, by decide⟩
example : Relative ["Graph", "EdgeTest.cpp"] := by unfold Relative; decide
example : Clear repo ["..", "..", "Tests", "Graph", "EdgeTest.cpp"] ["Graph", "EdgeTest.cpp"] := .overlap 2 "Tests" [] ["Graph", "EdgeTest.cpp"] ⟨["/", "Maths", "Project"], rfl⟩ (by decide) (by unfold Relative; decide)
example : Clear repo ["Graph", "EdgeTest.cpp"] ["Graph", "EdgeTest.cpp"] := .within 0 "Graph" ["EdgeTest.cpp"] (by decide)
example : equivalent repo [["Graph"], ["Graph", "EdgeTest.cpp"]] ["EdgeTest.cpp"] ["..", "..", "Tests", "Graph", "EdgeTest.cpp"] = .ok true := by decide
example : equivalent repo [["Graph"], ["Graph", "EdgeTest.cpp"], ["Graph", "NodeTest.cpp"]] ["NodeTest.cpp"] ["..", "..", "Tests", "Graph", "EdgeTest.cpp"] = .ok false := by decide
example : equivalent repo [["Graph"], ["Graph", "EdgeTest.cpp"], ["EdgeTest.cpp"]] ["Graph", "EdgeTest.cpp"] (repo ++ ["EdgeTest.cpp"]) = .ok false := by decide

/-- **C71 (violated)** If the first name in the path given also occurs in the path of the repository then other tests may be selected: here the test in `Tests/FooTest.cpp` is selected by
`Maths/FooTest.cpp`, which is another file of the repository. -/
theorem C71_other_file_violated :
    equivalent repo [["Maths"], ["Maths", "FooTest.cpp"], ["FooTest.cpp"]] ["Maths", "FooTest.cpp"] (repo ++ ["FooTest.cpp"]) = .ok true ∧ ¬ Denotes ["Maths", "FooTest.cpp"] (repo ++ ["FooTest.cpp"]) := by
  refine ⟨by decide, ?_⟩
  rintro (h | ⟨q, ⟨k, hk⟩, _, h⟩)
  · revert h; decide
  · cases k with
    | zero =>
      simp only [List.replicate_zero, List.nil_append] at hk
      subst hk
      revert h; decide
    | succ k => simp [List.replicate_succ] at hk

/-- **C71 (violated)** If a path may refer to several files of the repository then only one of them is selected, and which one depends on the order in which directories are iterated over; this is so even if the
path is that of one of the tests, relative to the repository, as is the case for the paths which are selected by pruning: here, the test which is meant is not selected. -/
theorem C71_ambiguous_violated :
    (equivalent repo [["A"], ["A", "FooTest.cpp"], ["B"], ["B", "FooTest.cpp"]] ["FooTest.cpp"] (repo ++ ["A", "FooTest.cpp"]) = .ok true ∧
     equivalent repo [["A"], ["A", "FooTest.cpp"], ["B"], ["B", "FooTest.cpp"]] ["FooTest.cpp"] (repo ++ ["B", "FooTest.cpp"]) = .ok false ∧
     equivalent repo [["B"], ["B", "FooTest.cpp"], ["A"], ["A", "FooTest.cpp"]] ["FooTest.cpp"] (repo ++ ["B", "FooTest.cpp"]) = .ok true) ∧
    (equivalent repo [["Other"], ["Other", "Maths"], ["Other", "Maths", "FooTest.cpp"], ["Maths"], ["Maths", "FooTest.cpp"]] ["Maths", "FooTest.cpp"] (repo ++ ["Maths", "FooTest.cpp"]) = .ok false) := by
  refine ⟨⟨by decide, by decide, by decide⟩, by decide⟩

end Verif.Props
