import Verif.Lemmas.TestFilesOk
import Verif.Lemmas.ProjectCreatorInit
import Verif.Spec.ProjectCreator
set_option linter.unusedSimpArgs false
set_option linter.unusedVariables false

/-
Lemmas about the creation of the files of a test: what happens if they are there; the texts of the kinds of tests.
-/
namespace Verif.TestFiles
open Text FileEditors Materials ProjectCreator TestCreator Spec.TestFiles

variable {env : Env} {P : Project} {t : Test}

theorem change_of {f : Disk → Res Disk} {fs fs' : Disk} {n : Nat} (h : f fs = .ok fs') : change f ⟨fs, n + 1⟩ = .ok ⟨fs', n⟩ := by
  simp [change, h]

theorem put_of {p : Path} {c u : Str} {fs : Disk} (h : get fs p = some (.file u)) : ∃ fs', put p c fs = .ok fs' := by
  unfold put
  rw [isFile_iff.2 ⟨u, h⟩]
  exact ⟨(p, .file c) :: fs, by simp⟩

theorem modify_same {p : Path} {f : Str → Res Str} {fs : Disk} {c : Str} (h : get fs p = some (.file c)) (hf : f c = .ok c) (n : Nat) :
    ∃ fs', modify p f ⟨fs, n + 2⟩ = .ok ⟨fs', n⟩ ∧ ∀ q, get fs' q = get fs q := by
  obtain ⟨fs1, h1⟩ := put_of (c := []) h
  have g1 : get fs1 p = some (.file []) := by rw [put_ok h1, if_pos rfl]
  obtain ⟨fs2, h2⟩ := put_of (c := c) g1
  refine ⟨fs2, ?_, fun q => ?_⟩
  · unfold modify
    simp only [h, hf]
    unfold write
    rw [change_of h1]
    exact change_of h2
  · rw [put_ok h2, put_ok h1]
    by_cases hq : q = p
    · rw [if_pos hq, hq, h]
    · rw [if_neg hq, if_neg hq]

theorem each_same {α : Type} {f : α → St → Ending St} {k : Nat} {l : List α} {fs : Disk}
    (h : ∀ x ∈ l, ∀ fs' n, (∀ q, get fs' q = get fs q) → ∃ fs'', f x ⟨fs', n + k⟩ = .ok ⟨fs'', n⟩ ∧ ∀ q, get fs'' q = get fs q) (fs' : Disk) (hq : ∀ q, get fs' q = get fs q) (n : Nat) :
    ∃ fs'', each f l ⟨fs', n + k * l.length⟩ = .ok ⟨fs'', n⟩ ∧ ∀ q, get fs'' q = get fs q := by
  induction l generalizing fs' with
  | nil => exact ⟨fs', rfl, hq⟩
  | cons x l ih =>
    obtain ⟨fs1, h1, g1⟩ := h x (List.mem_cons_self ..) fs' (n + k * l.length) hq
    obtain ⟨fs2, h2, g2⟩ := ih (fun y hy => h y (List.mem_cons_of_mem _ hy)) fs1 g1
    refine ⟨fs2, ?_, g2⟩
    rw [each, List.length_cons, Nat.mul_add, Nat.mul_one, ← Nat.add_assoc, h1]
    exact h2

theorem createFiles_again {src : Path} {d : List String} (hb : Below P src d) {fs : Disk} (hr : Spec.ProjectCreator.Rooted fs) (hne : t.stubs ≠ [])
    (hall : ∀ stub ∈ t.stubs, get fs (Spec.TestFiles.file P t d stub) ≠ none)
    (hsuite : ∀ m, (m = P.main ∨ m ∈ P.ancillary) → ∃ c, get fs m.file = some (.file c) ∧ addToSuite t.suite t.indent t.constructors c = .ok c) (n : Nat) :
    ∃ fs', createFiles env P t src ⟨fs, n + 2 * (P.ancillary.length + 1) + 1⟩ = .ok ⟨fs', n⟩ ∧ ∀ q, get fs' q = get fs q := by
  obtain ⟨stub, hstub⟩ := List.exists_mem_of_ne_nil _ hne
  have hdir : ∀ (r q : Path), get fs (q ++ r) ≠ none → r ≠ [] → get fs q = some .dir := by
    intro r
    induction r with
    | nil => intro q _ h; exact absurd rfl h
    | cons x r ih =>
      intro q h _
      by_cases hr' : r = []
      · subst hr'; exact hr q x h
      · have := ih (q ++ [x]) (by simpa using h) hr'
        exact hr q x (by rw [this]; simp)
  have hpre : ∀ q, q <+: P.tests ++ d → get fs q = some .dir := by
    rintro q ⟨r, hq⟩
    refine hdir (r ++ [String.ofList (t.camel ++ stub)]) q ?_ (by simp)
    rw [← List.append_assoc, hq]
    exact hall stub hstub
  obtain ⟨fs1, h1⟩ := createDirectories_of (p := P.tests ++ d) (fs := fs) (fun q c hq hf => by rw [hpre q hq] at hf; cases hf)
  have g1 : ∀ q, get fs1 q = get fs q := fun q => by
    rw [createDirectories_ok h1]
    split
    · next hq => rw [hpre q hq]
    · rfl
  have h2 : each (createFile env P t src) t.stubs ⟨fs1, n + 2 * (P.ancillary.length + 1)⟩ = .ok ⟨fs1, n + 2 * (P.ancillary.length + 1)⟩ := by
    have : ∀ l, (∀ stub ∈ l, stub ∈ t.stubs) → each (createFile env P t src) l ⟨fs1, n + 2 * (P.ancillary.length + 1)⟩ = .ok ⟨fs1, n + 2 * (P.ancillary.length + 1)⟩ := by
      intro l
      induction l with
      | nil => intro _; rfl
      | cons x l ih =>
        intro hl
        rw [each]
        have : createFile env P t src x ⟨fs1, n + 2 * (P.ancillary.length + 1)⟩ = .ok ⟨fs1, n + 2 * (P.ancillary.length + 1)⟩ := by
          unfold createFile
          rw [outputFile_below hb, if_pos]
          rw [exists'_iff, g1]
          exact hall x (hl x (List.mem_cons_self ..))
        rw [this]
        exact ih fun y hy => hl y (List.mem_cons_of_mem _ hy)
    exact this _ fun _ h => h
  obtain ⟨fs2, h3, g3⟩ := each_same (k := 2) (l := P.mains) (fs := fs) (f := fun m => modify m.file (addToSuite t.suite t.indent t.constructors))
    (fun m hm fs' n hq => by
      obtain ⟨c, c1, c2⟩ := hsuite m (List.mem_cons.1 hm)
      obtain ⟨fs'', k1, k2⟩ := modify_same (by rw [hq]; exact c1) c2 n
      exact ⟨fs'', k1, fun q => by rw [k2, hq]⟩) fs1 g1 n
  refine ⟨fs2, ?_, g3⟩
  unfold createFiles
  rw [hostDir_below hb, change_of h1]
  dsimp only [Ending.bind]
  rw [h2]
  exact h3

/-! ### Texts -/

theorem substitute_last {rs : List (Str × Str)} {new text r : Str} (h : substitute (rs ++ [(['?'], new)]) text = .ok r) (hn : '?' ∉ new) : '?' ∉ r := by
  induction rs generalizing text with
  | nil =>
    simp only [List.nil_append, substitute] at h
    split at h
    · next u hu =>
      cases h
      obtain ⟨v, h1, h2⟩ := replaceAllFrom_spec (d := []) hu
      rw [List.nil_append] at h1
      subst h1
      rw [replaced_char h2]
      intro hm
      obtain ⟨x, _, hx⟩ := List.mem_flatMap.1 hm
      split at hx
      · exact hn hx
      · next hne => rw [List.mem_singleton] at hx; exact hne hx.symm
    · cases h
  | cons a rs ih =>
    simp only [List.cons_append, substitute] at h
    split at h
    · exact ih h
    · cases h

theorem res_ok {α β : Type} {x : Res α} {f : α → Res β} {b : β} (h : x.bind f = .ok b) : ∃ a, x = .ok a ∧ f a = .ok b := by
  cases x with
  | ok a => exact ⟨a, rfl, h⟩
  | throws => cases h
  | ub => cases h

theorem behaviouralText_marks {r : Request} {name text u : Str} {header : List String} (h : behaviouralText r name header text = .ok u) (hn : '?' ∉ r.testType) : '?' ∉ u := by
  obtain ⟨a, _, h⟩ := res_ok h
  obtain ⟨b, _, h⟩ := res_ok h
  obtain ⟨c, _, h⟩ := res_ok h
  exact substitute_last (rs := [_, _, _]) h hn

theorem semanticsText_marks {r : Request} {names : Names} {types : List Str} {name text u : Str} {header : List String} (h : semanticsText r names types name header text = .ok u) (hn : '?' ∉ r.testType) : '?' ∉ u := by
  obtain ⟨a, _, h⟩ := res_ok h
  obtain ⟨b, _, h⟩ := res_ok h
  obtain ⟨c, _, h⟩ := res_ok h
  obtain ⟨d, _, h⟩ := res_ok h
  obtain ⟨e, _, h⟩ := res_ok h
  exact substitute_last (rs := [_, _, _, _]) h hn

end Verif.TestFiles
