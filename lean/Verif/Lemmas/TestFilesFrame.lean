import Verif.Lemmas.TestFiles
set_option linter.unusedSimpArgs false
set_option linter.unusedVariables false

/-
Lemmas about the creation of the files of a test: what may be changed, whatever happens.
-/
namespace Verif.TestFiles
open Text FileEditors Materials ProjectCreator TestCreator Spec.TestFiles

variable {env : Env} {P : Project} {t : Test}

theorem edited_mains {m : Main} (h : m ∈ P.mains) : Edited P m.file ∧ Edited P m.cmake := by
  unfold Project.mains at h
  rw [List.mem_cons] at h
  exact ⟨.inr (.inr ⟨m, h, .inl rfl⟩), .inr (.inr ⟨m, h, .inr rfl⟩)⟩

theorem safe_fill {A E : Path → Prop} {src out : Path} (h : E out) : Safe A E (fillFile P t src out) := by
  rintro s s' hs
  unfold fillFile at hs
  split at hs
  · next c hc =>
    split at hs
    · rcases hs with hs | hs <;> cases hs; exact .refl _
    · split at hs
      · exact frame_write h (by rw [hc]; simp) hs
      · rcases hs with hs | hs <;> cases hs; exact .refl _
      · rcases hs with hs | hs <;> cases hs
  · rcases hs with hs | hs <;> cases hs; exact .refl _

theorem safe_register {A E : Path → Prop} {out : Path} (h : ∀ p, Edited P p → E p) : Safe A E (registerFile env P out) := by
  intro s s' hs
  unfold registerFile at hs
  split at hs
  · exact Safe.ok s s' hs
  · split at hs
    · split at hs
      · exact Safe.modify (h _ (.inl rfl)) s s' hs
      · exact Safe.ok s s' hs
    · split at hs
      · exact Safe.each (fun m hm => Safe.modify (h _ (edited_mains hm).2)) s s' hs
      · exact Safe.ok s s' hs

theorem safe_file {A : Path → Prop} {src : Path} {stub : Str} (h : A (outputFile P t src stub)) : Safe A (Edited P) (createFile env P t src stub) := by
  intro s s' hs
  unfold createFile at hs
  split at hs
  · exact Safe.ok s s' hs
  · exact Safe.copyEdit h (Safe.bind (safe_fill (.inr rfl)) (safe_register fun p hp => .inl hp)) s s' hs

theorem safe_files {A : Path → Prop} {src : Path} (hd : ∀ p, p <+: hostDir P src → A p) (h : ∀ stub ∈ t.stubs, A (outputFile P t src stub)) :
    Safe A (Edited P) (createFiles env P t src) :=
  Safe.bind (Safe.directories hd) (Safe.bind (Safe.each fun stub hs => safe_file (h stub hs)) (Safe.each fun m hm => Safe.modify (edited_mains hm).1))

theorem safe_cpp {A : Path → Prop} {E : Path → Prop} {f : Str → Str → Res Str} {h : Path} (hE : ∀ p, Edited P p → E p) (hA : A (cppPath h)) : Safe A E (setCpp env P f h) :=
  Safe.copyEdit hA (Safe.bind (Safe.modify (.inr rfl)) (Safe.bind (Safe.modify (.inl (hE _ (.inr (.inl rfl)))))
    (Safe.modify (.inl (hE _ (edited_mains (m := P.main) (List.mem_cons_self ..)).2)))))

theorem safe_generate {A : Path → Prop} {g : Generate} {h : Path} (hd : ∀ p, p <+: parent h → A p) (hh : A h) (hc : A (cppPath h)) :
    Safe A (Edited P) (generateSource env P g h) := by
  refine Safe.bind (Safe.directories hd) (Safe.copyEdit hh (Safe.bind (Safe.modify (.inr rfl)) ?_))
  split
  · exact Safe.ok
  · exact safe_cpp (fun p hp => .inl hp) hc

/-- What may be added. -/
def Added (P : Project) (t : Test) (src : Path) (g : Option Generate) (p : Path) : Prop :=
  p <+: hostDir P src ∨ (∃ stub ∈ t.stubs, p = outputFile P t src stub) ∨ (g ≠ none ∧ (p <+: parent src ∨ p = src ∨ p = cppPath src))

theorem finalize_frame (hw : Walks env.walk) {s s' : St} (h : Ends (finalize env P t s) s') :
    s' = s ∨ ∃ src g, Used P t s.fs src g ∧ Frame (Added P t src g) (Edited P) s.fs s'.fs := by
  unfold finalize at h
  split at h
  · rcases h with h | h <;> cases h; exact .inl rfl
  · split at h
    · next src hsrc =>
      exact .inr ⟨src, none, .found (locate_some hw hsrc), safe_files (fun p hp => .inl hp) (fun stub hs => .inr (.inl ⟨stub, hs, rfl⟩)) s s' h⟩
    · next hsrc =>
      split at h
      · rcases h with h | h <;> cases h; exact .inl rfl
      · next g hg =>
        split at h
        · next p hp =>
          refine .inr ⟨p, some g, .created (locate_none hw hsrc) hg hp, ?_⟩
          exact Safe.bind (safe_generate (fun q hq => .inr (.inr ⟨by simp, .inl hq⟩)) (.inr (.inr ⟨by simp, .inr (.inl rfl)⟩)) (.inr (.inr ⟨by simp, .inr (.inr rfl)⟩)))
            (safe_files (fun p hp => .inl hp) (fun stub hs => .inr (.inl ⟨stub, hs, rfl⟩))) s s' h
        · rcases h with h | h <;> cases h; exact .inl rfl
        · rcases h with h | h <;> cases h

/-! ### Paths -/

theorem normal_of {p : Path} (h : ∀ x ∈ p, x ≠ "." ∧ x ≠ "..") : normal p = p := by
  have : ∀ (q p : Path), (∀ x ∈ p, x ≠ "." ∧ x ≠ "..") → p.foldl (fun q x => if x = ".." then q.dropLast else if x = "." then q else q ++ [x]) q = q ++ p := by
    intro q p
    induction p generalizing q with
    | nil => simp
    | cons x p ih =>
      intro h
      have hx := h x (List.mem_cons_self ..)
      rw [List.foldl_cons, if_neg hx.2, if_neg hx.1, ih _ fun y hy => h y (List.mem_cons_of_mem _ hy)]
      simp
  exact this [] p h

theorem hostDir_below {src : Path} {d : List String} (h : Below P src d) : hostDir P src = P.tests ++ d := by
  obtain ⟨f, rfl, hd⟩ := h
  unfold hostDir
  have : PathEquivalence.relative (P.sourceProject ++ d ++ [f]) P.sourceProject = d ++ [f] := by
    rw [List.append_assoc, ProjectPaths.relative_append, if_neg (by simp)]
  rw [this, ← List.append_assoc, List.dropLast_concat]
  exact normal_of hd

theorem outputFile_below {src : Path} {d : List String} (h : Below P src d) (stub : Str) : outputFile P t src stub = Spec.TestFiles.file P t d stub := by
  rw [outputFile, hostDir_below h]; rfl

end Verif.TestFiles
