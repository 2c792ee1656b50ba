import Verif.Lemmas.Materials
/-
C70: every test starts with pristine materials.
-/
namespace Verif.Props
open Verif.Materials Verif.Spec.Materials

section
variable {C : Type} {R : Roots}

/-- The materials of the tests are apart. -/
def Materials.TestsApart (suites : List (List Path)) : Prop :=
  ∀ rel rel', (∃ s ∈ suites, rel ∈ s) → (∃ s ∈ suites, rel' ∈ s) → rel = rel' ∨ Apart rel rel'

/-- What there is where the materials of a test are looked for is a directory. -/
def Materials.Directories (R : Roots) (fs : FS C) (suites : List (List Path)) : Prop :=
  ∀ rel, (∃ s ∈ suites, rel ∈ s) → HasMaterials R fs rel ∨ get fs (R.materials ++ rel) = none

/-- No file is in the way. -/
def Materials.Free (R : Roots) (fs : FS C) (suites : List (List Path)) : Prop := ∀ rel, (∃ s ∈ suites, rel ∈ s) → NotBlocked R fs rel

open Materials

/-- **C70 (part)** Whatever was left by previous runs, once suites have been added the temporary materials of all their tests are pristine copies of the materials, even if several tests, in the same suite or in
different ones, have the same materials; nothing has changed in the rest of the file system, apart from the creation of directories for the temporary materials.

What is missing: the materials of tests must not contain those of others, see `C70_nested_violated`. -/
theorem C70_prepared_partial (hR : Apart R.materials R.temporary) (fs : FS C) (ht : Tree fs) (suites : List (List Path)) (hap : TestsApart suites) (hdir : Directories R fs suites)
    (hfree : Free R fs suites) :
    ∃ fs', setSuites R suites fs = .ok fs' ∧ (∀ rel, Relevant R fs suites rel → Prepared R fs fs' rel) ∧ SameElsewhere R fs fs' (Relevant R fs suites) := by
  have hi : Inv R (fun rel => ∃ s ∈ suites, rel ∈ s) fs (fun _ => False) fs :=
    ⟨fun _ => rfl, fun _ h => h.elim, hfree, fun _ h => h.elim, fun _ _ => Or.inl rfl⟩
  obtain ⟨fs', h1, h2⟩ := setSuites_inv hR ht hap hdir suites _ fs hi (fun s hs rel hrel => ⟨s, hs, hrel⟩)
  have h3 := h2.congr (ready' := Relevant R fs suites) fun x => by simp [Relevant]
  exact ⟨fs', h1, h3.prepared, h3.elsewhere⟩

/-- **C70 (part)** When tests are reset between runs, whatever has become of the temporary materials, they are again pristine copies of the materials.

What is missing: as above. -/
theorem C70_reset_partial (hR : Apart R.materials R.temporary) (fs fs₁ : FS C) (hsame : ∀ r, get fs₁ (R.materials ++ r) = get fs (R.materials ++ r)) (ht : Tree fs₁) (tests : List Path)
    (hap : TestsApart [tests]) (hdir : Directories R fs [tests]) (hfree : Free R fs₁ [tests]) :
    ∃ fs', setSuite R tests [] fs₁ = .ok fs' ∧ ∀ rel ∈ tests, HasMaterials R fs rel → Prepared R fs fs' rel := by
  have hm : ∀ rel, HasMaterials R fs₁ rel ↔ HasMaterials R fs rel := fun rel => by unfold HasMaterials; rw [hsame]
  obtain ⟨fs', h1, h2, _⟩ := C70_prepared_partial hR fs₁ ht [tests] hap (fun rel hrel => by rw [hm, hsame]; exact hdir rel hrel) hfree
  refine ⟨fs', ?_, fun rel hrel hr => ?_⟩
  · unfold setSuites at h1
    cases h : setSuite R tests [] fs₁ with
    | ok r => rw [h] at h1; simpa [setSuites, Res.bind] using h1
    | throws => rw [h] at h1; cases h1
    | ub => rw [h] at h1; cases h1
  · have hs : SameMaterials R fs fs₁ := hsame
    exact hs.prepared (h2 rel ⟨⟨tests, by simp, hrel⟩, (hm rel).2 hr⟩)

/-- **C70** The materials themselves are never changed by the preparation. -/
theorem C70_originals (hR : Apart R.materials R.temporary) (fs fs' : FS C) (suites : List (List Path)) (h : setSuites R suites fs = .ok fs') (p : Path) :
    get fs' (R.materials ++ p) = get fs (R.materials ++ p) :=
  setSuites_same hR h p

end

namespace Materials

def roots : Roots := ⟨["TestMaterials"], ["output", "Temp"]⟩

/-- `A.cpp` has predictions, something to work on and auxiliary materials; `B.cpp` has one file.  Something is left of a previous run. -/
def simple : FS Nat :=
  [([], .dir), (["TestMaterials"], .dir), (["TestMaterials", "A"], .dir), (["TestMaterials", "A", "Prediction"], .dir), (["TestMaterials", "A", "Prediction", "x"], .file 1),
   (["TestMaterials", "A", "WorkingCopy"], .dir), (["TestMaterials", "A", "WorkingCopy", "x"], .file 2), (["TestMaterials", "A", "Auxiliary"], .dir),
   (["TestMaterials", "A", "Auxiliary", "y"], .file 3), (["TestMaterials", "B"], .dir), (["TestMaterials", "B", "z"], .file 4), (["output"], .dir),
   (["output", "Temp"], .dir), (["output", "Temp", "B"], .dir), (["output", "Temp", "B", "z"], .file 5), (["output", "Temp", "B", "w"], .file 6)]

/-- The materials of `Foo/Bar.cpp` are in those of `Foo.cpp`. -/
def nested : FS Nat :=
  [([], .dir), (["TestMaterials"], .dir), (["TestMaterials", "Foo"], .dir), (["TestMaterials", "Foo", "Prediction"], .dir), (["TestMaterials", "Foo", "WorkingCopy"], .dir),
   (["TestMaterials", "Foo", "Bar"], .dir), (["TestMaterials", "Foo", "Bar", "x"], .file 1), (["output"], .dir)]

theorem tree_of {fs : FS Nat} (h : get fs [] = some .dir) (h' : ∀ e ∈ fs, e.1 = [] ∨ get fs e.1.dropLast = some .dir) : Tree fs := by
  refine ⟨h, fun p n hp => ?_⟩
  have : ∃ e ∈ fs, e.1 = p ++ [n] := by
    unfold Verif.Materials.get at hp
    cases hf : fs.find? fun e => e.1 == p ++ [n] with
    | none => rw [hf] at hp; simp at hp
    | some e => exact ⟨e, List.mem_of_find?_eq_some hf, by simpa using List.find?_some hf⟩
  obtain ⟨e, he, hep⟩ := this
  rcases h' e he with h1 | h1
  · rw [hep] at h1; simp at h1
  · rw [hep] at h1
    simpa using h1

theorem free_of {R : Roots} {fs : FS Nat} {rel : Path} (h : ∀ q ∈ prefixes (R.temporary ++ rel), isFile fs q = true → q = R.temporary ++ rel) : NotBlocked R fs rel :=
  fun q _ hq hc => h q (mem_prefixes.2 hq) (isFile_iff.2 ⟨_, hc⟩)

end Materials

open Materials

/- The hypotheses are met, and something happens. -/
example : Apart roots.materials roots.temporary := by unfold Apart; decide
example : Tree simple := tree_of (by decide) (by decide)
example : TestsApart [[["A"], ["B"]], [["A"], ["C"]]] := by
  intro a b ha hb
  have : ∀ a ∈ [["A"], ["B"], ["A"], ["C"]], ∀ b ∈ [["A"], ["B"], ["A"], ["C"]], a = b ∨ (¬ a <+: b ∧ ¬ b <+: a) := by decide
  refine this a ?_ b ?_
  · simpa [or_assoc] using ha
  · simpa [or_assoc] using hb
example : Directories roots simple [[["A"], ["B"]], [["A"], ["C"]]] := by
  intro a ha
  have : ∀ a ∈ [["A"], ["B"], ["A"], ["C"]], get simple (roots.materials ++ a) = some .dir ∨ get simple (roots.materials ++ a) = none := by decide
  exact this a (by simpa [or_assoc] using ha)
example : Free roots simple [[["A"], ["B"]], [["A"], ["C"]]] := by
  intro a ha
  have : ∀ a ∈ [["A"], ["B"], ["A"], ["C"]], ∀ q ∈ prefixes (roots.temporary ++ a), isFile simple q = true → q = roots.temporary ++ a := by decide
  exact free_of (this a (by simpa [or_assoc] using ha))
example : HasMaterials roots simple ["A"] ∧ HasMaterials roots simple ["B"] ∧ HasPrediction roots simple ["A"] ∧ ¬ HasPrediction roots simple ["B"] := by
  unfold HasMaterials HasPrediction; decide
example : ∃ fs, setSuites roots [[["A"], ["B"]], [["A"], ["C"]]] simple = .ok fs ∧ get fs ["output", "Temp", "A", "WorkingCopy", "x"] = some (.file 2) ∧
    get fs ["output", "Temp", "A", "Auxiliary", "y"] = some (.file 3) ∧ get fs ["output", "Temp", "A", "Prediction"] = none ∧
    get fs ["output", "Temp", "B", "z"] = some (.file 4) ∧ get fs ["output", "Temp", "B", "w"] = none :=
  ⟨_, rfl, by decide, by decide, by decide, by decide, by decide⟩

/-- **C70 (violated)** If the materials of a test are in a directory which belongs to the materials of another one, namely for the source files `Foo.cpp` and `Foo/Bar.cpp`, and the former has predictions,
then the preparation of `Foo.cpp` removes what has been prepared for `Foo/Bar.cpp`, which then starts without its materials.  In the opposite order, `Foo.cpp` starts with materials which it should not have. -/
theorem C70_nested_violated :
    Apart roots.materials roots.temporary ∧ Tree nested ∧ HasMaterials roots nested ["Foo"] ∧ HasMaterials roots nested ["Foo", "Bar"] ∧ (∀ rel ∈ [["Foo"], ["Foo", "Bar"]], NotBlocked roots nested rel) ∧
    (∃ fs, setSuites roots [[["Foo", "Bar"], ["Foo"]]] nested = .ok fs ∧ get nested ["TestMaterials", "Foo", "Bar", "x"] = some (.file 1) ∧
      get fs ["output", "Temp", "Foo", "Bar", "x"] = none ∧ get fs ["output", "Temp", "Foo", "Bar"] = none ∧ ¬ Prepared roots nested fs ["Foo", "Bar"]) ∧
    (∃ fs, setSuites roots [[["Foo"], ["Foo", "Bar"]]] nested = .ok fs ∧ ¬ Prepared roots nested fs ["Foo"]) := by
  refine ⟨by unfold Apart; decide, tree_of (by decide) (by decide), by unfold HasMaterials; decide, by unfold HasMaterials; decide, ?_, ⟨_, rfl, by decide, by decide, by decide, fun h => ?_⟩, ⟨_, rfl, fun h => ?_⟩⟩
  · have : ∀ a ∈ [["Foo"], ["Foo", "Bar"]], ∀ q ∈ prefixes (roots.temporary ++ a), isFile nested q = true → q = roots.temporary ++ a := by decide
    exact fun rel hrel => free_of (this rel hrel)
  · have := h.root
    revert this
    decide
  · have := h.nothingElse (by unfold HasPrediction; decide) "Bar" [] (by decide) (by decide)
    revert this
    decide

end Verif.Props
