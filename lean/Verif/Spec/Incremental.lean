import Verif.Model.Incremental
import Verif.Spec.Dependency
import Verif.Spec.PruneFiles
/-
What is expected of incremental testing: running only the tests which are selected by pruning tells as much as running all of them.

Time stamps stand for the contents of files: between changes a file has the same time stamp, and each change gives it a new one.
-/
namespace Verif.Spec.Incremental
open Verif.Dependency Verif.PruneFiles Verif.Incremental Verif.Spec.Stale Verif.Spec.Prune

variable {K : Type}

/-- The same name and place. -/
def SameFile (f f' : File K) : Prop := f'.stem = f.stem ∧ f'.cpp = f.cpp ∧ f'.test = f.test ∧ f'.rel = f.rel

/-- The file with number `y` has been there before, as the file with number `x`, where `ι x = y`. -/
def Old (fs : List (File K)) (ι : Nat → Nat) (y : Nat) : Prop := ∃ (x : Nat) (f : File K), fs[x]? = some f ∧ ι x = y

/-- What may happen to the files after the time `t`: `ι` tells the new numbers of the files, none of which is removed.  Whatever is created or changed has a time stamp after `t`; a file
without such a time stamp includes the same files as before, unless it includes a new one; source files continue to include their headers; and nothing is removed from the
materials. -/
structure Evolved (t : Nat) (fs fs' : List (File K)) (ι : Nat → Nat) : Prop where
  distinct : ∀ (x y : Nat) (f g : File K), fs[x]? = some f → fs[y]? = some g → ι x = ι y → x = y
  kept : ∀ (x : Nat) (f : File K), fs[x]? = some f → ∃ f', fs'[ι x]? = some f' ∧ SameFile f f' ∧
    (f'.time ≤ t → f'.time = f.time ∧ (f'.includes = f.includes.map ι ∨ ∃ y ∈ f'.includes, ¬ Old fs ι y)) ∧
    ((∀ m, f'.materials = some m → ∀ s ∈ m.2, s ≤ t) → f'.materials = f.materials)
  created : ∀ (y : Nat) (f' : File K), fs'[y]? = some f' → ¬ Old fs ι y → t < f'.time
  sources : ∀ x y, SourceOf fs x y → SourceOf fs' (ι x) (ι y)

/-- The files on which the test with number `x` depends, and its materials, are the same in both cases. -/
structure Agree (fs fs' : List (File K)) (ι : Nat → Nat) (x : Nat) : Prop where
  same : ∀ y, DependsOn fs x y → ∃ f f', fs[y]? = some f ∧ fs'[ι y]? = some f' ∧ SameFile f f' ∧ f'.time = f.time ∧ f'.includes = f.includes.map ι
  all : ∀ y', DependsOn fs' (ι x) y' ↔ ∃ y, DependsOn fs x y ∧ ι y = y'
  materials : ∃ f f', fs[x]? = some f ∧ fs'[ι x]? = some f' ∧ f'.materials = f.materials

/-- Whether a test passes depends only on the files on which the test depends, and on its materials. -/
def Determined (passes : List (File K) → Nat → Bool) : Prop :=
  ∀ (fs fs' : List (File K)) (ι : Nat → Nat) (x : Nat), Agree fs fs' ι x → passes fs' (ι x) = passes fs x

/-- The files can be analysed: see `Tidy` and `Layered`; and different tests have different paths. -/
def WellFormed (fs : List (File K)) : Prop :=
  Tidy fs ∧ (∃ layer, Layered fs layer) ∧
  ∀ (x y : Nat) (f g : File K), fs[x]? = some f → fs[y]? = some g → f.cpp = true → g.cpp = true → f.test = true → g.test = true → f.rel = g.rel → x = y

/-- The file with number `x` is the source of the test `k`. -/
def TestAt (fs : List (File K)) (x : Nat) (k : K) : Prop := ∃ f, fs[x]? = some f ∧ f.cpp = true ∧ f.test = true ∧ f.rel = k

section
variable (tests : K → Prop) (passes : List (File K) → Nat → Bool)

/-- The tests which would fail if all of them were run now. -/
def Failing (fs : List (File K)) (k : K) : Prop := tests k ∧ ∃ x, TestAt fs x k ∧ passes fs x = false

variable [LinearOrder K] (form : Form K) (sort : List K → List K)

/-- The course of the development, beginning without records, and the time after which files may be changed: this is the beginning of the latest run, if it was a run of all tests, and its end, if it was not. -/
inductive History : State K → Nat → Prop
  | start {fs : List (File K)} : WellFormed fs → History ⟨fs, ⟨none, none, none⟩, none⟩ 0
  /-- Files are changed. -/
  | change {s : State K} {t : Nat} {fs : List (File K)} {ι : Nat → Nat} : History s t → WellFormed fs → Evolved t s.files fs ι → History (step form sort s (.change fs)) t
  /-- All tests are run, with an executable which has been made from the files as they are. -/
  | all {s : State K} {t begin' recorded : Nat} {failed : List K} : History s t → t ≤ begin' → Proper form (.all failed begin') →
      (∀ k, k ∈ failed ↔ Failing tests passes s.files k) → History (step form sort s (.run (.all failed begin') recorded)) begin'
  /-- At least those tests are run which are selected by pruning. -/
  | pruned {s : State K} {t recorded : Nat} {exe : Option Nat} {selected executed failed : List K} : History s t → t ≤ recorded → Proper form (.selected executed failed) →
      selection form sort exe s = .ok (some selected) → (∀ k ∈ selected, tests k → k ∈ executed) → (∀ k ∈ executed, tests k) →
      (∀ k, k ∈ failed ↔ k ∈ executed ∧ Failing tests passes s.files k) → History (step form sort s (.run (.selected executed failed) recorded)) recorded
  /-- Any tests are run; but, of those recorded as passing, at least those which have changed since the latest record. -/
  | selected {s : State K} {t recorded : Nat} {executed failed : List K} : History s t → t ≤ recorded → Proper form (.selected executed failed) →
      (∀ k ∈ readTests form s.disk.passes, k ∉ executed → ∀ p, s.passesTime = some p → ∀ x, TestAt s.files x k → ¬ TestChangedAfter s.files true p x) → (∀ k ∈ executed, tests k) →
      (∀ k, k ∈ failed ↔ k ∈ executed ∧ Failing tests passes s.files k) → History (step form sort s (.run (.selected executed failed) recorded)) recorded
end

end Verif.Spec.Incremental
