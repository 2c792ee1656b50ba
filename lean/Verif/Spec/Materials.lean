import Verif.Model.Materials
/-
What it means that the materials of a test are ready.  Paths are lists of names; `get` says what there is at a path.
-/
namespace Verif.Spec.Materials
open Verif.Materials

variable {C : Type}

/-- Everything that exists is in a directory. -/
def Tree (fs : FS C) : Prop := get fs [] = some .dir ∧ ∀ p n, get fs (p ++ [n]) ≠ none → get fs p = some .dir

/-- Neither of the paths is the other one or contains it. -/
def Apart (p q : Path) : Prop := ¬ p <+: q ∧ ¬ q <+: p

/-- There is a directory of materials for the test. -/
def HasMaterials (R : Roots) (fs : FS C) (rel : Path) : Prop := get fs (R.materials ++ rel) = some .dir

/-- The test has predictions. -/
def HasPrediction (R : Roots) (fs : FS C) (rel : Path) : Prop := get fs (R.materials ++ rel ++ ["Prediction"]) ≠ none

/-- At `p`, there is now what was at `q`, at all levels. -/
def CopyOf (old new : FS C) (p q : Path) : Prop := ∀ r, get new (p ++ r) = get old (q ++ r)

/-- At `p`, there is an empty directory. -/
def EmptyDir (fs : FS C) (p : Path) : Prop := get fs p = some .dir ∧ ∀ r, r ≠ [] → get fs (p ++ r) = none

/-- The temporary materials of a test are as they should be before the test is run: without predictions they are a copy of the materials; otherwise they have a copy of what is to be worked on, which is
empty if there is nothing, a copy of the auxiliary materials, if any, and nothing else. -/
structure Prepared (R : Roots) (old new : FS C) (rel : Path) : Prop where
  simple : ¬ HasPrediction R old rel → CopyOf old new (R.temporary ++ rel) (R.materials ++ rel)
  root : get new (R.temporary ++ rel) = some .dir
  working : HasPrediction R old rel → get old (R.materials ++ rel ++ ["WorkingCopy"]) ≠ none → CopyOf old new (R.temporary ++ rel ++ ["WorkingCopy"]) (R.materials ++ rel ++ ["WorkingCopy"])
  empty : HasPrediction R old rel → get old (R.materials ++ rel ++ ["WorkingCopy"]) = none → EmptyDir new (R.temporary ++ rel ++ ["WorkingCopy"])
  auxiliary : HasPrediction R old rel → CopyOf old new (R.temporary ++ rel ++ ["Auxiliary"]) (R.materials ++ rel ++ ["Auxiliary"])
  nothingElse : HasPrediction R old rel → ∀ n r, n ≠ "WorkingCopy" → n ≠ "Auxiliary" → get new (R.temporary ++ rel ++ n :: r) = none

/-- No file is where a directory is needed for the temporary materials of the test. -/
def NotBlocked (R : Roots) (fs : FS C) (rel : Path) : Prop := ∀ q c, q <+: R.temporary ++ rel → get fs q = some (.file c) → q = R.temporary ++ rel

/-- The tests whose materials are prepared. -/
def Relevant (R : Roots) (fs : FS C) (suites : List (List Path)) (rel : Path) : Prop := (∃ s ∈ suites, rel ∈ s) ∧ HasMaterials R fs rel

/-- Nothing has changed, except in the temporary materials of these tests and for directories leading to them. -/
def SameElsewhere (R : Roots) (old new : FS C) (tests : Path → Prop) : Prop :=
  ∀ q, (∀ rel, tests rel → ¬ R.temporary ++ rel <+: q) →
    get new q = get old q ∨ (get old q = none ∧ get new q = some .dir ∧ ∃ rel, tests rel ∧ q <+: R.temporary ++ rel)

end Verif.Spec.Materials
