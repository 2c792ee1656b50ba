import Verif.Model.PruneFiles
/-
What the recorded outcomes of tests are to be: for each test, that of the latest run which executed it.
-/
namespace Verif.Spec.Prune
open Verif.PruneFiles

variable {K : Type}

/-- The tests which fail in a run. -/
def Fails : Run K → K → Prop
  | .all failed _, k => k ∈ failed
  | .selected _ failed, k => k ∈ failed

/-- The tests which a run executes. -/
def Executes : Run K → K → Prop
  | .all _ _, _ => True
  | .selected executed _, k => k ∈ executed

/-- The latest run which executed the test is one in which it failed. -/
def LatestFailed (runs : List (Run K)) (k : K) : Prop :=
  ∃ before r after, runs = before ++ r :: after ∧ Fails r k ∧ ∀ r' ∈ after, ¬ Executes r' k

/-- The latest run which executed the test is one of selected tests, in which it passed. -/
def LatestPassedSelected (runs : List (Run K)) (k : K) : Prop :=
  ∃ before executed failed after, runs = before ++ .selected executed failed :: after ∧ k ∈ executed ∧ k ∉ failed ∧ ∀ r' ∈ after, ¬ Executes r' k

/-- No white space in the path, and the text is that of the path. -/
def Legible (form : Form K) (k : K) : Prop := form.ofStr (form.str k) = k ∧ form.str k ≠ [] ∧ ∀ c ∈ form.str k, isSpace c = false

/-- Failing tests have been executed; no source file contains two tests; there is no white space in paths. -/
def Proper (form : Form K) : Run K → Prop
  | .all failed _ => failed.Nodup ∧ ∀ k ∈ failed, Legible form k
  | .selected executed failed => failed.Nodup ∧ executed.Nodup ∧ (∀ k ∈ failed, k ∈ executed) ∧ ∀ k ∈ executed, Legible form k

/-- Sorting is a rearrangement into increasing order. -/
def Sorts [LE K] (sort : List K → List K) : Prop := ∀ l, (sort l).Perm l ∧ (sort l).Pairwise (· ≤ ·)

end Verif.Spec.Prune
