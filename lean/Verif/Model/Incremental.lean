/-
A project in the course of its development: files change, tests are run, with or without pruning, and what has been found is recorded for the next run.
Composed of `Verif.Model.Dependency` and `Verif.Model.PruneFiles`.
-/
import Verif.Model.Dependency
import Verif.Model.PruneFiles

namespace Verif.Incremental

open Verif.Dependency Verif.PruneFiles

/-- What there is between two runs: the files of the project, the records, and the time at which the file with the passes of selected tests was written, `passesStamp` in
DependencyAnalyzer.cpp:418. -/
structure State (K : Type) where
  files : List (File K)
  disk : Disk
  passesTime : Option Nat

/-- What happens: files are changed; or tests are run, and the run is recorded at the given time, by `update_prune_info`, TestRunner.cpp:260-272. -/
inductive Step (K : Type) where
  | change (files : List (File K))
  | run (run : Run K) (recorded : Nat)

section
variable {K : Type} [LinearOrder K] (form : Form K) (sort : List K → List K)

/-- `tests_to_run`, DependencyAnalyzer.cpp:554-571, with `find_stale_tests`, 363-454; `exe` is the time stamp of the executable.  If there is no time stamp then there is no
selection. -/
def selection (exe : Option Nat) (s : State K) : Res (Option (List K)) :=
  match s.disk.stamp with
  | none => .ok none
  | some t =>
    (findStaleTests sort t exe (s.passesTime.map fun p => (readTests form s.disk.passes, p)) s.files).bind fun stale => .ok (testsToRun form stale s.disk)

/-- The time stamp of the file with the passes: after a run of all tests there is no such file, DependencyAnalyzer.cpp:581, and after a run of selected tests it has just been written, 612. -/
def passesTimeAfter (recorded : Nat) : Run K → Option Nat
  | .all _ _ => none
  | .selected _ _ => some recorded

/-- The effect of a step; runs have that of `update_prune_files`, DependencyAnalyzer.cpp:573-613. -/
def step (s : State K) : Step K → State K
  | .change fs => { s with files := fs }
  | .run r t => ⟨s.files, applyAll s.disk (r.ops form sort s.disk), passesTimeAfter t r⟩

end

end Verif.Incremental
