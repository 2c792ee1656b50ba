/-
Model of the files in which the outcomes of tests are recorded: /repo/Source/sequoia/TestFramework/DependencyAnalyzer.cpp.

Paths are elements of a linear order with a textual form.  The path of a test is taken to be relative to the repository of the tests already, as it is in
`test_paths`, TestRunner.cpp:79-99, so that `rebase_from` in `write_tests` leaves it alone.  A file is a sequence of characters; output arrives in order.
-/
import Verif.Model.Basic
import Mathlib.Order.Defs.LinearOrder

namespace Verif.PruneFiles

/-! ### Algorithms on sorted ranges -/

section
variable {K : Type} [LinearOrder K]

/-- `std::ranges::set_union`; the fuel is the total length. -/
def setUnionAux : Nat → List K → List K → List K
  | 0, _, _ => []
  | _ + 1, [], b => b
  | _ + 1, a, [] => a
  | f + 1, x :: a, y :: b =>
    if x < y then x :: setUnionAux f a (y :: b) else if y < x then y :: setUnionAux f (x :: a) b else x :: setUnionAux f a b

def setUnion (a b : List K) : List K := setUnionAux (a.length + b.length + 1) a b

/-- `std::ranges::set_difference`. -/
def setDifferenceAux : Nat → List K → List K → List K
  | 0, _, _ => []
  | _ + 1, [], _ => []
  | _ + 1, a, [] => a
  | f + 1, x :: a, y :: b =>
    if x < y then x :: setDifferenceAux f a (y :: b) else if y < x then setDifferenceAux f (x :: a) b else setDifferenceAux f a b

def setDifference (a b : List K) : List K := setDifferenceAux (a.length + b.length + 1) a b

/-- `std::ranges::set_intersection`. -/
def setIntersectionAux : Nat → List K → List K → List K
  | 0, _, _ => []
  | _ + 1, [], _ => []
  | _ + 1, _, [] => []
  | f + 1, x :: a, y :: b =>
    if x < y then setIntersectionAux f a (y :: b) else if y < x then setIntersectionAux f (x :: a) b else x :: setIntersectionAux f a b

def setIntersection (a b : List K) : List K := setIntersectionAux (a.length + b.length + 1) a b

/-- `std::ranges::unique`, with what remains erased. -/
def unique : List K → List K
  | [] => []
  | [x] => [x]
  | x :: y :: l => if x = y then unique (y :: l) else x :: unique (y :: l)

end

/-! ### Text -/

/-- `std::isspace`. -/
def isSpace (c : Char) : Bool := c = ' ' || c = '\n' || c = '\t' || c = '\r' || c = Char.ofNat 11 || c = Char.ofNat 12

/-- Repeated extraction from a stream; `cur` is what has been read of the current word.  Paths which begin with a quotation mark are not modelled. -/
def wordsFrom (cur : List Char) : List Char → List (List Char)
  | [] => if cur = [] then [] else [cur]
  | c :: l => if isSpace c then (if cur = [] then wordsFrom [] l else cur :: wordsFrom [] l) else wordsFrom (cur ++ [c]) l

/-- The textual form of paths. -/
structure Form (K : Type) where
  str : K → List Char
  ofStr : List Char → K

section
variable {K : Type} (form : Form K)

/-- `read_tests`, DependencyAnalyzer.cpp:517-541; a file which does not exist has no tests. -/
def readTests : Option (List Char) → List K
  | none => []
  | some text => (wordsFrom [] text).map form.ofStr

/-- What `write_tests` writes, DependencyAnalyzer.cpp:543-552. -/
def written (tests : List K) : List Char := tests.flatMap fun t => form.str t ++ ['\n']

/-! ### Files -/

/-- The files with failures and with passes of selected tests, and the time stamp. -/
structure Disk where
  failures : Option (List Char)
  passes : Option (List Char)
  stamp : Option Nat
  deriving DecidableEq, Repr

/-- The steps in which the files change. -/
inductive DiskOp where
  | openFailures
  | putFailures (c : Char)
  | openPasses
  | putPasses (c : Char)
  | removePasses
  | touch (t : Nat)

/-- The effect of a step. -/
def DiskOp.apply (d : Disk) : DiskOp → Disk
  | .openFailures => { d with failures := some [] }
  | .putFailures c => { d with failures := d.failures.map (· ++ [c]) }
  | .openPasses => { d with passes := some [] }
  | .putPasses c => { d with passes := d.passes.map (· ++ [c]) }
  | .removePasses => { d with passes := none }
  | .touch t => { d with stamp := some t }

def applyAll (d : Disk) (ops : List DiskOp) : Disk := ops.foldl DiskOp.apply d

/-- `update_prune_files` after all tests have been run, DependencyAnalyzer.cpp:573-583. -/
def updateAll (sort : List K → List K) (failed : List K) (time : Nat) : List DiskOp :=
  .openFailures :: (written form (sort failed)).map .putFailures ++ [.removePasses, .touch time]

variable [LinearOrder K]

/-- The failures which are recorded after selected tests have been run, DependencyAnalyzer.cpp:590-609. -/
def newFailures (executed failed prevPasses prevFailures : List K) : List K :=
  setUnion (setDifference prevFailures (setDifference (setUnion executed prevPasses) failed)) failed

/-- The passes which are recorded, DependencyAnalyzer.cpp:595-601. -/
def newPasses (executed failed prevPasses : List K) : List K := setDifference (setUnion executed prevPasses) failed

/-- `update_prune_files` after selected tests have been run, DependencyAnalyzer.cpp:585-613. -/
def updateSelected (sort : List K → List K) (executed failed : List K) (d : Disk) : List DiskOp :=
  let prevPasses := readTests form d.passes
  let prevFailures := readTests form d.failures
  .openFailures :: (written form (newFailures (sort executed) (sort failed) prevPasses prevFailures)).map .putFailures ++
    .openPasses :: (written form (newPasses (sort executed) (sort failed) prevPasses)).map .putPasses

/-- A run of all tests, or of selected ones. -/
inductive Run (K : Type) where
  | all (failed : List K) (time : Nat)
  | selected (executed failed : List K)

/-- The steps at the end of a run. -/
def Run.ops (sort : List K → List K) (d : Disk) : Run K → List DiskOp
  | .all failed time => updateAll form sort failed time
  | .selected executed failed => updateSelected form sort executed failed d

/-- The files after a sequence of runs. -/
def history (sort : List K → List K) : List (Run K) → Disk → Disk
  | [], d => d
  | r :: rs, d => history sort rs (applyAll d (r.ops form sort d))

/-! ### Repetitions -/

/-- `aggregate_failures`, DependencyAnalyzer.cpp:474-489, given the contents of the files. -/
def aggregateFailures (sort : List K → List K) (files : List (Option (List Char))) : List K :=
  unique (sort (files.flatMap (readTests form)))

/-- The intersection in `aggregate_passes`, DependencyAnalyzer.cpp:499-510. -/
def intersectPasses (inter : List K) : List (Option (List Char)) → Option (List K)
  | [] => some inter
  | none :: _ => none
  | some t :: files => intersectPasses (setIntersection (readTests form (some t)) inter) files

/-- `aggregate_passes`, DependencyAnalyzer.cpp:491-515. -/
def aggregatePasses : List (Option (List Char)) → Option (List K)
  | [] => some []
  | none :: _ => none
  | some t :: files => intersectPasses form (readTests form (some t)) files

/-- `aggregate_instability_analysis_prune_files`, DependencyAnalyzer.cpp:622-653, as the run which is recorded. -/
def aggregate (sort : List K → List K) (passive : Bool) (time : Nat) (failures passes : List (Option (List Char))) : Run K :=
  let failing := aggregateFailures form sort failures
  if passive then
    match aggregatePasses form passes with
    | some ps => .selected (ps ++ failing) failing
    | none => .all failing time
  else .all failing time

/-- `tests_to_run`, DependencyAnalyzer.cpp:554-571, given the stale tests. -/
def testsToRun (stale : List K) (d : Disk) : Option (List K) :=
  match d.stamp with
  | none => none
  | some _ => some (setUnion stale (readTests form d.failures))

end

end Verif.PruneFiles
