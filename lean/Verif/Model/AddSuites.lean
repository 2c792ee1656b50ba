import Verif.Model.Suite
import Verif.Model.RunReport
import Verif.Model.RunnerArgs
import Verif.Model.Includes
/-
The suites of the test runner: /repo/Source/sequoia/TestFramework/TestRunner.hpp, `add_test_suite`, `check_for_duplicates` and `extract_suite_tree`, and TestRunner.cpp,
`check_for_missing_tests`, `nothing_to_do` and `execute`, as far as it does not look for instabilities.

`L` stands for tests as they are given to the runner, and `T` for tests which have been told where they belong.  What the latter involves, in particular their materials
(`Verif.Model.Materials`), is left to a function.  Comparison of a selected path with the source of a test is a parameter, see `Verif.Model.PathEquivalence`; it is taken not to throw.
-/
namespace Verif.AddSuites
open Verif.Graph Verif.Text Verif.Suites Verif.RunTests Verif.RunReport

/-- The two overloads of `add_test_suite`, TestRunner.hpp:267-286: for tests, and for suites. -/
inductive Addition (L : Type) where
  | tests (name : String) (tests : List L)
  | suites (name : String) (subs : List (Suite String L))

/-- What is asked of tests: `name`, `source_file`, the construction of the test which is run, TestRunner.hpp:405-412, from the name of the suite which has been added, and
whether a selected path is equivalent to the source of a test. -/
structure About (L T P : Type) where
  name : L → String
  source : L → P
  prepare : String → L → T
  selects : Str → L → Bool

/-- What `m_Suites` and `m_Filter` are. -/
structure State (T : Type) where
  suites : Suites Found T
  filter : Granular Str Str

section
variable {L T P : Type} [DecidableEq P] (a : About L T P)

/-- `check_for_duplicates`, TestRunner.hpp:430-446; `seen` is the set, which an element is put into unless it is there. -/
def checkForDuplicates : List L → List (String × P) → Res Unit
  | [], _ => .ok ()
  | t :: ts, seen => if (a.name t, a.source t) ∈ seen then .throws else checkForDuplicates ts ((a.name t, a.source t) :: seen)

/-- `suite_type::npos`. -/
def npos : Nat := 2 ^ 64 - 1

/-- The root, TestRunner.hpp:390-393. -/
def addRoot (g : Suites Found T) : Res (Suites Found T) :=
  if g.edges.length = 0 then (addTo .forward () () npos ⟨Found.nothing "", none⟩ g).bind fun x => .ok x.1 else .ok g

/-- The name of a suite, `testSuite.name()`. -/
def nameOf : Suite String L → String
  | .flat s _ => s
  | .deep s _ => s

omit [DecidableEq P] in
/-- `extract_suite_tree`, TestRunner.hpp:384-421.  What is pruned are nodes without edges, so that there is no recursion. -/
def extractSuiteTree (s : Suite String L) (st : State T) : Res (State T) :=
  (addRoot st.suites).bind fun g =>
    (extractTree (fun (f : Granular Str Str) l path => f.apply a.selects String.toList l path) .forward () () 1
      (fun name => ⟨Found.nothing name, none⟩) (fun l => ⟨Found.nothing (a.name l), some (a.prepare (nameOf s) l)⟩) [] 0 s (g, st.filter)).bind fun c =>
        .ok ⟨c.1, c.2⟩

/-- `add_test_suite`, TestRunner.hpp:267-286. -/
def addTestSuite : Addition L → State T → Res (State T)
  | .tests name ts, st => (checkForDuplicates a ts []).bind fun _ => extractSuiteTree a (.flat name ts) st
  | .suites name subs, st => extractSuiteTree a (.deep name subs) st

/-- Calls of `add_test_suite`, one after the other. -/
def addTestSuites : List (Addition L) → State T → Res (State T)
  | [], st => .ok st
  | s :: ss, st => (addTestSuite a s st).bind (addTestSuites ss)
end

/-- `warning`, CommandLineArguments.cpp:22-25 and 63-66, with the default indentation. -/
def warning (message : Str) : Str := "  ".toList ++ "Warning".toList ++ ": ".toList ++ message

/-- `check` in `check_for_missing_tests`, TestRunner.cpp:686-703. -/
def check (type : Str) (hint : Str → Str) : Selection Str → Str
  | none => []
  | some r => r.flatMap fun e => if !e.2 then warning ("Test ".toList ++ type ++ " '".toList ++ e.1 ++ "' not found\n".toList ++ hint e.1) else []

/-- `check_for_missing_tests`, TestRunner.cpp:682-724: what is printed. -/
def checkForMissingTests (pruning : Bool) (f : Granular Str Str) : Str :=
  if pruning then []
  else
    check "Suite".toList (fun name => if name.contains '.' then "    If trying to select a source file use 'select' rather than 'test'\n".toList else []) f.suites ++
    check "File".toList (fun p => if !Includes.hasExtension p then "    If trying to test a suite use 'test' rather than 'select'\n".toList else []) f.items

/-- `nothing_to_do`, TestRunner.cpp:953-970: what is printed, if there is nothing to do. -/
def nothingToDo (pruning : Bool) (order : Nat) : Option Str :=
  if order = 0 then some "Nothing to do: try creating some tests!\nRun with --help to see options\n".toList
  else if order = 1 then
    some (if pruning then "Nothing to do: no changes since the last run, therefore 'prune' has pruned all tests\n".toList else [])
  else none

section
variable {T : Type} (render : Int → Nat → Str) (c : Settings T)

/-- `execute`, TestRunner.cpp:726-795, unless instabilities are looked for: what is printed. -/
def execute (test pruning : Bool) (reps : Nat) (st : State T) : Res Str :=
  if !test then .ok []
  else
    let missing := checkForMissingTests pruning st.filter
    match nothingToDo pruning st.suites.edges.length with
    | some text => .ok (missing ++ text)
    | none => (executeReports render c reps st.suites).bind fun text => .ok (missing ++ text)
end

end Verif.AddSuites
