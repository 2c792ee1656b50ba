import Verif.Model.PathEquivalence
/-
Model of the files in which the outcome of tests is recorded: `test_summary_filename` and `versioned_diagnostics` (/repo/Source/sequoia/TestFramework/IndividualTestPaths.cpp:26-92), the writing of summaries
by `test_tracker` (/repo/Source/sequoia/TestFramework/TestRunner.cpp:200-259) and that of diagnostics (/repo/Source/sequoia/TestFramework/TestRunner.cpp:307-313,
/repo/Source/sequoia/TestFramework/TestRunner.hpp:206-217).

`stem` of a name of a file, a function of the standard library, is a parameter.  Tests are executed one after the other.  Failures of the file system are not modelled.
-/
namespace Verif.Reports
open Verif.PathEquivalence

/-- What is appended to the name because of a discriminator, or a platform. -/
def discriminated : Option String → String
  | none => ""
  | some d => if d.isEmpty then "" else "_" ++ d

/-- The name of a summary, IndividualTestPaths.cpp:65-73, for a source file with the given name. -/
def summaryName (stem : String → String) (disc : Option String) (f : String) : String := stem f ++ discriminated disc ++ ".txt"

/-- `test_summary_filename`, IndividualTestPaths.cpp:58-92; `S` is the directory of summaries. -/
def summaryPath (stem : String → String) (S repo source : Path) (disc : Option String) : Res Path :=
  match source.getLast? with
  | none => .throws
  | some f =>
    let name := source.dropLast ++ [summaryName stem disc f]
    if !isAbsolute name then
      match repo.getLast? with
      | none => .ok name
      | some b => (rebaseFrom name repo).bind fun r => .ok (S ++ b :: r)
    else .ok (S ++ (mismatch name S).1)

/-- The three kinds of tests. -/
inductive Mode where
  | standard | falsePositive | falseNegative
  deriving DecidableEq, Repr

/-- `to_tag`, IndividualTestPaths.cpp:26-41. -/
def tag : Mode → String
  | .falsePositive => "FP"
  | .falseNegative => "FN"
  | .standard => ""

/-- `replace_all(suite, " ", "_")`. -/
def underscored (s : String) : String := s.map fun c => if c == ' ' then '_' else c

/-- `versioned_diagnostics`, IndividualTestPaths.cpp:43-56. -/
def diagnosticsPath (stem : String → String) (dir : Path) (suite source : String) (mode : Mode) (suffix : String) (platform : Option String) : Path :=
  dir ++ [underscored suite, stem source ++ "_" ++ tag mode ++ suffix ++ discriminated platform ++ ".txt"]

/-- What there is in a file, if there is one. -/
abbrev Files := Path → Option String

def Files.write (fs : Files) (p : Path) (text : String) : Files := fun q => if q = p then some text else fs q

/-- What a test leaves to be recorded. -/
structure Report where
  summaryFile : Path
  summary : String
  diagnosticsFile : Path
  diagnostics : String
  exceptionsFile : Path
  exceptions : String
  critical : Bool

/-- `versioned_write`, TestRunner.cpp:307-313. -/
def versionedWrite (p : Path) (text : String) (fs : Files) : Files := if !text.isEmpty || (fs p).isSome then fs.write p text else fs

/-- `write_versioned_output`, TestRunner.hpp:206-217. -/
def writeVersioned (o : Report) (fs : Files) : Files :=
  if o.critical then fs else versionedWrite o.exceptionsFile o.exceptions (versionedWrite o.diagnosticsFile o.diagnostics fs)

/-- The files written to and the state of the files. -/
structure Tracker where
  written : List Path
  files : Files

/-- `test_tracker::to_file`, TestRunner.cpp:234-259. -/
def toFile (o : Report) (t : Tracker) : Tracker :=
  if o.summaryFile.isEmpty then t
  else if t.written.contains o.summaryFile then ⟨t.written, t.files.write o.summaryFile ((t.files o.summaryFile).getD "" ++ o.summary)⟩
  else ⟨o.summaryFile :: t.written, t.files.write o.summaryFile o.summary⟩

/-- A run: each test is executed and then processed, TestRunner.cpp:200-222. -/
def record (t : Tracker) (o : Report) : Tracker := toFile o ⟨t.written, writeVersioned o t.files⟩

def runAll (os : List Report) (fs : Files) : Files := (os.foldl record ⟨[], fs⟩).files

end Verif.Reports
