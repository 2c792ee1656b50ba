import Verif.Model.FailureInfo
import Mathlib.Data.Prod.Lex
import Mathlib.Data.Char
/-
Model of the analysis of instabilities from the files that the tests write to the report: /repo/Source/sequoia/TestFramework/ProjectPaths.cpp (the names of the
files), FreeTestCore.cpp and TestRunner.cpp (writing them) and FailureInfo.cpp (reading and comparing them).

A path is the list of its elements below the directory of the analysis; the file system is a list of the files in that directory, with their texts.  Names of tests
are taken as single elements of a path: a name with a separator would make several elements.  Failures to open a file are not modelled.
-/
namespace Verif.Instability
open Verif.Text Verif.FailureInfo

abbrev Path := List Str

/-- `std::filesystem::path::stem` and `extension` of the name of a file: the extension begins with the last dot, unless that is the first character, or the name is
".." . -/
def splitExtension (file : Str) : Str × Str :=
  if file = ['.', '.'] then (file, [])
  else
    let beyond := (file.reverse.takeWhile (· ≠ '.')).length
    if file.length ≤ beyond + 1 then (file, []) else (file.take (file.length - beyond - 1), file.drop (file.length - beyond - 1))

/-- `replace`, Substitutions.cpp:104-118, of a single character: only the first occurrence. -/
def replaceFirst (a b : Char) : Str → Str
  | [] => []
  | c :: t => if c = a then b :: t else c :: replaceFirst a b t

/-- A test: its source file, in which directory that is, its name and the failures of each repetition. -/
structure Test where
  directory : Path
  file : Str
  name : Str
  failures : Nat → List Info

/-- The name of the directory for a source file, `output_paths::instability_analysis_file`, ProjectPaths.cpp:354-356. -/
def folder (file : Str) : Str := (splitExtension file).1 ++ replaceFirst '.' '_' (splitExtension file).2

/-- `replace_all` of blanks, ProjectPaths.cpp:357. -/
def underscored (name : Str) : Str := name.map fun c => if c = ' ' then '_' else c

/-- "Output_" + index + ".txt", ProjectPaths.cpp:357. -/
def outputName (index : Nat) : Str := ['O', 'u', 't', 'p', 'u', 't', '_'] ++ Nat.toDigits 10 index ++ ['.', 't', 'x', 't']

/-- `output_paths::instability_analysis_file`, ProjectPaths.cpp:351-358.  The directory of the source file has no influence. -/
def outputFile (t : Test) (index : Nat) : Path := [folder t.file, underscored t.name, outputName index]

/-- A file is written: what was there is replaced. -/
def write (files : List (Path × Str)) (p : Path) (text : Str) : List (Path × Str) := (p, text) :: files.filter (·.1 ≠ p)

/-- `test_base::write_instability_analysis_output`, FreeTestCore.cpp:37-44, after each execution of a test, TestRunner.hpp:195. -/
def writeResult (files : List (Path × Str)) (t : Test) (index : Nat) : List (Path × Str) := write files (outputFile t index) (writeOutput (t.failures index))

/-- The executions of tests, TestRunner.cpp:781-795, in the order in which they end.  The directory is empty at the beginning, TestRunner.cpp:736-739. -/
def execute (history : List (Test × Nat)) : List (Path × Str) := history.foldl (fun files e => writeResult files e.1 e.2) []

/-- The extension of the last element of a path. -/
def extension (p : Path) : Str := match p.getLast? with | some f => (splitExtension f).2 | none => []

/-- The part of a text up to the last occurrence of a character, and the part beyond it. -/
def splitLast (c : Char) (s : Str) : Option (Str × Str) :=
  let beyond := (s.reverse.takeWhile (· ≠ c)).length
  if s.length ≤ beyond then none else some (s.take (s.length - beyond - 1), s.drop (s.length - beyond))

/-- `source_from_instability_analysis`, FailureInfo.cpp:114-129, for the directory of a file. -/
def sourceOf (p : Path) : Str :=
  match p.dropLast.dropLast.getLast? with
  | none => []
  | some s => match splitLast '_' s with | some (a, b) => a ++ '.' :: b | none => s

/-- The order of failures, FailureInfo.hpp:24-25: by index and then by message. -/
abbrev Key := Nat ×ₗ Str

def key (i : Info) : Key := toLex (i.checkIndex, i.message)

def keyMessage (k : Key) : Str := (ofLex k).2

/-- Reading the files of a group, FailureInfo.cpp:256-269. -/
def readAll : List (Path × Str) → Res (List (List Key))
  | [] => .ok []
  | f :: files => (readOutput ['\t'] f.2).bind fun output => (readAll files).bind fun outputs => .ok (output.map key :: outputs)

/-- The loop of `instability_analysis`, FailureInfo.cpp:253-275: the file each report names, and the report. -/
def reports (trials : Nat) : Nat → List (Path × Str) → Res (List (Str × List Nat × Str))
  | 0, _ => .ub
  | _ + 1, [] => .ok []
  | fuel + 1, f :: files =>
    (readAll ((f :: files).take trials)).bind fun outputs =>
      (analyseOutput keyMessage (outputs.insertionSort (· ≤ ·))).bind fun r =>
        (reports trials fuel ((f :: files).drop trials)).bind fun rs => .ok (r.toList.map (fun r => (sourceOf f.1, r)) ++ rs)

/-- `instability_analysis`, FailureInfo.cpp:227-279, for the files in the order in which the directory is traversed; an empty list stands for the text "No
instabilities detected", and for an empty text if there is only one trial. -/
def analyse (trials : Nat) (listing : List (Path × Str)) : Res (List (Str × List Nat × Str)) :=
  if trials ≤ 1 then .ok []
  else
    let files := (listing.filter fun f => extension f.1 = ['.', 't', 'x', 't']).insertionSort fun a b => a.1 ≤ b.1
    if files.length % trials ≠ 0 then .throws else reports trials (files.length + 1) files

end Verif.Instability
