import Verif.Model.Basic
/-
Model of the preparation of the materials of tests: `set_materials` (/repo/Source/sequoia/TestFramework/TestRunner.cpp:275-305), the paths of `individual_materials_paths`
(/repo/Source/sequoia/TestFramework/IndividualTestPaths.cpp:96-145) and the places from which it is called (/repo/Source/sequoia/TestFramework/TestRunner.hpp:384-419 and
/repo/Source/sequoia/TestFramework/TestRunner.cpp:972-999).

The file system is a list of what there is, with absolute paths, which are lists of names.  Symbolic links, permissions and failures of the file system, other than those which follow from its
state, are not modelled.
-/
namespace Verif.Materials

abbrev Path := List String

/-- What there may be at a path. -/
inductive Node (C : Type) where
  | dir
  | file (c : C)
  deriving DecidableEq, Repr

abbrev FS (C : Type) := List (Path × Node C)

section
variable {C : Type}

/-- What there is at a path. -/
def get (fs : FS C) (p : Path) : Option (Node C) := (fs.find? fun e => e.1 == p).map (·.2)

/-- `fs::exists`. -/
def exists' (fs : FS C) (p : Path) : Bool := (get fs p).isSome

/-- The path from `p` to `q`, if `q` is `p` or below it. -/
def below : Path → Path → Option Path
  | [], q => some q
  | _ :: _, [] => none
  | a :: p, b :: q => if a == b then below p q else none

/-- The directory containing `p`. -/
def parent (p : Path) : Path := p.dropLast

/-- `fs::remove_all`. -/
def removeAll (p : Path) (fs : FS C) : FS C := fs.filter fun e => (below p e.1).isNone

/-- There is a directory at the path. -/
def isDir (fs : FS C) (p : Path) : Bool :=
  match get fs p with
  | some .dir => true
  | _ => false

/-- There is a file at the path. -/
def isFile (fs : FS C) (p : Path) : Bool :=
  match get fs p with
  | some (.file _) => true
  | _ => false

/-- The path and those which contain it. -/
def prefixes (p : Path) : List Path := (List.range (p.length + 1)).map fun k => p.take k

/-- `fs::create_directories`: it is an error if there is a file in the way. -/
def createDirectories (p : Path) (fs : FS C) : Res (FS C) :=
  if (prefixes p).any (isFile fs) then .throws
  else .ok (((prefixes p).filter fun q => !exists' fs q).map (fun q => (q, .dir)) ++ fs)

/-- `fs::create_directory`: nothing happens if there is a directory already. -/
def createDirectory (p : Path) (fs : FS C) : Res (FS C) :=
  if isDir fs p then .ok fs
  else if exists' fs p || !isDir fs (parent p) then .throws
  else .ok ((p, .dir) :: fs)

/-- What there is at `src` and below it, moved to `dst`. -/
def transplant (src dst : Path) (fs : FS C) : FS C := fs.filterMap fun e => (below src e.1).map fun r => (dst ++ r, e.2)

/-- `fs::copy(src, dst, recursive | overwrite_existing)`.  The case in which there is something below the directory `dst` already is not modelled: it counts as undefined. -/
def copy (src dst : Path) (fs : FS C) : Res (FS C) :=
  match get fs src with
  | none => .throws
  | some (.file c) =>
    match get fs dst with
    | some .dir =>
      match src.getLast? with
      | none => .ub
      | some n => if isDir fs (dst ++ [n]) then .throws else .ok ((dst ++ [n], .file c) :: fs)
    | _ => if isDir fs (parent dst) then .ok ((dst, .file c) :: fs) else .throws
  | some .dir =>
    if isFile fs dst || !(isDir fs dst || isDir fs (parent dst)) then .throws
    else if fs.any (fun e => (below dst e.1).any fun r => r != []) then .ub
    else .ok (transplant src dst fs ++ fs)

/-- The root of the materials and that of the temporary ones. -/
structure Roots where
  materials : Path
  temporary : Path

variable (R : Roots)

/-- `individual_materials_paths::original_materials`, for a test with the given relative path; IndividualTestPaths.cpp:96-104. -/
def original (rel : Path) : Path := R.materials ++ rel

/-- `individual_materials_paths::temporary_materials`. -/
def temporary (rel : Path) : Path := R.temporary ++ rel

/-- Whether `individual_materials_paths::prediction` is not empty, IndividualTestPaths.cpp:139-145. -/
def hasPrediction (fs : FS C) (rel : Path) : Bool := exists' fs (original R rel ++ ["Prediction"])

/-- `individual_materials_paths::working`, IndividualTestPaths.cpp:106-112. -/
def working (fs : FS C) (rel : Path) : Path := if hasPrediction R fs rel then temporary R rel ++ ["WorkingCopy"] else temporary R rel

/-- `individual_materials_paths::original_working`, IndividualTestPaths.cpp:114-120. -/
def originalWorking (fs : FS C) (rel : Path) : Path := if hasPrediction R fs rel then original R rel ++ ["WorkingCopy"] else original R rel

/-- The working copy is made, TestRunner.cpp:287-294. -/
def copyWorking (rel : Path) (fs : FS C) : Res (FS C) :=
  if exists' fs (originalWorking R fs rel) then copy (originalWorking R fs rel) (working R fs rel) fs else createDirectory (working R fs rel) fs

/-- The auxiliary materials are copied, TestRunner.cpp:296-299; without predictions the path of the originals is empty, IndividualTestPaths.cpp:122-132. -/
def copyAuxiliary (rel : Path) (fs : FS C) : Res (FS C) :=
  if hasPrediction R fs rel && exists' fs (original R rel ++ ["Auxiliary"]) then copy (original R rel ++ ["Auxiliary"]) (temporary R rel ++ ["Auxiliary"]) fs else .ok fs

/-- `set_materials`, TestRunner.cpp:275-305, as far as it has effects; `done` are the working copies which have been made. -/
def setMaterials (rel : Path) (done : List Path) (fs : FS C) : Res (List Path × FS C) :=
  if !exists' fs (original R rel) then .ok (done, fs)
  else if done.contains (working R fs rel) then .ok (done, fs)
  else
    (createDirectories (temporary R rel) (removeAll (temporary R rel) fs)).bind fun fs₁ =>
      (copyWorking R rel fs₁).bind fun fs₂ => (copyAuxiliary R rel fs₂).bind fun fs₃ => .ok (done ++ [working R fs rel], fs₃)

/-- The tests of a suite, or all tests if they are reset, in turn; TestRunner.hpp:395-417, TestRunner.cpp:976-998. -/
def setSuite : List Path → List Path → FS C → Res (FS C)
  | [], _, fs => .ok fs
  | rel :: rels, done, fs => (setMaterials R rel done fs).bind fun (done, fs) => setSuite rels done fs

/-- The suites in turn; each starts with no record of what has been done, TestRunner.hpp:395. -/
def setSuites : List (List Path) → FS C → Res (FS C)
  | [], fs => .ok fs
  | s :: l, fs => (setSuite R s [] fs).bind (setSuites l)

end

end Verif.Materials
