import Verif.Model.Basic
/-
Model of the selection of tests by the paths of their sources: `rebase_from` and `find_in_tree` (/repo/Source/sequoia/TestFramework/FileSystemUtilities.cpp:92-151), `rfind` and `back`
(/repo/Source/sequoia/FileSystem/FileSystem.hpp:46-75) and `path_equivalence` (/repo/Source/sequoia/TestFramework/TestRunner.cpp:325-351).

A path is the list of its elements, the first of which is "/" if it is absolute; it is normal.  Names of roots, other than "/", and symbolic links are not modelled, and files do not come or go meanwhile.
-/
namespace Verif.PathEquivalence

abbrev Path := List String

/-- `is_absolute`. -/
def isAbsolute (p : Path) : Bool := p.head? == some "/"

/-- `rfind`, FileSystem.hpp:58-75: the elements from the last instance of the pattern on; none, if there is no instance. -/
def rfind (x : String) : Path → Path
  | [] => []
  | a :: l => if (rfind x l).isEmpty then (if a == x then a :: l else []) else rfind x l

/-- `std::ranges::mismatch`: what remains of each of the paths. -/
def mismatch : Path → Path → Path × Path
  | a :: p, b :: q => if a == b then mismatch p q else (a :: p, b :: q)
  | p, q => (p, q)

/-- `fs::relative` for absolute paths. -/
def relative (p dir : Path) : Path :=
  match mismatch p dir with
  | ([], []) => ["."]
  | (p, dir) => dir.map (fun _ => "..") ++ p

/-- `rebase_from`, FileSystemUtilities.cpp:128-151; `dir` is a directory, or there is nothing there. -/
def rebaseFrom (p dir : Path) : Res Path :=
  if p.isEmpty then .ok p
  else if dir.isEmpty then .throws
  else if isAbsolute p && isAbsolute dir then .ok (relative p dir)
  else
    match p.dropWhile (· == "..") with
    | [] => .throws
    | x :: l => if x == "" then .throws else .ok (mismatch (x :: l) (rfind x dir)).1

/-- `find_in_tree`, FileSystemUtilities.cpp:92-126; `entries` are the paths of what there is, relative to the root, in the order of the iteration, which is not specified. -/
def findInTree (root : Path) (entries : List Path) (toFind : Path) : Path :=
  if toFind.isEmpty then []
  else
    match entries.find? fun e => toFind.isSuffixOf (root ++ e) with
    | some e => root ++ e
    | none => []

/-- The part of `path_equivalence::operator()` which is about the repository, TestRunner.cpp:337-348. -/
def inRepo (repo : Path) (entries : List Path) (selected file : Path) : Res Bool :=
  if repo.isEmpty then .ok false
  else
    (rebaseFrom selected repo).bind fun s => (rebaseFrom file repo).bind fun f =>
      if s == f then .ok true
      else if (findInTree repo entries selected).isEmpty then .ok false
      else (rebaseFrom (findInTree repo entries selected) repo).bind fun s => (rebaseFrom file repo).bind fun f => .ok (s == f)

/-- `path_equivalence::operator()`, TestRunner.cpp:325-351. -/
def equivalent (repo : Path) (entries : List Path) (selected file : Path) : Res Bool :=
  if file.isEmpty || selected.isEmpty || selected.getLast? != file.getLast? then .ok false
  else if file == selected then .ok true
  else inRepo repo entries selected file

end Verif.PathEquivalence
