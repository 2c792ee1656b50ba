/-
Model of how the includes of a project become dependencies: /repo/Source/sequoia/TestFramework/DependencyAnalyzer.cpp, `in_repo`, `is_cpp`, `is_header`, `add_files` and
`build_dependencies` up to the point from which `Verif.Model.Dependency` carries on.

Paths are lists of elements; those of files and directories are absolute, and the root is the empty list.  There are no symbolic links, and files do not come or go meanwhile.
Names are compared character by character.
-/
import Verif.Model.Includes
import Verif.Model.Dependency

namespace Verif.Resolve

open Verif.Includes Verif.Dependency

abbrev Name := List Char
abbrev Path := List Name

/-- A regular file: where it is, what is in it, when it was written and, if there are materials for it, the time stamps of the folder and of everything within. -/
structure Entry where
  path : Path
  content : List Char
  time : Nat
  materials : Option (Nat × List Nat)
  deriving DecidableEq, Repr

structure Disk where
  files : List Entry
  dirs : List Path
  deriving DecidableEq, Repr

/-- The part of `project_paths` which is used: `source().repo()`, `tests().repo()` and `additional_dependency_analysis_paths()`. -/
structure Project where
  source : Path
  tests : Path
  additional : List Path
  deriving DecidableEq, Repr

/-- What is between the separators of a path. -/
def pieces : List Char → List Name
  | [] => [[]]
  | c :: s =>
    if c = '/' then [] :: pieces s
    else
      match pieces s with
      | [] => [[c]]
      | p :: ps => (c :: p) :: ps

/-- The path which has been read; several separators count as one.  (Paths which end with a separator do not occur, as they have no extension.) -/
structure Included where
  absolute : Bool
  elements : Path
  deriving DecidableEq, Repr

/-- The construction of an `fs::path` from text, DependencyAnalyzer.cpp:163-175. -/
def parse (p : List Char) : Included := ⟨p.head? = some '/', (pieces p).filter (· ≠ [])⟩

/-- `path::generic_string` of an absolute path. -/
def text : Path → List Char
  | [] => ['/']
  | [n] => '/' :: n
  | n :: p => '/' :: (n ++ text p)

/-- `path::filename`. -/
def filename (p : Path) : Name := p.getLast?.getD []

/-- `path::stem` and `path::extension` of a file name: the extension starts with the last dot, unless that is the first character. -/
def splitName (n : Name) : Name × Name :=
  if n = ['.', '.'] then (n, [])
  else
    match n.reverse.dropWhile (· ≠ '.') with
    | [] => (n, [])
    | [_] => (n, [])
    | _ :: s => (s.reverse, '.' :: (n.reverse.takeWhile (· ≠ '.')).reverse)

/-- `is_cpp`, DependencyAnalyzer.cpp:76-80. -/
def isCpp (p : Path) : Bool :=
  (splitName (filename p)).2 == ['.', 'c', 'p', 'p'] || (splitName (filename p)).2 == ['.', 'c', 'c'] || (splitName (filename p)).2 == ['.', 'c', 'x', 'x']

/-- `is_header`, DependencyAnalyzer.cpp:83-87. -/
def isHeader (p : Path) : Bool :=
  (splitName (filename p)).2 == ['.', 'h', 'p', 'p'] || (splitName (filename p)).2 == ['.', 'h'] || (splitName (filename p)).2 == ['.', 'h', 'x', 'x']

/-- The loop in `in_repo`, DependencyAnalyzer.cpp:66-71; dereferencing the end of `file` does not occur, as it is longer. -/
def startsWith : Path → Path → Bool
  | _, [] => true
  | [], _ :: _ => true
  | f :: file, r :: repo => if f ≠ r then false else startsWith file repo

/-- `in_repo`, DependencyAnalyzer.cpp:62-73. -/
def inRepo (file repo : Path) : Bool := if repo.length ≥ file.length then false else startsWith file repo

/-- `operator<` for `std::string`. -/
def nameLess : Name → Name → Bool
  | [], [] => false
  | [], _ :: _ => true
  | _ :: _, [] => false
  | c :: s, d :: t => if c.toNat < d.toNat then true else if d.toNat < c.toNat then false else nameLess s t

/-- `operator<` for paths both of which are absolute, or neither. -/
def pathLess : Path → Path → Bool
  | [], [] => false
  | [], _ :: _ => true
  | _ :: _, [] => false
  | m :: p, n :: q => if nameLess m n then true else if nameLess n m then false else pathLess p q

/-- The comparison by which the files are sorted, DependencyAnalyzer.cpp:382-390. -/
def fileLess (a b : Entry) : Bool :=
  if filename a.path ≠ filename b.path then nameLess (filename a.path) (filename b.path) else pathLess a.path b.path

/-- `std::ranges::sort`: which algorithm is used does not matter, as equivalent elements are equal. -/
def insertSorted {α : Type} (less : α → α → Bool) (a : α) : List α → List α
  | [] => [a]
  | b :: l => if less b a then b :: insertSorted less a l else a :: b :: l

/-- `std::ranges::sort`, see `insertSorted`. -/
def sorted {α : Type} (less : α → α → Bool) : List α → List α
  | [] => []
  | a :: l => insertSorted less a (sorted less l)

/-- `add_files`, DependencyAnalyzer.cpp:209-219, apart from the time stamps.  (Directories with the name of a header are left out.) -/
def addedFiles (D : Disk) (repo : Path) : List Entry := D.files.filter fun e => inRepo e.path repo && (isCpp e.path || isHeader e.path)

/-- All files, sorted, DependencyAnalyzer.cpp:373-396. -/
def nodes (D : Disk) (P : Project) : List Entry :=
  sorted fileLess (addedFiles D P.source ++ (addedFiles D P.tests ++ P.additional.flatMap (addedFiles D)))

/-- The search common to `std::ranges::lower_bound` and `std::ranges::upper_bound`, among `len` elements from `first`. -/
def partitionPoint {α : Type} (before : α → Bool) (l : List α) : Nat → Nat → Nat → Nat
  | 0, first, _ => first
  | fuel + 1, first, len =>
    if len = 0 then first
    else
      match l[first + len / 2]? with
      | some a => if before a then partitionPoint before l fuel (first + len / 2 + 1) (len - (len / 2 + 1)) else partitionPoint before l fuel first (len / 2)
      | none => first

/-- `std::ranges::equal_range` for the name of a file, DependencyAnalyzer.cpp:234: the positions of its begin and end. -/
def equalRange (ns : List Entry) (n : Name) : Nat × Nat :=
  (partitionPoint (fun e => nameLess (filename e.path) n) ns ns.length 0 ns.length,
   partitionPoint (fun e => !nameLess n (filename e.path)) ns ns.length 0 ns.length)

/-- `fs::exists(p)` and `fs::canonical(p)` for a path which is `dir` followed by more elements: where one gets to by following these, if there is anything. -/
def canonical (D : Disk) (dir : Path) : Path → Option Path
  | [] => if D.dirs.contains dir || D.files.any (fun e => e.path == dir) then some dir else none
  | n :: rest =>
    if D.dirs.contains dir then
      if n = ['.'] then canonical D dir rest
      else if n = ['.', '.'] then canonical D dir.dropLast rest
      else canonical D (dir ++ [n]) rest
    else none

/-- The predicate for a file, DependencyAnalyzer.cpp:237-255; `dir` is the directory of the file with the include. -/
def isIncluded (D : Disk) (P : Project) (dir : Path) (inc : Included) (e : Entry) : Bool :=
  if inc.absolute then e.path == inc.elements
  else
    e.path == P.source ++ inc.elements || e.path == P.tests ++ inc.elements || P.additional.any (fun p => p ++ inc.elements == e.path)
      || canonical D dir inc.elements == some e.path

/-- `std::ranges::find_if` among positions from `i` on. -/
def findFrom {α : Type} (p : α → Bool) : Nat → List α → Option Nat
  | _, [] => none
  | i, a :: l => if p a then some i else findFrom p (i + 1) l

/-- What becomes of an include: the position of the file it refers to, nothing, or an external dependency. -/
inductive Found where
  | node (j : Nat)
  | nothing
  | external
  deriving DecidableEq, Repr

/-- The search for an included file, DependencyAnalyzer.cpp:234-259 and 295-298. -/
def find (D : Disk) (P : Project) (ns : List Entry) (dir : Path) (inc : Included) : Found :=
  let r := equalRange ns (filename inc.elements)
  if r.1 = r.2 then .external
  else
    match findFrom (isIncluded D P dir inc) r.1 ((ns.drop r.1).take (r.2 - r.1)) with
    | some j => .node j
    | none => .nothing

/-- `get_includes(file, cutoff)`, DependencyAnalyzer.cpp:232. -/
def includedBy (cutoff : List Char) (e : Entry) : List Included := (getIncludes (text e.path.dropLast) cutoff e.content).map parse

def Found.position : Found → Option Nat
  | .node j => some j
  | _ => none

/-- The files to which those included by `e` have been resolved, in order, DependencyAnalyzer.cpp:232-261. -/
def includesOf (D : Disk) (P : Project) (cutoff : List Char) (ns : List Entry) (e : Entry) : List Nat :=
  (includedBy cutoff e).filterMap fun inc => (find D P ns e.path.dropLast inc).position

/-- A number for a stem, as stems are only compared: the position of the first file with this stem. -/
def stemNumber (ns : List Entry) (s : Name) : Nat := ns.findIdx fun e => (splitName (filename e.path)).1 == s

/-- What the analysis of the dependencies, `Verif.Model.Dependency`, starts from. -/
def analysed (D : Disk) (P : Project) (cutoff : List Char) : List (File Path) :=
  (nodes D P).map fun e =>
    { stem := stemNumber (nodes D P) (splitName (filename e.path)).1
      cpp := isCpp e.path
      test := inRepo e.path P.tests
      rel := e.path.drop P.tests.length
      time := e.time
      includes := includesOf D P cutoff (nodes D P) e
      materials := e.materials }

/-- `operator<` for paths which have been read: relative paths come first. -/
def includedLess (a b : Included) : Bool := if a.absolute ≠ b.absolute then b.absolute else pathLess a.elements b.elements

/-- `std::ranges::unique` and `erase`, DependencyAnalyzer.cpp:303-304. -/
def unique {α : Type} [DecidableEq α] : List α → List α
  | [] => []
  | [a] => [a]
  | a :: b :: l => if a = b then unique (b :: l) else a :: unique (b :: l)

/-- The includes of a file which are external, DependencyAnalyzer.cpp:295-298. -/
def externalOf (D : Disk) (P : Project) (cutoff : List Char) (ns : List Entry) (e : Entry) : List Included :=
  (includedBy cutoff e).filter fun inc => find D P ns e.path.dropLast inc = .external

/-- `externalDependencies` as they are written to a file, DependencyAnalyzer.cpp:225-306. -/
def externalDependencies (D : Disk) (P : Project) (cutoff : List Char) : List Included :=
  unique (sorted includedLess ((nodes D P).flatMap (externalOf D P cutoff (nodes D P))))

end Verif.Resolve
