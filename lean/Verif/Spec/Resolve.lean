import Verif.Model.Resolve
import Verif.Spec.Includes
/- What the includes of a project refer to, for a compiler, and which tests have to be run after changes. -/
namespace Verif.Spec.Resolve

open Verif.Resolve (Disk Entry Path Name Project)
open Verif.Spec.Includes (Item)

/-- Following a path from a directory on; `.` is the directory itself and `..` the one above. -/
inductive Walk (D : Disk) : Path → Path → Path → Prop
  | here (p : Path) : Walk D p [] p
  | dot {p rest q : Path} : p ∈ D.dirs → Walk D p rest q → Walk D p (['.'] :: rest) q
  | up {p rest q : Path} : p ∈ D.dirs → Walk D p.dropLast rest q → Walk D p (['.', '.'] :: rest) q
  | down {p rest q : Path} {n : Name} : p ∈ D.dirs → n ≠ ['.'] → n ≠ ['.', '.'] → Walk D (p ++ [n]) rest q → Walk D p (n :: rest) q

/-- The elements of the name of a file: what is between separators. -/
def Elements (name : List Char) (p : Path) : Prop := ∃ ps : List Name, (∀ n ∈ ps, '/' ∉ n) ∧ name = List.intercalate ['/'] ps ∧ p = ps.filter (· ≠ [])

def IsFile (D : Disk) (p : Path) : Prop := ∃ e ∈ D.files, e.path = p

/-- In the given directory, the name is that of the file `q`.  A name which ends with a separator can only be that of a directory. -/
def NamesFile (D : Disk) (dir : Path) (name : List Char) (q : Path) : Prop :=
  (∃ p, Elements name p ∧ Walk D dir p q) ∧ IsFile D q ∧ ∃ c, name.getLast? = some c ∧ c ≠ '/'

/-- A directive. -/
structure Directive where
  angled : Bool
  name : List Char
  deriving DecidableEq, Repr

/-- The directories which a compiler searches for a directive in a file in `own`, in order: absolute names are looked for in the root only, and others in the directories which
have been given to it; but if there are no angle brackets then in the directory of the file first. -/
def places (search : List Path) (own : Path) (d : Directive) : List Path :=
  if d.name.head? = some '/' then [[]] else if d.angled then search else own :: search

/-- The directive refers to `q`: that is what is found first. -/
def Refers (D : Disk) (search : List Path) (own : Path) (d : Directive) (q : Path) : Prop :=
  ∃ before place after, places search own d = before ++ place :: after ∧ NamesFile D place d.name q ∧ ∀ p ∈ before, ∀ q', ¬ NamesFile D p d.name q'

/-- The include directives among the items of a file. -/
def directives : List Item → List Directive
  | [] => []
  | .inclusion _ _ angled name :: l => ⟨angled, name⟩ :: directives l
  | _ :: l => directives l

/-- What is in each file. -/
abbrev Contents := Path → List Item

/-- The file `x` includes `y`. -/
def IncludesFile (D : Disk) (search : List Path) (C : Contents) (x y : Path) : Prop :=
  IsFile D x ∧ ∃ d ∈ directives (C x), Refers D search x.dropLast d y

/-- The name of the file is a stem followed by one of the given extensions. -/
def Named (p : Path) (stem : Name) (exts : List String) : Prop := ∃ dir, ∃ e ∈ exts, p = dir ++ [stem ++ '.' :: e.toList] ∧ stem ≠ []

def SourceFile (p : Path) (stem : Name) : Prop := Named p stem ["cpp", "cc", "cxx"]
def HeaderFile (p : Path) (stem : Name) : Prop := Named p stem ["hpp", "h", "hxx"]

/-- The file `x` depends on: itself, and with each file on those which it includes and, in the case of a header, on the source file with the same name which includes it. -/
inductive Needs (D : Disk) (search : List Path) (C : Contents) (x : Path) : Path → Prop
  | self : Needs D search C x x
  | includes {y z : Path} : Needs D search C x y → IncludesFile D search C y z → Needs D search C x z
  | source {y z : Path} {stem : Name} : Needs D search C x y → HeaderFile y stem → SourceFile z stem → IncludesFile D search C z y → Needs D search C x z

/-- Strictly inside a directory. -/
def Inside (dir p : Path) : Prop := ∃ rest, rest ≠ [] ∧ p = dir ++ rest

/-- The directories of the project. -/
def roots (P : Project) : List Path := P.source :: P.tests :: P.additional

/-- A file in one of the directories of the project, which by its extension is a source file or a header. -/
def InProject (D : Disk) (P : Project) (p : Path) : Prop := IsFile D p ∧ (∃ r ∈ roots P, Inside r p) ∧ ∃ stem, SourceFile p stem ∨ HeaderFile p stem

/-- The test in the file `e`, something on which it depends or something in its materials is newer than `t`; the folder of the materials counts if `folder` says so. -/
def Changed (D : Disk) (search : List Path) (C : Contents) (folder : Bool) (t : Nat) (e : Entry) : Prop :=
  (∃ f ∈ D.files, Needs D search C e.path f.path ∧ t < f.time) ∨ ∃ m, e.materials = some m ∧ ((folder = true ∧ t < m.1) ∨ ∃ s ∈ m.2, t < s)

/-- The test has to be run: something has changed since the time stamp and, if it is among the passing tests, since these have been recorded. -/
def MustRun (D : Disk) (search : List Path) (C : Contents) (prune : Nat) (passes : Option (List Path × Nat)) (e : Entry) (k : Path) : Prop :=
  (∀ ps stamp, passes = some (ps, stamp) → k ∈ ps → Changed D search C true prune e ∧ Changed D search C true stamp e) ∧
  ((∀ ps stamp, passes = some (ps, stamp) → k ∉ ps) → Changed D search C false prune e)

/-- A test: a source file in the directory of the tests. -/
def IsTest (P : Project) (e : Entry) : Prop := (∃ stem, SourceFile e.path stem) ∧ Inside P.tests e.path

/-- What the compiler searches: the directories of the project and possibly others, which are not on this disk. -/
def Searches (D : Disk) (P : Project) (search : List Path) : Prop := (∀ r ∈ roots P, r ∈ search) ∧ ∀ p ∈ search, p ∈ roots P ∨ p ∉ D.dirs

/-- There is nothing strange on the disk: each file is there once, in a directory, and is not a directory itself; names do not contain separators, and are neither empty nor
dots; directories are in directories, and those of the project do not overlap; all source files and headers are in these. -/
structure Orderly (D : Disk) (P : Project) : Prop where
  once : D.files.Pairwise fun a b => a.path ≠ b.path
  parents : ∀ e ∈ D.files, ∀ dir, Inside dir e.path → dir ∈ D.dirs
  kinds : ∀ e ∈ D.files, e.path ∉ D.dirs
  above : ∀ p ∈ D.dirs, p.dropLast ∈ D.dirs
  names : ∀ e ∈ D.files, e.path ≠ [] ∧ ∀ n ∈ e.path, n ≠ [] ∧ n ≠ ['.'] ∧ n ≠ ['.', '.'] ∧ '/' ∉ n
  apart : (roots P).Pairwise fun r s => ¬ r <+: s ∧ ¬ s <+: r
  within : ∀ p stem, IsFile D p → SourceFile p stem ∨ HeaderFile p stem → ∃ r ∈ roots P, Inside r p

/-- What the analysis needs of a directive in a file in `own`: the directories in which it is looked for do not have different files for it, and all there are are source files and headers
in the project;
with angle brackets nothing is found in the directory of the file only; a name without directories is that of a file in the directory of the file; and one with dots is found from there, too. -/
structure Clear (D : Disk) (P : Project) (search : List Path) (own : Path) (d : Directive) : Prop where
  unambiguous : ∀ p ∈ own :: search, ∀ p' ∈ own :: search, ∀ q q', NamesFile D p d.name q → NamesFile D p' d.name q' → q = q'
  inside : ∀ p ∈ [] :: own :: search, ∀ q, NamesFile D p d.name q → InProject D P q
  angled : d.angled = true → ∀ q, NamesFile D own d.name q → ∃ p ∈ search, NamesFile D p d.name q
  bare : '/' ∉ d.name → ∀ p ∈ search, ∀ q, NamesFile D p d.name q → NamesFile D own d.name q
  dots : ∀ p, Elements d.name p → (['.'] ∈ p ∨ ['.', '.'] ∈ p) → ∀ r ∈ search, ∀ q, NamesFile D r d.name q → NamesFile D own d.name q
  absolute : d.name.head? = some '/' → ∀ p, Elements d.name p → ['.'] ∉ p ∧ ['.', '.'] ∉ p

/-- What is known about the texts of the files: they consist of items as C++ takes them to be, which are tame, and directives are clear. -/
structure Readable (D : Disk) (P : Project) (search : List Path) (cutoff : List Char) (C : Contents) : Prop where
  content : ∀ e ∈ D.files, InProject D P e.path → e.content = Spec.Includes.text (C e.path)
  wellFormed : ∀ p, InProject D P p → Spec.Includes.WellFormed cutoff true (C p)
  tame : ∀ p, InProject D P p → Spec.Includes.Tame cutoff false (C p)
  clear : ∀ p, InProject D P p → ∀ d ∈ directives (C p), Clear D P search p.dropLast d

/-- How an external dependency is written: a name without directories as if it were in the directory of the file, any other one as it is. -/
def Written (own : Path) (name : List Char) (absolute : Bool) (p : Path) : Prop :=
  if '/' ∈ name then (absolute = true ↔ name.head? = some '/') ∧ Elements name p else absolute = true ∧ p = own ++ [name]

/-- The file has the name with which the name in a directive ends. -/
def SameFilename (p : Path) (name : List Char) : Prop :=
  ∃ dir parent file, p = dir ++ [file] ∧ name = parent ++ file ∧ (parent = [] ∨ parent.getLast? = some '/') ∧ '/' ∉ file

/-- Names are ordered like the words of a dictionary, by the codes of their characters. -/
def NameBefore (m n : Name) : Prop := List.Lex (fun c d : Char => c.toNat < d.toNat) m n

/-- Paths likewise, by their elements. -/
def PathBefore (p q : Path) : Prop := List.Lex NameBefore p q

/-- Relative paths come before absolute ones. -/
def IncludedBefore (a b : Resolve.Included) : Prop := (a.absolute = false ∧ b.absolute = true) ∨ (a.absolute = b.absolute ∧ PathBefore a.elements b.elements)

/-- How the files of the project are named: at most one source file and one header have the same stem, which has no dots, and the source file includes the header. -/
structure WellNamed (D : Disk) (P : Project) (search : List Path) (C : Contents) : Prop where
  sources : ∀ p q stem, InProject D P p → InProject D P q → SourceFile p stem → SourceFile q stem → p = q
  headers : ∀ p q stem, InProject D P p → InProject D P q → HeaderFile p stem → HeaderFile q stem → p = q
  stems : ∀ p stem, InProject D P p → SourceFile p stem ∨ HeaderFile p stem → '.' ∉ stem
  own : ∀ p q stem, InProject D P p → InProject D P q → SourceFile p stem → HeaderFile q stem → IncludesFile D search C p q

/-- There are layers such that each file includes only files from lower ones, and the source file which goes with a header, apart from that, only files which are lower than the header. -/
def InLayers (D : Disk) (P : Project) (search : List Path) (C : Contents) (layer : Path → Nat) : Prop :=
  (∀ x y, InProject D P x → IncludesFile D search C x y → layer y < layer x) ∧
  ∀ h s stem y, InProject D P s → HeaderFile h stem → SourceFile s stem → IncludesFile D search C s h → IncludesFile D search C s y → y ≠ h → layer y < layer h

end Verif.Spec.Resolve
