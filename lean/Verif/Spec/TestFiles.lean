import Verif.Model.TestFiles

/-
Specifications for the creation of the files of a test: where they are, what is in them, and which other files are edited.
-/
namespace Verif.Spec.TestFiles
open Verif.Text Verif.FileEditors Verif.Materials Verif.ProjectCreator Verif.TestFiles

/-- All that is below a directory is visited, and nothing else. -/
def Walks (walk : Disk → Path → List Path) : Prop := ∀ fs root p, p ∈ walk fs root ↔ get fs p ≠ none ∧ ∃ r, r ≠ [] ∧ p = root ++ r

/-- A path which ends as the given one, or is the same if that is absolute. -/
def Matches (h : Given) (p : Path) : Prop := if h.absolute = true then p = h.names else h.names ≠ [] ∧ h.names <:+ p

/-- The extension of the name of a file, which begins with a dot, but not with the one at the beginning of the name. -/
def Extension (name stem e : Str) : Prop :=
  name = stem ++ e ∧ (e = [] ∧ ('.' ∉ stem.tail ∨ stem = "..".toList) ∨ stem ≠ [] ∧ name ≠ "..".toList ∧ ∃ x, '.' ∉ x ∧ e = '.' :: x)

/-- The name of a file with another of the extensions of headers. -/
def Renamed (old new : String) : Prop :=
  ∃ stem x e, Extension old.toList stem x ∧ (e = ".hpp" ∨ e = ".h" ∨ e = ".hxx") ∧ new.toList = stem ++ e.toList

/-- A path which matches the given one, but for the extension. -/
def Similar (h : Given) (p : Path) : Prop := ∃ dir old new, h.names = dir ++ [old] ∧ Renamed old new ∧ Matches ⟨h.absolute, dir ++ [new]⟩ p

/-- There is something here, in the sources. -/
def InSources (P : Project) (fs : Disk) (p : Path) : Prop := get fs p ≠ none ∧ ∃ r, r ≠ [] ∧ p = P.sourceRepo ++ r

/-- The source which is tested: one which has the given name or, if there is none, one which has it but for the extension. -/
def Source (P : Project) (fs : Disk) (h : Given) (p : Path) : Prop :=
  InSources P fs p ∧ (Matches h p ∨ Similar h p ∧ ∀ q, InSources P fs q → ¬ Matches h q)

/-- Where the source is, once the files have been created: where it has been, or where it had to be created. -/
inductive Used (P : Project) (t : Test) (fs : Disk) : Path → Option Generate → Prop
  | found {p : Path} : Source P fs t.header p → Used P t fs p none
  | created {p : Path} {g : Generate} : (∀ q, ¬ Source P fs t.header q) → t.generate = some g → headerPath P g = .ok p → Used P t fs p (some g)

/-- The files which are there already and are edited. -/
def Edited (P : Project) (p : Path) : Prop := p = P.includes ∨ p = P.sourceCmake ∨ ∃ m, (m = P.main ∨ m ∈ P.ancillary) ∧ (p = m.file ∨ p = m.cmake)

/-- The source is in the sources of the project, in the directory `d`. -/
def Below (P : Project) (src : Path) (d : List String) : Prop := ∃ f, src = P.sourceProject ++ d ++ [f] ∧ ∀ x ∈ P.tests ++ d, x ≠ "." ∧ x ≠ ".."

/-- A file of the test. -/
def file (P : Project) (t : Test) (d : List String) (stub : Str) : Path := P.tests ++ d ++ [String.ofList (t.camel ++ stub)]

/-- Names, separated by slashes. -/
def slashes (p : List String) : Str := List.intercalate ['/'] (p.map String.toList)

/-- The edits made because a file has been created for the test: a header is included, unless it has utilities; a source file is put into the files for CMake. -/
def fileEdits (sort : (Str → Str → Bool) → List Str → List Str) (P : Project) (t : Test) (d : List String) (stub : Str) : List (Path × (Str → Res Str)) :=
  let text := slashes (d ++ [String.ofList (t.camel ++ stub)])
  if ".hpp".toList <:+ stub then
    if search "Utilities.hpp".toList ('/' :: slashes (file P t d stub)) = none then [(P.includes, addInclude sort text)] else []
  else if ".cpp".toList <:+ stub then
    (P.main :: P.ancillary).map fun m => (m.cmake, addToCmake sort text "target_sources(".toList ")\n".toList "${TestDir}/".toList)
  else []

/-- The edits made because a source file has been created: it is put into the file for CMake, and that of the main file is told that there are sources. -/
def sourceEdits (sort : (Str → Str → Bool) → List Str → List Str) (P : Project) (src : List String) : List (Path × (Str → Res Str)) :=
  [(P.sourceCmake, addToCmake sort (slashes src) "set(SourceList".toList ")\n".toList []),
   (P.main.cmake, fun t => match replaceAll (t.length + 1) t "#!".toList [] with | some t => .ok t | none => .ub)]

/-- The edits made for each test: it is put into the main files. -/
def suiteEdits (P : Project) (t : Test) : List (Path × (Str → Res Str)) := (P.main :: P.ancillary).map fun m => (m.file, addToSuite t.suite t.indent t.constructors)

/-- The edits, one after the other, as far as they are to be made at the path. -/
def edited (q : Path) : List (Path × (Str → Res Str)) → Str → Res Str
  | [], t => .ok t
  | e :: es, t => if e.1 = q then (e.2 t).bind (edited q es) else edited q es t

/-- The name of the source file which belongs to a header. -/
def CppName (header cpp : String) : Prop := ∃ stem x, Extension header.toList stem x ∧ cpp.toList = stem ++ ".cpp".toList

/-- The ends of the names of the files of a test are different, and are those of headers or source files. -/
structure Stubs (t : Test) : Prop where
  distinct : t.stubs.Nodup
  names : ∀ stub ∈ t.stubs, ∃ x, x ≠ [] ∧ (stub = x ++ ".hpp".toList ∨ stub = x ++ ".cpp".toList)

/-- What the paths of a project have to be, such that the files of its tests are not confused with anything else. -/
structure Separate (P : Project) (t : Test) : Prop where
  edited : ∀ p, Edited P p → ¬ P.tests <+: p ∧ ¬ P.testTemplates <+: p ∧ ¬ P.sourceTemplates <+: p
  templates : ¬ P.tests <+: P.testTemplates
  generated : ∀ g h, t.generate = some g → headerPath P g = .ok h → ∀ n, ¬ Edited P (h.dropLast ++ [n]) ∧
    ¬ P.tests <+: h.dropLast ++ [n] ∧ ¬ P.testTemplates <+: h.dropLast ++ [n] ∧ ¬ P.sourceTemplates <+: h.dropLast ++ [n]

/-- The content of a new file: nothing, if that is the template, and else its transformation. -/
def Content (f : Str → Res Str) (template text : Str) : Prop := if template = [] then text = [] else f template = .ok text

/-- The edits which are made because the source has been created, if it has been. -/
def created (sort : (Str → Str → Bool) → List Str → List Str) (P : Project) (cpp : List String) : Option Generate → List (Path × (Str → Res Str))
  | none => []
  | some g => if g.cppText.isSome then sourceEdits sort P cpp else []

/-- What there is after the files for the source at `src` have been created; it is in the directory `d` of the sources of the project, and included as `r`. -/
structure Done (sort : (Str → Str → Bool) → List Str → List Str) (P : Project) (t : Test) (src : Path) (g : Option Generate) (d r : List String) (cpp : String) (old new : Disk) : Prop where
  /-- Each file has the content which is wanted, unless there has been something. -/
  files : ∀ stub ∈ t.stubs, get old (file P t d stub) = none → ∃ template text, get old (P.testTemplates ++ [String.ofList (t.nameStub ++ stub)]) = some (.file template) ∧
    Content (t.text r) template text ∧ get new (file P t d stub) = some (.file text)
  /-- All files which have been there are still there, and the edits which are wanted have been made, in this order. -/
  edits : ∀ q c, get old q = some (.file c) → ∃ c', get new q = some (.file c') ∧
    edited q (created sort P (d ++ [cpp]) g ++ (t.stubs.filter fun stub => get old (file P t d stub) = none).flatMap (fileEdits sort P t d) ++ suiteEdits P t) c = .ok c'
  /-- The header which has been created. -/
  header : ∀ g', g = some g' → get old src = none ∧ ∃ template text, get old (P.sourceTemplates ++ [g'.template]) = some (.file template) ∧ g'.headerText template = .ok text ∧ get new src = some (.file text)
  /-- The source file which has been created. -/
  source : ∀ g' f, g = some g' → g'.cppText = some f → get old (P.sourceProject ++ d ++ [cpp]) = none ∧ ∃ template text, get old (P.sourceTemplates ++ ["MyCpp.cpp"]) = some (.file template) ∧
    f (slashes r) template = .ok text ∧ get new (P.sourceProject ++ d ++ [cpp]) = some (.file text)

end Verif.Spec.TestFiles
