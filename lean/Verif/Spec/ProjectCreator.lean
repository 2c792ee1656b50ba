import Verif.Model.ProjectCreator

/-
Specifications for the creation of projects: what there should be afterwards, path by path.
-/
namespace Verif.Spec.ProjectCreator
open Verif.Text Verif.Materials Verif.ProjectCreator

/-- A project which can be created: its path is absolute, there is nothing to speak of, its name is not empty and consists of letters, digits, underscores and dashes, and the indentation consists of
tabs and spaces. -/
structure Acceptable (d : Data) (fs : Disk) : Prop where
  absolute : d.root.absolute = true
  dir : get fs d.root.location = none ∨ get fs d.root.location = some .dir
  free : ∀ n, get fs (d.root.location ++ [n]) ≠ none → get fs d.root.location = some .dir → n = ".DS_Store" ∨ n = ".keep"
  name : ∃ n ∈ d.root.names.getLast?, n ≠ "" ∧ ∀ c ∈ n.toList, c.isAlphanum = true ∨ c = '_' ∨ c = '-'
  indent : ∀ c ∈ d.indent, c = '\t' ∨ c = ' '

/-- Neither path contains the other. -/
def Apart (p q : Path) : Prop := ¬ p <+: q ∧ ¬ q <+: p

/-- Whatever there is, is in a directory. -/
def Rooted (fs : Disk) : Prop := ∀ p n, get fs (p ++ [n]) ≠ none → get fs p = some .dir

/-- The text of a file is changed. -/
def edit (f : Str → Option Str) : Option (Node Str) → Option (Node Str)
  | some (.file c) => (f c).map .file
  | x => x

/-- What there should be in the copy of the sequoia in `src`, at the relative path `s`.  Of the output of the project at `home` there are only the diagnostics and the summaries, and of its builds there
is nothing. -/
def shipped (home src : Path) (fs : Disk) : Path → Option (Node Str)
  | [] => some .dir
  | x :: t =>
    if src ++ [x] = home ++ ["output"] ∧ get fs (src ++ [x]) = some .dir then
      match t with
      | [] => some .dir
      | y :: u => if (y = "DiagnosticsOutput" ∨ y = "TestSummaries") ∧ get fs (src ++ [x, y]) = some .dir then get fs (src ++ x :: y :: u) else none
    else if src ++ [x] = home ++ ["build"] ∧ get fs (src ++ [x]) = some .dir then none
    else get fs (src ++ x :: t)

/-- How the text of the file at the relative path `r` should be changed. -/
def change (year : Str) (d : Data) (r : Path) : Str → Option Str :=
  if r = ["TestAll", "TestAllMain.cpp"] then mainText year d.owner d.indent d.root.back
  else if r = ["TestAll", "CMakeLists.txt"] ∨ r = ["Source", sourceName d.root.back, "CMakeLists.txt"] then setProjName d.root.back
  else if r = [".gitignore"] ∧ d.git = true then fun t => some (d.output.elim t fun f => t ++ ['\n', '\n'] ++ f)
  else some

/-- What there should be in a new project, at the relative path `r`: a copy of sequoia; the sources, under the name of the project; everything else in the template and what has been there before. -/
def wanted (home src tmpl : Path) (year : Str) (d : Data) (fs : Disk) (r : Path) : Option (Node Str) :=
  match below ["dependencies", "sequoia"] r with
  | some (x :: t) => shipped home src fs (x :: t)
  | _ =>
    match below ["Source", sourceName d.root.back] r with
    | some t => edit (change year d r) (get fs (tmpl ++ "Source" :: "projectTemplate" :: t))
    | none =>
      if ["Source", "projectTemplate"] <+: r then none
      else edit (change year d r) ((get fs (d.root.location ++ r)).or (get fs (tmpl ++ r)))

/-- What a template has to contain. -/
structure Template (tmpl : Path) (year : Str) (d : Data) (fs : Disk) : Prop where
  /-- It is a directory. -/
  dir : get fs tmpl = some .dir
  /-- There is a main file, which can be modified. -/
  main : ∃ c c', get fs (tmpl ++ ["TestAll", "TestAllMain.cpp"]) = some (.file c) ∧ mainText year d.owner d.indent d.root.back c = some c'
  /-- There are the files for CMake. -/
  cmake : ∃ c, get fs (tmpl ++ ["TestAll", "CMakeLists.txt"]) = some (.file c)
  source : ∃ c, get fs (tmpl ++ ["Source", "projectTemplate", "CMakeLists.txt"]) = some (.file c)
  /-- There is a directory for sequoia, with nothing but `.keep` in it. -/
  sequoia : get fs (tmpl ++ ["dependencies", "sequoia"]) = some .dir
  bare : ∀ x t, get fs (tmpl ++ "dependencies" :: "sequoia" :: x :: t) ≠ none → x = ".keep" ∧ t = []
  /-- There is nothing which could be there already. -/
  fresh : get fs (tmpl ++ [".keep"]) = none ∧ get fs (tmpl ++ [".DS_Store"]) = none
  name : sourceName d.root.back = "projectTemplate" ∨ get fs (tmpl ++ ["Source", sourceName d.root.back]) = none
  /-- There is a file `.gitignore` if it is needed. -/
  ignore : d.git = true → ∃ c, get fs (tmpl ++ [".gitignore"]) = some (.file c)

/-- The new project is somewhere else than what is copied into it. -/
structure Outside (home src tmpl root : Path) (fs : Disk) : Prop where
  template : Apart root tmpl
  above : ¬ root <+: src
  whole : ∀ x, ¬ (src = home ∧ (x = "output" ∨ x = "build")) → ¬ src ++ [x] <+: root
  output : src = home → home ++ ["output"] <+: root →
    root ≠ home ++ ["output"] ∧ get fs (home ++ ["output"]) = some .dir ∧ ¬ home ++ ["output", "DiagnosticsOutput"] <+: root ∧ ¬ home ++ ["output", "TestSummaries"] <+: root

/-- Commands change nothing but what satisfies `E`, which is in the directories of git and of builds. -/
structure Confined (X : Commands) (root : Path) (E : Path → Prop) : Prop where
  gitFirst : ∀ fs p, ¬ E p → get (X.gitFirst root fs) p = get fs p
  gitSecond : ∀ fs p, ¬ E p → get (X.gitSecond root fs) p = get fs p
  build : ∀ fs p, ¬ E p → get (X.build root fs) p = get fs p
  within : ∀ p, E p → root ++ [".git"] <+: p ∨ root ++ ["build"] <+: p

end Verif.Spec.ProjectCreator
