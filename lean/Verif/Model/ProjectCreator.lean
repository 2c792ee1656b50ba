import Verif.Model.Materials
import Verif.Model.FileEditors
import Mathlib.Data.List.Dedup

/-
Model of the creation of projects, /repo/Source/sequoia/TestFramework/ProjectCreator.cpp, with `set_top_copyright` (TestRunnerUtilities.cpp:24-58) and the paths it uses (ProjectPaths.cpp).

The file system is that of Model/Materials: a list of what there is, with absolute paths, which are lists of names.  The content of a file is its text.  Symbolic links, permissions and
failures of the file system, other than those which follow from its state, are not modelled; in particular there is no limit to the length of paths.  What git and the build do is a parameter.
-/
namespace Verif.ProjectCreator
open Text FileEditors Materials

/-- How something ends, and in which state: as it should, with an exception or an error code, or not at all. -/
inductive Out (σ : Type) where
  | ok (s : σ)
  | failed (s : σ)
  | endless
  deriving DecidableEq

/-- One step after the other. -/
def Out.bind {σ : Type} : Out σ → (σ → Out σ) → Out σ
  | .ok s, f => f s
  | .failed s, _ => .failed s
  | .endless, _ => .endless

abbrev Disk := FS Str

/-! ### Copying -/

/-- What there is in a directory; the order is unspecified. -/
def children (fs : Disk) (p : Path) : List String :=
  (fs.filterMap fun e => match below p e.1 with | some [n] => some n | _ => none).dedup

/-- Something is done for each of the entries of a directory. -/
def forEach {σ : Type} (f : String → σ → Out σ) : List String → σ → Out σ
  | [], s => .ok s
  | x :: xs, s => (f x s).bind (forEach f xs)

/-- `fs::copy(src, dst, recursive)`, and if `skip` also with `skip_existing`.  A directory is created, before what there is in the one which is copied is determined and copied.  The fuel bounds
the depth of the recursion. -/
def copyTree (skip : Bool) : Nat → Path → Path → Disk → Out Disk
  | 0, _, _, _ => .endless
  | n + 1, src, dst, fs =>
    match get fs src with
    | none => .failed fs
    | some (.file c) =>
      let d := if isDir fs dst then dst ++ src.getLast?.toList else dst
      if exists' fs d then (if skip && isFile fs d then .ok fs else .failed fs)
      else if isDir fs (parent d) then .ok ((d, .file c) :: fs)
      else .failed fs
    | some .dir =>
      Out.bind
        (if isFile fs dst then .failed fs
         else if exists' fs dst then .ok fs
         else if isDir fs (parent dst) then .ok ((dst, .dir) :: fs)
         else .failed fs) fun fs => forEach (fun x => copyTree skip n (src ++ [x]) (dst ++ [x])) (children fs src) fs

/-- `fs::rename`.  That there is something at the new path counts as an error; an empty directory would be replaced. -/
def rename (src dst : Path) (fs : Disk) : Out Disk :=
  if !exists' fs src then .failed fs
  else if src = dst then .ok fs
  else if exists' fs dst then .failed fs
  else .ok (transplant src dst fs ++ removeAll src fs)

/-- `fs::remove` for what is not a directory with something in it. -/
def remove (p : Path) (fs : Disk) : Out Disk := if children fs p = [] then .ok (removeAll p fs) else .failed fs

/-- `read_modify_write`, Streaming.hpp:34-46; the modification may throw. -/
def modifyFile (p : Path) (f : Str → Option Str) (fs : Disk) : Out Disk :=
  match get fs p with
  | some (.file c) => (f c).elim (.failed fs) fun c' => .ok ((p, .file c') :: fs)
  | _ => .failed fs

/-- A function of Model/Materials which may throw; it has no effect then. -/
def lift (f : Disk → Res Disk) (fs : Disk) : Out Disk :=
  match f fs with
  | .ok fs' => .ok fs'
  | _ => .failed fs

/-! ### Texts -/

/-- `std::string(n, ' ')`. -/
def spaces (n : Nat) : Str := List.replicate n ' '

/-- `set_top_copyright`, TestRunnerUtilities.cpp:24-58; the year is given.  `none` is an exception. -/
def setTopCopyright (year owner text : Str) : Option Str :=
  match find text "Copyright".toList 0 with
  | none => none
  | some pos =>
    match rfind text "//".toList pos, find text "//".toList pos with
    | some left, some right =>
      let new := "Copyright ".toList ++ owner ++ " ".toList ++ year ++ ".".toList
      let reserved := right - left - 2
      let remaining := reserved - new.length
      let rightSpace := remaining / 2
      let leftSpace := remaining - rightSpace
      some (splice text (left + 2) reserved (spaces leftSpace ++ new ++ spaces rightSpace))
    | _, _ => none

/-- The lambda `indentReplacement`, ProjectCreator.cpp:132-143. -/
def escapeTabs : Str → Str
  | [] => []
  | c :: t => (if c = '\t' then ['\\', 't'] else [c]) ++ escapeTabs t

/-- The modification of the main file, ProjectCreator.cpp:123-147; `name` is the name of the project.  Loops are given fuel which suffices, see C35. -/
def mainText (year owner indent name text : Str) : Option Str :=
  (setTopCopyright year owner text).bind fun t =>
  (tabsToSpacing (t.length + 1) t indent).bind fun t =>
  let t := Text.replace t "Oliver J. Rosten".toList owner
  (replaceAll (t.length + 1) t "myProject".toList (uncapitalize name)).bind fun t =>
  some (Text.replace t ['\\', 't'] (escapeTabs indent))

/-- `set_proj_name`, ProjectCreator.cpp:46-54. -/
def setProjName (name text : Str) : Option Str :=
  (replaceAll (name.length + 1) name [' '] ['_']).bind fun n =>
  (replaceAll (text.length + 1) text "MyProject".toList n).bind fun t =>
  replaceAll (t.length + 1) t "myProject".toList (uncapitalize n)

/-- `check_indent`, ProjectCreator.cpp:115-119: whether there is no exception. -/
def indentOk (indent : Str) : Bool := indent.all fun c => c = '\t' || c = ' '

/-! ### Projects -/

/-- A path as it is given: a path ending with a slash has an empty last name. -/
structure Given where
  absolute : Bool
  names : List String
  deriving DecidableEq

/-- Where it leads to. -/
def Given.location (g : Given) : Path := g.names.filter (· ≠ "")

/-- `back`, FileSystem.hpp:46-53, for a path which is not empty. -/
def Given.back (g : Given) : Str := (g.names.getLast?.elim "/" id).toList

/-- `project_data`, ProjectCreator.hpp; `output` is the name of the file to which the output of commands is sent, if there is one. -/
structure Data where
  root : Given
  owner : Str
  indent : Str
  git : Bool
  build : Bool
  output : Option Str

/-- The project from which others are created; `aux` says whether there was a directory `aux_files` when its paths were determined, `cache` is its `cmake_cache_dir`. -/
structure Parent where
  root : Path
  aux : Bool
  cache : Path

/-- What commands do: git the first and the second time, and the build, for the root of a new project. -/
structure Commands where
  gitFirst : Path → Disk → Disk
  gitSecond : Path → Disk → Disk
  build : Path → Disk → Disk

/-- The state: the file system, and whether an error has been reported. -/
structure St where
  fs : Disk
  reported : Bool
  deriving DecidableEq

/-- Something is done to the file system. -/
def onDisk (f : Disk → Out Disk) (s : St) : Out St :=
  match f s.fs with
  | .ok fs => .ok { s with fs := fs }
  | .failed fs => .failed { s with fs := fs }
  | .endless => .endless

/-- `is_appropriate_root`, ProjectCreator.cpp:31-44; if there is a file, there is an exception. -/
def unused (fs : Disk) (p : Path) : Bool :=
  !exists' fs p || (isDir fs p && (children fs p).all fun n => n = ".DS_Store" || n = ".keep")

/-- The checks made for a project, ProjectCreator.cpp:188-208: whether there is no exception. -/
def accepted (d : Data) (fs : Disk) : Bool :=
  !(!d.root.absolute && d.root.names.isEmpty)
    && d.root.absolute
    && unused fs d.root.location
    && !d.root.back.isEmpty
    && d.root.back.all (fun c => c.isAlphanum || c = '_' || c = '-')
    && indentOk d.indent

variable (P : Parent)

/-- `dependencies_paths::sequoia_root`, ProjectPaths.cpp:162-179. -/
def sequoiaIn (root : Path) : Path := root ++ ["dependencies", "sequoia"]

/-- `auxiliary_paths::repo` and `project_template`, ProjectPaths.cpp:212-234. -/
def template : Path :=
  if P.aux then P.root ++ ["aux_files", "ProjectTemplate"] else sequoiaIn P.root ++ ["aux_files", "ProjectTemplate"]

/-- `source_paths::project`, ProjectPaths.cpp:127-146: the name of the directory. -/
def sourceName (name : Str) : String := String.ofList (uncapitalize name)

/-- The lambda `parentSequoiaRoot`, ProjectCreator.cpp:85-90. -/
def sequoiaRoot (fs : Disk) : Path := if exists' fs (sequoiaIn P.root) then sequoiaIn P.root else P.root

/-- `copy_sequoia_subdir`, ProjectCreator.cpp:56-63: errors are reported, no more. -/
def copySubdir (fuel : Nat) (target src : Path) (s : St) : Out St :=
  match copyTree false fuel src (target ++ src.getLast?.toList) s.fs with
  | .ok fs => .ok { s with fs := fs }
  | .failed fs => .ok ⟨fs, true⟩
  | .endless => .endless

/-- `copy_sequoia_output`, ProjectCreator.cpp:65-80. -/
def copyOutput (fuel : Nat) (out src : Path) (s : St) : Out St :=
  (onDisk (fun fs => if exists' fs out then .ok fs else lift (createDirectory out) fs) s).bind fun s =>
    forEach (fun y s =>
        if isDir s.fs (src ++ [y]) && (src ++ [y] = P.root ++ ["output", "DiagnosticsOutput"] || src ++ [y] = P.root ++ ["output", "TestSummaries"]) then
          copySubdir fuel out (src ++ [y]) s
        else .ok s)
      (children s.fs src) s

/-- What is done for an entry of the directory of sequoia, ProjectCreator.cpp:94-108. -/
def copyEntry (fuel : Nat) (src target : Path) (x : String) (s : St) : Out St :=
  if isDir s.fs (src ++ [x]) then
    if src ++ [x] = P.root ++ ["output"] then copyOutput P fuel (target ++ ["output"]) (src ++ [x]) s
    else if src ++ [x] ≠ P.root ++ ["build"] then copySubdir fuel target (src ++ [x]) s
    else .ok s
  else onDisk (copyTree false fuel (src ++ [x]) target) s

/-- `copy_sequoia`, ProjectCreator.cpp:82-112. -/
def copySequoia (fuel : Nat) (root : Path) (s : St) : Out St :=
  (forEach (copyEntry P fuel (sequoiaRoot P s.fs) (sequoiaIn root)) (children s.fs (sequoiaRoot P s.fs)) s).bind
    (onDisk (remove (sequoiaIn root ++ [".keep"])))

/-- `generate_test_main`, ProjectCreator.cpp:121-150. -/
def generateMain (year : Str) (d : Data) : Disk → Out Disk :=
  modifyFile (d.root.location ++ ["TestAll", "TestAllMain.cpp"]) (mainText year d.owner d.indent d.root.back)

/-- `generate_build_system_files`, ProjectCreator.cpp:152-168. -/
def generateBuildFiles (d : Data) (fs : Disk) : Out Disk :=
  (modifyFile (d.root.location ++ ["TestAll", "CMakeLists.txt"]) (setProjName d.root.back) fs).bind
    (modifyFile (d.root.location ++ ["Source", sourceName d.root.back, "CMakeLists.txt"]) (setProjName d.root.back))

/-- The first use of git, ProjectCreator.cpp:219-220 and 247-259. -/
def gitFirst (X : Commands) (d : Data) (fs : Disk) : Out Disk :=
  if d.git then
    (match d.output with
      | some f => modifyFile (d.root.location ++ [".gitignore"]) (fun t => some (t ++ ['\n', '\n'] ++ f)) fs
      | none => .ok fs).bind fun fs => .ok (X.gitFirst d.root.location fs)
  else .ok fs

/-- The second use of git, ProjectCreator.cpp:225-230. -/
def gitSecond (X : Commands) (d : Data) (fs : Disk) : Out Disk := if d.git then .ok (X.gitSecond d.root.location fs) else .ok fs

/-- The build, ProjectCreator.cpp:232-242 with `make_new_build_paths`, 170-180. -/
def buildStep (X : Commands) (d : Data) (fs : Disk) : Out Disk :=
  if d.build then (if exists' fs P.cache then .ok (X.build d.root.location fs) else .failed fs) else .ok fs

/-- What is done for a project which is accepted before sequoia is copied, ProjectCreator.cpp:212-220. -/
def prepare (X : Commands) (year : Str) (fuel : Nat) (d : Data) (fs : Disk) : Out Disk :=
  (lift (createDirectories d.root.location) fs).bind fun fs =>
  (copyTree true fuel (template P) d.root.location fs).bind fun fs =>
  (rename (d.root.location ++ ["Source", "projectTemplate"]) (d.root.location ++ ["Source", sourceName d.root.back]) fs).bind fun fs =>
  (generateMain year d fs).bind fun fs =>
  (generateBuildFiles d fs).bind (gitFirst X d)

/-- The body of the loop of `init_projects`, ProjectCreator.cpp:186-243. -/
def initProject (X : Commands) (year : Str) (fuel : Nat) (d : Data) (s : St) : Out St :=
  if !accepted d s.fs then .failed s
  else
    (onDisk (prepare P X year fuel d) s).bind fun s =>
    (copySequoia P fuel d.root.location s).bind fun s =>
    (onDisk (gitSecond X d) s).bind (onDisk (buildStep P X d))

/-- `init_projects`, ProjectCreator.cpp:182-244. -/
def initProjects (X : Commands) (year : Str) (fuel : Nat) : List Data → St → Out St
  | [], s => .ok s
  | d :: ds, s => (initProject P X year fuel d s).bind (initProjects X year fuel ds)

end Verif.ProjectCreator
