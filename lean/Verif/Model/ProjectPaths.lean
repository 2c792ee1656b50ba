import Verif.Model.PathEquivalence
/-
Model of the paths of a project: /repo/Source/sequoia/TestFramework/ProjectPaths.cpp and ProjectPaths.hpp.

A path is the list of its elements, the first of which is "/" if it is absolute.  The file system is given by functions: what `fs::canonical` makes of an argument, nothing if there is no such file, and the
names of the entries of a directory, nothing if there is no such directory.  Whether things are directories or regular files, once the paths are known, is given too.  The lists of further sources
(`ancillary_main_cpps`, `additional_dependency_analysis_paths`) are not modelled.
-/
namespace Verif.ProjectPaths
open Verif.PathEquivalence

/-- What the file system is asked. -/
structure System where
  canonical : String → Option Path
  entries : Path → Option (List String)

/-- `fs::path::parent_path` for an absolute path. -/
def parent (p : Path) : Path := if p.length ≤ 1 then p else p.dropLast

/-- `back`, FileSystem.hpp:46-53. -/
def back (p : Path) : Res String :=
  match p.getLast? with
  | none => .throws
  | some x => .ok x

/-- The function `get` of `get_cmake_cache`, ProjectPaths.cpp:44-50: a `directory_iterator` throws if there is no such directory. -/
def getCacheIn (sys : System) (dir : Path) : Res (Option Path) :=
  match sys.entries dir with
  | none => .throws
  | some es => .ok (if es.contains "CMakeCache.txt" then some (dir ++ ["CMakeCache.txt"]) else none)

/-- `get_cmake_cache`, ProjectPaths.cpp:39-63. -/
def getCache (sys : System) (dir : Path) : Res Path :=
  (getCacheIn sys dir).bind fun
    | some c => .ok c
    | none => (getCacheIn sys (parent dir)).bind fun
      | some c => .ok c
      | none => .throws

/-- `discoverable_paths`, ProjectPaths.hpp:26-61. -/
structure Discovered where
  root : Path
  executable : Path
  cache : Path
deriving DecidableEq, Repr

/-- `std::ranges::find` of the element "build": what comes before, and what follows from there on. -/
def splitAtBuild : Path → Path × Path
  | [] => ([], [])
  | x :: l => if x == "build" then ([], x :: l) else (x :: (splitAtBuild l).1, (splitAtBuild l).2)

/-- `discoverable_paths::make`, ProjectPaths.cpp:76-100.  To accumulate the elements with `/` gives the elements. -/
def discover (sys : System) (args : List String) : Res Discovered :=
  match args with
  | [] => .throws
  | zeroth :: _ =>
    if zeroth == "" then .throws
    else
      match sys.canonical zeroth with
      | none => .throws
      | some exec =>
        if !(splitAtBuild exec).1.isEmpty && (splitAtBuild exec).2.length > 1 then
          (getCache sys (parent exec)).bind fun c => .ok ⟨(splitAtBuild exec).1, exec, c⟩
        else .throws

/-- `uncapitalize`, Substitutions.cpp:86-102. -/
def uncapitalize (s : String) : String :=
  match s.toList with
  | [] => ""
  | c :: l => String.ofList (c.toLower :: l)

/-- `source_paths`, ProjectPaths.cpp:133-151: the repository and the directory of the project within it. -/
def sourceRepo (root : Path) : Res Path := if root.isEmpty then .throws else .ok (root ++ ["Source"])

/-- `source_paths::source_paths`, ProjectPaths.cpp:133-136. -/
def sourceProject (root : Path) (folder : Option Path) : Res Path :=
  (sourceRepo root).bind fun repo =>
    match folder with
    | some f => (rebaseFrom f repo).bind fun r => .ok (repo ++ r)
    | none => (back root).bind fun n => .ok (repo ++ [uncapitalize n])

/-- `main_paths::main_paths` and `project_paths::project_paths`, ProjectPaths.cpp:102-106 and 370: a file given by the user, within the root. -/
def within (root p : Path) : Res Path := (rebaseFrom p root).bind fun r => .ok (root ++ r)

/-- `tests_paths`, ProjectPaths.cpp:155-157. -/
def tests (root : Path) : Path := root ++ ["Tests"]
/-- `dependencies_paths`, ProjectPaths.cpp:167-169. -/
def dependencies (root : Path) : Path := root ++ ["dependencies"]
/-- `dependencies_paths::sequoia_root`, ProjectPaths.cpp:177-181. -/
def sequoiaRoot (root : Path) : Path := dependencies root ++ ["sequoia"]
/-- `test_materials_paths`, ProjectPaths.cpp:185-187. -/
def materials (root : Path) : Path := root ++ ["TestMaterials"]
/-- `build_system_paths`, ProjectPaths.cpp:191-193. -/
def buildSystem (root : Path) : Path := root ++ ["build_system"]
/-- `build_paths`, ProjectPaths.cpp:197-201. -/
def build (root : Path) : Path := root ++ ["build"]
/-- `auxiliary_paths::repo`, ProjectPaths.cpp:212-217; `e` is `fs::exists`. -/
def auxiliary (e : Path → Bool) (root : Path) : Path := if e (root ++ ["aux_files"]) then root ++ ["aux_files"] else sequoiaRoot root ++ ["aux_files"]
/-- `output_paths::dir`, ProjectPaths.cpp:327-331. -/
def output (root : Path) : Path := root ++ ["output"]
/-- `output_paths::tests_temporary_data`, ProjectPaths.cpp:333-337. -/
def temporaryData (root : Path) : Path := output root ++ ["TestsTemporaryData"]
/-- `output_paths::diagnostics`, ProjectPaths.cpp:339-343. -/
def diagnostics (root : Path) : Path := output root ++ ["DiagnosticsOutput"]
/-- `output_paths::test_summaries`, ProjectPaths.cpp:345-349. -/
def summaries (root : Path) : Path := output root ++ ["TestSummaries"]
/-- `output_paths::instability_analysis`, ProjectPaths.cpp:360-364. -/
def instabilityAnalysis (root : Path) : Path := temporaryData root ++ ["InstabilityAnalysis"]
/-- `recovery_paths::recovery_file`, ProjectPaths.cpp:243-253. -/
def recoveryFile (root : Path) : Path := output root ++ ["Recovery", "Recovery.txt"]
/-- `recovery_paths::dump_file`, ProjectPaths.cpp:255-259. -/
def dumpFile (root : Path) : Path := output root ++ ["Recovery", "Dump.txt"]

/-- `prune_paths`, ProjectPaths.hpp:343-382. -/
structure Prune where
  dir : Path
  stem : String

/-- `prune_paths::prune_paths`, ProjectPaths.cpp:263-266 and 298-305; the paths are canonical. -/
def prunePaths (outputDir buildRoot buildDir : Path) : Res Prune :=
  if buildDir.isEmpty then .throws
  else (back buildDir).bind fun s => .ok ⟨outputDir ++ ["Prune"] ++ relative buildDir buildRoot, s⟩

/-- `project_paths::prune`, ProjectPaths.cpp:389-393. -/
def prune (d : Discovered) : Res Prune := prunePaths (output d.root) (build d.root) (parent d.executable)

/-- `prune_paths::make_path`, ProjectPaths.cpp:307-315. -/
def makePath (p : Prune) (id : Option Nat) (extension : String) : Path :=
  match id with
  | none => p.dir ++ [p.stem ++ "" ++ extension]
  | some n => p.dir ++ ["InstabilityAnalysis"] ++ [p.stem ++ toString n ++ extension]

/-- `prune_paths::stamp`, ProjectPaths.cpp:268-272. -/
def stamp (p : Prune) : Path := p.dir ++ [p.stem ++ ".prune"]
/-- `prune_paths::failures`, ProjectPaths.cpp:274-278. -/
def failures (p : Prune) (id : Option Nat) : Path := makePath p id ".failures"
/-- `prune_paths::selected_passes`, ProjectPaths.cpp:280-284. -/
def selectedPasses (p : Prune) (id : Option Nat) : Path := makePath p id ".passes"
/-- `prune_paths::external_dependencies`, ProjectPaths.cpp:286-290. -/
def externalDependencies (p : Prune) : Path := makePath p none ".external"

/-- What a project is checked for, `project_paths::project_paths`, ProjectPaths.cpp:383-385: the root, the main file and the common includes; `isDir` and `isFile` are what the file system says. -/
def project (sys : System) (isDir isFile : Path → Bool) (args : List String) (mainCpp commonIncludes : Path) (folder : Option Path) : Res (Discovered × Path × Path × Path) :=
  (discover sys args).bind fun d => (within d.root mainCpp).bind fun m => (within d.root commonIncludes).bind fun c => (sourceProject d.root folder).bind fun s =>
    if isDir d.root && isFile m && isFile c then .ok (d, m, c, s) else .throws

end Verif.ProjectPaths
