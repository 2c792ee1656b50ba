-- Compares Model/TestFiles.lean with /repo/TestMaterials/TestFramework/TestRunnerTestCreation/Prediction.
-- Run in /verif/lean: cp ../tools/conformance/TestCreation.txt /tmp/Gold.lean; lake env lean --run /tmp/Gold.lean
import Verif.Model.TestFiles
open Verif Verif.TestFiles Verif.Materials Verif.ProjectCreator Verif.TestCreator Verif.Text Verif.FileEditors
open System (FilePath)

def R : FilePath := "/repo"
def T : FilePath := R / "TestMaterials/TestFramework/TestRunnerTestCreation"

partial def load (at_ : Path) (p : FilePath) : IO Disk := do
  if ← p.isDir then
    let mut d : Disk := [(at_, .dir)]
    for e in ← p.readDir do
      d := d ++ (← load (at_ ++ [e.fileName]) e.path)
    return d
  else
    try
      let s ← IO.FS.readFile p
      return [(at_, .file ((s.replace "\r\n" "\n").toList))]
    catch _ => return []

def rep (a b s : String) : String := s.replace a b

/-- insertion sort -/
def isort (lt : Str → Str → Bool) (l : List Str) : List Str := l.foldl (fun acc x => (acc.takeWhile (fun y => !lt x y)) ++ [x] ++ (acc.dropWhile (fun y => !lt x y))) []

def env : Env := ⟨isort, fun fs p => ((fs.map Prod.fst).filter fun q => p.isPrefixOf q && q != p).eraseDups⟩

def g (s : String) : Given := if s = "" then ⟨false, []⟩ else ⟨false, s.splitOn "/"⟩

inductive Cmd where
  | sem (type q eq : String) (dir : Option String) (suite header : String)
  | beh (type header : String) (ns : Option String) (fore suite : String) (diag : Bool)
  | all (type fore suite header : String)

def cmds (src : String) : List Cmd := [
 .sem "regular" "other::functional::maybe<class T>" "std::optional<T>" none "" "",
 .sem "regular" "utilities::iterator" "int*" none "" "",
 .sem "regular" "stuff::widget" "std::vector<int>" (some "Stuff") "" "",
 .sem "regular" "maths::probability" "double" (some "Maths") "" "",
 .sem "regular" "maths::angle" "long double" (some "Maths") "" "",
 .sem "regular" "human" "std::string" (some "hominins") "" "",
 .sem "regular" "stuff::thingummy<class T>" "std::vector<T>" (some "Thingummies") "" "",
 .sem "regular" "container<class T>" "const std::vector<T>" none "" "",
 .sem "regular" "other::couple<class S, class T>" "std::pair<S, T>" none "partners" "Couple.hpp",
 .sem "regular" "bar::things" "double" none "" s!"{src}/Stuff/Things.hpp",
 .sem "move_only" "bar::baz::foo<maths::floating_point T>" "T" none "Iterator" "",
 .sem "move_only" "variadic<class... T>" "std::tuple<T...>" none "" "",
 .sem "move_only" "multiple<class... T>" "std::tuple<T...>" (some "Utilities") "" "",
 .sem "move_only" "cloud" "double" (some "Weather") "" "",
 .beh "free" "Utilities.h" none "" "" false,
 .beh "free" s!"Source/{src}/Stuff/Baz.h" none "bazzer" "" false,
 .beh "free" s!"Source/{src}/Stuff/Baz.h" none "bazagain" "Bazzer" false,
 .beh "free" "Stuff/Doohicky.hpp" (some "bar::things") "" "" false,
 .beh "free" "Global/Stuff/Global.hpp" (some "") "" "" false,
 .beh "free" "Global/Stuff/Defs.hpp" (some "") "" "" false,
 .beh "free" s!"{src}/Maths/Angle.hpp" none "" "" true,
 .all "regular_allocation" "container" "" "",
 .all "move_only_allocation" "foo" "Iterator" "",
 .beh "performance" "Container.hpp" none "" "" false,
 .beh "performance" "Container.hpp" none "" "" false]

def toTest (src : String) (c : Cmd) : Res Test :=
  let base : Request := { header := ⟨false, []⟩, forename := [], suite := [], surname := [], testType := [], diagnostics := false, owner := "Oliver Jacob Rosten".toList, year := "2026".toList, indent := "    ".toList, project := src.toList }
  match c with
  | .sem ty q eq dir su h => semantics { base with testType := ty.toList, suite := su.toList, header := g h } q.toList [eq.toList] (dir.map g)
  | .beh ty h ns f su di => behavioural { base with testType := ty.toList, header := g h, forename := f.toList, suite := su.toList, diagnostics := di } (ns.map (·.toList))
  | .all ty f su h => allocation { base with testType := ty.toList, forename := f.toList, suite := su.toList, header := g h }

def go (proj src : String) : IO Unit := do
  let root : Path := ["r"]
  let mut d ← load root (T / "Auxiliary" / proj)
  d := (root, .dir) :: d
  d := d ++ (← load (root ++ ["aux_files", "TestTemplates"]) (R / "aux_files/TestTemplates"))
  d := d ++ (← load (root ++ ["aux_files", "SourceTemplates"]) (R / "aux_files/SourceTemplates"))
  d := d ++ [(root ++ ["aux_files"], .dir)]
  let pt := R / "aux_files/ProjectTemplate"
  let scm ← IO.FS.readFile (pt / "Source/projectTemplate/CMakeLists.txt")
  let mcpp ← IO.FS.readFile (pt / "TestAll/TestAllMain.cpp")
  let mcm ← IO.FS.readFile (pt / "TestAll/CMakeLists.txt")
  let mcm := rep "myProject" src (rep "TestAllMain.cpp" "TestSandbox.cpp" mcm)
  d := d ++ [(root ++ ["Source", src, "CMakeLists.txt"], .file scm.toList), (root ++ ["TestSandbox", "TestSandbox.cpp"], .file mcpp.toList), (root ++ ["TestSandbox", "CMakeLists.txt"], .file mcm.toList)]
  let P : Project := { sourceRepo := root ++ ["Source"], sourceProject := root ++ ["Source", src], sourceCmake := root ++ ["Source", src, "CMakeLists.txt"], tests := root ++ ["Tests"], testTemplates := root ++ ["aux_files", "TestTemplates"], sourceTemplates := root ++ ["aux_files", "SourceTemplates"], includes := root ++ ["TestShared", "SharedIncludes.hpp"], main := ⟨root ++ ["TestSandbox", "TestSandbox.cpp"], root ++ ["TestSandbox", "CMakeLists.txt"]⟩, ancillary := [] }
  let mut s : TestFiles.St := ⟨d, 100000⟩
  let mut k := 0
  for c in cmds src do
    k := k + 1
    match toTest src c with
    | .ok t =>
      match finalize env P t s with
      | .ok s' => s := ⟨(s'.fs.foldl (fun (acc : Disk) e => if acc.any (fun x => x.1 == e.1) then acc else acc ++ [e]) []), s'.left⟩
      | .failed _ => IO.println s!"command {k} failed"
      | .undefined => IO.println s!"command {k} undefined"
    | .throws => IO.println s!"command {k} throws"
    | .ub => IO.println s!"command {k} ub"
  let mut same := 0
  for dir in ["Source", "Tests", "TestSandbox"] do
    let p ← load (root ++ [dir]) (T / "Prediction" / proj / dir)
    for e in p do
      match e.2 with
      | .file c =>
        match get s.fs e.1 with
        | some (.file c') => if c == c' then same := same + 1 else do
            IO.println s!"DIFFERENT {e.1}"
            IO.FS.createDirAll s!"/tmp/gold/{proj}"
            IO.FS.writeFile s!"/tmp/gold/{proj}/{(e.1.getLast?).getD ""}" (String.ofList c')
        | _ => IO.println s!"MISSING {e.1}"
      | .dir => if !isDir s.fs e.1 then IO.println s!"MISSING DIR {e.1}"
    for e in s.fs do
      if (root ++ [dir]).isPrefixOf e.1 && !(p.any fun x => x.1 == e.1) then IO.println s!"EXTRA {e.1}"
  IO.println s!"{proj}: {same} files equal"

def main : IO Unit := do
  go "FakeProject" "fakeProject"
  go "AnotherFakeProject" "curlew"
