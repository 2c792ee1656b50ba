import Verif.Model.ProjectCreator
import Verif.Model.PathEquivalence
import Verif.Model.TestCreator
import Verif.Model.Instability

/-
Model of the creation of the files of a test, /repo/Source/sequoia/TestFramework/TestCreator.cpp: `nascent_test_base` and the classes derived from it.

The file system is that of Model/Materials: a list of what there is, with absolute paths, which are lists of names.  Symbolic links, permissions and failures of the file system, other than those
which follow from its state, are not modelled.  The process may be killed before any change to the file system; writing a file makes it empty first.  What is written to the stream is not modelled.
-/
namespace Verif.TestFiles
open Text FileEditors Materials ProjectCreator TestCreator

/-- How something ends, and in which state: as it should; with an exception, or by being killed; or with undefined behaviour. -/
inductive Ending (σ : Type) where
  | ok (s : σ)
  | failed (s : σ)
  | undefined
  deriving DecidableEq

/-- One step after the other. -/
def Ending.bind {σ : Type} : Ending σ → (σ → Ending σ) → Ending σ
  | .ok s, f => f s
  | .failed s, _ => .failed s
  | .undefined, _ => .undefined

/-- The file system, and the number of changes after which the process is killed. -/
structure St where
  fs : Disk
  left : Nat
  deriving DecidableEq

/-- Something is done for each element of a list. -/
def each {α : Type} (f : α → St → Ending St) : List α → St → Ending St
  | [], s => .ok s
  | x :: xs, s => (f x s).bind (each f xs)

/-! ### Changes to the file system -/

/-- A change to the file system. -/
def change (f : Disk → Res Disk) (s : St) : Ending St :=
  match s.left with
  | 0 => .failed s
  | n + 1 =>
    match f s.fs with
    | .ok fs => .ok ⟨fs, n⟩
    | .throws => .failed s
    | .ub => .undefined

/-- A file gets a new content. -/
def put (p : Path) (c : Str) (fs : Disk) : Res Disk :=
  if isFile fs p || (!exists' fs p && isDir fs (parent p)) then .ok ((p, .file c) :: fs) else .throws

/-- `write_to_file`, Streaming.cpp:56-66: the file is opened, which makes it empty, and then written. -/
def write (p : Path) (text : Str) (s : St) : Ending St := (change (put p []) s).bind (change (put p text))

/-- `fs::copy_file` without options; it is one change.  With `overwrite_existing` it is the same if there is nothing at the new path. -/
def copyFile (src dst : Path) (fs : Disk) : Res Disk :=
  match get fs src with
  | some (.file c) => if !exists' fs dst && isDir fs (parent dst) then .ok ((dst, .file c) :: fs) else .throws
  | _ => .throws

/-- `read_modify_write`, Streaming.hpp:34-46. -/
def modify (p : Path) (f : Str → Res Str) (s : St) : Ending St :=
  match get s.fs p with
  | some (.file c) =>
    match f c with
    | .ok t => write p t s
    | .throws => .failed s
    | .ub => .undefined
  | _ => .failed s

/-! ### Paths -/

/-- `generic_string` of a relative path. -/
def pathText (p : List String) : Str := List.intercalate ['/'] (p.map String.toList)

/-- A path without dots. -/
def normal (p : Path) : Path := p.foldl (fun q x => if x = ".." then q.dropLast else if x = "." then q else q ++ [x]) []

/-- `replace_extension`, with an extension which begins with a dot. -/
def replaceExtension (e : Str) (name : String) : String := String.ofList ((Instability.splitExtension name.toList).1 ++ e)

/-- `extension` of the name of a file. -/
def extension (name : String) : Str := (Instability.splitExtension name.toList).2

/-- A main file, with the file for CMake next to it; `main_paths`. -/
structure Main where
  file : Path
  cmake : Path
  deriving DecidableEq

/-- The paths of the project, as far as they are used; `project_paths`. -/
structure Project where
  sourceRepo : Path
  sourceProject : Path
  sourceCmake : Path
  tests : Path
  testTemplates : Path
  sourceTemplates : Path
  includes : Path
  main : Main
  ancillary : List Main

/-- What is not determined by the code: how lists are sorted, and the order in which what is below a directory is visited. -/
structure Env where
  sort : (Str → Str → Bool) → List Str → List Str
  walk : Disk → Path → List Path

/-! ### The source which is tested -/

/-- The comparison made by `find_in_tree`, FileSystemUtilities.cpp:102-121. -/
def ends (toFind : Given) (p : Path) : Bool := if toFind.absolute then p == toFind.names else !toFind.names.isEmpty && toFind.names.isSuffixOf p

/-- `find_in_tree`, FileSystemUtilities.cpp:92-126, for a directory. -/
def findInTree (env : Env) (fs : Disk) (root : Path) (toFind : Given) : Option Path := (env.walk fs root).find? (ends toFind)

/-- `st_HeaderExtensions`, TestCreator.hpp:151. -/
def headerExtensions : List Str := [".hpp".toList, ".h".toList, ".hxx".toList]

/-- The path with another extension. -/
def withExtension (g : Given) (e : Str) : Given := { g with names := g.names.dropLast ++ (g.names.getLast?.map (replaceExtension e)).toList }

/-- What is looked for by `build_source_path`, TestCreator.cpp:255-274, in this order. -/
def candidates (h : Given) : List Given :=
  h :: (headerExtensions.filter fun e => some e ≠ h.names.getLast?.map extension).map (withExtension h)

/-- The search of `build_source_path`, TestCreator.cpp:255-274. -/
def locate (env : Env) (fs : Disk) (root : Path) (h : Given) : Option Path := (candidates h).findSome? (findInTree env fs root)

/-- What is needed in order to create a header: where it is to be, the template, the modification of the text, and that of the source file, if there is one, for the path by which the header is included. -/
structure Generate where
  given : Given
  template : String
  headerText : Str → Res Str
  cppText : Option (Str → Str → Res Str)

/-- Where a header is created, TestCreator.cpp:520 and 722. -/
def headerPath (P : Project) (g : Generate) : Res Path :=
  if g.given.absolute then .ok g.given.names else (PathEquivalence.rebaseFrom g.given.names P.sourceProject).bind fun r => .ok (P.sourceProject ++ r)

/-- The source file for a header, TestCreator.cpp:405. -/
def cppPath (h : Path) : Path := h.dropLast ++ (h.getLast?.map (replaceExtension ".cpp".toList)).toList

/-- `set_cpp`, TestCreator.cpp:403-426. -/
def setCpp (env : Env) (P : Project) (f : Str → Str → Res Str) (h : Path) (s : St) : Ending St :=
  (change (copyFile (P.sourceTemplates ++ ["MyCpp.cpp"]) (cppPath h)) s).bind fun s =>
  (modify (cppPath h) (f (pathText (PathEquivalence.relative h P.sourceRepo))) s).bind fun s =>
  (modify P.sourceCmake (addToCmake env.sort (pathText (PathEquivalence.relative (cppPath h) P.sourceProject)) "set(SourceList".toList ")\n".toList []) s).bind
  (modify P.main.cmake fun t => match replaceAll (t.length + 1) t "#!".toList [] with | some t => .ok t | none => .ub)

/-- `when_header_absent`, TestCreator.cpp:516-534 and 720-736, once it is known where. -/
def generateSource (env : Env) (P : Project) (g : Generate) (h : Path) (s : St) : Ending St :=
  (change (createDirectories (parent h)) s).bind fun s =>
  (change (copyFile (P.sourceTemplates ++ [g.template]) h) s).bind fun s =>
  (modify h g.headerText s).bind fun s =>
  match g.cppText with
  | none => .ok s
  | some f => setCpp env P f h s

/-! ### The files of a test -/

/-- A test, once its names are known; `text` is the modification of a template, given the path of the header. -/
structure Test where
  header : Given
  camel : Str
  nameStub : Str
  stubs : List Str
  text : List String → Str → Res Str
  suite : Str
  indent : Str
  constructors : List Str
  generate : Option Generate

variable (env : Env) (P : Project) (t : Test)

/-- `m_HostDir`, TestCreator.cpp:376-382. -/
def hostDir (src : Path) : Path := normal ((P.tests ++ PathEquivalence.relative src P.sourceProject).dropLast)

/-- `m_HeaderPath`, TestCreator.cpp:383. -/
def includedAs (src : Path) : List String := PathEquivalence.relative src P.sourceRepo

/-- The path of a file of the test, TestCreator.cpp:280. -/
def outputFile (src : Path) (stub : Str) : Path := hostDir P src ++ [String.ofList (t.camel ++ stub)]

/-- The template for a file, TestCreator.cpp:289. -/
def templateFile (stub : Str) : Path := P.testTemplates ++ [String.ofList (t.nameStub ++ stub)]

/-- The path of a file of the test from the directory of the tests. -/
def fromTests (out : Path) : Str := pathText (PathEquivalence.relative out P.tests)

/-- All the main files, in the order of `ammend_file`, TestCreator.cpp:90-98. -/
def Project.mains : List Main := P.main :: P.ancillary

/-- The text of a new file is determined, TestCreator.cpp:292-305. -/
def fillFile (src out : Path) (s : St) : Ending St :=
  match get s.fs out with
  | some (.file c) =>
    if c = [] then .ok s
    else
      match t.text (includedAs P src) c with
      | .ok text => write out text s
      | .throws => .failed s
      | .ub => .undefined
  | _ => .failed s

/-- A new file is made known, TestCreator.cpp:307-323. -/
def registerFile (out : Path) (s : St) : Ending St :=
  match out.getLast? with
  | none => .ok s
  | some name =>
    if extension name = ".hpp".toList then
      (if search "Utilities.hpp".toList ('/' :: pathText out) = none then modify P.includes (addInclude env.sort (fromTests P out)) s else .ok s)
    else if extension name = ".cpp".toList then
      each (fun m => modify m.cmake (addToCmake env.sort (fromTests P out) "target_sources(".toList ")\n".toList "${TestDir}/".toList)) P.mains s
    else .ok s

/-- `create_file`, TestCreator.cpp:276-326. -/
def createFile (src : Path) (stub : Str) (s : St) : Ending St :=
  if exists' s.fs (outputFile P t src stub) then .ok s
  else
    (change (copyFile (templateFile P t stub) (outputFile P t src stub)) s).bind fun s =>
    (fillFile P t src (outputFile P t src stub) s).bind
    (registerFile env P (outputFile P t src stub))

/-- The part of `finalize` which follows the search for the header, TestCreator.cpp:349-365, with `finalize_header`, 376-384. -/
def createFiles (src : Path) (s : St) : Ending St :=
  (change (createDirectories (hostDir P src)) s).bind fun s =>
  (each (createFile env P t src) t.stubs s).bind
  (each (fun m => modify m.file (addToSuite t.suite t.indent t.constructors)) P.mains)

/-- `nascent_test_base::finalize`, TestCreator.cpp:328-365, with `on_source_path_error`, 386-401. -/
def finalize (s : St) : Ending St :=
  if (t.header.names.isEmpty && !t.header.absolute) || !isDir s.fs P.sourceRepo then .failed s
  else
    match locate env s.fs P.sourceRepo t.header with
    | some src => createFiles env P t src s
    | none =>
      match t.generate with
      | none => .failed s
      | some g =>
        match headerPath P g with
        | .ok h => (generateSource env P g h s).bind (createFiles env P t h)
        | .throws => .failed s
        | .ub => .undefined

/-! ### The kinds of tests -/

/-- What is given for a test, or set for the project. -/
structure Request where
  header : Given
  forename : Str
  suite : Str
  surname : Str
  testType : Str
  diagnostics : Bool
  owner : Str
  year : Str
  indent : Str
  project : Str

/-- `replace_all` with several replacements, Substitutions.hpp:100-107; each loop is given fuel which suffices, see C35. -/
def substitute : List (Str × Str) → Str → Res Str
  | [], t => .ok t
  | r :: rs, t =>
    match replaceAll (t.length + 1) t r.1 r.2 with
    | some t => substitute rs t
    | none => .ub

/-- `tabs_to_spacing`, Indent.cpp:68-82. -/
def spacing (indent t : Str) : Res Str := if indent = ['\t'] then .ok t else substitute [(['\t'], indent)] t

/-- `set_top_copyright`, TestRunnerUtilities.cpp:24-58. -/
def copyright (r : Request) (t : Str) : Res Str :=
  match setTopCopyright r.year r.owner t with
  | some t => .ok t
  | none => .throws

/-- `process_copyright_and_namespace`, TestCreator.cpp:55-59. -/
def copyrightAndNamespace (r : Request) (nameSpace t : Str) : Res Str :=
  (copyright r t).bind fun t =>
    match processNamespace ((t.length + 1) * (nameSpace.length + 12)) t nameSpace with
    | some t => .ok t
    | none => .ub

/-- `make_common_replacements`, TestCreator.cpp:428-437. -/
def commonReplacements (r : Request) (t : Str) : Res Str :=
  (substitute [("?::testing".toList, r.project ++ "::testing".toList),
      ("using namespace sequoia::testing;".toList, if r.project = "sequoia".toList then [] else "using namespace sequoia::testing;\n\n\t".toList),
      ("?forename".toList, r.forename), ("?surname".toList, r.surname)] t).bind (spacing r.indent)

/-- `to_camel_case`. -/
def camel (sep s : Str) : Res Str :=
  match toCamel (s.length + 1) s sep with
  | some c => .ok c
  | none => .ub

/-- The text of `set_cpp`, TestCreator.cpp:410-416. -/
def cppText (r : Request) (nameSpace include_ t : Str) : Res Str :=
  (copyrightAndNamespace r nameSpace t).bind fun t => (substitute [("?.hpp".toList, include_)] t).bind (spacing r.indent)

/-- `to_surname`, TestCreator.cpp:61-73. -/
def surnameFor (diagnostics : Bool) : Str := if diagnostics then "diagnostics".toList else "test".toList

/-- `framework_diagnostics_stubs`, TestCreator.cpp:248-252. -/
def diagnosticsStubs : List Str := ["Diagnostics.hpp".toList, "Diagnostics.cpp".toList]

/-- `finalize_suite`, TestCreator.cpp:367-374. -/
def suiteFor (suite fallback : Str) : Str := if suite = [] then camelToWords fallback [' '] id else suite

/-- `nascent_behavioural_test::transform_file`, TestCreator.cpp:769-777. -/
def behaviouralText (r : Request) (camelName : Str) (header : List String) (t : Str) : Res Str :=
  (copyright r t).bind fun t =>
  (commonReplacements r t).bind fun t =>
  (camel [] r.testType).bind fun kind =>
  substitute [("?Behavioural".toList, camelName), ("?Test".toList, kind ++ "Test".toList), ("?Header.hpp".toList, pathText header), ("?".toList, r.testType)] t

/-- A constructor of a behavioural test, TestCreator.cpp:741-756. -/
def behaviouralConstructor (r : Request) (middle : Str) : Res Str :=
  let cls := r.forename ++ ['_'] ++ (if middle = [] then [] else middle ++ ['_']) ++ r.surname
  (camel [' '] cls).bind fun name => .ok (cls ++ "{\"".toList ++ name ++ "\"}".toList)

/-- `nascent_behavioural_test::constructors`, TestCreator.cpp:738-767. -/
def behaviouralConstructors (r : Request) : Res (List Str) :=
  if r.diagnostics then
    (behaviouralConstructor r "false_positive".toList).bind fun a => (behaviouralConstructor r "false_negative".toList).bind fun b => .ok [a, b]
  else (behaviouralConstructor r []).bind fun a => .ok [a]

/-- `nascent_behavioural_test::finalize`, TestCreator.cpp:701-717; `nameSpace` is given if the source is to be generated. -/
def behavioural (r : Request) (nameSpace : Option Str) : Res Test :=
  let stem := match r.header.names.getLast? with | some n => (Instability.splitExtension n.toList).1 | none => []
  let fallback := capitalize (if r.forename = [] then stem else r.forename)
  let suite := suiteFor r.suite fallback
  let forename := if r.forename = [] then toSnake fallback else r.forename
  let surname := if r.surname = [] then r.testType ++ ['_'] ++ surnameFor r.diagnostics else r.surname
  let r := { r with suite := suite, forename := forename, surname := surname }
  (camel [] (forename ++ ['_'] ++ r.testType)).bind fun camelName =>
  (behaviouralConstructors r).bind fun cs =>
  .ok ⟨r.header, camelName, "MyBehavioural".toList, if r.diagnostics then diagnosticsStubs else ["Test.hpp".toList, "Test.cpp".toList], behaviouralText r camelName, suite, r.indent, cs,
    nameSpace.map fun n => ⟨r.header, "MyFreeFunctions.hpp", copyrightAndNamespace r n, some (cppText r n)⟩⟩

/-- `nascent_allocation_test::transform_file`, TestCreator.cpp:677-691. -/
def allocationText (r : Request) (camelName : Str) (t : Str) : Res Str :=
  (copyright r t).bind fun t =>
  (spacing r.indent t).bind fun t =>
  (commonReplacements r t).bind fun t =>
  (camel [] r.testType).bind fun kind =>
  (substitute [("?Class".toList, camelName), ("?Allocation".toList, kind), ("?_allocation".toList, r.testType)] t).bind fun t =>
  if r.testType = "move_only_allocation".toList then substitute [("bool PropagateCopy, ".toList, [])] t else .ok t

/-- The header, if none is given, TestCreator.cpp:506 and 662. -/
def headerFor (given : Given) (camelName : Str) : Given :=
  if given.names.isEmpty && !given.absolute then ⟨false, [String.ofList (camelName ++ ".hpp".toList)]⟩ else given

/-- `nascent_allocation_test::finalize`, TestCreator.cpp:657-669.  The source is not generated: the option is not offered for these tests, TestRunner.cpp:457. -/
def allocation (r : Request) : Res Test :=
  let surname := if r.surname = [] then "allocation_".toList ++ surnameFor r.diagnostics else r.surname
  let r := { r with surname := surname }
  (camel [] r.forename).bind fun camelName =>
  .ok ⟨headerFor r.header camelName, camelName, "MyClass".toList, if r.diagnostics then diagnosticsStubs else ["AllocationTest.hpp".toList, "AllocationTest.cpp".toList],
    fun _ => allocationText r camelName, suiteFor r.suite camelName, r.indent, [r.forename ++ ['_'] ++ surname ++ "{\"Allocation Test\"}".toList], none⟩

/-- The removal of the comparison with an equivalent type, TestCreator.cpp:602-610. -/
def eraseEquivalence (t : Str) : Str :=
  match rsearch "template<?>".toList t, rsearch "};".toList t with
  | some start, some finish => if start ≤ finish + 2 then splice t start (finish + 2 - start) [] else t.take start
  | _, _ => t

/-- `nascent_semantics_test::transform_file`, TestCreator.cpp:543-628. -/
def semanticsText (r : Request) (names : Names) (types : List Str) (camelName : Str) (header : List String) (t : Str) : Res Str :=
  (copyright r t).bind fun t =>
  let t := chooseKind (r.testType = "regular".toList) t
  (if types = [] then .ok (eraseEquivalence t)
    else (equivalentArgs types.length 0 types).bind fun args => substitute [("?args".toList, args), ("?predictions".toList, prediction types.length 0 [])] t).bind fun t =>
  (substitute [if names.params = [] then ("<?>".toList, "<>".toList) else ("<?> ".toList, dataText names.params ++ ['\n'] ++ r.indent)] t).bind fun t =>
  (commonReplacements r t).bind fun t =>
  (camel [] r.testType).bind fun kind =>
  substitute [("::?_class".toList, names.qualified), ("?Class.hpp".toList, pathText header), ("?Class".toList, camelName), ("?Test".toList, kind ++ "Test".toList), ("?".toList, r.testType)] t

/-- `nascent_semantics_test::set_header_text`, TestCreator.cpp:630-646. -/
def classText (r : Request) (names : Names) (t : Str) : Res Str :=
  (copyrightAndNamespace r names.nameSpace t).bind fun t =>
  (substitute [("?type".toList, names.forename)] t).bind fun t =>
  (substitute (if names.params = [] then [("\ttemplate<?>\n".toList, []), ("template<?>\n".toList, [])] else [("template<?>".toList, "template".toList ++ dataText names.params)]) t).bind
  (spacing r.indent)

/-- `m_SourceDir / filename`, TestCreator.cpp:520. -/
def append (dir file : Given) : Given := if file.absolute then file else ⟨dir.absolute, dir.names ++ file.names⟩

/-- `nascent_semantics_test::finalize`, TestCreator.cpp:451-513; `dir` is given if the source is to be generated. -/
def semantics (r : Request) (qualified : Str) (types : List Str) (dir : Option Given) : Res Test :=
  (semanticNames r.forename qualified).bind fun names =>
  let surname := if r.surname = [] then surnameFor r.diagnostics else r.surname
  let r := { r with forename := names.forename, surname := surname }
  (camel [] names.forename).bind fun camelName =>
  (camel [] r.testType).bind fun kind =>
  let header := headerFor r.header camelName
  .ok ⟨header, camelName, "MyClass".toList,
    if r.diagnostics then diagnosticsStubs
    else ["TestingUtilities.hpp".toList, "TestingDiagnostics.hpp".toList, "TestingDiagnostics.cpp".toList, "Test.hpp".toList, "Test.cpp".toList],
    semanticsText r names types camelName, suiteFor r.suite camelName, r.indent,
    [names.forename ++ "_false_negative_".toList ++ surname ++ "{\"False Negative Test\"}".toList, names.forename ++ ['_'] ++ surname ++ "{\"Unit Test\"}".toList],
    dir.map fun d => ⟨append d header, String.ofList ("My".toList ++ capitalize kind ++ "Class.hpp".toList), classText r names, if names.params = [] then some (cppText r names.nameSpace) else none⟩⟩

end Verif.TestFiles
