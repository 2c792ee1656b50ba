import Verif.Model.CommandLine
import Verif.Model.FailureInfo
import Verif.Model.Suite
/-
Model of the command line of the test runner, /repo/Source/sequoia/TestFramework/TestRunner.hpp and TestRunner.cpp: `process_args`,
`check_argument_consistency`, and the commands which `execute` runs in order to look for instabilities in sandboxes.

What is written to the stream is left out.  The bits of `runner_mode` and `recovery_mode` are separate fields.  Paths are texts; their normal form is a parameter.
-/
namespace Verif.RunnerArgs

open Verif.Cmd Verif.Suites

/-- `concurrency_mode`, TestRunner.hpp:38-42. -/
inductive Conc where
  | serial | dynamic | fixed
  deriving DecidableEq, Repr

/-- `instability_mode`, TestRunner.hpp:300. -/
inductive Instab where
  | none | single | coordinator | sandbox
  deriving DecidableEq, Repr

/-- The genera of tests, TestRunner.cpp:134. -/
inductive Genus where
  | semantic | allocation | behavioural
  deriving DecidableEq, Repr

/-- What has been said about a test which is to be created, TestRunner.cpp:131-156 and 380-451, as far as it is given by the command line: its kind, its arguments, and the settings in the order in
which they were made. -/
structure Nascent where
  genus : Genus
  species : String
  args : List Str
  settings : List (String × List Str) := []
  finalized : Nat := 0
  deriving DecidableEq, Repr

/-- `build_invocation`, ProjectCreator.hpp. -/
inductive Build where
  | no | yes | launchIde
  deriving DecidableEq, Repr

/-- `project_data`, ProjectCreator.hpp:25-33. -/
structure Project where
  copyright : Str
  root : Str
  indent : Str
  build : Build := .launchIde
  git : Bool := true
  output : Str := []
  deriving DecidableEq, Repr

/-- The data members of `test_runner` which the command line changes, TestRunner.hpp:341-356, the local variables of `process_args`, TestRunner.cpp:376-377; whether the
directory for recovery exists, and which of the files in it have been removed (`true` for the recovery file, `false` for the dump file). -/
structure Runner where
  test : Bool := false
  create : Bool := false
  init : Bool := false
  filter : Granular Str Str := ⟨none, none⟩
  pruning : Bool := false
  cutoff : Str := []
  verbose : Bool := false
  soft : Bool := false
  recovery : Bool := false
  dump : Bool := false
  conc : Conc := .dynamic
  instab : Instab := .none
  reps : Nat := 1
  id : Nat := 0
  pool : Nat := 8
  nascent : List Nascent := []
  projects : List Project := []
  recoveryDir : Bool := true
  removed : List Bool := []

/-- What does not depend on the command line: whether the directory for output exists, whether the files for a new test can be written, the normal form of a path, and the text in which
an indentation has been made of the characters for a tab, TestRunner.cpp:526-529. -/
structure World where
  outputDir : Bool
  writes : Nascent → Bool
  normal : Str → Str
  tabs : Str → Str

/-- The function objects in the forest of options. -/
inductive Fn where
  | test | select | prune | cutoff | createEarly | createLate | regular | moveOnly | regularAlloc | moveOnlyAlloc | free | performance
  | suite | diagnostics | header | forename | genFree | genSemantics | init | noBuild | noGit | toFiles | noIde | update | locate | sandbox | runnerId
  | recover | dump | serial | pool | verbose
  deriving DecidableEq, Repr

/-- All function objects. -/
def Fn.all : List Fn :=
  [.test, .select, .prune, .cutoff, .createEarly, .createLate, .regular, .moveOnly, .regularAlloc, .moveOnlyAlloc, .free, .performance,
   .suite, .diagnostics, .header, .forename, .genFree, .genSemantics, .init, .noBuild, .noGit, .toFiles, .noIde, .update, .locate, .sandbox, .runnerId,
   .recover, .dump, .serial, .pool, .verbose]

/-- The number which represents a function object, see `Verif.Cmd.Opt`. -/
def Fn.code (f : Fn) : Nat := Fn.all.idxOf f

/-- The function object with a number. -/
def Fn.ofCode (n : Nat) : Option Fn := Fn.all[n]?

/-- An option with `early` only. -/
def opt (name : String) (aliases params : List String) (f : Fn) : Opt :=
  ⟨name.toList, aliases.map String.toList, params.map String.toList, some f.code, none⟩

/-- An option without options below it. -/
def leaf (name : String) (aliases params : List String) (f : Fn) : OptTree := .node (opt name aliases params f) []

/-- `suiteOption`, TestRunner.cpp:379-386. -/
def suiteOption : OptTree := leaf "--suite" ["-s"] ["suite name"] .suite
/-- `diagnosticsOption`, TestRunner.cpp:388-395. -/
def diagnosticsOption : OptTree := leaf "--framework-diagnostics" ["--diagnostics"] [] .diagnostics
/-- `headerOption`, TestRunner.cpp:397-404. -/
def headerOption : OptTree := leaf "--header" ["-h"] ["header of class to test"] .header
/-- `forenameOption`, TestRunner.cpp:406-413. -/
def forenameOption : OptTree := leaf "--test-class-forename" ["--forename"] ["test class is named <forename>_..."] .forename
/-- `genFreeSourceOption`, TestRunner.cpp:415-434. -/
def genFreeOption : OptTree := leaf "gen-source" ["g"] ["namespace"] .genFree
/-- `genSemanticsSourceOption`, TestRunner.cpp:436-455. -/
def genSemanticsOption : OptTree := leaf "gen-source" ["g"] ["source dir"] .genSemantics

/-- TestRunner.cpp:457. -/
def semanticsOptions : List OptTree := [suiteOption, headerOption, genSemanticsOption]
/-- TestRunner.cpp:458. -/
def allocationOptions : List OptTree := [suiteOption, headerOption]
/-- TestRunner.cpp:459. -/
def performanceOptions : List OptTree := [suiteOption]
/-- TestRunner.cpp:460. -/
def freeOptions : List OptTree := [suiteOption, forenameOption, genFreeOption, diagnosticsOption]

/-- The options below `create`, TestRunner.cpp:500-518. -/
def createOptions : List OptTree :=
  [.node (opt "regular_test" ["regular"] ["qualified::class_name<class T>", "equivalent type"] .regular) semanticsOptions,
   .node (opt "move_only_test" ["move_only"] ["qualified::class_name<class T>", "equivalent type"] .moveOnly) semanticsOptions,
   .node (opt "regular_allocation_test" ["regular_allocation", "allocation_test"] ["raw class name"] .regularAlloc) allocationOptions,
   .node (opt "move_only_allocation_test" ["move_only_allocation"] ["raw class name"] .moveOnlyAlloc) allocationOptions,
   .node (opt "free_test" ["free"] ["header"] .free) freeOptions,
   .node (opt "performance_test" ["performance"] ["header"] .performance) performanceOptions]

/-- The forest of options, TestRunner.cpp:462-626. -/
def forest : List OptTree :=
  [leaf "test" ["t"] ["test suite name"] .test,
   leaf "select" ["s"] ["source file name"] .select,
   .node (opt "prune" ["p"] [] .prune) [leaf "--cutoff" ["-c"] ["Cutoff for #include search e.g. 'namespace'"] .cutoff],
   .node ⟨"create".toList, ["c".toList], [], some Fn.createEarly.code, some Fn.createLate.code⟩ createOptions,
   .node (opt "init" ["i"] ["copyright owner", "path ending with project name", "code indent"] .init)
     [leaf "--no-build" [] [] .noBuild, leaf "--no-git" [] [] .noGit, leaf "--to-files" [] ["output filename"] .toFiles, leaf "--no-ide" [] [] .noIde],
   leaf "update-materials" ["u"] [] .update,
   .node (opt "locate-instabilities" ["locate"] ["number of repetitions >= 2"] .locate)
     [leaf "--sandbox" [] [] .sandbox, leaf "--runner-id" [] ["private option, best avoided"] .runnerId],
   leaf "recover" [] [] .recover,
   leaf "dump" [] [] .dump,
   leaf "--serial" [] [] .serial,
   leaf "--thread-pool" [] ["Number of threads, must be >= 1"] .pool,
   leaf "--verbose" ["-v"] [] .verbose]

/-- The value of a sequence of digits. -/
def value (ds : Str) : Nat := ds.foldl (fun n c => n * 10 + (c.toNat - '0'.toNat)) 0

/-- The sign of a number, and what follows it. -/
def signed : Str → Bool × Str
  | '-' :: r => (true, r)
  | '+' :: r => (false, r)
  | r => (false, r)

/-- `std::stoi` with base 10: `none` if it throws, because there are no digits or because the number is not an `int` of 32 bits.  What follows the digits is ignored. -/
def stoi (s : Str) : Option Int :=
  let t := s.dropWhile FailureInfo.isSpace
  let ds := (signed t).2.takeWhile Char.isDigit
  if ds.isEmpty then none
  else
    let i : Int := if (signed t).1 then - (value ds : Int) else value ds
    if -2 ^ 31 ≤ i ∧ i < 2 ^ 31 then some i else none

/-- Change the last element. -/
def modBack {α : Type} (f : α → α) : List α → List α
  | [] => []
  | [x] => [f x]
  | x :: y :: l => x :: modBack f (y :: l)

/-- `std::visit` for the last of the tests which are to be created, after the check that there is one, TestRunner.cpp:381-384 and similarly below. -/
def setNascent (f : Nascent → Nascent) (r : Runner) : Outcome Runner Unit :=
  if r.nascent.isEmpty then .threw r else .ret { r with nascent := modBack f r.nascent } ()

/-- Note a setting. -/
def setting (name : String) (args : List Str) (n : Nascent) : Nascent := { n with settings := n.settings ++ [(name, args)] }

/-- `nascentProjects.back()`. -/
def setProject (f : Project → Project) (r : Runner) : Outcome Runner Unit :=
  if r.projects.isEmpty then .ub else .ret { r with projects := modBack f r.projects } ()

/-- `create_directory`, which throws if there is no directory in which to create it, and the removal of a file if there is a directory already, TestRunner.cpp:591-594 and 602-605. -/
def clearRecovery (w : World) (file : Bool) (r : Runner) : Outcome Runner Unit :=
  if r.recoveryDir then .ret { r with removed := r.removed ++ [file] } ()
  else if w.outputDir then .ret { r with recoveryDir := true } ()
  else .threw r

/-- In recovery mode tests are run one after the other, TestRunner.cpp:596-597 and 607-608. -/
def serialIfDynamic (c : Conc) : Conc := if c = .dynamic then .serial else c

/-- `nascent_test_data::operator()`, TestRunner.cpp:131-156. -/
def addNascent (g : Genus) (species : String) (args : List Str) (r : Runner) : Outcome Runner Unit :=
  match args, g with
  | _ :: _ :: _, .semantic => .ret { r with nascent := r.nascent ++ [⟨g, species, args, [], 0⟩] } ()
  | _, .semantic => .ub
  | _ :: _, _ => .ret { r with nascent := r.nascent ++ [⟨g, species, args, [], 0⟩] } ()
  | [], _ => .ub

/-- The first argument: `args.front()` or `args[0]`, undefined if there is none. -/
def withFront (args : List Str) (f : Str → Outcome Runner Unit) : Outcome Runner Unit :=
  match args with
  | [] => .ub
  | a :: _ => f a

/-- The conversion from `int` to `std::size_t`. -/
def toSize (i : Int) : Nat := (i % 2 ^ 64).toNat

/-- The function objects of the options, at the places given. -/
def invoke (w : World) (f : Fn) (args : List Str) (r : Runner) : Outcome Runner Unit :=
  match f with
  -- TestRunner.cpp:465-469
  | .test => withFront args fun a => .ret { r with test := true, filter := ⟨addSelection r.filter.suites a, r.filter.items⟩ } ()
  -- TestRunner.cpp:472-476
  | .select => withFront args fun a => .ret { r with test := true, filter := ⟨r.filter.suites, addSelection r.filter.items (w.normal a)⟩ } ()
  -- TestRunner.cpp:479-482
  | .prune => .ret { r with test := true, pruning := true } ()
  -- TestRunner.cpp:485-487
  | .cutoff => withFront args fun a => .ret { r with cutoff := a } ()
  -- TestRunner.cpp:491
  | .createEarly => .ret r ()
  -- TestRunner.cpp:492-499; an exception is thrown by `finalize` if the files cannot be written
  | .createLate =>
    match r.nascent.getLast? with
    | none => .ret r ()
    | some n =>
      if w.writes n then .ret { r with create := true, nascent := modBack (fun n => { n with finalized := n.finalized + 1 }) r.nascent } ()
      else .threw { r with create := true }
  -- TestRunner.cpp:501-517
  | .regular => addNascent .semantic "regular" args r
  | .moveOnly => addNascent .semantic "move_only" args r
  | .regularAlloc => addNascent .allocation "regular_allocation" args r
  | .moveOnlyAlloc => addNascent .allocation "move_only_allocation" args r
  | .free => addNascent .behavioural "free" args r
  | .performance => addNascent .behavioural "performance" args r
  -- TestRunner.cpp:380-385
  | .suite => if r.nascent.isEmpty then .threw r else withFront args fun a => setNascent (setting "suite" [a]) r
  -- TestRunner.cpp:389-394
  | .diagnostics => setNascent (setting "diagnostics" []) r
  -- TestRunner.cpp:398-403
  | .header => if r.nascent.isEmpty then .threw r else withFront args fun a => setNascent (setting "header" [a]) r
  -- TestRunner.cpp:407-412
  | .forename => if r.nascent.isEmpty then .threw r else withFront args fun a => setNascent (setting "forename" [a]) r
  -- TestRunner.cpp:416-433
  | .genFree =>
    if r.nascent.isEmpty then .threw r
    else if (r.nascent.getLast?.map Nascent.genus) = some .behavioural then withFront args fun a => setNascent (setting "generate" [a]) r
    else .ret r ()
  -- TestRunner.cpp:437-454
  | .genSemantics =>
    if r.nascent.isEmpty then .threw r
    else if (r.nascent.getLast?.map Nascent.genus) = some .semantic then withFront args fun a => setNascent (setting "generate" [a]) r
    else .ret r ()
  -- TestRunner.cpp:521-533
  | .init =>
    match args with
    | a :: b :: c :: _ => .ret { r with init := true, projects := r.projects ++ [⟨a, b, w.tabs c, .launchIde, true, []⟩] } ()
    | _ => .ub
  -- TestRunner.cpp:535-546
  | .noBuild => setProject (fun p => { p with build := .no }) r
  | .noGit => setProject (fun p => { p with git := false }) r
  | .toFiles => withFront args fun a => setProject (fun p => { p with output := a }) r
  | .noIde => setProject (fun p => if p.build = .launchIde then { p with build := .yes } else p) r
  -- TestRunner.cpp:550-553
  | .update => .ret { r with test := true, soft := true } ()
  -- TestRunner.cpp:556-576
  | .locate => withFront args fun a =>
    match stoi a with
    | none => .threw r
    | some i => if i < 2 then .threw r else .ret { r with instab := .single, reps := i.toNat } ()
  -- TestRunner.cpp:578-581
  | .sandbox => .ret { r with instab := .coordinator } ()
  -- TestRunner.cpp:582-586
  | .runnerId => withFront args fun a =>
    match stoi a with
    | none => .threw r
    | some i => .ret { r with id := toSize i, instab := .sandbox } ()
  -- TestRunner.cpp:589-598
  | .recover =>
    match clearRecovery w true r with
    | .ret r' _ => .ret { r' with recovery := true, conc := serialIfDynamic r'.conc } ()
    | o => o
  -- TestRunner.cpp:600-609
  | .dump =>
    match clearRecovery w false r with
    | .ret r' _ => .ret { r' with dump := true, conc := serialIfDynamic r'.conc } ()
    | o => o
  -- TestRunner.cpp:611
  | .serial => .ret { r with conc := .serial } ()
  -- TestRunner.cpp:612-623; only a warning is given if the number is not positive
  | .pool => withFront args fun a =>
    match stoi a with
    | none => .threw r
    | some i => if i > 0 then .ret { r with conc := .fixed, pool := i.toNat } () else .ret r ()
  -- TestRunner.cpp:625
  | .verbose => .ret { r with verbose := true } ()

/-- The function objects are invoked one after the other, see `Verif.Cmd.parseInvoke`. -/
def invokeAll (w : World) : List (Nat × List Str) → Runner → Outcome Runner Unit
  | [], r => .ret r ()
  | (n, args) :: l, r =>
    match Fn.ofCode n with
    | none => .ub
    | some f =>
      match invoke w f args r with
      | .ret r' _ => invokeAll w l r'
      | .threw r' => .threw r'
      | .ub => .ub

/-- `granular_filter::operator bool`, Suite.hpp:408-412. -/
def selective (f : Granular Str Str) : Bool := f.suites.isSome || f.items.isSome

/-- `check_argument_consistency`, TestRunner.cpp:661-680. -/
def consistency (r : Runner) : Outcome Runner Unit :=
  let r1 := if r.instab ≠ .none ∧ r.soft = true then { r with soft := false } else r
  if r1.conc ≠ .serial ∧ (r1.recovery = true ∨ r1.dump = true) then .threw r1
  else if r1.pruning = true ∧ selective r1.filter = true then .ret { r1 with pruning := false } ()
  else .ret r1 ()

/-- The default mode, TestRunner.cpp:637-638. -/
def defaultMode (r : Runner) : Runner := if r.test || r.create || r.init then r else { r with test := true }

/-- `process_args`, TestRunner.cpp:372-642; the value is whether help is given.  What follows, the creation of files for new tests and projects, and pruning, is not
part of this. -/
def processArgs (w : World) (r : Runner) (args : List Str) : Outcome Runner Bool :=
  match parseInvoke forest args with
  | .throws => .threw r
  | .ub => .ub
  | .ok (some _, _) => .ret { r with test := false, create := false, init := false } true
  | .ok (none, invs) =>
    match invokeAll w invs r with
    | .threw r' => .threw r'
    | .ub => .ub
    | .ret r' _ =>
      match consistency (defaultMode r') with
      | .ret r'' _ => .ret r'' false
      | .threw r'' => .threw r''
      | .ub => .ub

/-! ### Pruning -/

/-- `do_prune`, TestRunner.cpp:1031-1055; `toRun` is what `tests_to_run` gives, nothing if there is no time stamp. -/
def doPrune (w : World) (toRun : Option (List Str)) (r : Runner) : Runner :=
  if r.pruning = false then r
  else
    match toRun with
    | none => { r with pruning := false }
    | some l =>
      let f := l.foldl (fun f src => ⟨f.suites, addSelection f.items (w.normal src)⟩) r.filter
      if selective f then { r with filter := f } else { r with filter := ⟨some [], some []⟩ }

/-! ### Sandboxes -/

/-- `specified`, TestRunner.cpp:746-768. -/
def specified (f : Granular Str Str) : Str :=
  (match f.items with
    | none => []
    | some l => l.flatMap fun e => if e.2 then " select ".toList ++ e.1 else []) ++
  (match f.suites with
    | none => []
    | some l => l.flatMap fun e => if e.2 then " test ".toList ++ e.1 else [])

/-- `to_async_option`, TestRunner.cpp:158-171. -/
def asyncOption (c : Conc) (pool : Nat) : Str :=
  match c with
  | .serial => " --serial".toList
  | .dynamic => []
  | .fixed => " --thread-pool ".toList ++ Nat.toDigits 10 pool

/-- The command for one run, TestRunner.cpp:772-774. -/
def childCommand (exe : Str) (r : Runner) (i : Nat) : Str :=
  exe ++ " locate ".toList ++ Nat.toDigits 10 r.reps ++ " --runner-id ".toList ++ Nat.toDigits 10 i ++ specified r.filter ++ asyncOption r.conc r.pool

/-- The commands which are run, one after the other, TestRunner.cpp:741-776; without the name of an executable there is an exception. -/
def childCommands (exe : Str) (r : Runner) : Res (List Str) :=
  if exe.isEmpty then .throws else .ok ((List.range r.reps).map (childCommand exe r))

/-! ### What a shell does -/

/-- Characters which have no special meaning for a shell. -/
def plainChar (c : Char) : Bool := c.isAlphanum || c = '_' || c = '-' || c = '.' || c = '/' || c = ':' || c = '+' || c = ',' || c = '@'

/-- Split at blanks. -/
def blankSplit : Str → Str → List Str
  | cur, [] => if cur.isEmpty then [] else [cur]
  | cur, c :: s => if c = ' ' then (if cur.isEmpty then [] else [cur]) ++ blankSplit [] s else blankSplit (cur ++ [c]) s

/-- The words into which the shell which `std::system` starts, ShellCommands.cpp:53-56, splits a command: only for commands which consist of blanks and of characters which have no special meaning. -/
def shellWords (s : Str) : Option (List Str) := if s.all fun c => plainChar c || c = ' ' then some (blankSplit [] s) else none

end Verif.RunnerArgs
