import Verif.Model.RunnerArgs
import Verif.Spec.CommandLine

/-! The command line of the test runner. -/
namespace Verif.Spec.RunnerArgs
open Verif.RunnerArgs Verif.Cmd

/-- What is invoked for a command line: function objects, given by their numbers, and their arguments. -/
abbrev Invs := List (Nat × List Str)

/-- The option was given. -/
def Given (invs : Invs) (f : Fn) : Prop := ∃ args, (f.code, args) ∈ invs

/-- The first arguments of the occurrences of an option. -/
def firsts (invs : Invs) (f : Fn) : List Str := invs.filterMap fun i => if i.1 = f.code then i.2.head? else none

/-- Instabilities are looked for. -/
def Locating (invs : Invs) : Prop := Given invs .locate ∨ Given invs .sandbox ∨ Given invs .runnerId

/-- Tests are selected. -/
def Selecting (invs : Invs) : Prop := Given invs .test ∨ Given invs .select

/-- A recovery file or a dump is asked for. -/
def Recovering (invs : Invs) : Prop := Given invs .recover ∨ Given invs .dump

/-- The choice of `--serial`, or of `--thread-pool` with a positive number. -/
def choice (i : Nat × List Str) : Option (Option Nat) :=
  if i.1 = Fn.serial.code then some none
  else if i.1 = Fn.pool.code then
    match i.2.head?.bind stoi with
    | some n => if n > 0 then some (some n.toNat) else none
    | none => none
  else none

/-- The last choice which was made. -/
def lastChoice (invs : Invs) : Option (Option Nat) := (invs.filterMap choice).getLast?

/-- A selection of the given keys, none of which has been found; no selection if there are none. -/
def selection (keys : List Str) : Suites.Selection Str := if keys = [] then none else some (keys.map fun k => (k, false))

/-- The arguments of an invocation are acceptable: numbers are numbers. -/
def Numeric (i : Nat × List Str) : Prop :=
  (i.1 = Fn.locate.code → ∃ n, i.2.head?.bind stoi = some n ∧ 2 ≤ n) ∧
  (i.1 = Fn.runnerId.code → ∃ n, i.2.head?.bind stoi = some n) ∧
  (i.1 = Fn.pool.code → ∃ n, i.2.head?.bind stoi = some n)

/-- Tests or projects are created. -/
def creating : List Fn := [.createLate, .regular, .moveOnly, .regularAlloc, .moveOnlyAlloc, .free, .performance, .suite, .diagnostics, .header, .forename, .genFree,
  .genSemantics, .init, .noBuild, .noGit, .toFiles, .noIde]

/-- A runner in its initial state, in a project with an output directory. -/
def start (recoveryDir : Bool) : Runner := { recoveryDir := recoveryDir }

/-- A call of one of the options with the given names, on the top level. -/
def Is (names : List String) : Call → Bool
  | .one _ t _ _ => names.any fun n => n.toList = t.opt.name
  | .group _ _ => false

/-- Two runners do the same: all settings agree, and the same suites and files are selected, though possibly in another order. -/
structure Same (r r' : Runner) : Prop where
  modes : r.test = r'.test ∧ r.create = r'.create ∧ r.init = r'.init
  suites : ∃ l l', l.Perm l' ∧ r.filter.suites = selection l ∧ r'.filter.suites = selection l'
  items : ∃ l l', l.Perm l' ∧ r.filter.items = selection l ∧ r'.filter.items = selection l'
  prune : r.pruning = r'.pruning ∧ r.cutoff = r'.cutoff
  verbose : r.verbose = r'.verbose
  soft : r.soft = r'.soft
  recovery : r.recovery = r'.recovery ∧ r.dump = r'.dump
  conc : r.conc = r'.conc ∧ r.pool = r'.pool
  instab : r.instab = r'.instab ∧ r.reps = r'.reps ∧ r.id = r'.id
  created : r.nascent = r'.nascent ∧ r.projects = r'.projects

/-- Text which means the same to a shell as without it: it is not empty, and no character has a special meaning. -/
def Plain (s : Str) : Prop := s ≠ [] ∧ ∀ c ∈ s, plainChar c = true

/-! ### New tests -/

/-- The kinds of tests which can be created, by their names on the command line. -/
def kinds : List (String × Genus × String) :=
  [("regular_test", .semantic, "regular"), ("move_only_test", .semantic, "move_only"), ("regular_allocation_test", .allocation, "regular_allocation"),
   ("move_only_allocation_test", .allocation, "move_only_allocation"), ("free_test", .behavioural, "free"), ("performance_test", .behavioural, "performance")]

/-- The settings which can be made, by their names on the command line. -/
def settingNames : List (String × String) :=
  [("--suite", "suite"), ("--framework-diagnostics", "diagnostics"), ("--header", "header"), ("--test-class-forename", "forename"), ("gen-source", "generate")]

/-- Look up a name. -/
def named {α : Type} (table : List (String × α)) (n : Str) : Option α := (table.find? fun e => e.1.toList = n).map (·.2)

/-- The settings which some calls ask for. -/
def settingsOf (cs : List Call) : List (String × List Str) :=
  cs.filterMap fun
    | .one _ t args _ => (named settingNames t.opt.name).map fun n => (n, args)
    | .group _ _ => none

/-- The test which a call below `create` asks for, finalized once. -/
def wanted : Call → Option Nascent
  | .one _ k args subs => (named kinds k.opt.name).map fun x => ⟨x.1, x.2, args, settingsOf subs, 1⟩
  | .group _ _ => none

/-- The tests which a command line asks for. -/
def created (cs : List Call) : List Nascent :=
  cs.flatMap fun
    | .one _ t _ subs => if t.opt.name = "create".toList then subs.filterMap wanted else []
    | .group _ _ => []

/-- There is exactly one test below each `create`. -/
def OneEach (cs : List Call) : Prop :=
  ∀ c ∈ cs, ∀ w t args subs, c = .one w t args subs → t.opt.name = "create".toList → ∃ w' k a s, subs = [.one w' k a s]

end Verif.Spec.RunnerArgs
