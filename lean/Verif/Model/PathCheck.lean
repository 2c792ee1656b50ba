import Verif.Model.SoftUpdate
/-
Model of the comparison of paths, `value_tester<std::filesystem::path>`, /repo/Source/sequoia/TestFramework/ConcreteTypeCheckers.hpp:331-555.

The directories are those of `Verif.Model.SoftUpdate`: a directory is a list of entries, each of which is a file with some content or a directory.  Other types of files, symbolic
links (for which `fs::relative` looks at where they lead), files which cannot be read and changes of the files during a comparison are not modelled.  What a comparison does to the
logger is represented by the results of the checks of equality, in the order in which they are made; that such a check logs a failure if and only if the values differ, and returns
whether it has, is the subject of `Verif.Model.Checkers`.
-/
namespace Verif.PathCheck
open Verif.SoftUpdate

/-- The results of the checks which have been made. -/
abbrev Log := List Bool

/-- What the code needs to know about names, with `filename() == ".DS_Store"`. -/
structure Names (N : Type) extends Naming N where
  isStore : N → Bool

/-- Checks made before others. -/
def Log.andThen (l : Log) (r : Res Log) : Res Log := r.bind fun m => .ok (l ++ m)

section
variable {N C S : Type} [LinearOrder N] (nm : Names N)

/-- `FinalTokenComparison`, ConcreteTypeCheckers.hpp:417-422 and 440: for equivalence, the final elements of the paths are checked for equality; for weak equivalence they are
ignored.  What is logged, and what is returned. -/
def finalTokens (strict : Bool) (n n' : N) : Log × Bool := if strict then ([decide (n = n')], decide (n = n')) else ([], true)

/-- A comparison of files: the names of the file and of the prediction, their contents, and the directory in which the prediction is. -/
abbrev Comparer (N C S : Type) := N → N → C → C → Entries N C S → Res Log

/-- `string_based_file_comparer`, ConcreteTypeCheckers.hpp:333-348, with `get_reduced_file_content`, FileEditors.cpp:217-260.  Whether to look for patterns depends on the name of the
file, and where on that of the prediction.  What the patterns do is left open, `reduce`; if what has the name of the file with patterns is a directory, it cannot be read. -/
def stringBased [DecidableEq C] (reduce : C → C → C) : Comparer N C S := fun n n' c c' dir =>
  if nm.isPattern n then .ok [true, true, decide (c = c')]
  else
    match lookup (nm.patternOf n') dir with
    | none => .ok [true, true, decide (c = c')]
    | some (.inl p) => .ok [true, true, decide (reduce p c = reduce p c')]
    | some (.inr _) => .throws

/-- `general_file_checker`, ConcreteTypeCheckers.hpp:358-386: the comparer for the extension of the file, the first one unless there is one with this extension. -/
def bespoke {E : Type} [DecidableEq E] (extension : N → E) (dflt : E × Comparer N C S) (others : List (E × Comparer N C S)) : Comparer N C S := fun n n' c c' dir =>
  match (dflt :: others).find? fun e => e.1 = extension n with
  | some e => e.2 n n' c c' dir
  | none => dflt.2 n n' c c' dir

/-- `generator`, ConcreteTypeCheckers.hpp:500-516: the entries of a directory, apart from those which are excluded, in order. -/
def listing (l : Entries N C S) : Entries N C S := sortEntries (l.filter fun e => !(nm.isStore e.1 || nm.isKeep e.1) && !nm.isPattern e.1)

/-- `std::ranges::mismatch`, ConcreteTypeCheckers.hpp:528-531: the names at which two listings first differ, nothing being at the end of a listing. -/
def firstMismatch : List N → List N → Option N × Option N
  | n :: l, n' :: l' => if n = n' then firstMismatch l l' else (some n, some n')
  | l, l' => (l.head?, l'.head?)

variable (strict : Bool) (comparer : Comparer N C S) (sub : S → S → Res Log)

/-- `check_path`, ConcreteTypeCheckers.hpp:463-493, for things which exist.  `dir` is the directory in which the prediction is. -/
def checkPath (dir : Entries N C S) (n n' : N) (x y : C ⊕ S) : Res Log :=
  if kind x = kind y then
    let (log, same) := finalTokens strict n n'
    Log.andThen (true :: log) <|
      if same then
        match x, y with
        | .inl c, .inl c' => comparer n n' c c' dir
        | .inr d, .inr d' => sub d d'
        | _, _ => .ub
      else .ok []
  else .ok [false]

/-- The loop over the entries, ConcreteTypeCheckers.hpp:546-549. -/
def checkPaths (dir : Entries N C S) : Entries N C S → Entries N C S → Res Log
  | x :: l, y :: l' => (checkPath strict comparer sub dir x.1 y.1 x.2 y.2).bind fun log => Log.andThen log (checkPaths dir l l')
  | _, _ => .ok []

/-- `check_directory`, ConcreteTypeCheckers.hpp:495-551, on one level.  Two full paths differ if their final elements do, and a path which is not empty differs from the empty one. -/
def checkEntries (dir dir' : Entries N C S) : Res Log :=
  let l := listing nm dir
  let l' := listing nm dir'
  Log.andThen [decide (l.length = l'.length)] <|
    match firstMismatch (l.map (·.1)) (l'.map (·.1)) with
    | (none, none) => checkPaths strict comparer sub dir' l l'
    | (n, n') => .ok [decide (n = n')]

end

/-- A way of comparing files, whatever the directories contain. -/
abbrev FileChecker (N C : Type) := (S : Type) → Comparer N C S

/-- `basic_file_checker`, ConcreteTypeCheckers.hpp:455-457: the comparison of files which is used unless another one is asked for. -/
def basic {N C : Type} [LinearOrder N] [DecidableEq C] (nm : Names N) (reduce : C → C → C) : FileChecker N C := fun _ => stringBased nm reduce

/-- `general_file_checker`, ConcreteTypeCheckers.hpp:358-386. -/
def bespokeChecker {N C E : Type} [LinearOrder N] [DecidableEq E] (extension : N → E) (dflt : E × FileChecker N C) (others : List (E × FileChecker N C)) : FileChecker N C := fun S =>
  bespoke extension (dflt.1, dflt.2 S) (others.map fun p => (p.1, p.2 S))

/-- `check_directory`, ConcreteTypeCheckers.hpp:495-551. -/
def checkDirectory {N C : Type} [LinearOrder N] (nm : Names N) (strict : Bool) (comparer : FileChecker N C) : (depth : Nat) → Dir N C depth → Dir N C depth → Res Log
  | 0, d, _ => nomatch d
  | depth + 1, d, d' => checkEntries nm strict (comparer _) (checkDirectory nm strict comparer depth) d d'

/-- A path: either it is empty, or it is given by the directory in which it is and its final element; there need not be anything with that name. -/
inductive Path (N C : Type) (depth : Nat) where
  | empty
  | within (dir : Entries N C (Dir N C depth)) (n : N)

/-- `check_path`, ConcreteTypeCheckers.hpp:463-493, for paths which are not empty, given what there is; for what does not exist, `fs::status` is `not_found`, and there is an
exception unless the names are found to differ before. -/
def checkFound {N C S : Type} [LinearOrder N] (strict : Bool) (comparer : Comparer N C S) (sub : S → S → Res Log) (dir : Entries N C S) (n n' : N) :
    Option (C ⊕ S) → Option (C ⊕ S) → Res Log
  | some x, some y => checkPath strict comparer sub dir n n' x y
  | none, none =>
    let (log, same) := finalTokens strict n n'
    if same then .throws else .ok (true :: log)
  | _, _ => .ok [false]

/-- `check_path`, ConcreteTypeCheckers.hpp:463-493.  The empty path does not exist; to ask for its final element is an error, FileSystem/FileSystem.hpp:46-53. -/
def check {N C : Type} [LinearOrder N] (nm : Names N) (strict : Bool) (comparer : FileChecker N C) {depth : Nat} (path prediction : Path N C depth) : Res Log :=
  match path, prediction with
  | .empty, .empty => .ok [true]
  | .empty, .within dir' n' => .ok [(lookup n' dir').isNone]
  | .within dir n, .empty => if (lookup n dir).isNone then .throws else .ok [false]
  | .within dir n, .within dir' n' => checkFound strict (comparer _) (checkDirectory nm strict comparer depth) dir' n n' (lookup n dir) (lookup n' dir')

end Verif.PathCheck
