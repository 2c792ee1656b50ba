/-
What the paths of a project have to be.  A path is a list of names, the first of which is "/".
-/
namespace Verif.Spec.ProjectPaths

/-- A canonical path. -/
def Canonical (p : List String) : Prop := ∃ l, p = "/" :: l ∧ "/" ∉ l ∧ "" ∉ l ∧ "." ∉ l ∧ ".." ∉ l

/-- The executable is somewhere in the directory `build` of the project. -/
def Below (root exec : List String) : Prop := root ≠ [] ∧ ∃ rest, rest ≠ [] ∧ exec = root ++ ["build"] ++ rest

/-- The directory in which a file is. -/
def DirOf (file dir : List String) : Prop := ∃ name, file = dir ++ [name]

/-- The file a path leads to: an element "." leads nowhere. -/
def file (p : List String) : List String := p.filter (· ≠ ".")

/-- One directory, or file, is not inside of the other. -/
def Apart (p q : List String) : Prop := ¬ p <+: q ∧ ¬ q <+: p

/-- The records which are kept so that tests may be skipped: for a build, or for one of the repetitions of the tests. -/
inductive Record where
  | stamp
  | external
  | failures (repetition : Option Nat)
  | passes (repetition : Option Nat)
deriving DecidableEq

end Verif.Spec.ProjectPaths
