import Verif.Spec.Text

/-
What is expected of adding tests to files.
-/
namespace Verif.Spec.FileEditors
open Verif.Text Verif.Spec.Text

/-- A comparison which may be used to sort a list. -/
def StrictWeak (lt : Str → Str → Bool) (l : List Str) : Prop :=
  (∀ a ∈ l, lt a a = false) ∧
  (∀ a ∈ l, ∀ b ∈ l, ∀ c ∈ l, lt a b = true → lt b c = true → lt a c = true) ∧
  (∀ a ∈ l, ∀ b ∈ l, ∀ c ∈ l, lt a b = false → lt b a = false → lt b c = false → lt c b = false → lt a c = false ∧ lt c a = false)

/-- What is assumed of `std::ranges::sort`. -/
def Sorts (stdSort : (Str → Str → Bool) → List Str → List Str) : Prop :=
  ∀ lt l, StrictWeak lt l → (stdSort lt l).Perm l ∧ (stdSort lt l).Pairwise fun a b => lt b a = false

/-! ### Includes -/

/-- The directive. -/
def inc : Str := "#include".toList

/-- A line without a directive. -/
def Plain (l : Str) : Prop := ¬ inc <:+: l

/-- A line which is a directive, and in which angles are not used for anything but the name. -/
def Directive (l : Str) : Prop := inc <+: l ∧ ('<' ∈ l ↔ '>' ∈ l)

/-- The line for a header of the project. -/
def quoted (path : Str) : Str := inc ++ " \"".toList ++ path ++ "\"".toList

/-- Directives with quotes come first; those of each kind are sorted as text, with the ends of lines. -/
def Ordered (x y : Str) : Prop := ('<' ∉ x ∧ '<' ∈ y) ∨ (('<' ∈ x ↔ '<' ∈ y) ∧ x ++ ['\n'] ≤ y ++ ['\n'])

/-! ### Suites -/

/-- A suite has a name and tests. -/
structure Suite where
  name : Str
  tests : List Str

/-- Something on a line of its own. -/
def line (ind s : Str) : Str := ind ++ s ++ ['\n']

/-- Tests, with commas in between. -/
def testLines (ind : Str) : List Str → Str
  | [] => []
  | [t] => line ind t
  | t :: ts => line ind (t ++ [',']) ++ testLines ind ts

/-- How a suite is written; `ind` is one level of indentation. -/
def Suite.text (ind : Str) (s : Suite) : Str :=
  ['\n'] ++ line (ind ++ ind) "runner.add_test_suite(".toList ++ line (ind ++ ind ++ ind) ("\"".toList ++ s.name ++ "\",".toList) ++
    testLines (ind ++ ind ++ ind) s.tests ++ line (ind ++ ind) ");".toList

/-- A program running tests: some code, suites, and the line with the execution. -/
structure Program where
  intro : Str
  suites : List Suite
  outro : Str

def Program.text (ind : Str) (p : Program) : Str := p.intro ++ p.suites.flatMap (Suite.text ind) ++ ['\n'] ++ p.outro

/-- The tests are put in front of those of a suite, the last one first. -/
def Suite.add (tests : List Str) (s : Suite) : Suite := ⟨s.name, tests.reverse ++ s.tests⟩

/-- The text by which a suite is recognized. -/
def naming (name : Str) : Str := "\"".toList ++ name ++ "\",".toList

/-- A program to which tests can be added: the name of the suite cannot be mistaken for anything else, neither in what precedes the suites nor in a test of an earlier suite, and neither the name
nor a test contains the end of a suite. -/
structure Insertable (ind : Str) (p : Program) (before : List Suite) (s : Suite) (after : List Suite) : Prop where
  blank : ∀ c ∈ ind, c = ' ' ∨ c = '\t'
  suites : p.suites = before ++ s :: after
  name : '\n' ∉ s.name ∧ '"' ∉ s.name ∧ ¬ ");".toList <:+: s.name
  intro : ¬ naming s.name <:+: p.intro
  others : ∀ s' ∈ before, '"' ∉ s'.name ∧ s'.name ≠ s.name ∧ ∀ t ∈ s'.tests, ¬ naming s.name <:+: t ++ [',']
  tests : s.tests ≠ [] ∧ ∀ t ∈ s.tests, ¬ ");".toList <:+: t

/-- A test is new, in the sense that it is not part of a line which is there. -/
def NewTest (ind : Str) (s : Suite) (t : Str) : Prop :=
  t ≠ [] ∧ '\n' ∉ t ∧ ¬ t <:+: naming s.name ∧ ¬ t <:+: ind ++ ind ∧ ∀ u ∈ s.tests, ¬ t <:+: ind ++ ind ++ ind ++ u ++ [',']

/-! ### CMake -/

/-- Entries, each on a line of its own, behind a number of spaces. -/
def entryLines (entries : List (Nat × Str)) : Str := entries.flatMap fun e => '\n' :: (List.replicate e.1 ' ' ++ e.2)

/-- Where entries start: behind the parenthesis of the opening pattern. -/
def margin (patternOpen : Str) : Nat := (patternOpen.takeWhile (· ≠ '(')).length + if '(' ∈ patternOpen then 1 else 0

end Verif.Spec.FileEditors
