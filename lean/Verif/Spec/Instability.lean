import Verif.Model.Instability
import Mathlib.Data.List.Forall2
/-
What finding instabilities means.
-/
namespace Verif.Spec.Instability
open Verif.Text Verif.FailureInfo Verif.Instability

/-- The text with a tab at the beginning of each line that is not empty; the flag tells if a line begins. -/
def tabbed : Bool → Str → Str
  | _, [] => []
  | start, c :: t => if c = '\n' then c :: tabbed true t else if start then '\t' :: c :: tabbed false t else c :: tabbed false t

/-- The failures of the repetitions of a test, as they are shown. -/
def runs (trials : Nat) (t : Test) : List (List Key) := (List.range trials).map fun i => (t.failures i).map fun f => toLex (f.checkIndex, tabbed true f.message)

/-- Some repetitions had different failures. -/
def Unstable (trials : Nat) (t : Test) : Prop := ∃ i < trials, ∃ j < trials, t.failures i ≠ t.failures j

/-- The name of a file with an extension in which there is no underscore. -/
def ProperSource (file : Str) : Prop := ∃ stem ext, file = stem ++ '.' :: ext ∧ stem ≠ [] ∧ ext ≠ [] ∧ '.' ∉ ext ∧ '_' ∉ ext

/-- The names are the same, if blanks are not told from underscores. -/
def SameName (a b : Str) : Prop := List.Forall₂ (fun x y => x = y ∨ ((x = ' ' ∨ x = '_') ∧ (y = ' ' ∨ y = '_'))) a b

/-- The names of the source files of the tests differ, or those of the tests do. -/
def Distinct (t u : Test) : Prop := t.file = u.file → ¬ SameName t.name u.name

/-- Each test is executed once for each repetition, in any order. -/
def Complete (trials : Nat) (tests : List Test) (history : List (Test × Nat)) : Prop := history.Perm (tests.flatMap fun t => (List.range trials).map fun i => (t, i))

end Verif.Spec.Instability
