import Verif.Model.Messages
/- What a report should say. -/
namespace Verif.Spec.Messages
open Verif.Text

/-- An absolute path in normal form, without a separator at the end. -/
def Absolute (p : List Str) : Prop := ∃ l, p = ['/'] :: l ∧ ∀ e ∈ l, e ≠ [] ∧ '/' ∉ e

/-- A path relative to some directory: some number of `..`, and then names. -/
def Names (l : List Str) : Prop := ∀ e ∈ l, e ≠ [] ∧ '/' ∉ e ∧ e ≠ ['.', '.']

/-- The text is one line. -/
def OneLine (s : Str) : Prop := '\n' ∉ s

/-- What follows the backslash in the notation of C++ for a character, if it has such a notation. -/
def escape (c : Nat) : Option Char :=
  match c with
  | 0 => some '0' | 7 => some 'a' | 8 => some 'b' | 9 => some 't' | 10 => some 'n' | 11 => some 'v' | 12 => some 'f' | 13 => some 'r' | _ => none

/-- What is to be reported of a pointer, or of what else may be null; `true` if it is not. -/
def nullness (holds : Bool) : String := if holds then "not null" else "null"

/-- The beginning of what is reported about an exception. -/
def heading (tag what : Str) : Str := "Error -- ".toList ++ tag ++ " Exception:".toList ++ (if what = [] then [] else '\n' :: what) ++ ['\n']

end Verif.Spec.Messages
