import Verif.Model.TestCreator
import Verif.Spec.Text

/-
What is expected of the creation of tests: how templates and types are written.
-/
namespace Verif.Spec.TestCreator
open Verif.Text Verif.TestCreator Verif.Spec.Text

/-! ### Templates -/

/-- Words do not contain spaces. -/
def Word (w : Str) : Prop := w ≠ [] ∧ ' ' ∉ w

/-- A kind of parameter: one word, such as `class` or `class...`, or two words, the second one being an ellipsis. -/
def Species (s : Str) : Prop := (Word s ∧ s.head? ≠ some '.') ∨ ∃ w e, s = w ++ ' ' :: e ∧ Word w ∧ Word e ∧ e.head? = some '.'

/-- Spaces and dots. -/
def Padding (s : Str) : Prop := ∀ c ∈ s, c = ' ' ∨ c = '.'

/-- How a parameter of a template may be written: spaces, the kind, at least one space, the name; or nothing, for a specialization. -/
inductive Param : Str → TemplateSpec → Prop
  | none {s} : Padding s → Param s ⟨[], []⟩
  | some {d : TemplateSpec} {pad : Str} (m n : Nat) : Species d.species → Word d.symbol → '.' ∉ d.symbol → Padding pad →
      Param (List.replicate m ' ' ++ d.species ++ List.replicate (n + 1) ' ' ++ d.symbol ++ pad) d

/-- Parameters with the text for each of them. -/
inductive Params : List Str → List TemplateSpec → Prop
  | one {s d} : Param s d → ',' ∉ s → Params [s] [d]
  | cons {s d ss ds} : Param s d → ',' ∉ s → Params ss ds → Params (s :: ss) (d :: ds)

/-- With commas in between. -/
def commas : List Str → Str
  | [] => []
  | [s] => s
  | s :: ss => s ++ ',' :: commas ss

/-- With commas and spaces in between. -/
def listed : List Str → Str
  | [] => []
  | [s] => s
  | s :: ss => s ++ ", ".toList ++ listed ss

/-- How a parameter is passed on: packs are expanded. -/
def argument (d : TemplateSpec) : Str := d.symbol ++ if d.species.getLast? = some '.' then "...".toList else []

/-- The namespace in front of a name. -/
def qualifier : Option Str → Str
  | none => []
  | some ns => ns ++ "::".toList

/-! ### Types -/

/-- The first word. -/
def firstWord (s : Str) : Str := (s.dropWhile (· = ' ')).takeWhile (· ≠ ' ')

/-- What is passed by value: pointers, references, and types whose first word is one of these. -/
def byValue (type : Str) : Bool :=
  type.getLast? = some '*' || type.getLast? = some '&' ||
  (["int", "float", "double", "bool", "char", "short", "long", "signed"].map String.toList).contains (firstWord type) || (["std::size_t", "size_t"].map String.toList).contains type

/-- The name of the `i`-th of `num` predictions. -/
def predictionName (num i : Nat) : Str := "prediction".toList ++ if num = 1 then [] else '_' :: Nat.toDigits 10 i

/-- The `i`-th of `num` parameters. -/
def parameter (num i : Nat) (type : Str) : Str :=
  (if "const ".toList.isPrefixOf type then type else "const ".toList ++ type) ++ (if byValue type then [] else ['&']) ++ ' ' :: predictionName num i

/-! ### Files -/

/-- One tab less. -/
def untab : Str → Str
  | '\t' :: s => s
  | s => s

end Verif.Spec.TestCreator
