import Verif.Model.Portable
import Verif.Spec.Text
import Verif.Spec.Messages
import Verif.Spec.LoggerText
/-
What tests do, described without saying where the project is, and what should be seen of it.
-/
namespace Verif.Spec.Portable
open Verif.Text Verif.LoggerText Verif.Spec.Text Verif.Spec.Messages Verif.Spec.LoggerText

/-- Names with slashes in between. -/
def slashed (names : List Str) : Str := List.intercalate ['/'] names

/-- A place for a project: a directory which is not the root of the file system, given by the names on the way to it. -/
def Place (d : List Str) : Prop := Names d ∧ d ≠ []

/-- The absolute path, as a list of elements, of something within a directory. -/
def within (d names : List Str) : List Str := ['/'] :: (d ++ names)

/-- A message: one which has nothing to do with the project, or one with a file, or directory, of the project in the middle. -/
inductive Message where
  | plain (text : Str)
  | about (before : Str) (file : List Str) (after : Str)

/-- What the message reads if the project is at `d`. -/
def Message.at (d : List Str) : Message → Str
  | .plain t => t
  | .about b f a => b ++ '/' :: slashed (d ++ f) ++ a

/-- What should be seen of it: the path relative to the project. -/
def Message.seen : Message → Str
  | .plain t => t
  | .about b f a => b ++ slashed f ++ a

/-- The place of the project is mentioned only where the message is about a file, or only after that; and what is mentioned is not the project itself. -/
def Message.Clear (d : List Str) : Message → Prop
  | .plain t => ¬ ('/' :: slashed d) <:+: t
  | .about b f _ => Names f ∧ f ≠ [] ∧ ∀ x y, b ++ '/' :: slashed d = x ++ ('/' :: slashed d) ++ y → y = []

/-- A check: its description, the file below the directory of tests and the line, unless it has no location, and what happens within; or a check that something throws, with the type which is
expected and the message of the exception, if one is thrown, and it is of that type. -/
inductive Step where
  | check (description : Str) (location : Option (List Str × Nat)) (body : Body)
  | throwing (description : Str) (location : Option (List Str × Nat)) (type : Str) (what : Option Message)

/-- The file in which the step is, if the project is at `d`. -/
def located (d : List Str) (location : Option (List Str × Nat)) : Option (List Str × Nat) := location.map fun l => (within d ("Tests".toList :: l.1), l.2)

/-- What a logger is told if the project is at `d`. -/
def Step.events (d : List Str) : Step → List TEvent
  | .check m l b => checkEvents (Portable.report (within d []) m (located d l)) b
  | .throwing m l t w => Portable.checkThrown (within d []) (Portable.report (within d []) m (located d l)) t (match w with | some x => .expected (x.at d) | none => .nothing)

/-- The description which should be seen. -/
def description (m : Str) : Option (List Str × Nat) → Str
  | some l => slashed ("Tests".toList :: l.1) ++ ", Line ".toList ++ Nat.toDigits 10 l.2 ++ (if m = [] then [] else '\n' :: m) ++ ['\n']
  | none => m

/-- What a logger should be told, wherever the project is. -/
def Step.seen : Step → List TEvent
  | .check m l b => checkEvents (description m l) b
  | .throwing m l t w =>
    checkEvents (join (join (description m l) "Expected Exception Type:".toList) t)
      (.item .check (.item (match w with | some x => .caught x.seen | none => .failure "No exception thrown".toList) .done))

/-- Files are named as they can be, and messages are clear. -/
def Step.Clear (d : List Str) : Step → Prop
  | .check _ l _ => ∀ x, l = some x → Names x.1
  | .throwing _ l _ w => (∀ x, l = some x → Names x.1) ∧ ∀ x, w = some x → x.Clear d

end Verif.Spec.Portable
