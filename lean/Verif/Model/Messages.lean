import Verif.Model.LoggerText
/-
The messages of /repo/Source/sequoia/TestFramework/Output.hpp and Output.cpp: how characters, predictions, locations and exceptions are reported.

Characters are numbers; a `char` is less than 256, which is how it is modelled whether or not `char` is signed.  A path is the list of its elements, the first of which is "/" if it is
absolute, and the last of which is empty if it ends with a separator.  `std::source_location` is a path and a number.
-/
namespace Verif.Messages
open Verif.Text Verif.LoggerText

/-- `display_character`, Output.hpp:61-76; the text consists of `char`s, so a wide character is truncated. -/
def displayCharacter (c : Nat) : Str :=
  if c = 7 then "'\\a'".toList
  else if c = 8 then "'\\b'".toList
  else if c = 12 then "'\\f'".toList
  else if c = 10 then "'\\n'".toList
  else if c = 13 then "'\\r'".toList
  else if c = 9 then "'\\t'".toList
  else if c = 11 then "'\\v'".toList
  else if c = 0 then "'\\0'".toList
  else if c = 32 then "' '".toList
  else [Char.ofNat (c % 256)]

/-- `append_lines` with one line, Indent.hpp:139-154. -/
def appendLine (s t : Str) : Str := appendIndented s t []

/-- `default_prediction_message`, Output.cpp:334-337, and `prediction_message` for strings, 340-343. -/
def predictionMessage (obtained prediction : Str) : Str := appendLine ("Obtained : ".toList ++ obtained) ("Predicted: ".toList ++ prediction)

/-- `prediction_message` for characters, Output.hpp:107-113. -/
def characterMessage (obtained prediction : Nat) : Str := predictionMessage (displayCharacter obtained) (displayCharacter prediction)

/-- The overload of `nullable_type_message` with one argument, Output.cpp:235-239. -/
def nullMessage (holds : Bool) : Str := (if holds then "not ".toList else []) ++ "null".toList

/-- `nullable_type_message`, Output.cpp:346-350. -/
def nullableMessage (obtained predicted : Bool) : Str :=
  "Obtained : ".toList ++ nullMessage obtained ++ ['\n'] ++ ("Predicted: ".toList ++ nullMessage predicted)

/-- `prediction_message` for pointers, Output.hpp:115-121; the arguments say whether they are null. -/
def pointerMessage (obtained predicted : Bool) : Str :=
  if obtained && predicted then "Pointers both non-null, but they point to different addresses".toList else nullableMessage obtained predicted

abbrev Path := List Str

/-- `is_relative`. -/
def isRelative (p : Path) : Bool := p.head? != some ['/']

/-- `p /= e` for an element `e`. -/
def slash (p : Path) (e : Str) : Path := if e = ['/'] then [e] else if p = [] ∨ p = [[]] then [e] else p ++ [e]

/-- `std::ranges::mismatch`: what remains of the first path. -/
def remaining : Path → Path → Path
  | a :: p, b :: q => if a = b then remaining p q else a :: p
  | p, _ => p

/-- `path_for_reporting`, Output.cpp:352-367; `back` is from FileSystem.hpp:46-53. -/
def pathForReporting (file repository : Path) : Path :=
  if isRelative file then (file.dropWhile (· = ['.', '.'])).foldl slash []
  else
    match repository.getLast? with
    | some b => (remaining file repository).foldl slash [b]
    | none => file

/-- `generic_string`. -/
def generic : Path → Str
  | [] => []
  | e :: es => if e = ['/'] then e ++ ['/'].intercalate es else ['/'].intercalate (e :: es)

/-- `report_line`, Output.cpp:369-373. -/
def reportLine (message : Str) (repository file : Path) (line : Nat) : Str :=
  appendLine (generic (pathForReporting file repository) ++ ", Line ".toList ++ Nat.toDigits 10 line) message ++ ['\n']

/-- `exception_message`, Output.cpp:292-313; `num` and `last` are the members of `uncaught_exception_info`. -/
def exceptionMessage (tag : Str) (file : Path) (num : Int) (last what : Str) : Str :=
  let mess := appendLine ("Error -- ".toList ++ tag ++ " Exception:".toList) what ++ ['\n']
  if last ≠ [] then
    let suffix := if num ≠ 0 then "during last check".toList else "after check completed".toList
    appendLine (appendLine (appendLine mess ("Exception thrown ".toList ++ suffix)) "Last Recorded Message:\n".toList) last
  else appendLine (appendLine mess "Exception thrown before any checks performed in file".toList) (generic file)

end Verif.Messages
