import Verif.Model.Messages
/-
The report on strings which differ: `value_tester<std::basic_string_view<Char, Traits>>`, /repo/Source/sequoia/TestFramework/ConcreteTypeCheckers.hpp:74-229, for `char`, with what `binary_comparison`
(FreeCheckers.hpp:285-297) and `append_advice` (Advice.cpp:16-29) make of it.

`npos` is `none`.  An advisor is given by what it says about two characters, and by its prefix, if it can be called with two characters, and is `none` otherwise.  The check of the whole strings by
`operator==`, which comes first, and the messages of the logger are not part of this model.
-/
namespace Verif.StringReports
open Verif.Text Verif.LoggerText Verif.Messages

/-- `sv.rfind('\n', pos)`. -/
def lastBreak (s : Str) : Nat → Option Nat
  | 0 => if s[0]? = some '\n' then some 0 else none
  | p + 1 => if s[p + 1]? = some '\n' then some (p + 1) else lastBreak s p

/-- `sv.find('\n', start)`. -/
def nextBreak (s : Str) (start : Nat) : Option Nat := (List.range s.length).find? fun i => decide (start ≤ i) && decide (s[i]? = some '\n')

/-- `sv.substr(pos, count)`, which throws if `pos` is past the end. -/
def substr (s : Str) (pos count : Nat) : Res Str := if s.length < pos then .throws else .ok ((s.drop pos).take count)

/-- `newlineBackwards`, ConcreteTypeCheckers.hpp:129. -/
def breakBackwards (s : Str) (pos : Nat) : Option Nat := if pos < s.length then lastBreak s pos else none

/-- `std::ranges::min`; `npos` is the greatest value. -/
def minPos : Option Nat → Option Nat → Option Nat
  | some a, some b => some (min a b)
  | some a, none => some a
  | none, b => b

/-- `offset`, ConcreteTypeCheckers.hpp:131-133. -/
def offsetOf (obtained prediction : Str) (pos : Nat) : Nat :=
  match minPos (breakBackwards prediction pos) (breakBackwards obtained pos) with
  | some loc => min 30 (pos - loc)
  | none => 30

/-- `startPos`, ConcreteTypeCheckers.hpp:127 and 135-137. -/
def startPos (obtained prediction : Str) (pos : Nat) : Nat :=
  let sz := min obtained.length prediction.length
  let offset := offsetOf obtained prediction pos
  if pos < offset then 0 else if pos < sz then pos - offset else sz - min sz offset

/-- `rpos` and `count`, ConcreteTypeCheckers.hpp:148-149. -/
def countOf (sv : Str) (lpos : Nat) : Nat :=
  match nextBreak sv (lpos + 1) with
  | none => 60
  | some rpos => rpos - lpos

/-- `make`, ConcreteTypeCheckers.hpp:141-166: the excerpt of a string, and whether there is more. -/
def excerpt (sv : Str) (lpos : Nat) : Res (Str × Bool) :=
  let mess := if lpos > 0 then "...".toList else []
  let newline := decide (sv[lpos]? = some '\n')
  let mess := if newline then mess ++ "\\n".toList else mess
  let count := countOf sv lpos
  if newline && count = 1 then
    let trunc := decide (lpos + count < sv.length)
    .ok (mess ++ "\\n".toList ++ (if trunc then "...".toList else []), trunc)
  else
    let lpos := if newline then lpos + 1 else lpos
    (substr sv lpos count).bind fun t =>
      let trunc := decide (lpos + count < sv.length)
      .ok (mess ++ t ++ (if trunc then "...".toList else []), trunc)

/-- The two excerpts, and whether anything is left out, ConcreteTypeCheckers.hpp:168-171. -/
def excerpts (obtained prediction : Str) (pos : Nat) : Res (Str × Str × Bool) :=
  let start := startPos obtained prediction pos
  (excerpt obtained start).bind fun o => (excerpt prediction start).bind fun p => .ok (o.1, p.1, decide (start > 0) || o.2 || p.2)

/-- `build_preliminary_message`, ConcreteTypeCheckers.hpp:124-173. -/
def preliminary (info obtained prediction : Str) (pos : Nat) : Res Str :=
  (excerpts obtained prediction pos).bind fun e =>
    .ok (appendLine (appendLine info (if e.2.2 then "Surrounding substring(s):".toList else "Full strings:".toList)) (predictionMessage e.1 e.2.1))

/-- What an advisor says about two characters, and its prefix. -/
structure Advisor where
  advice : Char → Char → Str
  leader : Str

/-- `advice_data::append_to`, Advice.cpp:16-24. -/
def appendAdvice (message leader advice : Str) : Str := if advice = [] then message else appendLine message leader ++ advice

/-- `std::ranges::mismatch`: the position of the first difference. -/
def mismatch : Str → Str → Nat
  | a :: s, b :: t => if a = b then mismatch s t + 1 else 0
  | _, _ => 0

/-- What is reported: the description of the check, and the message if it fails. -/
structure Report where
  description : Str
  message : Str
  deriving DecidableEq

/-- The message of a check of equality which fails, FreeCheckers.hpp:291-293 and Output.hpp:141-153, with the advice of a tutor whose prefix is a line break. -/
def failureText (predictions advice : Str) : Str :=
  appendAdvice (appendLine "operator== returned false".toList predictions) ['\n'] advice

/-- The description of the check of the characters which differ, ConcreteTypeCheckers.hpp:185-195. -/
def difference (numLines dist : Nat) : Str :=
  "First difference detected ".toList ++
  (if numLines > 0 then "on line ".toList ++ Nat.toDigits 10 (numLines + 1) else "at character ".toList ++ Nat.toDigits 10 dist) ++ ":".toList

/-- The check of the lengths, ConcreteTypeCheckers.hpp:201-211.  An advisor for characters does not take part in it: its tutor is not used for sizes, since their common type with `char` is not `char`
(Advice.hpp:69-79). -/
def lengths (obtained prediction : Str) (c : Char) (dist : Nat) (state adjective : Str) (adv : Option Advisor) : Res Report :=
  let description := appendLine "Lengths differ".toList ("Obtained string is too ".toList ++ adjective)
  let predictions := predictionMessage (Nat.toDigits 10 obtained.length) (Nat.toDigits 10 prediction.length)
  let info := "First ".toList ++ state ++ " character: ".toList ++ displayCharacter c.toNat
  match adv with
  | some _ => .ok ⟨description, failureText predictions []⟩
  | none => (preliminary info obtained prediction dist).bind fun m => .ok ⟨description, failureText predictions m⟩

/-- `value_tester<...>::test`, ConcreteTypeCheckers.hpp:175-222. -/
def testStrings (obtained prediction : Str) (adv : Option Advisor) : Res (Option Report) :=
  let dist := mismatch obtained prediction
  match obtained[dist]?, prediction[dist]? with
  | some a, some b =>
    (preliminary [] obtained prediction dist).bind fun m =>
      let advice := match adv with
        | some x => appendAdvice m x.leader (x.advice a b)
        | none => m
      .ok (some ⟨difference (prediction.take dist |>.count '\n') dist, failureText (characterMessage a.toNat b.toNat) advice⟩)
  | none, some b => (lengths obtained prediction b dist "missing".toList "short".toList adv).bind fun r => .ok (some r)
  | some a, none => (lengths obtained prediction a dist "excess".toList "long".toList adv).bind fun r => .ok (some r)
  | none, none => .ok none

end Verif.StringReports
