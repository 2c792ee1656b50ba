import Verif.Model.Basic
import Verif.Model.Text
import Mathlib.Data.List.Lex
import Mathlib.Data.List.Sort
/-
Model of /repo/Source/sequoia/TestFramework/FailureInfo.hpp and FailureInfo.cpp: failures are written to and read from a stream, and compared between runs.

A stream is the text which has not been read.  At its end, the first call of `peek` sets the end-of-file bit and the second one the fail bit, so no record is added by
an attempt to read beyond the last one.
-/
namespace Verif.FailureInfo
open Verif.Text

/-- `failure_info`, FailureInfo.hpp:19-30. -/
structure Info where
  checkIndex : Nat
  message : Str
  deriving DecidableEq, Repr

/-- "$Check:" -/
def marker : Str := ['$', 'C', 'h', 'e', 'c', 'k', ':']

/-- `operator<<`, FailureInfo.cpp:192-198. -/
def writeInfo (info : Info) : Str := marker ++ [' '] ++ Nat.toDigits 10 info.checkIndex ++ ['\n'] ++ info.message ++ ['\n', '$', '\n']

/-- `operator<<` for all failures of a test, FailureInfo.cpp:205-213. -/
def writeOutput (output : List Info) : Str := output.flatMap fun i => writeInfo i ++ ['\n']

/-- `std::isspace`. -/
def isSpace (c : Char) : Bool := c = ' ' || c = '\n' || c = '\t' || c = '\r' || c = Char.ofNat 11 || c = Char.ofNat 12

/-- `std::getline`: the line, and what is left; fails if nothing is left. -/
def getline (s : Str) : Option (Str × Str) :=
  if s = [] then none else some (s.takeWhile (· ≠ '\n'), (s.dropWhile (· ≠ '\n')).drop 1)

/-- The last line break is dropped, FailureInfo.cpp:153-156. -/
def popBreak (m : Str) : Str := if m.getLast? = some '\n' then m.dropLast else m

/-- `messageBuilder`, FailureInfo.cpp:145-166: the message and what is left, if its end is found. -/
def readMessage (ind : Str) : Nat → Str → Str → Option (Str × Str)
  | 0, _, _ => none
  | fuel + 1, mess, s =>
    match getline s with
    | none => none
    | some (line, rest) => if line = ['$'] then some (popBreak mess, rest) else readMessage ind fuel (mess ++ indent line ind ++ ['\n']) rest

/-- `read` for a single failure, FailureInfo.cpp:126-176; `none` is the end of the stream.  The sign which `operator>>` would accept before a number is not modelled. -/
def readInfo (ind : Str) (s : Str) : Res (Option (Info × Str)) :=
  let s := s.dropWhile isSpace
  if s = [] then .ok none
  else if s.takeWhile (!isSpace ·) ≠ marker then .throws
  else
    let s := (s.dropWhile (!isSpace ·)).dropWhile isSpace
    let digits := s.takeWhile Char.isDigit
    if digits = [] ∨ 2 ^ 64 ≤ Nat.ofDigitChars 10 digits 0 then .throws
    else
      let s := ((s.dropWhile Char.isDigit).dropWhile (· ≠ '\n')).drop 1
      match readMessage ind (s.length + 1) [] s with
      | none => .throws
      | some (m, rest) => .ok (some (⟨Nat.ofDigitChars 10 digits 0, m⟩, rest))

/-- `read` for all failures, FailureInfo.cpp:178-189. -/
def readOutputFrom (ind : Str) : Nat → Str → Res (List Info)
  | 0, _ => .ub
  | fuel + 1, s =>
    match readInfo ind s with
    | .ok none => .ok []
    | .ok (some (i, rest)) => (readOutputFrom ind fuel rest).bind fun l => .ok (i :: l)
    | .throws => .throws
    | .ub => .ub

def readOutput (ind s : Str) : Res (List Info) := readOutputFrom ind (s.length + 1) s

section Analysis
variable {K : Type} [DecidableEq K]

/-- `std::ranges::mismatch`: what is left of both sequences after the common beginning. -/
def mismatch : List K → List K → List K × List K
  | a :: l, b :: m => if a = b then mismatch l m else (a :: l, b :: m)
  | l, m => (l, m)

/-- The messages of a difference between consecutive outcomes, FailureInfo.cpp:54-91; `atStart` tells if `current` is the first outcome. -/
def differ (message : K → Str) (atStart : Bool) (messages : Str) (current first : List K) : Res Str :=
  match mismatch current first with
  | (_, []) => .throws
  | ([], j :: _) =>
    if current = [] then .ok (messages ++ "--No failures--\n\nvs.\n\n".toList ++ message j)
    else
      let commonMessage := current.flatMap fun c => message c ++ ['\n']
      .ok (messages ++ (if messages = [] then commonMessage else ['\n']) ++ "vs.\n\n".toList ++ commonMessage ++ message j)
  | (i :: _, j :: _) => .ok (messages ++ (if atStart then message i else []) ++ "\nvs.\n\n".toList ++ message j)

/-- The loop of `analyse_output`, FailureInfo.cpp:50-96: the numbers of consecutive equal outcomes and the messages.  `count` is the distance of `first` from `current`. -/
def analyseFrom (message : K → Str) : Bool → Nat → List K → List Nat → Str → List (List K) → Res (Option (List Nat × Str))
  | atStart, count, _, freqs, messages, [] => .ok (if atStart then none else some (freqs ++ [count], messages))
  | atStart, count, current, freqs, messages, first :: rest =>
    if first ≠ current then
      (differ message atStart messages current first).bind fun messages => analyseFrom message false 1 first (freqs ++ [count]) messages rest
    else analyseFrom message atStart (count + 1) current freqs messages rest

/-- `analyse_output`, FailureInfo.cpp:28-111, without the text that surrounds the frequencies and the messages; `none` is an empty report. -/
def analyseOutput (message : K → Str) : List (List K) → Res (Option (List Nat × Str))
  | [] => .ok none
  | [_] => .ok none
  | first :: rest => analyseFrom message true 1 first [] [] rest

/-- The loop of `instability_analysis`, FailureInfo.cpp:253-275, on the failures read from the files, which are in the order of the names of the files: the reports on the
instabilities found. -/
def analyseGroups [LinearOrder K] (message : K → Str) (trials : Nat) : Nat → List (List K) → Res (List (List Nat × Str))
  | 0, _ => .ub
  | fuel + 1, outputs =>
    if outputs = [] then .ok []
    else (analyseOutput message ((outputs.take trials).insertionSort (· ≤ ·))).bind fun r =>
      (analyseGroups message trials fuel (outputs.drop trials)).bind fun rs => .ok (r.toList ++ rs)

/-- `instability_analysis`, FailureInfo.cpp:221-279; an empty list stands for the text "No instabilities detected", and for an empty text if there is only one trial. -/
def instabilityAnalysis [LinearOrder K] (message : K → Str) (trials : Nat) (outputs : List (List K)) : Res (List (List Nat × Str)) :=
  if trials ≤ 1 then .ok []
  else if outputs.length % trials ≠ 0 then .throws
  else analyseGroups message trials (outputs.length + 1) outputs

end Analysis

end Verif.FailureInfo
