import Verif.Model.Logger
import Verif.Model.Text
/-
The text which reports the results of tests: /repo/Source/sequoia/TestFramework/Summary.cpp and Summary.hpp.

Simplifications: numbers are unbounded; what a stream makes of a floating point number, Summary.cpp:27-28, is a parameter
`render`, given the number of nanoseconds and the number of these in the unit; the bit mask `summary_detail` is
represented by the answers to the three questions asked of it.
-/
namespace Verif.SummaryText
open Verif.Text Verif.Logger

/-- `std::to_string` of an unsigned integer. -/
def digits (n : Nat) : Str := Nat.toDigits 10 n

/-- `std::to_string` of a signed integer. -/
def digitsInt (n : Int) : Str := if n < 0 then '-' :: digits n.natAbs else digits n.natAbs

/-- The size of the longest of some strings, `std::ranges::max_element` in Summary.hpp:37-39 and 50-52; dereferencing the
end of an empty range is undefined. -/
def maxSize : List Str → Res Nat
  | [] => .ub
  | s :: ss => .ok (ss.foldl (fun m t => max m t.length) s.length)

/-- `pad_right`, Summary.hpp:35-46. -/
def padRight (ss : List Str) (suffix : Str) : Res (List Str) :=
  (maxSize ss).bind fun maxChars => .ok (ss.map fun s => s ++ (List.replicate (maxChars - s.length) ' ' ++ suffix))

/-- `pad_left`, Summary.hpp:48-59. -/
def padLeft (ss : List Str) (minChars : Nat) : Res (List Str) :=
  (maxSize ss).bind fun m =>
    let maxChars := max m minChars
    .ok (ss.map fun s => List.replicate (maxChars - s.length) ' ' ++ s)

/-- `stringify`, Summary.cpp:33-43. -/
def stringify (render : Int → Nat → Str) (count : Int) : Str × Str :=
  if 1000000000 ≤ count then (render count 1000000000, ['s'])
  else if 1000000 ≤ count then (render count 1000000, ['m', 's'])
  else if 1000 ≤ count then (render count 1000, ['u', 's'])
  else (digitsInt count, ['n', 's'])

/-- `report_time`, Summary.cpp:45-59. -/
def reportTime (render : Int → Nat → Str) (log : Summary) (duration : Option Int) : Str :=
  let mess : Str := match duration with
    | some d => let (dur, unit) := stringify render d; "[Total Run Time: ".toList ++ dur ++ unit ++ "]\n".toList
    | none => []
  let (dur, unit) := stringify render log.duration
  mess ++ ("[Execution Time: ".toList ++ dur ++ unit ++ "]\n".toList)

/-- `summary_detail`, Summary.hpp:22. -/
structure Detail where
  absentChecks : Bool
  failureMessages : Bool
  timings : Bool
  deriving DecidableEq, Repr

/-- The labels, Summary.cpp:72-79. -/
def labels : List Str :=
  ["Standard Top Level Checks:".toList, "Standard Performance Checks:".toList, "False Positive Checks:".toList,
    "False Positive Performance Checks:".toList, "False Negative Checks:".toList,
    "False Negative Performance Checks:".toList]

/-- The numbers of checks, Summary.cpp:83-90 and 137-144. -/
def checkNums (log : Summary) : List Nat :=
  [log.standardTopLevelChecks, log.standardPerformanceChecks, log.falsePositiveChecks,
    log.falsePositivePerformanceChecks, log.falseNegativeChecks, log.falseNegativePerformanceChecks]

/-- The numbers of failures, Summary.cpp:102-109. -/
def failureNums (log : Summary) : List Nat :=
  [log.standardTopLevelFailures, log.standardPerformanceFailures, log.falsePositiveFailures,
    log.falsePositivePerformanceFailures, log.falseNegativeFailures, log.falseNegativePerformanceFailures]

/-- `std::string::append` to the front of the array, Summary.cpp:118-119. -/
def appendFront (x : Str) : List Str → List Str
  | [] => []
  | s :: ss => (s ++ x) :: ss

/-- The array `summaries`, Summary.cpp:65-119. -/
def summaryLines (log : Summary) (ind₀ ind₁ : Str) : Res (List Str) :=
  (padRight (labels.map fun l => ind₀ ++ ind₁ ++ l) [' ', ' ']).bind fun summaries =>
    (padLeft ((checkNums log).map digits) 8).bind fun nums =>
      let front : Str := match nums with | [] => [] | n :: _ => n
      let len := 10 - min 8 front.length
      let summaries := List.zipWith (fun s n => s ++ (n ++ [';']) ++ List.replicate len ' ' ++ "Failures: ".toList) summaries nums
      (padLeft ((failureNums log).map digits) 2).bind fun failures =>
        let summaries := List.zipWith (fun s f => s ++ f) summaries failures
        .ok (if log.standardTopLevelChecks ≠ 0 then
            appendFront ("  [Deep checks: ".toList ++ digits log.standardDeepChecks ++ [']']) summaries
          else summaries)

/-- `summarize`, Summary.cpp:61-173; `messages` is what `failure_messages()` returns. -/
def summarize (render : Int → Nat → Str) (log : Summary) (messages suffix : Str) (duration : Option Int)
    (verbosity : Detail) (ind₀ ind₁ : Str) : Res Str :=
  (summaryLines log ind₀ ind₁).bind fun summaries =>
    let name := if log.name.toList = [] then [] else log.name.toList ++ suffix
    let summary := indent name ind₀
    let summary := if verbosity.timings then appendIndented summary (reportTime render log duration) ind₀ else summary ++ ['\n']
    let summary :=
      if verbosity.absentChecks then summaries.foldl (fun acc s => acc ++ s ++ ['\n']) summary
      else (List.zip (checkNums log) summaries).foldl (fun acc p => if p.1 ≠ 0 then acc ++ (p.2 ++ ['\n']) else acc) summary
    let summary :=
      if log.criticalFailures ≠ 0 then
        summary ++ "\n******  Critical Failures:  ".toList ++ digits log.criticalFailures ++ "  ******\n\n".toList
      else summary
    .ok (if verbosity.failureMessages then appendIndented summary messages (ind₀ ++ ind₁) else summary)

end Verif.SummaryText
