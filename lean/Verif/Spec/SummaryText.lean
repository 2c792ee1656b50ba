import Verif.Model.SummaryText
import Mathlib.Data.List.Forall2
/- What the report on tests should look like. -/
namespace Verif.Spec.SummaryText
open Verif.Text Verif.Logger Verif.SummaryText

/-- What is to be reported about one kind of check. -/
structure Row where
  label : Str
  checks : Nat
  failures : Nat
  remark : Str

/-- The six kinds of check. -/
def rows (log : Summary) : List Row :=
  [⟨"Standard Top Level Checks:".toList, log.standardTopLevelChecks, log.standardTopLevelFailures,
      if log.standardTopLevelChecks = 0 then [] else "  [Deep checks: ".toList ++ digits log.standardDeepChecks ++ "]".toList⟩,
    ⟨"Standard Performance Checks:".toList, log.standardPerformanceChecks, log.standardPerformanceFailures, []⟩,
    ⟨"False Positive Checks:".toList, log.falsePositiveChecks, log.falsePositiveFailures, []⟩,
    ⟨"False Positive Performance Checks:".toList, log.falsePositivePerformanceChecks, log.falsePositivePerformanceFailures, []⟩,
    ⟨"False Negative Checks:".toList, log.falseNegativeChecks, log.falseNegativeFailures, []⟩,
    ⟨"False Negative Performance Checks:".toList, log.falseNegativePerformanceChecks, log.falseNegativePerformanceFailures, []⟩]

/-- Nothing but spaces. -/
def Blank (s : Str) : Prop := ∀ c ∈ s, c = ' '

/-- The line on one kind of check.  The number of checks ends in column `a` and the number of failures in column `b`. -/
def LaidOut (ind : Str) (a b : Nat) (r : Row) (line : Str) : Prop :=
  ∃ s₁ s₂, Blank s₁ ∧ Blank s₂ ∧ 2 ≤ s₁.length ∧
    line = ind ++ r.label ++ s₁ ++ digits r.checks ++ ";  Failures: ".toList ++ s₂ ++ digits r.failures ++ r.remark ∧
    (ind ++ r.label ++ s₁ ++ digits r.checks).length = a ∧
    (ind ++ r.label ++ s₁ ++ digits r.checks ++ ";  Failures: ".toList ++ s₂ ++ digits r.failures).length = b

/-- The kinds which are reported: those of which there are checks, or all if asked for. -/
def shown (absent : Bool) (log : Summary) : List Row := (rows log).filter fun r => absent || decide (r.checks ≠ 0)

/-- The lines which come first. -/
def heading (render : Int → Nat → Str) (log : Summary) (suffix : Str) (duration : Option Int) (timings : Bool) (ind : Str) : Str :=
  let name := if log.name.toList = [] then [] else indent (log.name.toList ++ suffix) ind
  if timings then (if name = [] then reportTime render log duration else name ++ ['\n'] ++ indent (reportTime render log duration) ind)
  else name ++ ['\n']

/-- What is said about critical failures. -/
def criticalText (n : Nat) : Str :=
  if n = 0 then [] else "\n******  Critical Failures:  ".toList ++ digits n ++ "  ******\n\n".toList

/-- Messages which come last, if there are any. -/
def messagesText (asked : Bool) (messages ind : Str) : Str := if asked ∧ messages ≠ [] then '\n' :: indent messages ind else []

/-- Nanoseconds in a unit. -/
def inUnit : Str → Int
  | ['s'] => 1000000000
  | ['m', 's'] => 1000000
  | ['u', 's'] => 1000
  | _ => 1

end Verif.Spec.SummaryText
