import Verif.Model.Logger
/-
Vocabulary for C49 and C50: what a logger should report, in terms of the checks which were made.
-/
namespace Verif.LoggerSpec
open Verif.Logger

/-- What happens within a sentinel: further sentinels are properly nested. -/
inductive Balanced : List Event → Prop
  | nil : Balanced []
  | leaf {e : Event} {l : List Event} : e ≠ .enter → e ≠ .leave → Balanced l → Balanced (e :: l)
  | nest {b l : List Event} : Balanced b → Balanced l → Balanced (.enter :: (b ++ .leave :: l))

/-- The history of a logger, given what happened within each top-level check. -/
def history (checks : List (List Event)) : List Event := checks.flatMap fun b => .enter :: (b ++ [.leave])

/-- Something within the check failed. -/
def SomethingFailed (b : List Event) : Prop := .failure ∈ b ∨ .performanceFailure ∈ b

/-- Some failure within the check was critical; such a check is reported as a critical failure, and not also as an ordinary failure. -/
def Critical (b : List Event) : Prop := .critical ∈ b

/-- The check counts as failed: a false-negative check fails if nothing within it fails. -/
def Failed (mode : Mode) (b : List Event) : Prop := ¬ Critical b ∧ (if mode = .falseNegative then ¬ SomethingFailed b else SomethingFailed b)

instance (b : List Event) : Decidable (SomethingFailed b) := inferInstanceAs (Decidable (_ ∨ _))
instance (b : List Event) : Decidable (Critical b) := inferInstanceAs (Decidable (_ ∈ _))
instance (mode : Mode) (b : List Event) : Decidable (Failed mode b) := by unfold Failed; infer_instance

/-- The number of failures within a check, each of which comes with a message. -/
def failureCount (b : List Event) : Nat := b.countP fun e => e = .failure ∨ e = .performanceFailure

/-- How many messages a check contributes to the report of failures: one for each thing that went wrong; for a false-negative check, these are expected, so there is only
one for each critical failure, and one if the check failed. -/
def failureMessageCount (mode : Mode) (b : List Event) : Nat :=
  if mode = .falseNegative then b.count .critical + (if Failed mode b then 1 else 0) else failureCount b + b.count .critical

/-- How many messages a check contributes to the diagnostics: each failure of a false-negative check, one for each false-positive check which did not fail. -/
def diagnosticsCount (mode : Mode) (b : List Event) : Nat :=
  match mode with
  | .standard => 0
  | .falseNegative => failureCount b
  | .falsePositive => if Critical b ∨ Failed mode b then 0 else 1

/-- A list of messages in which the `i`-th check, counted from 1, contributed `f b`. -/
def attributed (f : List Event → Nat) (checks : List (List Event)) : List Nat := (checks.zipIdx 1).flatMap fun p => List.replicate (f p.1) p.2

/-- A check of performance: a single performance check, whose failure is the only one. -/
def PerformanceCheck (b : List Event) : Prop :=
  b.count .performanceCheck = 1 ∧ b.count .performanceFailure ≤ 1 ∧ .failure ∉ b ∧ .critical ∉ b

/-- A check which has nothing to do with performance. -/
def OrdinaryCheck (b : List Event) : Prop := .performanceCheck ∉ b ∧ .performanceFailure ∉ b

instance (b : List Event) : Decidable (PerformanceCheck b) := by unfold PerformanceCheck; infer_instance
instance (b : List Event) : Decidable (OrdinaryCheck b) := by unfold OrdinaryCheck; infer_instance

end Verif.LoggerSpec
