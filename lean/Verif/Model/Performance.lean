import Verif.Model.Basic
import Verif.Model.Logger
import Verif.Model.Statistics
/-
Model of `check_relative_performance`, /repo/Source/sequoia/TestFramework/PerformanceTestCore.hpp:77-203, with real numbers
in place of floating-point numbers: rounding is not modelled, nor are infinities and NaN, nor the text of the summary.
Exceptions thrown by the tasks are not modelled.  Numbers of trials do not overflow.
-/
namespace Verif.Performance
open Verif.Statistics

/-- The two tasks. -/
inductive Task where
  | fast
  | slow
  deriving DecidableEq, Repr

/-- What is beyond the control of the function: how long a task takes, PerformanceTestCore.hpp:26-34, and which task goes
first, 122-123.  Both may depend on everything which has been run so far. -/
structure World where
  clock : List Task → Task → ℝ
  coin : List Task → Bool

/-- The arguments of `check_relative_performance`, PerformanceTestCore.hpp:78. -/
structure Params where
  minSpeedUp : ℝ
  maxSpeedUp : ℝ
  trials : Nat
  numSds : ℝ
  maxAttempts : Nat

/-- What has been run so far, and the timings of the present attempt. -/
structure Timings where
  trace : List Task
  fastData : List ℝ
  slowData : List ℝ

/-- The lambda `timer`, PerformanceTestCore.hpp:102-106. -/
def time (w : World) (t : Timings) : Task → Timings
  | .fast => ⟨t.trace ++ [.fast], t.fastData ++ [w.clock t.trace .fast], t.slowData⟩
  | .slow => ⟨t.trace ++ [.slow], t.fastData, t.slowData ++ [w.clock t.trace .slow]⟩

/-- One trial, PerformanceTestCore.hpp:120-133. -/
def trial (w : World) (t : Timings) : Timings :=
  if w.coin t.trace then time w (time w t .fast) .slow else time w (time w t .slow) .fast

/-- The loop over trials, PerformanceTestCore.hpp:119-133. -/
def trials (w : World) : Nat → Timings → Timings
  | 0, t => t
  | n + 1, t => trials w n (trial w t)

open Classical in
/-- The statistics of the sorted timings without the first and the last, PerformanceTestCore.hpp:135-146: standard deviation
and mean.  `value` throws if there are none. -/
noncomputable def stats (l : List ℝ) : Res (ℝ × ℝ) :=
  let sorted := l.mergeSort fun a b => decide (a ≤ b)
  match sampleStandardDeviation (sorted.drop 1).dropLast with
  | (some sd, some m) => .ok (sd, m)
  | _ => .throws

open Classical in
/-- The verdict of an attempt, PerformanceTestCore.hpp:148-164. -/
noncomputable def verdict (p : Params) (sigF mF sigS mS : ℝ) : Bool :=
  if mF + sigF < mS - sigS then
    if sigF ≥ sigS then
      decide (p.minSpeedUp * mF ≤ mS + p.numSds * sigS) && decide (p.maxSpeedUp * mF ≥ mS - p.numSds * sigS)
    else
      decide (mS / p.maxSpeedUp ≤ mF + p.numSds * sigF) && decide (mS / p.minSpeedUp ≥ mF - p.numSds * sigF)
  else false

/-- One attempt with `n` trials, PerformanceTestCore.hpp:110-164. -/
noncomputable def attempt (p : Params) (w : World) (n : Nat) (trace : List Task) : Res (Bool × List Task) :=
  let t := trials w n ⟨trace, [], []⟩
  (stats t.fastData).bind fun f => (stats t.slowData).bind fun s => .ok (verdict p f.1 f.2 s.1 s.2, t.trace)

/-- The loop over attempts, PerformanceTestCore.hpp:108-192, with the present verdict. -/
noncomputable def attempts (mode : Logger.Mode) (p : Params) (w : World) :
    Nat → Bool → List Task → Res (Bool × List Task)
  | 0, passed, trace => .ok (passed, trace)
  | remaining + 1, _, trace =>
    (attempt p w (p.trials * (p.maxAttempts - (remaining + 1) + 1)) trace).bind fun r =>
      if (if mode = .falseNegative then !r.1 else r.1) then .ok r
      else attempts mode p w remaining r.1 r.2

/-- The result of a check: what is returned, what was run and what happened to the logger. -/
structure Result where
  passed : Bool
  trace : List Task
  events : List Logger.Event

open Classical in
/-- `check_relative_performance`, PerformanceTestCore.hpp:77-203. -/
noncomputable def check (mode : Logger.Mode) (p : Params) (w : World) : Res Result :=
  if p.minSpeedUp ≤ 1 ∨ p.maxSpeedUp ≤ 1 then .throws
  else if p.minSpeedUp > p.maxSpeedUp then .throws
  else if p.numSds ≤ 1 then .throws
  else if p.maxAttempts = 0 then .throws
  else if p.trials < 5 then .throws
  else (attempts mode p w p.maxAttempts false []).bind fun r =>
    .ok ⟨r.1, r.2, [.enter, .performanceCheck] ++ (if !r.1 then [.performanceFailure] else []) ++ [.leave]⟩

end Verif.Performance
