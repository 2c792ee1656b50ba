import Verif.Model.Performance
/-
What is expected of performance checks.
-/
namespace Verif.Spec.Performance
open Verif.Performance

/-- The arguments make sense. -/
structure Sensible (p : Params) : Prop where
  speedUp : 1 < p.minSpeedUp
  range : p.minSpeedUp ≤ p.maxSpeedUp
  sds : 1 < p.numSds
  attempts : 0 < p.maxAttempts
  trials : 5 ≤ p.trials

/-- The times which the given task took in `runs`, if `before` had been run before. -/
def times (w : World) (x : Task) : List Task → List Task → List ℝ
  | _, [] => []
  | before, y :: runs => (if y = x then [w.clock before y] else []) ++ times w x (before ++ [y]) runs

/-- `t` is what remains of `l` without a least and a greatest element. -/
def Trimmed (l t : List ℝ) : Prop := ∃ a b, l.Perm (a :: (t ++ [b])) ∧ (∀ x ∈ t, a ≤ x ∧ x ≤ b) ∧ a ≤ b

noncomputable def mean (l : List ℝ) : ℝ := l.sum / l.length

/-- The standard deviation of a sample; the bias is corrected approximately, for a normal distribution. -/
noncomputable def deviation (l : List ℝ) : ℝ := Real.sqrt ((l.map fun x => (x - mean l) ^ 2).sum / (l.length - 3 / 2))

/-- Timings agree with the prediction.  Apart from the least and the greatest ones: the fast task is clearly faster, and some
speed-up within the predicted range accounts for the means up to the given number of standard deviations, namely those of
the task with the lesser deviation. -/
def Agrees (p : Params) (fast slow : List ℝ) : Prop :=
  ∃ f s, Trimmed fast f ∧ Trimmed slow s ∧
    mean f + deviation f < mean s - deviation s ∧
    ∃ r, p.minSpeedUp ≤ r ∧ r ≤ p.maxSpeedUp ∧
      if deviation s ≤ deviation f then |r * mean f - mean s| ≤ p.numSds * deviation s
      else |mean s / r - mean f| ≤ p.numSds * deviation f

/-- `n` trials: in each both tasks are run once. -/
inductive Trials : Nat → List Task → Prop
  | none : Trials 0 []
  | fastFirst {n l} : Trials n l → Trials (n + 1) (.fast :: .slow :: l)
  | slowFirst {n l} : Trials n l → Trials (n + 1) (.slow :: .fast :: l)

/-- What is run in attempts number `k + 1`, `k + 2`, …, if `before` had been run before: an attempt has `k + 1` times the number of trials.
Attempts are made while the timings of the last one are not as required, up to the number allowed; the verdict is that of the last one. -/
def Attempts (p : Params) (w : World) (required : Bool) (k : Nat) (before : List Task) : List (List Task) → Bool → Prop
  | [], _ => False
  | runs :: rest, passed =>
    Trials ((k + 1) * p.trials) runs ∧
    match rest with
    | [] => (passed = true ↔ Agrees p (times w .fast before runs) (times w .slow before runs)) ∧
        (passed = required ∨ k + 1 = p.maxAttempts)
    | _ => (required = true ↔ ¬ Agrees p (times w .fast before runs) (times w .slow before runs)) ∧ k + 1 < p.maxAttempts ∧
        Attempts p w required (k + 1) (before ++ runs) rest passed

end Verif.Spec.Performance
