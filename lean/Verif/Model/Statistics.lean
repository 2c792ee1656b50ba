import Mathlib.Analysis.Real.Sqrt
/-
Model of /repo/Source/sequoia/Maths/Statistics/StatisticalAlgorithms.hpp, with real numbers in place of floating-point numbers: rounding is not modelled.
-/
namespace Verif.Statistics

/-- `mean`, StatisticalAlgorithms.hpp:21-33. -/
noncomputable def mean (l : List ℝ) : Option ℝ := if l.length = 0 then none else some (l.foldl (· + ·) 0 / l.length)

/-- `cummulative_square_diffs`, StatisticalAlgorithms.hpp:35-54. -/
noncomputable def cumulativeSquareDiffs (l : List ℝ) : Option ℝ × Option ℝ :=
  match mean l with
  | none => (none, none)
  | some m => (some (l.foldl (fun sum datum => sum + (datum - m) * (datum - m)) 0), some m)

/-- `variance`, StatisticalAlgorithms.hpp:56-69; `value` throws if there is none, which does not happen. -/
noncomputable def variance (l : List ℝ) : Option ℝ × Option ℝ :=
  if l.length = 0 then (none, none)
  else
    let (sq, m) := cumulativeSquareDiffs l
    (sq.map (· / l.length), m)

/-- `sample_variance`, StatisticalAlgorithms.hpp:71-90. -/
noncomputable def sampleVariance (l : List ℝ) : Option ℝ × Option ℝ :=
  if l.length = 0 then (none, none)
  else if l.length = 1 then (none, mean l)
  else
    let (sq, m) := cumulativeSquareDiffs l
    (sq.map (· / ((l.length : ℝ) - 1)), m)

/-- `standard_deviation`, StatisticalAlgorithms.hpp:92-105. -/
noncomputable def standardDeviation (l : List ℝ) : Option ℝ × Option ℝ :=
  if l.length = 0 then (none, none)
  else
    let (var, m) := variance l
    (var.map Real.sqrt, m)

/-- `sample_standard_deviation` with the default `bias::gaussian_approx_estimator`, StatisticalAlgorithms.hpp:107-140. -/
noncomputable def sampleStandardDeviation (l : List ℝ) : Option ℝ × Option ℝ :=
  if l.length = 0 then (none, none)
  else if l.length = 1 then (none, mean l)
  else
    let (sq, m) := cumulativeSquareDiffs l
    (sq.map fun s => Real.sqrt (s / ((l.length : ℝ) - 3 / 2)), m)

end Verif.Statistics
