import Mathlib.Analysis.Real.Sqrt
/-
Mean and standard deviation, for a sample of at least two numbers.
-/
namespace Verif.Spec.Calibrate

/-- The mean. -/
noncomputable def average (l : List ℝ) : ℝ := l.sum / l.length

/-- The estimate of the standard deviation in which the number of data is reduced by one and a half. -/
noncomputable def deviation (l : List ℝ) : ℝ := Real.sqrt ((l.map fun x => (x - average l) ^ 2).sum / (l.length - 3 / 2))

end Verif.Spec.Calibrate
