import Verif.Model.Statistics
import Mathlib.Data.List.Sort
import Mathlib.Algebra.Order.Floor.Ring
import Mathlib.Algebra.Order.Archimedean.Real.Basic
/-
Calibration of durations: /repo/Source/sequoia/TestFramework/PerformanceTestCore.hpp:205-229.  Numbers are real, and integers are unbounded: no rounding, no overflow.
-/
namespace Verif.Calibrate
open Verif.Statistics

/-- `calibrate`, PerformanceTestCore.hpp:205-229, for durations which are multiples of `num / den` seconds; `timings` are the seven results of `profile`, 211-215. -/
noncomputable def calibrate (num den : ℕ) (target : ℤ) (timings : List ℝ) : ℤ :=
  let sorted := timings.insertionSort (· ≤ ·)
  match sampleStandardDeviation sorted.tail.dropLast with
  | (some sig, some m) =>
    if m - sig > target * num / den then
      let inverse : ℕ := den / num
      ⌈(inverse : ℝ) * (m + 5 * sig)⌉
    else target
  | _ => target

end Verif.Calibrate
