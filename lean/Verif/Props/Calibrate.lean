import Verif.Model.Calibrate
import Verif.Spec.Calibrate
import Verif.Props.Statistics
import Mathlib.Tactic.FieldSimp
import Mathlib.Tactic.Linarith
import Mathlib.Tactic.NormNum
/-
C115: calibrated durations.
-/
namespace Verif.Props
open Verif.Statistics Verif.Calibrate Verif.Spec.Calibrate

namespace Calibrate

theorem ssd_eq {l : List ℝ} (h : 2 ≤ l.length) : sampleStandardDeviation l = (some (deviation l), some (average l)) := by
  have hn : l ≠ [] := by rintro rfl; simp at h
  rw [sampleStandardDeviation, if_neg (by omega), if_neg (by omega), Stat.cum_eq hn]
  rfl

/-- Seven timings, put in order. -/
theorem sorted_eq {timings mid : List ℝ} {a z : ℝ} (hp : timings.Perm (a :: (mid ++ [z]))) (hs : (a :: (mid ++ [z])).Pairwise (· ≤ ·)) : timings.insertionSort (· ≤ ·) = a :: (mid ++ [z]) :=
  ((List.perm_insertionSort _ timings).trans hp).eq_of_pairwise' (List.pairwise_insertionSort _ timings) hs

theorem calibrate_eq (num den : ℕ) (target : ℤ) {timings mid : List ℝ} {a z : ℝ} (h2 : 2 ≤ mid.length) (hp : timings.Perm (a :: (mid ++ [z]))) (hs : (a :: (mid ++ [z])).Pairwise (· ≤ ·)) :
    calibrate num den target timings =
      if average mid - deviation mid > target * num / den then ⌈((den / num : ℕ) : ℝ) * (average mid + 5 * deviation mid)⌉ else target := by
  unfold calibrate
  simp only [sorted_eq hp hs, List.tail_cons, List.dropLast_concat, ssd_eq h2]

theorem deviation_nonneg (l : List ℝ) : 0 ≤ deviation l := Real.sqrt_nonneg _

end Calibrate
open Calibrate

/-- **C115** The result depends on the timings only by those which are neither the least nor the greatest, and not on their order. -/
theorem C115_outliers (num den : ℕ) (target : ℤ) (timings timings' mid : List ℝ) (a a' z z' : ℝ) (h2 : 2 ≤ mid.length)
    (hp : timings.Perm (a :: (mid ++ [z]))) (hs : (a :: (mid ++ [z])).Pairwise (· ≤ ·)) (hp' : timings'.Perm (a' :: (mid ++ [z']))) (hs' : (a' :: (mid ++ [z'])).Pairwise (· ≤ ·)) :
    calibrate num den target timings = calibrate num den target timings' := by
  rw [calibrate_eq num den target h2 hp hs, calibrate_eq num den target h2 hp' hs']

/-- **C115 (part)** A duration is never shortened; it stays as it is unless the timings exceed it by more than their standard deviation, in which case the result exceeds their mean by five standard deviations, and by less than
one unit more.  What is missing: units which are not the reciprocal of a number, see `C115_units_violated`. -/
theorem C115_enough_partial (den : ℕ) (hd : 0 < den) (target : ℤ) (timings mid : List ℝ) (a z : ℝ) (h2 : 2 ≤ mid.length)
    (hp : timings.Perm (a :: (mid ++ [z]))) (hs : (a :: (mid ++ [z])).Pairwise (· ≤ ·)) :
    target ≤ calibrate 1 den target timings ∧
    (average mid - deviation mid ≤ (target : ℝ) / den → calibrate 1 den target timings = target) ∧
    ((target : ℝ) / den < average mid - deviation mid →
      average mid + 5 * deviation mid ≤ (calibrate 1 den target timings : ℝ) / den ∧ (calibrate 1 den target timings : ℝ) / den < average mid + 5 * deviation mid + 1 / den) := by
  have hd' : (0 : ℝ) < den := by exact_mod_cast hd
  have hdev := deviation_nonneg mid
  have he := calibrate_eq 1 den target h2 hp hs
  simp only [Nat.cast_one, mul_one, Nat.div_one] at he
  by_cases h : average mid - deviation mid > (target : ℝ) / den
  · rw [if_pos h] at he
    have h1 := Int.le_ceil ((den : ℝ) * (average mid + 5 * deviation mid))
    have h3 := Int.ceil_lt_add_one ((den : ℝ) * (average mid + 5 * deviation mid))
    rw [← he] at h1 h3
    refine ⟨?_, fun h' => absurd h (not_lt.2 h'), fun _ => ⟨?_, ?_⟩⟩
    · have h4 : (target : ℝ) < den * (average mid - deviation mid) := by rw [gt_iff_lt, div_lt_iff₀ hd'] at h; linarith
      have h5 : (den : ℝ) * (average mid - deviation mid) ≤ den * (average mid + 5 * deviation mid) := mul_le_mul_of_nonneg_left (by linarith) hd'.le
      have h6 : (target : ℝ) ≤ calibrate 1 den target timings := by linarith
      exact_mod_cast h6
    · rw [le_div_iff₀ hd']; linarith
    · rw [div_lt_iff₀ hd', add_mul, one_div, inv_mul_cancel₀ hd'.ne']; linarith
  · rw [if_neg h] at he
    exact ⟨he.ge, fun _ => he, fun h' => absurd h' h⟩

/-- Such timings: seven of them, in milliseconds. -/
example : calibrate 1 1000 5 [7, 7, 7, 7, 7, 7, 7] = 7000 := by
  have hav : average [7, 7, 7, 7, 7] = 7 := by norm_num [average]
  have hdv : deviation [7, 7, 7, 7, 7] = 0 := by norm_num [deviation, hav]
  rw [calibrate_eq 1 1000 5 (timings := [7, 7, 7, 7, 7, 7, 7]) (mid := [7, 7, 7, 7, 7]) (a := 7) (z := 7) (by simp) (List.Perm.refl _) (by simp), hav, hdv]
  norm_num

/-- **C115 (violated)** If the unit is longer than a second then the result is nothing at all whenever the duration is found to be too short. -/
theorem C115_units_violated (num den : ℕ) (h : den < num) (target : ℤ) (timings mid : List ℝ) (a z : ℝ) (h2 : 2 ≤ mid.length)
    (hp : timings.Perm (a :: (mid ++ [z]))) (hs : (a :: (mid ++ [z])).Pairwise (· ≤ ·)) (hl : (target : ℝ) * num / den < average mid - deviation mid) :
    calibrate num den target timings = 0 := by
  rw [calibrate_eq num den target h2 hp hs, if_pos hl, Nat.div_eq_of_lt h]
  simp

/-- A minute, which took a second longer, becomes nothing. -/
example : calibrate 60 1 1 [61, 61, 61, 61, 61, 61, 61] = 0 := by
  have hav : average [61, 61, 61, 61, 61] = 61 := by norm_num [average]
  have hdv : deviation [61, 61, 61, 61, 61] = 0 := by norm_num [deviation, hav]
  exact C115_units_violated 60 1 (by omega) 1 [61, 61, 61, 61, 61, 61, 61] [61, 61, 61, 61, 61] 61 61 (by simp) (List.Perm.refl _) (by simp) (by rw [hav, hdv]; norm_num)

end Verif.Props
