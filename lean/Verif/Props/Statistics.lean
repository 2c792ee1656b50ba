import Verif.Model.Statistics
import Mathlib.Tactic.Ring
import Mathlib.Tactic.FieldSimp
import Mathlib.Tactic.Linarith
import Mathlib.Tactic.Positivity
import Mathlib.Algebra.BigOperators.Group.List.Basic
import Mathlib.Algebra.Order.BigOperators.Group.List
/-
C52: statistics, in exact arithmetic.
-/
namespace Verif.Props
open Verif.Statistics

namespace Stat

/-- The sum of the squares of the differences from `m`. -/
noncomputable def sq (m : ℝ) (l : List ℝ) : ℝ := (l.map fun x => (x - m) ^ 2).sum

theorem foldl_add (l : List ℝ) : ∀ a : ℝ, l.foldl (· + ·) a = a + l.sum := by
  induction l with
  | nil => intro a; simp
  | cons x l ih => intro a; rw [List.foldl_cons, ih, List.sum_cons, add_assoc]

theorem foldl_sq (m : ℝ) (l : List ℝ) : ∀ a : ℝ, l.foldl (fun sum datum => sum + (datum - m) * (datum - m)) a = a + sq m l := by
  induction l with
  | nil => intro a; simp [Stat.sq]
  | cons x l ih =>
    intro a
    rw [List.foldl_cons, ih]
    simp only [sq, List.map_cons, List.sum_cons]
    ring

theorem mean_eq {l : List ℝ} (h : l ≠ []) : mean l = some (l.sum / l.length) := by
  have : l.length ≠ 0 := by simpa using h
  rw [mean, if_neg this, foldl_add, zero_add]

theorem cum_eq {l : List ℝ} (h : l ≠ []) : cumulativeSquareDiffs l = (some (sq (l.sum / l.length) l), some (l.sum / l.length)) := by
  rw [cumulativeSquareDiffs, mean_eq h]
  simp only [foldl_sq, zero_add]

theorem variance_eq {l : List ℝ} (h : l ≠ []) : variance l = (some (sq (l.sum / l.length) l / l.length), some (l.sum / l.length)) := by
  have : l.length ≠ 0 := by simpa using h
  rw [variance, if_neg this, cum_eq h]
  rfl

theorem sq_expand (m : ℝ) (l : List ℝ) : sq m l = (l.map (· ^ 2)).sum - 2 * m * l.sum + l.length * m ^ 2 := by
  induction l with
  | nil => simp [Stat.sq]
  | cons x l ih =>
    simp only [sq, List.map_cons, List.sum_cons, List.length_cons, Nat.cast_add, Nat.cast_one] at ih ⊢
    rw [ih]
    ring

theorem sq_map (m a b : ℝ) (l : List ℝ) : sq (a * m + b) (l.map fun x => a * x + b) = a ^ 2 * sq m l := by
  induction l with
  | nil => simp [Stat.sq]
  | cons x l ih =>
    simp only [sq, List.map_cons, List.sum_cons] at ih ⊢
    rw [ih]
    ring

theorem sum_map (a b : ℝ) (l : List ℝ) : (l.map fun x => a * x + b).sum = a * l.sum + l.length * b := by
  induction l with
  | nil => simp
  | cons x l ih =>
    simp only [List.map_cons, List.sum_cons, List.length_cons, Nat.cast_add, Nat.cast_one] at ih ⊢
    rw [ih]
    ring

theorem sq_nonneg' (m : ℝ) (l : List ℝ) : 0 ≤ sq m l := List.sum_nonneg (by simp only [List.mem_map]; rintro _ ⟨x, _, rfl⟩; positivity)

theorem sq_eq_zero (m : ℝ) (l : List ℝ) : sq m l = 0 ↔ ∀ x ∈ l, x = m := by
  induction l with
  | nil => simp [Stat.sq]
  | cons x l ih =>
    have h1 : sq m (x :: l) = (x - m) ^ 2 + sq m l := by simp [Stat.sq]
    rw [h1, List.forall_mem_cons, ← ih]
    have h2 := sq_nonneg' m l
    have h3 : 0 ≤ (x - m) ^ 2 := by positivity
    constructor
    · intro h
      have h4 : (x - m) ^ 2 = 0 := by linarith
      exact ⟨by have := pow_eq_zero_iff (two_ne_zero) |>.mp h4; linarith, by linarith⟩
    · rintro ⟨rfl, h⟩
      rw [h]; ring

theorem length_pos {l : List ℝ} (h : l ≠ []) : (0 : ℝ) < l.length := by
  have : 0 < l.length := List.length_pos_iff.mpr h
  exact_mod_cast this

end Stat

open Stat

/-- C52: of a non-empty data set, the mean is the sum divided by the number of data, and the variance is the mean of the squares minus the square of the mean; it comes
together with the mean. -/
theorem C52_variance {l : List ℝ} (h : l ≠ []) :
    mean l = some (l.sum / l.length) ∧ variance l = (some ((l.map (· ^ 2)).sum / l.length - (l.sum / l.length) ^ 2), mean l) := by
  refine ⟨mean_eq h, ?_⟩
  rw [variance_eq h, mean_eq h, sq_expand]
  have hn := (length_pos h).ne'
  congr 2
  field_simp
  ring

/-- C52: no data, no values; a single datum has a mean and a variance of zero but no sample variance. -/
theorem C52_few :
    mean [] = none ∧ variance [] = (none, none) ∧ sampleVariance [] = (none, none) ∧ standardDeviation [] = (none, none) ∧ sampleStandardDeviation [] = (none, none) ∧
    ∀ x, mean [x] = some x ∧ variance [x] = (some 0, some x) ∧ standardDeviation [x] = (some 0, some x) ∧ sampleVariance [x] = (none, some x) ∧
      sampleStandardDeviation [x] = (none, some x) := by
  refine ⟨rfl, rfl, rfl, rfl, rfl, fun x => ?_⟩
  have hm : mean [x] = some x := by rw [mean_eq (by simp)]; simp
  have hv : variance [x] = (some 0, some x) := by rw [variance_eq (by simp)]; simp [Stat.sq]
  refine ⟨hm, hv, ?_, ?_, ?_⟩
  · rw [standardDeviation, if_neg (by simp), hv]; simp
  · rw [sampleVariance, if_neg (by simp), if_pos (by simp), hm]
  · rw [sampleStandardDeviation, if_neg (by simp), if_pos (by simp), hm]

/-- C52: of at least two data, there are all values; they come together with the mean; the sample variance times `n - 1` is the variance times `n`; the standard deviation is
the non-negative root of the variance; and the square of the sample standard deviation times `n - 3/2` is the variance times `n`. -/
theorem C52_sample {l : List ℝ} (h : 2 ≤ l.length) :
    ∃ v s d e, variance l = (some v, mean l) ∧ sampleVariance l = (some s, mean l) ∧ standardDeviation l = (some d, mean l) ∧ sampleStandardDeviation l = (some e, mean l) ∧
      s * (l.length - 1) = v * l.length ∧ 0 ≤ d ∧ d ^ 2 = v ∧ 0 ≤ e ∧ e ^ 2 * (l.length - 3 / 2) = v * l.length := by
  have hne : l ≠ [] := by rintro rfl; simp at h
  have hn : (2 : ℝ) ≤ l.length := by exact_mod_cast h
  have h0 : l.length ≠ 0 := by omega
  have h1 : l.length ≠ 1 := by omega
  have hq := sq_nonneg' (l.sum / l.length) l
  refine ⟨sq (l.sum / l.length) l / l.length, sq (l.sum / l.length) l / (l.length - 1), Real.sqrt (sq (l.sum / l.length) l / l.length),
    Real.sqrt (sq (l.sum / l.length) l / (l.length - 3 / 2)), ?_, ?_, ?_, ?_, ?_, Real.sqrt_nonneg _, ?_, Real.sqrt_nonneg _, ?_⟩
  · rw [variance_eq hne, mean_eq hne]
  · rw [sampleVariance, if_neg h0, if_neg h1, cum_eq hne, mean_eq hne]; rfl
  · rw [standardDeviation, if_neg h0, variance_eq hne, mean_eq hne]; rfl
  · rw [sampleStandardDeviation, if_neg h0, if_neg h1, cum_eq hne, mean_eq hne]; rfl
  · have : (l.length : ℝ) - 1 ≠ 0 := by linarith
    field_simp
  · exact Real.sq_sqrt (div_nonneg hq (by linarith))
  · have h3 : (0 : ℝ) < l.length - 3 / 2 := by linarith
    rw [Real.sq_sqrt (div_nonneg hq h3.le), div_mul_cancel₀ _ h3.ne', div_mul_cancel₀]
    linarith

/-- C52: shifting and scaling the data shifts and scales the mean, does not shift the variances, and scales them by the square of the factor. -/
theorem C52_affine (a b : ℝ) (l : List ℝ) :
    mean (l.map fun x => a * x + b) = (mean l).map (fun m => a * m + b) ∧
    (variance (l.map fun x => a * x + b)).1 = (variance l).1.map (fun v => a ^ 2 * v) ∧
    (sampleVariance (l.map fun x => a * x + b)).1 = (sampleVariance l).1.map (fun v => a ^ 2 * v) ∧
    (standardDeviation (l.map fun x => a * x + b)).1 = (standardDeviation l).1.map (fun d => |a| * d) ∧
    (sampleStandardDeviation (l.map fun x => a * x + b)).1 = (sampleStandardDeviation l).1.map (fun d => |a| * d) := by
  by_cases h : l = []
  · subst h
    exact ⟨rfl, rfl, rfl, rfl, rfl⟩
  · have h' : l.map (fun x => a * x + b) ≠ [] := by simpa using h
    have hn := (length_pos h).ne'
    have hm : (l.map fun x => a * x + b).sum / (l.map fun x => a * x + b).length = a * (l.sum / l.length) + b := by
      rw [sum_map, List.length_map]
      field_simp
    have hsq : sq ((l.map fun x => a * x + b).sum / (l.map fun x => a * x + b).length) (l.map fun x => a * x + b) = a ^ 2 * sq (l.sum / l.length) l := by
      rw [hm, sq_map]
    have h0 : l.length ≠ 0 := by simpa using h
    have hsqrt : ∀ x, Real.sqrt (a ^ 2 * x) = |a| * Real.sqrt x := fun x => by rw [Real.sqrt_mul (by positivity), Real.sqrt_sq_eq_abs]
    refine ⟨?_, ?_, ?_, ?_, ?_⟩
    · rw [mean_eq h', mean_eq h, hm]; rfl
    · rw [variance_eq h', variance_eq h, hsq, List.length_map]; simp only [Option.map_some, mul_div_assoc]
    · rw [sampleVariance, sampleVariance, List.length_map, if_neg h0, if_neg h0]
      by_cases h1 : l.length = 1
      · rw [if_pos h1, if_pos h1]; rfl
      · rw [if_neg h1, if_neg h1, cum_eq h', cum_eq h, hsq]; simp only [Option.map_some, mul_div_assoc]
    · rw [standardDeviation, standardDeviation, List.length_map, if_neg h0, if_neg h0, variance_eq h', variance_eq h, hsq, List.length_map]
      simp only [Option.map_some, mul_div_assoc, hsqrt]
    · rw [sampleStandardDeviation, sampleStandardDeviation, List.length_map, if_neg h0, if_neg h0]
      by_cases h1 : l.length = 1
      · rw [if_pos h1, if_pos h1]; rfl
      · rw [if_neg h1, if_neg h1, cum_eq h', cum_eq h, hsq]; simp only [Option.map_some, mul_div_assoc, hsqrt]

/-- C52: the variance is never negative, and is zero exactly if all data are equal. -/
theorem C52_nonnegative {l : List ℝ} (h : l ≠ []) : ∃ v, (variance l).1 = some v ∧ 0 ≤ v ∧ (v = 0 ↔ ∀ x ∈ l, ∀ y ∈ l, x = y) := by
  have hn := length_pos h
  refine ⟨_, by rw [variance_eq h], div_nonneg (sq_nonneg' _ _) hn.le, ?_⟩
  rw [div_eq_zero_iff, or_iff_left hn.ne', sq_eq_zero]
  constructor
  · exact fun h x hx y hy => (h x hx).trans (h y hy).symm
  · intro heq x hx
    have : l = List.replicate l.length x := List.eq_replicate_iff.mpr ⟨rfl, fun y hy => heq y hy x hx⟩
    rw [this, List.sum_replicate, List.length_replicate, nsmul_eq_mul]
    field_simp

/-- C52: the order of the data does not matter. -/
theorem C52_order {l k : List ℝ} (h : l.Perm k) :
    mean l = mean k ∧ variance l = variance k ∧ sampleVariance l = sampleVariance k ∧ standardDeviation l = standardDeviation k ∧
      sampleStandardDeviation l = sampleStandardDeviation k := by
  by_cases hl : l = []
  · subst hl
    have : k = [] := h.nil_eq.symm
    subst this
    exact ⟨rfl, rfl, rfl, rfl, rfl⟩
  · have hk : k ≠ [] := fun hk => hl (by subst hk; exact h.eq_nil)
    have e1 : l.sum = k.sum := h.sum_eq
    have e2 : l.length = k.length := h.length_eq
    have e3 : ∀ m, sq m l = sq m k := fun m => (h.map _).sum_eq
    have hm : mean l = mean k := by rw [mean_eq hl, mean_eq hk, e1, e2]
    have hv : variance l = variance k := by rw [variance_eq hl, variance_eq hk, e1, e2, e3]
    have hc : cumulativeSquareDiffs l = cumulativeSquareDiffs k := by rw [cum_eq hl, cum_eq hk, e1, e2, e3]
    refine ⟨hm, hv, ?_, ?_, ?_⟩
    · rw [sampleVariance, sampleVariance, e2, hm, hc]
    · rw [standardDeviation, standardDeviation, e2, hv]
    · rw [sampleStandardDeviation, sampleStandardDeviation, e2, hm, hc]

/-- The values for a data set. -/
example : variance [1, 2, 6] = (some (14 / 3), some 3) ∧ sampleVariance [1, 2, 6] = (some 7, some 3) := by
  constructor
  · rw [variance_eq (by simp)]; norm_num [Stat.sq]
  · rw [sampleVariance, if_neg (by simp), if_neg (by simp), cum_eq (by simp)]; norm_num [Stat.sq]

end Verif.Props
