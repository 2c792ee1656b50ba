import Mathlib.Tactic.FieldSimp
import Mathlib.Tactic.NormNum
import Mathlib.Tactic.Ring
import Mathlib.Tactic.Linarith
import Verif.Spec.StandardUnits
import Verif.Lemmas.Convert

set_option linter.unusedSectionVars false

namespace Verif.StandardUnits
open Verif.Convert Verif.Spec Verif.Spec.StandardUnits

section
variable {K : Type} [Field K] [LinearOrder K] [IsStrictOrderedRing K]

theorem root_simple (π : K) (u : LibUnit) : (u.simple π).root = .base (siUnit u) := by
  induction u with
  | pre p u ih => exact ih
  | _ => rfl

theorem tenTo_pos (p : Prefix) : (0 : K) < tenTo p := by
  cases p <;> simp only [tenTo] <;> norm_num

theorem prefix_ratio (p : Prefix) : Ratio (p.transform : Transform K) = (tenTo p)⁻¹ := by
  cases p <;> simp only [Prefix.transform, Ratio, Val.toK, tenTo] <;> norm_num

theorem prefix_disp (p : Prefix) : (p.transform : Transform K).disp = .int 0 := by
  cases p <;> rfl

theorem proper_simple {π : K} (hπ : 0 < π) (u : LibUnit) : Proper (u.simple π) := by
  induction u with
  | base b => exact trivial
  | pre p u ih => refine ⟨ih, ?_⟩; cases p <;> simp [Prefix.transform, Val.toK]
  | _ => simp [LibUnit.simple, Proper, Val.toK, celsiusTransform, fahrenheitTransform, footTransform, hπ.ne']

theorem notIntegral_simple (π : K) (u : LibUnit) : NotIntegral (u.simple π) := by
  induction u with
  | base b => exact trivial
  | pre p u ih => refine ⟨ih, ?_⟩; intro z hz; rw [prefix_disp] at hz; cases hz; rfl
  | _ => simp [LibUnit.simple, NotIntegral, celsiusTransform, fahrenheitTransform, footTransform]

theorem coord_pre (π : K) (p : Prefix) (u : LibUnit) (x : K) : coord ((LibUnit.pre p u).simple π) x = (tenTo p)⁻¹ * coord (u.simple π) x := by
  show Ratio p.transform * coord (u.simple π) x + (p.transform : Transform K).disp.toK = _
  rw [prefix_ratio, prefix_disp]
  simp [Val.toK]

theorem si_coord {π : K} (hπ : 0 < π) (u : LibUnit) (x : K) : si π u (coord (u.simple π) x) = x := by
  induction u generalizing x with
  | base b => rfl
  | pre p u ih =>
    rw [coord_pre]
    show si π u (tenTo p * ((tenTo p)⁻¹ * coord (u.simple π) x)) = x
    rw [mul_inv_cancel_left₀ (tenTo_pos p).ne']
    exact ih x
  | _ =>
    have := hπ.ne'
    simp only [LibUnit.simple, coord, si, Ratio, Val.toK, celsiusTransform, fahrenheitTransform, footTransform]
    push_cast
    field_simp
    try ring

theorem coord_si {π : K} (hπ : 0 < π) (u : LibUnit) (x : K) : coord (u.simple π) (si π u x) = x := by
  induction u generalizing x with
  | base b => rfl
  | pre p u ih =>
    rw [coord_pre]
    show (tenTo p)⁻¹ * coord (u.simple π) (si π u (tenTo p * x)) = x
    rw [ih, inv_mul_cancel_left₀ (tenTo_pos p).ne']
  | _ =>
    have := hπ.ne'
    simp only [LibUnit.simple, coord, si, Ratio, Val.toK, celsiusTransform, fahrenheitTransform, footTransform]
    push_cast
    field_simp
    try ring

theorem size_pos {π : K} (hπ : 0 < π) (u : LibUnit) : 0 < size π u := by
  induction u with
  | pre p u ih => exact mul_pos (tenTo_pos p) ih
  | _ => simp only [size]; positivity

theorem si_diff (π : K) (u : LibUnit) (x y : K) : si π u x - si π u y = size π u * (x - y) := by
  induction u generalizing x y with
  | pre p u ih => show si π u _ - si π u _ = tenTo p * size π u * (x - y); rw [ih]; ring
  | _ => simp only [si, size]; ring

theorem coord_zero (π : K) (u : LibUnit) : coord (u.simple π) 0 = 0 ↔ Shifted u = false := by
  induction u with
  | base b => exact ⟨fun _ => rfl, fun _ => rfl⟩
  | pre p u ih => rw [coord_pre, mul_eq_zero, or_iff_right (inv_ne_zero (tenTo_pos p).ne')]; exact ih
  | _ =>
    simp only [LibUnit.simple, coord, Ratio, Val.toK, celsiusTransform, fahrenheitTransform, footTransform, Shifted]
    norm_num

theorem disp_zero {π : K} (hπ : 0 < π) (o : Int → Int → Bool) (u : LibUnit) : ((u.simple π).transform o).disp.toK = 0 ↔ Shifted u = false := by
  rw [← coord_zero π u, ← (transform_disp o _ (proper_simple hπ u) (notIntegral_simple π u)).2 0]
  simp

theorem si_unshifted (π : K) (u : LibUnit) (h : Shifted u = false) (x : K) : si π u x = size π u * x := by
  have h0 : si π u 0 = 0 := by
    induction u with
    | pre p u ih => show si π u (tenTo p * 0) = 0; rw [mul_zero]; exact ih h
    | celsius => cases h
    | fahrenheit => cases h
    | _ => simp only [si, zero_mul]
  have := si_diff π u x 0
  rwa [h0, sub_zero, sub_zero] at this

theorem validator_unshifted (u : LibUnit) (h : Shifted u = false) : u.validator = some ((siUnit u).validator : Validator K) := by
  induction u with
  | pre p u ih => exact ih h
  | celsius => cases h
  | fahrenheit => cases h
  | foot => simp [LibUnit.validator, synthesised, Base.validator, Validator.scaleInvariant, Validator.definesHalfLine, footTransform, Val.toK, siUnit]
  | _ => rfl

theorem validator_celsius : LibUnit.celsius.validator = some (.interval (some (-27315 / 100)) none : Validator K) := by
  simp [LibUnit.validator, synthesised, Base.validator, Validator.scaleInvariant, Validator.definesHalfLine, celsiusTransform, Val.toK, Validator.translationInvariant]

theorem validator_fahrenheit : LibUnit.fahrenheit.validator = some (.interval (some (-45967 / 100)) none : Validator K) := by
  have hc := validator_celsius (K := K)
  simp only [LibUnit.validator] at hc ⊢
  rw [hc]
  have h : ¬ ((-27315 / 100 : K) = 0) := by norm_num
  have hv : (fahrenheitTransform : Transform K).Ok := by simp [Transform.Ok, fahrenheitTransform, Val.toK]
  have hb : (fahrenheitTransform : Transform K).bound (-27315 / 100) = -45967 / 100 := by
    unfold Transform.bound
    rw [toK_add, (toK_muldiv (Fine.fp _) _ _).1, show (Val.fp (-27315 / 100 : K)).toK = -27315 / 100 from rfl, ratio_val hv]
    simp only [fahrenheitTransform, Ratio, Val.toK]
    norm_num
  simp [synthesised, Validator.scaleInvariant, Validator.definesHalfLine, Validator.definesIdentity, mkInterval, hb]

theorem base_accepts (b : Base) {c : K} (hc : 0 < c) (x : K) : (b.validator : Validator K).accepts x = true ↔ Meaningful b (c * x) := by
  cases b <;> simp [Base.validator, Validator.accepts, Meaningful, hc]

/-- Apart from prefixes of shifted units, validators accept what is meaningful. -/
theorem validator_accepts {π : K} (hπ : 0 < π) (u : LibUnit) (h : NoPrefixedShift u = true) :
    ∃ v : Validator K, u.validator = some v ∧ ∀ x, v.accepts x = true ↔ Meaningful (siUnit u) (si π u x) := by
  by_cases hs : Shifted u = false
  · refine ⟨_, validator_unshifted u hs, fun x => ?_⟩
    rw [si_unshifted π u hs]
    exact base_accepts _ (size_pos hπ u) x
  · cases u with
    | celsius =>
      refine ⟨_, validator_celsius, fun x => ?_⟩
      simp only [Validator.accepts, siUnit, Meaningful, si]
      simp
      constructor <;> intro h <;> linarith
    | fahrenheit =>
      refine ⟨_, validator_fahrenheit, fun x => ?_⟩
      simp only [Validator.accepts, siUnit, Meaningful, si]
      simp
      constructor <;> intro h <;> linarith
    | pre p u => exact absurd (by simpa [NoPrefixedShift, Shifted] using h) hs
    | _ => exact absurd rfl hs

theorem si_injective {π : K} (hπ : 0 < π) (u : LibUnit) {x y : K} (h : si π u x = si π u y) : x = y := by
  rw [← coord_si hπ u x, h, coord_si hπ]

end
end Verif.StandardUnits
