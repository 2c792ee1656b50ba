import Mathlib.Algebra.Group.Pi.Basic
import Mathlib.Tactic.Ring
import Mathlib.Tactic.FieldSimp
import Verif.Spec.Coordinates

namespace Verif.Coordinates
open Verif.Spec

variable {D : Nat} {K : Type} [Field K] [DecidableEq K]

/-- The expression an operation assigns; `none` for the access to a component. -/
theorem step_eq (sp : Space D K) (hv : sp.hasIdentityValidator = true → ∀ x, sp.validate x = .ok x) (x : Fin D → K) (op : Op D K) (hp : permitted sp op = true) (hd : Divides op) :
    step sp x op = assignment x (sp.validate (result x op)) := by
  have h1 : ∀ (v : Fin D → K) (f : K → K → K), applyToEach sp x v f = sp.validate fun i => f (x i) (v i) := by
    intro v f
    unfold applyToEach
    split
    · rename_i h; rw [hv h]
    · rfl
  have h2 : ∀ (f : K → K), forEach sp x f = sp.validate fun i => f (x i) := by
    intro f
    unfold forEach
    split
    · rename_i h; rw [hv h]
    · rfl
  cases op with
  | add v => simp only [step, plus, h1, result]; rfl
  | addPoint v => simp only [step, plus, h1, result]; rfl
  | sub v => simp only [step, minus, h1, result]; rfl
  | mul u => simp only [step, times, h2, result, mul_comm]
  | mulEach u => simp only [step, timesEach, h1, result, mul_comm]
  | div u => simp only [step, over, if_neg (show ¬ u = 0 from hd), h2, result, div_eq_mul_inv, mul_comm]
  | divEach u =>
    have : ¬ ∃ i, u i = 0 := fun ⟨i, hi⟩ => hd i hi
    simp only [step, overEach, if_neg this, h1, result, div_eq_mul_inv, mul_comm]
  | negate => simp only [step, negative, construct, result]; rfl
  | assign v => simp only [step, construct, result]
  | set i a =>
    have : sp.hasIdentityValidator = true := by
      simp only [permitted, Space.freelyMutable, Bool.and_eq_true] at hp
      exact hp.1
    simp only [step, result, hv this, assignment]

end Verif.Coordinates
