import Mathlib.Algebra.Group.Pi.Basic
import Verif.Model.Coordinates
/-
What operations on coordinates compute, component by component, and what a validator is for.
-/
namespace Verif.Spec
open Verif.Coordinates

variable {D : Nat} {K : Type}

/-- A validator which throws precisely if the values are not those of a point of the space; if it is the identity it never throws. -/
structure Guards (sp : Space D K) (P : (Fin D → K) → Prop) : Prop where
  accepts : ∀ x, P x → sp.validate x = .ok x
  rejects : ∀ x, ¬ P x → sp.validate x = .throws
  identity : sp.hasIdentityValidator = true → ∀ x, P x

/-- A validator which may also move values, for instance clamp them, but always to points of the space. -/
structure Moves (sp : Space D K) (P : (Fin D → K) → Prop) : Prop where
  into : ∀ x y, sp.validate x = .ok y → P y
  identity : sp.hasIdentityValidator = true → ∀ x, P x

/-- The mathematical result of an operation. -/
def result [Field K] (x : Fin D → K) : Op D K → Fin D → K
  | .add v => x + v
  | .addPoint v => x + v
  | .sub v => x - v
  | .mul u => fun i => u * x i
  | .mulEach u => fun i => u i * x i
  | .div u => fun i => u⁻¹ * x i
  | .divEach u => fun i => (u i)⁻¹ * x i
  | .negate => - x
  | .assign v => v
  | .set i a => fun j => if j = i then a else x j

/-- No division by zero. -/
def Divides [Zero K] : Op D K → Prop
  | .div u => u ≠ 0
  | .divEach u => ∀ i, u i ≠ 0
  | _ => True

end Verif.Spec
