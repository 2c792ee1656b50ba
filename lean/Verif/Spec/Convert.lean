import Verif.Model.Convert
/-
What the coordinates of a quantity are with respect to a unit.
-/
namespace Verif.Spec
open Verif.Convert

variable {N K : Type} [Field K]

/-- The number by which a coordinate transform multiplies. -/
def Ratio (t : Transform K) : K := t.num.toK / t.den.toK

/-- The coordinate of a quantity with respect to a unit, given its coordinate with respect to the base unit: if `U` derives from `W` by the ratio `ρ` and the displacement `δ`,
then what is `x` with respect to `W` is `ρ x + δ` with respect to `U`. -/
def coord : Simple N K → K → K
  | .base _ _, p => p
  | .derived _ w t, p => Ratio t * coord w p + t.disp.toK

/-- How many times a unit goes into the base unit. -/
def factor : Simple N K → K
  | .base _ _ => 1
  | .derived _ w t => Ratio t * factor w

/-- The number by which values with respect to the base units are to be multiplied, for a unit with the given parts, some of which are duals. -/
def scale : List (Simple N K × Bool) → K
  | [] => 1
  | c :: l => (if c.2 then (factor c.1)⁻¹ else factor c.1) * scale l

/-- All numerators and denominators differ from zero. -/
def Proper : Simple N K → Prop
  | .base _ _ => True
  | .derived _ w t => Proper w ∧ t.num.toK ≠ 0 ∧ t.den.toK ≠ 0

/-- All displacements are zero or floating point numbers. -/
def NotIntegral : Simple N K → Prop
  | .base _ _ => True
  | .derived _ w t => NotIntegral w ∧ ∀ z, t.disp = .int z → z = 0

/-- There are no displacements. -/
def Unshifted : Simple N K → Prop
  | .base _ _ => True
  | .derived _ w t => Unshifted w ∧ t.disp.toK = 0

/-- All ratios are positive. -/
def PositiveRatios [LinearOrder K] : Simple N K → Prop
  | .base _ _ => True
  | .derived _ w t => PositiveRatios w ∧ 0 < Ratio t

/-- The validator of the base unit. -/
def baseValidator : Simple N K → Validator K
  | .base _ v => v
  | .derived _ w _ => baseValidator w

/-- The values a validator is for. -/
def Allowed [LinearOrder K] : Validator K → K → Prop
  | .identity, _ => True
  | .halfLine, x => 0 ≤ x
  | .interval l u, x => (∀ a, l = some a → a ≤ x) ∧ ∀ b, u = some b → x ≤ b

end Verif.Spec
