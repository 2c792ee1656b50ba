import Verif.Model.RoundedConvert
import Verif.Spec.Convert
/-
What is expected of floating point arithmetic, and of units.
-/
namespace Verif.Spec.Rounded
open Verif.Convert Verif.Rounded

/-- Rounding preserves the order, and zero, and does not turn positive numbers into zero; floating point numbers are not changed by it; and those of the type of the values are numbers of type `long double`. -/
structure Faithful (A : Arith) : Prop where
  U_mono : ∀ x y, x ≤ y → A.U x ≤ A.U y
  R_mono : ∀ x y, x ≤ y → A.R x ≤ A.R y
  U_zero : A.U 0 = 0
  R_zero : A.R 0 = 0
  U_pos : ∀ x, 0 < x → 0 < A.U x
  R_pos : ∀ x, 0 < x → 0 < A.R x
  U_idem : ∀ x, A.U (A.U x) = A.U x
  R_idem : ∀ x, A.R (A.R x) = A.R x
  R_U : ∀ x, A.R (A.U x) = A.U x

/-- The relative error of rounding. -/
def Precise (A : Arith) (ε : ℚ) : Prop := ∀ x, |A.U x - x| ≤ ε * |x|

/-- Numerators and denominators are positive. -/
def Positive {N : Type} : Simple N ℚ → Prop
  | .base _ _ => True
  | .derived _ w t => Positive w ∧ 0 < t.num.toK ∧ 0 < t.den.toK

/-- Displacements are numbers of type `long double`, or integers. -/
def Representable {N : Type} (A : Arith) : Simple N ℚ → Prop
  | .base _ _ => True
  | .derived _ w t => Representable A w ∧ ∀ x, t.disp = .fp x → A.R x = x

/-- Numerators and denominators are integers. -/
def Integral {N : Type} : Simple N ℚ → Prop
  | .base _ _ => True
  | .derived _ w t => Integral w ∧ ∃ n d, t.num = .int n ∧ t.den = .int d

/-- The arithmetic without overflow. -/
def unlimited (A : Arith) : Arith := { A with overflow := fun _ _ => false }

/-- `y` is `x` up to `n` relative errors. -/
def Near (ε : ℚ) (n : ℕ) (x y : ℚ) : Prop := ∃ θ, y = x * θ ∧ (1 - ε) ^ n ≤ θ ∧ θ * (1 - ε) ^ n ≤ 1

/-- `float`, `double`, …, by the number of binary digits of the type of the values and of `long double`; integers have 64 bits. -/
def formats (p q : ℕ) : Arith := ⟨ieee p, ieee q, fun a b => decide (9223372036854775807 < a * b)⟩

/-- Several conversions one after the other. -/
def chain {N : Type} (A : Arith) (free : Bool) : Simple N ℚ → List (Simple N ℚ) → ℚ → ℚ
  | _, [], x => x
  | u, w :: ws, x => chain A free w ws (applyR A free (conversionC A u w) x)

/-- The products of integers in the conversions do not overflow, so that overflow makes no difference. -/
def NoOverflow {N : Type} (A : Arith) : Simple N ℚ → List (Simple N ℚ) → Prop
  | _, [] => True
  | u, w :: ws => conversionC A u w = conversionC (unlimited A) u w ∧ NoOverflow A w ws

end Verif.Spec.Rounded
