import Verif.Model.Quantities
import Verif.Spec.Units
/-
What is meant by the dimension of an expression, and by a change of units and origins.
-/
namespace Verif.Spec.Quantities
open Verif.Units Verif.Quantities

/-- What is taken for granted about spaces: the space of displacements is its own, and has an origin, as have vector spaces; spaces with compatible base spaces, and their base spaces, are alike affine
or not. -/
structure Lawful {S : Type} (w : Kinds S) : Prop where
  free_free : ∀ s, w.free (w.free s) = w.free s
  free_origin : ∀ s, w.hasOrigin (w.free s) = true
  vector_origin : ∀ s, w.isVector s = true → w.hasOrigin s = true
  common_affine : ∀ s t r, w.common s t = some r → w.isAffine s = w.isAffine t ∧ w.isAffine r = w.isAffine t
  base_affine : ∀ s, w.isAffine (w.base s) = w.isAffine s

/-- The dimension of an expression, as in physics: the exponents of the base units, given those of the inputs.  For sums and differences it is that of the first operand. -/
def dim {X K N : Type} (f : X → N → Int) : Expr X K → N → Int
  | .var x => f x
  | .plus a _ | .minus a _ | .neg a | .scale a _ | .over a _ | .lower a => dim f a
  | .times a b => fun n => dim f a n + dim f b n
  | .quot a b => fun n => dim f a n - dim f b n
  | .recip _ a => fun n => - dim f a n

/-- Only quantities with the same dimension are added and subtracted. -/
def Homogeneous {X K N : Type} (f : X → N → Int) : Expr X K → Prop
  | .var _ => True
  | .plus a b | .minus a b => Homogeneous f a ∧ Homogeneous f b ∧ dim f a = dim f b
  | .neg a | .scale a _ | .over a _ | .lower a | .recip _ a => Homogeneous f a
  | .times a b | .quot a b => Homogeneous f a ∧ Homogeneous f b

section
variable {S N K : Type} [Field K]

/-- What the number of a quantity is multiplied by, if that of each base unit is multiplied by `scale`. -/
def factor (scale : N → K) : Unit N → K
  | .single a => if a.isDual then (scale a.name)⁻¹ else scale a.name
  | .composite l => (l.map fun a => if a.isDual then (scale a.name)⁻¹ else scale a.name).prod

/-- A change of units and origins: numbers are multiplied, for each base unit by a positive factor, and if the origin is a matter of choice then something is added. -/
structure Change (w : Kinds S) (e : Env N) [LinearOrder K] (scale : N → K) (shift : QTy S N → K) : Prop where
  positive : ∀ n, 0 < scale n
  noUnit : scale e.noUnit = 1
  origin : ∀ t, shift t ≠ 0 → w.isAffine t.space = true ∧ w.hasOrigin t.space = false

/-- The number of a quantity after a change of units and origins. -/
def change (scale : N → K) (shift : QTy S N → K) (t : QTy S N) (v : K) : K := factor scale t.unit * v + shift t

end

/-- The outcome of an expression after a change of its value. -/
def mapRes {α β : Type} (f : α → β) : Res α → Res β
  | .ok a => .ok (f a)
  | .throws => .throws
  | .ub => .ub

section
variable {S N : Type} [DecidableEq S] [DecidableEq N] {X K : Type}

/-- Points of an affine space are subtracted only if they have the same type, and are not converted to another origin. -/
def Aligned (w : Kinds S) (e : Env N) (Γ : X → QTy S N) : Expr X K → Prop
  | .var _ => True
  | .minus a b => Aligned w e Γ a ∧ Aligned w e Γ b ∧ ∀ s t, typeOf w e Γ a = some s → typeOf w e Γ b = some t → t ≠ disp w s → w.isAffine s.space = true → s = t
  | .lower a => Aligned w e Γ a ∧ ∀ t, typeOf w e Γ a = some t → w.isAffine t.space = true → typeOf w e Γ (.lower a) = some t
  | .plus a b | .times a b | .quot a b => Aligned w e Γ a ∧ Aligned w e Γ b
  | .neg a | .scale a _ | .over a _ | .recip _ a => Aligned w e Γ a

/-- Expressions without differences and unary minus, and with no negative numbers. -/
def NoMinus {X K : Type} [Zero K] [LE K] : Expr X K → Prop
  | .var _ => True
  | .minus _ _ | .neg _ => False
  | .plus a b | .times a b | .quot a b => NoMinus a ∧ NoMinus b
  | .scale a k | .over a k => NoMinus a ∧ 0 ≤ k
  | .recip k a => 0 ≤ k ∧ NoMinus a
  | .lower a => NoMinus a

end
end Verif.Spec.Quantities
