import Mathlib.Algebra.Order.Field.Basic
import Verif.Model.Units
/-
Model of expressions of quantities: `physical_value`, /repo/Source/sequoia/Physics/PhysicalValues.hpp:463-691, with the operators it has from `coordinates_base`,
Maths/Geometry/Spaces.hpp:1227-1569.

Quantities have one dimension, and the basis is the canonical one.  Numbers are elements of an ordered field, so that there is no rounding; dividing by zero leaves the field and is
not modelled further.  What is known about spaces is a parameter.  Implicit conversions of operands are written as operations of their own.
-/
namespace Verif.Quantities
open Verif.Units

/-- What is known about spaces: `free_module_type_of`, `dual_of`, `to_base_space`, the space of a product where it is well-formed (PhysicalValues.hpp:172-195), the common type of the
base spaces where there is one (PhysicalValues.hpp:322-327), `affine_space`, `vector_space` and `has_distinguished_origin`. -/
structure Kinds (S : Type) where
  free : S → S
  dual : S → S
  base : S → S
  prod : S → S → Option S
  common : S → S → Option S
  isAffine : S → Bool
  isVector : S → Bool
  hasOrigin : S → Bool

/-- The types of origins, PhysicalValues.hpp:236-244; they are those for the space and the unit of the quantity.  The origin is a template parameter which may be any other type as well,
PhysicalValues.hpp:469, 1347-1364. -/
inductive Origin where
  | distinguished
  | unitDefined
  | implicitAffine
  | custom (k : Nat)
  deriving DecidableEq

/-- The type of a quantity: the template arguments of `physical_value`, PhysicalValues.hpp:464-471. -/
structure QTy (S N : Type) where
  space : S
  unit : Unit N
  origin : Origin
  validator : Validator
  deriving DecidableEq

/-- Expressions of quantities with the inputs `X` and numbers in `K`. -/
inductive Expr (X K : Type) where
  | var (x : X)
  | plus (a b : Expr X K)
  | minus (a b : Expr X K)
  | neg (a : Expr X K)
  | scale (a : Expr X K) (k : K)
  | over (a : Expr X K) (k : K)
  | times (a b : Expr X K)
  | quot (a b : Expr X K)
  | recip (k : K) (a : Expr X K)
  | lower (a : Expr X K)

section
variable {S N : Type} [DecidableEq S] [DecidableEq N]

/-- `to_origin_type`, PhysicalValues.hpp:246-271. -/
def originOf (w : Kinds S) (s : S) : Origin := if w.hasOrigin s then .distinguished else if w.isAffine s then .implicitAffine else .unitDefined

/-- `has_consistent_validator`, PhysicalValues.hpp:215-218: a type without this is ill-formed. -/
def QTy.consistent (w : Kinds S) (t : QTy S N) : Bool := !w.isAffine t.space || t.validator = .identity

/-- The type of a displacement, PhysicalValues.hpp:273-279. -/
def disp (w : Kinds S) (t : QTy S N) : QTy S N := ⟨w.free t.space, t.unit, .distinguished, .identity⟩

/-- `is_intrinsically_absolute`, PhysicalValues.hpp:492-494. -/
def QTy.absolute (w : Kinds S) (e : Env N) (t : QTy S N) : Bool := !w.isAffine t.space && t.unit.validator e = some .halfLine

/-- `is_effectively_absolute`, PhysicalValues.hpp:496. -/
def QTy.effectivelyAbsolute (w : Kinds S) (e : Env N) (t : QTy S N) : Bool := t.absolute w e && t.unit.validator e = some t.validator

/-- A type, if it is well-formed. -/
def wellFormed (w : Kinds S) (t : QTy S N) : Option (QTy S N) := if t.consistent w then some t else none

/-- The type of a sum: a quantity and a displacement, Spaces.hpp:1351-1357; a displacement and a quantity, Spaces.hpp:1359-1365; two quantities of the same type, Spaces.hpp:1367-1375; quantities in
different spaces, PhysicalValues.hpp:568-580. -/
def plusTy (w : Kinds S) (e : Env N) (s t : QTy S N) : Option (QTy S N) :=
  if t = disp w s then some s
  else if s = disp w t then some t
  else if s = t then (if w.hasOrigin s.space then some s else none)
  else if s.space ≠ t.space ∧ s.absolute w e ∧ s.unit = t.unit ∧ s.validator = t.validator then
    (w.common s.space t.space).bind fun r => wellFormed w ⟨r, s.unit, originOf w r, s.validator⟩
  else none

/-- A displacement and a quantity: the operator in Spaces.hpp:1359-1365 calls itself. -/
def endless (w : Kinds S) (s t : QTy S N) : Prop := t ≠ disp w s ∧ s = disp w t

instance (w : Kinds S) (s t : QTy S N) : Decidable (endless w s t) := inferInstanceAs (Decidable (_ ∧ _))

/-- Whether the unit derives from `no_unit_t`: then a displacement can be made from a number alone, PhysicalValues.hpp:536-550. -/
def QTy.numeric (e : Env N) (t : QTy S N) : Bool :=
  match t.unit with
  | .single a => isDerived e a
  | .composite _ => false

/-- The type of a difference: a quantity and a displacement, Spaces.hpp:1377-1383; two quantities of the same type, if the unit is none, Spaces.hpp:1338-1349; two quantities in the same space or in
ones with compatible base spaces, whatever the origins, PhysicalValues.hpp:582-598. -/
def minusTy (w : Kinds S) (e : Env N) (s t : QTy S N) : Option (QTy S N) :=
  if t = disp w s then some s
  else if s = t ∧ s.numeric e = true then some (disp w s)
  else if s.unit = t.unit ∧ s.validator = t.validator ∧ t.space ≠ w.free s.space then
    if s.space = t.space then (if s.numeric e then none else some (disp w s))
    else (w.common s.space t.space).map fun r => ⟨w.free r, s.unit, .distinguished, .identity⟩
  else none

/-- The type of unary minus, PhysicalValues.hpp:552-557. -/
def negTy (w : Kinds S) (e : Env N) (t : QTy S N) : Option (QTy S N) := if w.hasOrigin t.space ∧ t.effectivelyAbsolute w e = false then some t else none

/-- The type of a product with a number, Spaces.hpp:1385-1399. -/
def scaleTy (w : Kinds S) (t : QTy S N) : Option (QTy S N) := if w.hasOrigin t.space then some t else none

/-- The type of a quotient by a number, Spaces.hpp:1417-1423. -/
def overTy (w : Kinds S) (t : QTy S N) : Option (QTy S N) := if w.isVector (w.free t.space) ∧ w.hasOrigin t.space then some t else none

/-- Whether a quantity may be a factor: `is_composable_with`, PhysicalValues.hpp:499-504. -/
def QTy.factor (w : Kinds S) (e : Env N) (t : QTy S N) : Bool := t.absolute w e || w.isVector t.space

/-- `physical_value_product`, PhysicalValues.hpp:405-423. -/
def productTy (w : Kinds S) (e : Env N) (s t : QTy S N) : Option (QTy S N) :=
  if s.origin = .distinguished ∧ t.origin = .distinguished then
    (w.prod s.space t.space).bind fun r => (valueProduct e s.unit t.unit).bind fun u => (reducedTwo s.validator t.validator).bind fun v =>
      if w.hasOrigin r then wellFormed w ⟨r, u, .distinguished, v⟩ else none
  else none

/-- The dual of a quantity, PhysicalValues.hpp:624 and 642. -/
def dualTy (w : Kinds S) (e : Env N) (t : QTy S N) : Option (QTy S N) :=
  if w.hasOrigin (w.dual t.space) then wellFormed w ⟨w.dual t.space, t.unit.dualOf e, .distinguished, t.validator⟩ else none

/-- The type of a product, PhysicalValues.hpp:599-612. -/
def timesTy (w : Kinds S) (e : Env N) (s t : QTy S N) : Option (QTy S N) := if s.factor w e && t.factor w e then productTy w e s t else none

/-- The type of a quotient, PhysicalValues.hpp:614-637. -/
def quotTy (w : Kinds S) (e : Env N) (s t : QTy S N) : Option (QTy S N) := if s.factor w e && t.factor w e then (dualTy w e t).bind (productTy w e s) else none

/-- The type of the quotient of a number by a quantity, PhysicalValues.hpp:639-645. -/
def recipTy (w : Kinds S) (e : Env N) (t : QTy S N) : Option (QTy S N) := if t.factor w e then dualTy w e t else none

/-- The implicit conversion to the base space, PhysicalValues.hpp:647-665.  Whatever type was asked for, this is the one which is made; were it another, it would be converted again without end. -/
def lowerTy (w : Kinds S) (t : QTy S N) : Option (QTy S N) :=
  if w.base (w.base t.space) = w.base t.space then wellFormed w ⟨w.base t.space, t.unit, originOf w (w.base t.space), t.validator⟩ else none

variable {X K : Type}

/-- The type of an expression, if it is well-formed. -/
def typeOf (w : Kinds S) (e : Env N) (Γ : X → QTy S N) : Expr X K → Option (QTy S N)
  | .var x => some (Γ x)
  | .plus a b => (typeOf w e Γ a).bind fun s => (typeOf w e Γ b).bind fun t => plusTy w e s t
  | .minus a b => (typeOf w e Γ a).bind fun s => (typeOf w e Γ b).bind fun t => minusTy w e s t
  | .neg a => (typeOf w e Γ a).bind (negTy w e)
  | .scale a _ => (typeOf w e Γ a).bind (scaleTy w)
  | .over a _ => (typeOf w e Γ a).bind (overTy w)
  | .times a b => (typeOf w e Γ a).bind fun s => (typeOf w e Γ b).bind fun t => timesTy w e s t
  | .quot a b => (typeOf w e Γ a).bind fun s => (typeOf w e Γ b).bind fun t => quotTy w e s t
  | .recip _ a => (typeOf w e Γ a).bind (recipTy w e)
  | .lower a => (typeOf w e Γ a).bind (lowerTy w)

/-- Quantities are compared as `coordinates_base`, which does not have the origin among its template arguments, Spaces.hpp:1498-1506. -/
def comparable (s t : QTy S N) : Bool := s.space = t.space && s.unit = t.unit && s.validator = t.validator

variable [Field K] [LinearOrder K]

/-- The constructors, Spaces.hpp:1253-1267, 1555-1568: the validator is applied.  `other` validators are a parameter. -/
def construct (other : Nat → K → Res K) : Validator → K → Res K
  | .identity, v => .ok v
  | .halfLine, v => if v < 0 then .throws else .ok v
  | .other k, v => other k v

/-- A quantity of the type of an expression; the last case is that of ill-formed expressions. -/
def build (other : Nat → K → Res K) (t : Option (QTy S N)) (v : K) : Res K :=
  match t with
  | some t => construct other t.validator v
  | none => .ub

/-- Whether a sum is endless, given the types of the operands. -/
def isEndless (w : Kinds S) (s t : Option (QTy S N)) : Bool :=
  match s, t with
  | some s, some t => endless w s t
  | _, _ => false

/-- The value of an expression. -/
def eval (w : Kinds S) (e : Env N) (Γ : X → QTy S N) (other : Nat → K → Res K) (ρ : X → K) : Expr X K → Res K
  | .var x => .ok (ρ x)
  | .plus a b => (eval w e Γ other ρ a).bind fun x => (eval w e Γ other ρ b).bind fun y =>
      if isEndless w (typeOf w e Γ a) (typeOf w e Γ b) then .ub else build other (typeOf w e Γ (.plus a b)) (x + y)
  | .minus a b => (eval w e Γ other ρ a).bind fun x => (eval w e Γ other ρ b).bind fun y => build other (typeOf w e Γ (.minus a b)) (x - y)
  | .neg a => (eval w e Γ other ρ a).bind fun x => build other (typeOf w e Γ (.neg a)) (-x)
  | .scale a k => (eval w e Γ other ρ a).bind fun x => build other (typeOf w e Γ (.scale a k)) (x * k)
  | .over a k => (eval w e Γ other ρ a).bind fun x => if k = 0 then .ub else build other (typeOf w e Γ (.over a k)) (x / k)
  | .times a b => (eval w e Γ other ρ a).bind fun x => (eval w e Γ other ρ b).bind fun y => build other (typeOf w e Γ (.times a b)) (x * y)
  | .quot a b => (eval w e Γ other ρ a).bind fun x => (eval w e Γ other ρ b).bind fun y => if y = 0 then .ub else build other (typeOf w e Γ (.quot a b)) (x / y)
  | .recip k a => (eval w e Γ other ρ a).bind fun x => if x = 0 then .ub else build other (typeOf w e Γ (.recip k a)) (k / x)
  | .lower a => (eval w e Γ other ρ a).bind fun x => build other (typeOf w e Γ (.lower a)) x

end
end Verif.Quantities
