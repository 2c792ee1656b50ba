import Mathlib.Algebra.Field.Defs
import Verif.Model.Basic
/-
Model of `maths::coordinates_base`: /repo/Source/sequoia/Maths/Geometry/Spaces.hpp:1227-1569.

The numbers are elements of a field, except in an example; so there is no rounding and no overflow.
-/
namespace Verif.Coordinates

variable {D : Nat} {K : Type}

/-- What `coordinates_base` knows about a space: its validator, which may throw or return other values, and the constants in Spaces.hpp:1245-1247. -/
structure Space (D : Nat) (K : Type) where
  validate : (Fin D → K) → Res (Fin D → K)
  hasIdentityValidator : Bool
  hasDistinguishedOrigin : Bool
  isVectorSpace : Bool

/-- `has_freely_mutable_components`, Spaces.hpp:1247. -/
def Space.freelyMutable (sp : Space D K) : Bool := sp.hasIdentityValidator && sp.hasDistinguishedOrigin

/-- The constructors from values, Spaces.hpp:1253-1267. -/
def construct (sp : Space D K) (vals : Fin D → K) : Res (Fin D → K) := sp.validate vals

/-- The default constructor, Spaces.hpp:1251 and 1550: the validator is not asked. -/
def initial [Zero K] : Fin D → K := fun _ => 0

/-- `apply_to_each_element`, Spaces.hpp:1511-1529. -/
def applyToEach (sp : Space D K) (self rhs : Fin D → K) (f : K → K → K) : Res (Fin D → K) :=
  if sp.hasIdentityValidator then .ok fun i => f (self i) (rhs i) else sp.validate fun i => f (self i) (rhs i)

/-- `for_each_element`, Spaces.hpp:1531-1547. -/
def forEach (sp : Space D K) (self : Fin D → K) (f : K → K) : Res (Fin D → K) :=
  if sp.hasIdentityValidator then .ok fun i => f (self i) else sp.validate fun i => f (self i)

section
variable [Field K] [DecidableEq K]

/-- `operator+(Derived, const displacement_coordinates_type&)` and `operator+(Derived, const Derived&)`, Spaces.hpp:1351-1357 and 1367-1375. -/
def plus (sp : Space D K) (c v : Fin D → K) : Res (Fin D → K) := applyToEach sp c v fun l r => l + r

/-- `operator-(Derived, const displacement_coordinates_type&)`, Spaces.hpp:1377-1383. -/
def minus (sp : Space D K) (c v : Fin D → K) : Res (Fin D → K) := applyToEach sp c v fun l r => l - r

/-- The difference of two points, Spaces.hpp:1338-1349; displacements are not validated. -/
def difference (l r : Fin D → K) : Fin D → K := fun i => l i - r i

/-- Unary minus, Spaces.hpp:1326-1336. -/
def negative (sp : Space D K) (c : Fin D → K) : Res (Fin D → K) := construct sp fun i => - c i

/-- `operator*(Derived, value_type)` and the other way round, Spaces.hpp:1385-1399. -/
def times (sp : Space D K) (c : Fin D → K) (u : K) : Res (Fin D → K) := forEach sp c fun x => x * u

/-- `operator*(Derived, std::span)` and the other way round, Spaces.hpp:1401-1415. -/
def timesEach (sp : Space D K) (c u : Fin D → K) : Res (Fin D → K) := applyToEach sp c u fun l r => l * r

/-- `operator/(Derived, value_type)`, Spaces.hpp:1417-1423.  Division by zero leaves the field and is not modelled further. -/
def over (sp : Space D K) (c : Fin D → K) (u : K) : Res (Fin D → K) := if u = 0 then .ub else forEach sp c fun x => x / u

/-- `operator/(Derived, std::span)`, Spaces.hpp:1425-1431. -/
def overEach (sp : Space D K) (c u : Fin D → K) : Res (Fin D → K) := if ∃ i, u i = 0 then .ub else applyToEach sp c u fun l r => l / r

/-- Operations on an object. -/
inductive Op (D : Nat) (K : Type) where
  | add (v : Fin D → K)
  | addPoint (v : Fin D → K)
  | sub (v : Fin D → K)
  | mul (u : K)
  | mulEach (u : Fin D → K)
  | div (u : K)
  | divEach (u : Fin D → K)
  | negate
  | assign (v : Fin D → K)
  | set (i : Fin D) (x : K)

/-- The constraints of the operators, Spaces.hpp:1269-1336 and 1436-1467. -/
def permitted (sp : Space D K) : Op D K → Bool
  | .add _ => true
  | .addPoint _ => sp.hasDistinguishedOrigin
  | .sub _ => true
  | .mul _ => sp.hasDistinguishedOrigin
  | .mulEach _ => sp.hasDistinguishedOrigin
  | .div _ => sp.isVectorSpace && sp.hasDistinguishedOrigin
  | .divEach _ => sp.isVectorSpace && sp.hasDistinguishedOrigin
  | .negate => sp.hasDistinguishedOrigin
  | .assign _ => true
  | .set _ _ => sp.freelyMutable

/-- `self = expression`: if the expression throws there is no assignment. -/
def assignment (self : Fin D → K) : Res (Fin D → K) → Outcome (Fin D → K) Unit
  | .ok y => .ret y ()
  | .throws => .threw self
  | .ub => .ub

/-- `+=`, `-=`, `*=` and `/=`, Spaces.hpp:1269-1317; the assignment of the negative and of newly constructed coordinates; and access to a component by `operator[]`, `values` or
iterators, Spaces.hpp:1436-1467. -/
def step (sp : Space D K) (self : Fin D → K) : Op D K → Outcome (Fin D → K) Unit
  | .add v => assignment self (plus sp self v)
  | .addPoint v => assignment self (plus sp self v)
  | .sub v => assignment self (minus sp self v)
  | .mul u => assignment self (times sp self u)
  | .mulEach u => assignment self (timesEach sp self u)
  | .div u => assignment self (over sp self u)
  | .divEach u => assignment self (overEach sp self u)
  | .negate => assignment self (negative sp self)
  | .assign v => assignment self (construct sp v)
  | .set i x => .ret (fun j => if j = i then x else self j) ()

end

/-- `operator+(const displacement_coordinates_type&, Derived)`, Spaces.hpp:1359-1366: its body is `v + c`, which is the same call; `fuel` bounds the depth. -/
def plusLeft (sp : Space D K) (v c : Fin D → K) : Nat → Option (Res (Fin D → K))
  | 0 => none
  | fuel + 1 => plusLeft sp v c fuel

end Verif.Coordinates
