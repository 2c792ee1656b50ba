import Verif.Model.Basic
/-
Coordinates whose components are of an integral type: the operators of /repo/Source/sequoia/Maths/Geometry/Spaces.hpp:1269-1415, with the built-in `+=`, `-=` and `*=` for the
components, and the traits which say which types are taken for rings and fields, 260-334.

The width of `int` is a parameter.  Types as wide as `int` which convert to it do not exist.  Floating point is not modelled.
-/
namespace Verif.MachineNumbers

/-- The integral types, by width in bits. -/
inductive IntTy where
  | bool
  | unsigned (w : Nat)
  | signed (w : Nat)
  deriving DecidableEq, Repr

/-- Whether a number is a value of a type. -/
def inRange : IntTy → Int → Prop
  | .bool, x => x = 0 ∨ x = 1
  | .unsigned w, x => 0 ≤ x ∧ x < 2 ^ w
  | .signed w, x => -(2 ^ (w - 1) : Int) ≤ x ∧ x < 2 ^ (w - 1)

instance (T : IntTy) (x : Int) : Decidable (inRange T x) := by
  cases T <;> unfold inRange <;> infer_instance

/-- The integral promotions: `bool` and everything narrower than `int`, whose width is `n`, become `int`. -/
def promoted (n : Nat) : IntTy → IntTy
  | .bool => .signed n
  | .unsigned w => if w < n then .signed n else .unsigned w
  | .signed w => if w < n then .signed n else .signed w

/-- A built-in operation, of which `r` is the exact result: overflow is undefined for signed types and wraps around for the others. -/
def computed : IntTy → Int → Res Int
  | .bool, r => if inRange .bool r then .ok r else .ub
  | .unsigned w, r => .ok (r % 2 ^ w)
  | .signed w, r => if inRange (.signed w) r then .ok r else .ub

/-- The conversion of the result to the type of the left operand. -/
def converted : IntTy → Int → Int
  | .bool, r => if r = 0 then 0 else 1
  | .unsigned w, r => r % 2 ^ w
  | .signed w, r => r.bmod (2 ^ w)

/-- The built-in `lhs += rhs`, `lhs -= rhs` and `lhs *= rhs`. -/
def compound (n : Nat) (T : IntTy) (r : Int) : Res Int := (computed (promoted n T) r).bind fun x => .ok (converted T x)
def plusAssign (n : Nat) (T : IntTy) (a b : Int) : Res Int := compound n T (a + b)
def minusAssign (n : Nat) (T : IntTy) (a b : Int) : Res Int := compound n T (a - b)
def timesAssign (n : Nat) (T : IntTy) (a b : Int) : Res Int := compound n T (a * b)

/-- `weak_commutative_ring` for an integral type, Spaces.hpp:269-270, 307-308 and 320-327. -/
def weakCommutativeRing : IntTy → Bool := fun _ => true

/-- `weak_field` for an integral type, Spaces.hpp:285-301 and 333-334. -/
def weakField (T : IntTy) : Bool := weakCommutativeRing T && decide (T = .bool)

/-- `apply_to_each_element`, Spaces.hpp:1511-1529, with the identity validator: element by element. -/
def applyToEach (f : Int → Int → Res Int) : List Int → List Int → Res (List Int)
  | a :: as, b :: bs => (f a b).bind fun c => (applyToEach f as bs).bind fun cs => .ok (c :: cs)
  | _, _ => .ok []

/-- `operator+`, `operator-` and `operator*` for coordinates, Spaces.hpp:1351-1399. -/
def coordsPlus (n : Nat) (T : IntTy) (c v : List Int) : Res (List Int) := applyToEach (plusAssign n T) c v
def coordsMinus (n : Nat) (T : IntTy) (c v : List Int) : Res (List Int) := applyToEach (minusAssign n T) c v
def coordsTimes (n : Nat) (T : IntTy) (c : List Int) (u : Int) : Res (List Int) := applyToEach (timesAssign n T) c (c.map fun _ => u)

/-- `half_line_validator`, Spaces.hpp:710-728: unsigned types are not looked at. -/
def halfLine : IntTy → Int → Res Int
  | .signed _, x => if x < 0 then .throws else .ok x
  | _, x => .ok x

/-- `operator-` of a point on the half line and a displacement, Spaces.hpp:1377-1383 with 1511-1529. -/
def halfLineMinus (n : Nat) (T : IntTy) (a b : Int) : Res Int := (minusAssign n T a b).bind (halfLine T)

end Verif.MachineNumbers
