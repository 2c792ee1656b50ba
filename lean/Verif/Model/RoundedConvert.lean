import Mathlib.Data.Rat.Floor
import Mathlib.Data.Int.Log
import Verif.Model.StandardUnits
/-
Model of the conversion of quantities from one unit to another, with rounding: /repo/Source/sequoia/Physics/PhysicalValues.hpp, Maths/Algebra/Ratio.hpp and Maths/Geometry/Spaces.hpp.

Floating point numbers are rational numbers, and the results of all operations are rounded.  There are two types: that of the values, and `long double`, which is that of template arguments, to be precise of those
which are not integers.  Infinities, numbers which are not numbers, and underflow are left out.  Units and transforms are those of Verif.Model.Convert.
-/
namespace Verif.Rounded
open Verif.Convert

/-- Rounding to the type of the values and to `long double`, and whether the product of two integers overflows. -/
structure Arith where
  U : ℚ → ℚ
  R : ℚ → ℚ
  overflow : Int → Int → Bool

/-- The nearest integer; in the middle between two of them, the even one. -/
def nearest (x : ℚ) : ℤ :=
  if x - ⌊x⌋ < 1 / 2 then ⌊x⌋ else if 1 / 2 < x - ⌊x⌋ then ⌊x⌋ + 1 else if ⌊x⌋ % 2 = 0 then ⌊x⌋ else ⌊x⌋ + 1

/-- The distance between adjacent floating point numbers with `p` binary digits, from the greatest power of two up to the number on. -/
def ulp (p : ℕ) (x : ℚ) : ℚ := 2 ^ (Int.log 2 |x| - p + 1)

/-- Rounding to `p` binary digits as in IEEE 754, with exponents which are not bounded: 24 digits for `float`, 53 for `double`, and 53, 64 or 113 for `long double`. -/
def ieee (p : ℕ) (x : ℚ) : ℚ :=
  if x = 0 then 0 else if 0 < x then nearest (x / ulp p x) * ulp p x else -(nearest (-x / ulp p x) * ulp p x)

section
variable (A : Arith)

/-! ### Template arguments: integers and numbers of type `long double` -/

/-- The conversion to `long double`. -/
def lift : Val ℚ → ℚ
  | .int z => A.R z
  | .fp x => x

/-- The usual arithmetic conversions: the result is an integer if both operands are. -/
def mulC : Val ℚ → Val ℚ → Val ℚ
  | .int a, .int b => .int (a * b)
  | a, b => .fp (A.R (lift A a * lift A b))

def divC : Val ℚ → Val ℚ → Val ℚ
  | .int a, .int b => .int (a.tdiv b)
  | a, b => .fp (A.R (lift A a / lift A b))

def addC : Val ℚ → Val ℚ → Val ℚ
  | .int a, .int b => .int (a + b)
  | a, b => .fp (A.R (lift A a + lift A b))

/-- `ratio<Num, Den>::num` and `ratio<Num, Den>::den`, Ratio.hpp:17-46. -/
def reducedC : Val ℚ → Val ℚ → Val ℚ × Val ℚ
  | .int n, .int d => (.int (n.tdiv (Int.gcd n d)), .int (d.tdiv (Int.gcd n d)))
  | .int n, .fp d => if A.R n = d then (.int 1, .fp 1) else (.int n, .fp d)
  | .fp n, .int d => if n = A.R d then (.fp 1, .int 1) else (.fp n, .int d)
  | .fp n, .fp d => if n = d then (.fp 1, .fp 1) else (.fp n, .fp d)

/-- `ratio_product::product`, Ratio.hpp:77-121, with the conversion to `long double` upon overflow. -/
def timesC (m n : Val ℚ) : Val ℚ :=
  if m.toK = 1 ∧ n.toK = 1 then .int 1
  else if m.toK = 1 then n
  else if n.toK = 1 then m
  else
    match m, n with
    | .int a, .int b => if A.overflow a b then .fp (A.R (A.R a * A.R b)) else .int (a * b)
    | m, n => .fp (A.R (lift A m * lift A n))

/-- `ratio_product`, Ratio.hpp:65-128. -/
def ratioMulC (n1 d1 n2 d2 : Val ℚ) : Val ℚ × Val ℚ :=
  let r1 := reducedC A n1 d1
  let r2 := reducedC A n2 d2
  let a := reducedC A r1.1 r2.2
  let b := reducedC A r2.1 r1.2
  (timesC A a.1 b.1, timesC A a.2 b.2)

/-- `inverse<coordinate_transform<…>>`, PhysicalValues.hpp:979-1021 and 1071-1077. -/
def inverseC (t : Transform ℚ) : Transform ℚ :=
  let r := reducedC A t.den t.num
  ⟨t.den, t.num, (divC A (mulC A t.disp r.1) r.2).neg⟩

/-- `Displacement * Ratio::num / Ratio::den`, as in PhysicalValues.hpp:1054 and 1087. -/
def scaledC (t : Transform ℚ) (x : Val ℚ) : Val ℚ := divC A (mulC A x (reducedC A t.num t.den).1) (reducedC A t.num t.den).2

/-- `product` of two coordinate transforms, PhysicalValues.hpp:1079-1089. -/
def productC (l r : Transform ℚ) : Transform ℚ :=
  ⟨(ratioMulC A l.num l.den r.num r.den).1, (ratioMulC A l.num l.den r.num r.den).2, addC A l.disp (scaledC A l r.disp)⟩

variable {N : Type}

/-- `root_transform_t`, PhysicalValues.hpp:1119-1147. -/
def rootC : Simple N ℚ → Transform ℚ
  | .base _ _ => .identity
  | .derived _ (.base _ _) t => t
  | .derived _ (.derived n w t') t => productC A t (rootC (.derived n w t'))

/-- The literals are rounded to `long double`, as in PhysicalValues.hpp:1294, 1369, 1376 and 1386. -/
def literal : Val ℚ → Val ℚ
  | .int z => .int z
  | .fp x => .fp (A.R x)

/-- A unit with its literals. -/
def literals : Simple N ℚ → Simple N ℚ
  | .base n v => .base n v
  | .derived n w t => .derived n (literals w) ⟨literal A t.num, literal A t.den, literal A t.disp⟩

/-- `transform_type` of `coordinate_transformation`, PhysicalValues.hpp:1550. -/
def conversionC (u w : Simple N ℚ) : Transform ℚ := productC A (rootC A w) (inverseC A (rootC A u))

/-! ### Values -/

/-- A number which is computed when the program is run: of the type of the values, or of type `long double`. -/
inductive RVal where
  | u (x : ℚ)
  | l (x : ℚ)
  deriving DecidableEq

def RVal.val : RVal → ℚ
  | .u x => x
  | .l x => x

/-- The usual arithmetic conversions: integers are converted to the type of the other operand. -/
def mulR : RVal → Val ℚ → RVal
  | .u x, .int z => .u (A.U (x * A.U z))
  | .u x, .fp y => .l (A.R (x * y))
  | .l x, y => .l (A.R (x * lift A y))

def divR : RVal → Val ℚ → RVal
  | .u x, .int z => .u (A.U (x / A.U z))
  | .u x, .fp y => .l (A.R (x / y))
  | .l x, y => .l (A.R (x / lift A y))

def addR : RVal → Val ℚ → RVal
  | .u x, .int z => .u (A.U (x + A.U z))
  | .u x, .fp y => .l (A.R (x + y))
  | .l x, y => .l (A.R (x + lift A y))

/-- Adding `value_type{}`. -/
def addZero : RVal → RVal
  | .u x => .u (A.U (x + 0))
  | .l x => .l (A.R (x + 0))

/-- What `coordinate_transformation` does to a value, PhysicalValues.hpp:1554-1576, given the transform from one unit to the other.  `free` says whether the space is a free module. -/
def applyR (free : Bool) (t : Transform ℚ) (v : ℚ) : ℚ :=
  let r := reducedC A t.num t.den
  let x := divR A (mulR A (.u v) r.1) r.2
  A.U (if free then addZero A x else addR A x t.disp).val

/-! ### Validators -/

/-- `(val * Ratio::num / Ratio::den) + Displacement`, PhysicalValues.hpp:1052-1055, for a number of type `long double`. -/
def boundC (t : Transform ℚ) (x : ℚ) : ℚ := lift A (addC A (scaledC A t (.fp x)) t.disp)

/-- `synthesised_validator`, PhysicalValues.hpp:1027-1058. -/
def synthesisedC (v : Validator ℚ) (t : Transform ℚ) : Option (Validator ℚ) :=
  if v.scaleInvariant then
    if t.disp.toK = 0 then some v
    else if v.translationInvariant then none
    else
      match t.disp with
      | .int _ => none
      | .fp d => some (.interval (some d) none)
  else
    match v with
    | .interval l u => mkInterval (l.map (boundC A t)) (u.map (boundC A t))
    | _ => none

/-- The validator of a unit. -/
def validatorC : Simple N ℚ → Option (Validator ℚ)
  | .base _ v => some v
  | .derived _ w t => (validatorC w).bind fun v => synthesisedC A v t

/-- Whether a validator accepts a value, Spaces.hpp:710-760: the bounds are converted to the type of the values. -/
def acceptsU : Validator ℚ → ℚ → Bool
  | .identity, _ => true
  | .halfLine, x => !decide (x < 0)
  | .interval l u, x => !(l.any fun l => decide (x < A.U l)) && !(u.any fun u => decide (A.U u < x))

/-- `convert_to` for a quantity of a space with the default validator, which is that of the unit, PhysicalValues.hpp:438-439, 522-528 and 667-684: the result is validated when it is constructed. -/
def convertR [DecidableEq N] (u w : Simple N ℚ) (x : ℚ) : Option (Res ℚ) :=
  if u.root = w.root then
    (validatorC A w).map fun v => if acceptsU A v (applyR A false (conversionC A u w) x) then .ok (applyR A false (conversionC A u w) x) else .throws
  else none

end
end Verif.Rounded
