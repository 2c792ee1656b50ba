/-
Model of /repo/Source/sequoia/Maths/Algebra/Ratio.hpp, for integral numerators and denominators.

The types of the arguments are `int`, `unsigned`, `long` and `unsigned long`; narrower types are promoted to `int` before they are divided.  Everything happens
during compilation, so the program is rejected where the result of an expression is undefined.
-/
namespace Verif.Ratio

/-- An integral type. -/
structure Ty where
  wide : Bool
  signed : Bool
  deriving DecidableEq, Repr

namespace Ty
def bits (t : Ty) : Nat := if t.wide then 64 else 32
def max (t : Ty) : Int := if t.signed then 2 ^ (t.bits - 1) - 1 else 2 ^ t.bits - 1
def min (t : Ty) : Int := if t.signed then - 2 ^ (t.bits - 1) else 0

/-- The values of the type. -/
def Holds (t : Ty) (v : Int) : Prop := t.min ≤ v ∧ v ≤ t.max
instance (t : Ty) (v : Int) : Decidable (t.Holds v) := inferInstanceAs (Decidable (_ ∧ _))

/-- Conversion to the type. -/
def conv (t : Ty) (v : Int) : Int :=
  let r := v % 2 ^ t.bits
  if t.signed ∧ 2 ^ (t.bits - 1) ≤ r then r - 2 ^ t.bits else r

/-- The usual arithmetic conversions. -/
def common (a b : Ty) : Ty :=
  if a.signed = b.signed then ⟨a.wide || b.wide, a.signed⟩
  else
    let u := if a.signed then b else a
    let s := if a.signed then a else b
    if u.wide || !s.wide then u else s
end Ty

/-- The outcome of an instantiation. -/
inductive Inst (α : Type) where
  | ok (a : α)
  | illFormed
  | floating
  deriving DecidableEq, Repr

def Inst.bind {α β : Type} : Inst α → (α → Inst β) → Inst β
  | .ok a, f => f a
  | .illFormed, _ => .illFormed
  | .floating, _ => .floating

/-- `ratio<Num, Den>`, Ratio.hpp:21-31: the reduced numerator and denominator.  `std::gcd` requires the absolute values of its arguments to be values of the common
type; dividing by zero is ill-formed. -/
def reduce (tn td : Ty) (num den : Int) : Inst (Int × Int) :=
  let t := tn.common td
  let divisor : Int := Int.gcd num den
  if ¬ t.Holds num.natAbs ∨ ¬ t.Holds den.natAbs ∨ divisor = 0 then .illFormed
  else .ok ((t.conv num).tdiv divisor, (t.conv den).tdiv divisor)

/-- `product<M, N>`, Ratio.hpp:77-116, for arguments of one type.  `relaxed` allows the conversion to floating point, which is reached at once for `long`; for `int`
it is tried with `long` first. -/
def productWide (relaxed : Bool) (m n : Int) : Inst Int :=
  let t : Ty := ⟨true, true⟩
  if m = 1 then .ok n
  else if n = 1 then .ok m
  else if m = 0 then .illFormed
  else
    let overflow : Bool := t.max.tdiv m < n
    if !relaxed || !overflow then (if t.Holds (m * n) then .ok (m * n) else .illFormed)
    else .floating

/-- `ratio_product`, Ratio.hpp:62-122, for numerators and denominators of type `std::intmax_t`. -/
def multiply (relaxed : Bool) (n1 d1 n2 d2 : Int) : Inst (Int × Int) :=
  let t : Ty := ⟨true, true⟩
  (reduce t t n1 d1).bind fun r1 =>
  (reduce t t n2 d2).bind fun r2 =>
  (reduce t t r1.1 r2.2).bind fun a =>
  (reduce t t r2.1 r1.2).bind fun b =>
  (productWide relaxed a.1 b.1).bind fun num =>
  (productWide relaxed a.2 b.2).bind fun den =>
  reduce t t num den

/-- `ratio_divide`, Ratio.hpp:157-159: multiplication by the reduced inverse. -/
def divide (relaxed : Bool) (n1 d1 n2 d2 : Int) : Inst (Int × Int) :=
  (reduce ⟨true, true⟩ ⟨true, true⟩ n2 d2).bind fun r => multiply relaxed n1 d1 r.2 r.1

end Verif.Ratio
