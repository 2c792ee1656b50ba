import Mathlib.Algebra.Order.Field.Basic
import Verif.Model.StandardUnits
/-
What the units are, according to textbooks.
-/
namespace Verif.Spec.StandardUnits
open Verif.StandardUnits

section
variable {K : Type} [Field K]

/-- How many units there are in one with the prefix. -/
def tenTo : Prefix → K
  | .micro => 1 / 1000000
  | .milli => 1 / 1000
  | .kilo => 1000
  | .mega => 1000000

/-- The unit in which quantities of the same kind are measured in SI. -/
def siUnit : LibUnit → Base
  | .base b => b
  | .celsius => .kelvin
  | .degree => .radian
  | .gradian => .radian
  | .fahrenheit => .kelvin
  | .foot => .metre
  | .pre _ u => siUnit u

/-- The value in SI units of a quantity given by its value in some unit: a foot is 0.3048 m, 180 degrees and 200 gradians are `π`, the temperature 0 °C is 273.15 K, and -459.67 °F is 0 K. -/
def si (π : K) : LibUnit → K → K
  | .base _, x => x
  | .celsius, x => x + 27315 / 100
  | .degree, x => x * (π / 180)
  | .gradian, x => x * (π / 200)
  | .fahrenheit, x => (x + 45967 / 100) * (5 / 9)
  | .foot, x => x * (3048 / 10000)
  | .pre p u, x => si π u (tenTo p * x)

/-- The difference in SI units of two quantities, given by the difference of their values in some unit. -/
def size (π : K) : LibUnit → K
  | .base _ => 1
  | .celsius => 1
  | .degree => π / 180
  | .gradian => π / 200
  | .fahrenheit => 5 / 9
  | .foot => 3048 / 10000
  | .pre p u => tenTo p * size π u

/-- Masses, lengths, durations and absolute temperatures are not negative. -/
def Meaningful [LinearOrder K] : Base → K → Prop
  | .kilogram, x => 0 ≤ x
  | .metre, x => 0 ≤ x
  | .second, x => 0 ≤ x
  | .kelvin, x => 0 ≤ x
  | .ampere, _ => True
  | .coulomb, _ => True
  | .radian, _ => True

end

/-- The zero of the unit is not that of the SI unit. -/
def Shifted : LibUnit → Bool
  | .celsius => true
  | .fahrenheit => true
  | .pre _ u => Shifted u
  | _ => false

/-- Not a unit like milli degrees Celsius. -/
def NoPrefixedShift : LibUnit → Bool
  | .pre _ u => !Shifted u
  | _ => true

/-- The space to which quantities belong whose SI unit is given. -/
def spaceOf : Base → Option Space
  | .metre => some .length
  | .second => some .timeInterval
  | .kilogram => some .mass
  | .radian => some .angle
  | .kelvin => some .absoluteTemperature
  | .ampere => some .electricalCurrent
  | .coulomb => none

end Verif.Spec.StandardUnits
