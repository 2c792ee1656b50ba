import Verif.Model.Basic
import Verif.Model.Convert
/-
Model of the units which come with the library: /repo/Source/sequoia/Physics/PhysicalValues.hpp, lines 692-721, 925-931, 1209-1318, 1365-1401, 1413-1455 and 1580-1604.

The transforms, the root transforms, the synthesised validators and the conversion are those of Verif.Model.Convert: in particular floating point numbers are elements of an ordered
field.  The number `std::numbers::pi_v<long double>` is a parameter.
-/
namespace Verif.StandardUnits
open Verif.Convert

/-- The units which do not derive from others, PhysicalValues.hpp:1245-1292. -/
inductive Base where
  | ampere | kilogram | metre | second | kelvin | coulomb | radian
  deriving DecidableEq, Repr

/-- PhysicalValues.hpp:1209-1235. -/
inductive Prefix where
  | micro | milli | kilo | mega
  deriving DecidableEq, Repr

/-- The units of the library, PhysicalValues.hpp:1209-1318 and 1365-1401; the prefixes are templates, so that their arguments may have prefixes. -/
inductive LibUnit where
  | base (b : Base)
  | celsius
  | degree
  | gradian
  | fahrenheit
  | foot
  | pre (p : Prefix) (u : LibUnit)
  deriving DecidableEq, Repr

/-- PhysicalValues.hpp:1309-1312. -/
def milligram : LibUnit := .pre .micro (.base .kilogram)
def gram : LibUnit := .pre .milli (.base .kilogram)
def tonne : LibUnit := .pre .kilo (.base .kilogram)
def kilotonne : LibUnit := .pre .mega (.base .kilogram)

section
variable {K : Type} [Field K]

/-- `validator_type` of the units which do not derive from others, PhysicalValues.hpp:1245-1292. -/
def Base.validator : Base → Validator K
  | .ampere => .identity
  | .kilogram => .halfLine
  | .metre => .halfLine
  | .second => .halfLine
  | .kelvin => .halfLine
  | .coulomb => .identity
  | .radian => .identity

/-- `transform_type` of the units with prefixes, PhysicalValues.hpp:1209-1235.  The names of the prefixes of std::ratio are the opposite ones. -/
def Prefix.transform : Prefix → Transform K
  | .micro => ⟨.int 1000000, .int 1, .int 0⟩
  | .milli => ⟨.int 1000, .int 1, .int 0⟩
  | .kilo => ⟨.int 1, .int 1000, .int 0⟩
  | .mega => ⟨.int 1, .int 1000000, .int 0⟩

/-- `transform_type` of `celsius_t`, PhysicalValues.hpp:1294. -/
def celsiusTransform : Transform K := ⟨.int 1, .int 1, .fp (-27315 / 100)⟩

/-- `transform_type` of `farenheight_t`, PhysicalValues.hpp:1386. -/
def fahrenheitTransform : Transform K := ⟨.int 9, .int 5, .fp 32⟩

/-- `transform_type` of `foot_t`, PhysicalValues.hpp:1394. -/
def footTransform : Transform K := ⟨.int 10000, .int 3048, .int 0⟩

/-- The unit as a chain of transforms, PhysicalValues.hpp:1209-1318 and 1365-1401. -/
def LibUnit.simple (π : K) : LibUnit → Simple LibUnit K
  | .base b => .base (.base b) b.validator
  | .celsius => .derived .celsius (.base (.base .kelvin) Base.kelvin.validator) celsiusTransform
  | .degree => .derived .degree (.base (.base .radian) Base.radian.validator) ⟨.int 180, .fp π, .int 0⟩
  | .gradian => .derived .gradian (.base (.base .radian) Base.radian.validator) ⟨.int 200, .fp π, .int 0⟩
  | .fahrenheit => .derived .fahrenheit (.derived .celsius (.base (.base .kelvin) Base.kelvin.validator) celsiusTransform) fahrenheitTransform
  | .foot => .derived .foot (.base (.base .metre) Base.metre.validator) footTransform
  | .pre p u => .derived (.pre p u) (u.simple π) p.transform

variable [LinearOrder K]

/-- `validator_type` of the units.  Those of degrees, gradians and of units with prefixes are not synthesised: PhysicalValues.hpp:1209-1235, 1294-1297 and 1369-1398. -/
def LibUnit.validator : LibUnit → Option (Validator K)
  | .base b => some b.validator
  | .celsius => synthesised Base.kelvin.validator celsiusTransform
  | .degree => some .identity
  | .gradian => some .identity
  | .fahrenheit => (synthesised Base.kelvin.validator celsiusTransform).bind fun v => synthesised v fahrenheitTransform
  | .foot => synthesised Base.metre.validator footTransform
  | .pre _ u => u.validator

/-- `convert_to` for a quantity of a space with the default validator, which is that of the unit, PhysicalValues.hpp:438-439, 522-528 and 667-684: the result is validated when it is constructed. -/
def convertTo (π : K) (overflow : Int → Int → Bool) (u w : LibUnit) (x : K) : Option (Res K) :=
  if w = u then some (.ok x)
  else (convert overflow false (u.simple π) (w.simple π) x).bind fun y => w.validator.map fun v => if v.accepts y then .ok y else .throws

/-- Converting to each of some units, one after the other; the unit is that of the result. -/
def convertAll (π : K) (overflow : Int → Int → Bool) (u : LibUnit) (x : K) : List LibUnit → Option (Res (LibUnit × K))
  | [] => some (.ok (u, x))
  | w :: ws =>
    match convertTo π overflow u w x with
    | some (.ok y) => convertAll π overflow w y ws
    | some .throws => some .throws
    | some .ub => some .ub
    | none => none

/-- The spaces which are deduced, PhysicalValues.hpp:1421-1455. -/
inductive Space where
  | length | timeInterval | mass | angle | absoluteTemperature | electricalCurrent
  deriving DecidableEq, Repr

/-- `default_space`: there may be no member `type`, in which case `has_default_space_v` is false; or else the class may be ill-formed, which is an error even where it is asked whether the member is there. -/
inductive Deduced where
  | space (s : Space)
  | absent
  | illFormed
  deriving DecidableEq, Repr

/-- `default_space` of the units which do not derive from others, PhysicalValues.hpp:692-693 and 1421-1455. -/
def Base.defaultSpace : Base → Deduced
  | .metre => .space .length
  | .second => .space .timeInterval
  | .kilogram => .space .mass
  | .radian => .space .angle
  | .kelvin => .space .absoluteTemperature
  | .ampere => .space .electricalCurrent
  | .coulomb => .absent

/-- `default_space`, PhysicalValues.hpp:1413-1419, with a floating point type: a unit which derives from another one uses the specialization for its root transform, if this has no translation and the
root has a default space; otherwise the other specialization is used again, which derives from itself. -/
def LibUnit.defaultSpace (π : K) (overflow : Int → Int → Bool) (u : LibUnit) : Deduced :=
  match u with
  | .base b => b.defaultSpace
  | _ =>
    match (u.simple π).root with
    | .base b =>
      if ((u.simple π).transform overflow).disp.toK = 0 then
        match b.defaultSpace with
        | .space s => .space s
        | _ => .illFormed
      else .illFormed
    | _ => .illFormed

end

/-- `symbol`, PhysicalValues.hpp:1245-1297 and 1369-1398; units with prefixes have none. -/
def LibUnit.symbol : LibUnit → Option (List Char)
  | .base .ampere => some ['A']
  | .base .kilogram => some ['k', 'g']
  | .base .metre => some ['m']
  | .base .second => some ['s']
  | .base .kelvin => some ['K']
  | .base .coulomb => some ['C']
  | .base .radian => some ['r', 'a', 'd']
  | .celsius => some ['d', 'e', 'g', 'C']
  | .degree => some ['d', 'e', 'g']
  | .gradian => some ['g', 'o', 'n']
  | .fahrenheit => some ['d', 'e', 'g', 'F']
  | .foot => some ['f', 't']
  | .pre _ _ => none

/-- `std::formatter<physical_value<…>>::format`, PhysicalValues.hpp:1580-1604; `text` is what `std::format` makes of the number. -/
def format {K : Type} (text : K → List Char) (u : LibUnit) (x : K) : List Char :=
  match u.symbol with
  | some s => text x ++ [' '] ++ s
  | none => text x

end Verif.StandardUnits
