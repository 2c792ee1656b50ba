import Mathlib.Algebra.Order.Field.Basic
import Verif.Model.Units
/-
Model of the conversion of quantities from one unit to another: /repo/Source/sequoia/Physics/PhysicalValues.hpp and Maths/Algebra/Ratio.hpp.

Floating point numbers are elements of an ordered field, that is to say there is no rounding.  Template arguments may be integral or floating point, and integral division truncates.
-/
namespace Verif.Convert

/-- A number which is a template argument. -/
inductive Val (K : Type) where
  | int (z : Int)
  | fp (x : K)
  deriving DecidableEq

section
variable {K : Type} [Field K]

/-- The value of a number. -/
def Val.toK : Val K → K
  | .int z => z
  | .fp x => x

/-- The usual arithmetic conversions: the result is integral if both operands are. -/
def Val.mul : Val K → Val K → Val K
  | .int a, .int b => .int (a * b)
  | a, b => .fp (a.toK * b.toK)

def Val.div : Val K → Val K → Val K
  | .int a, .int b => .int (a.tdiv b)
  | a, b => .fp (a.toK / b.toK)

def Val.add : Val K → Val K → Val K
  | .int a, .int b => .int (a + b)
  | a, b => .fp (a.toK + b.toK)

def Val.neg : Val K → Val K
  | .int a => .int (-a)
  | .fp x => .fp (-x)

variable [DecidableEq K]

/-- `ratio<Num, Den>::num` and `ratio<Num, Den>::den`, Ratio.hpp:17-46.  The sign convention of `std::ratio` is left out. -/
def reduced : Val K → Val K → Val K × Val K
  | .int n, .int d => (.int (n.tdiv (Int.gcd n d)), .int (d.tdiv (Int.gcd n d)))
  | .int n, .fp d => if (n : K) = d then (.int 1, .fp 1) else (.int n, .fp d)
  | .fp n, .int d => if n = (d : K) then (.fp 1, .int 1) else (.fp n, .int d)
  | .fp n, .fp d => if n = d then (.fp 1, .fp 1) else (.fp n, .fp d)

/-- `ratio_product::product`, Ratio.hpp:77-121, with the conversion to floating point upon overflow; `overflow` says whether the product of two integers overflows. -/
def ratioTimes (overflow : Int → Int → Bool) (m n : Val K) : Val K :=
  if m.toK = 1 ∧ n.toK = 1 then .int 1
  else if m.toK = 1 then n
  else if n.toK = 1 then m
  else
    match m, n with
    | .int a, .int b => if overflow a b then .fp (a * b) else .int (a * b)
    | m, n => .fp (m.toK * n.toK)

/-- `ratio_product`, Ratio.hpp:65-128. -/
def ratioMul (overflow : Int → Int → Bool) (n1 d1 n2 d2 : Val K) : Val K × Val K :=
  let r1 := reduced n1 d1
  let r2 := reduced n2 d2
  let a := reduced r1.1 r2.2
  let b := reduced r2.1 r1.2
  (ratioTimes overflow a.1 b.1, ratioTimes overflow a.2 b.2)

/-- `coordinate_transform<U, dilatation<ratio<num, den>>, translation<disp>>`, PhysicalValues.hpp:1060-1069; the unit is left out. -/
structure Transform (K : Type) where
  num : Val K
  den : Val K
  disp : Val K
  deriving DecidableEq

/-- `ratio_type::num` and `ratio_type::den`. -/
def Transform.ratio (t : Transform K) : Val K × Val K := reduced t.num t.den

/-- `inverse<coordinate_transform<…>>`, PhysicalValues.hpp:979-1021 and 1071-1077. -/
def Transform.inverse (t : Transform K) : Transform K :=
  let r := reduced t.den t.num
  ⟨t.den, t.num, ((t.disp.mul r.1).div r.2).neg⟩

/-- `product` of two coordinate transforms, PhysicalValues.hpp:1079-1089. -/
def Transform.product (overflow : Int → Int → Bool) (l r : Transform K) : Transform K :=
  let ρ := ratioMul overflow l.num l.den r.num r.den
  ⟨ρ.1, ρ.2, l.disp.add ((r.disp.mul l.ratio.1).div l.ratio.2)⟩

/-- The transform of a unit which does not derive from another one, PhysicalValues.hpp:1119-1124. -/
def Transform.identity : Transform K := ⟨.int 1, .int 1, .int 0⟩

/-- Validators: the identity, `half_line_validator`, and `interval_validator` where `none` stands for infinity; Spaces.hpp:690-775. -/
inductive Validator (K : Type) where
  | identity
  | halfLine
  | interval (lower upper : Option K)
  deriving DecidableEq

/-- A unit which is not composite: one which does not derive from another one, with its validator, or one which derives from a unit by a coordinate transform. -/
inductive Simple (N K : Type) where
  | base (n : N) (v : Validator K)
  | derived (n : N) (wrt : Simple N K) (t : Transform K)

variable {N : Type}

def Simple.name : Simple N K → N
  | .base n _ => n
  | .derived n _ _ => n

/-- `root_transform_unit_t`, PhysicalValues.hpp:1119-1147. -/
def Simple.root : Simple N K → N
  | .base n _ => n
  | .derived _ w _ => w.root

/-- `root_transform_t`, PhysicalValues.hpp:1119-1147. -/
def Simple.transform (overflow : Int → Int → Bool) : Simple N K → Transform K
  | .base _ _ => .identity
  | .derived _ (.base _ _) t => t
  | .derived _ (.derived n w t') t => t.product overflow (Simple.transform overflow (.derived n w t'))

/-- What `coordinate_transformation` does to a value, PhysicalValues.hpp:1554-1576, given the transforms of both units.  `free` says whether the space is a free module. -/
def apply (overflow : Int → Int → Bool) (free : Bool) (fromT toT : Transform K) (v : K) : K :=
  let t := toT.product overflow fromT.inverse
  ((((Val.fp v).mul t.ratio.1).div t.ratio.2).add (if free then .fp 0 else t.disp)).toK

/-- `convert_to`, PhysicalValues.hpp:669-681 and 1528-1577, for units which are not composite; their roots must agree. -/
def convert [DecidableEq N] (overflow : Int → Int → Bool) (free : Bool) (u w : Simple N K) (v : K) : Option K :=
  if u.root = w.root then some (apply overflow free (u.transform overflow) (w.transform overflow) v) else none

/-! ### Composite units -/

/-- The transform of a unit or of its dual; the dual of a unit never derives from another unit. -/
def partTransform (overflow : Int → Int → Bool) (c : Simple N K × Bool) : Transform K := if c.2 then .identity else c.1.transform overflow

/-- The root of a unit or of its dual. -/
def partRoot (c : Simple N K × Bool) : Units.Atom N := if c.2 then ⟨c.1.name, true⟩ else ⟨c.1.root, false⟩

/-- `root_transform_t` of a unit with the given parts, PhysicalValues.hpp:1149-1155.  `product` of three or more has no member `type`, as this is spelt `tpye` in lines 967-972. -/
def transformOf (overflow : Int → Int → Bool) : List (Simple N K × Bool) → Option (Transform K)
  | [c] => some (partTransform overflow c)
  | [c, d] => some ((partTransform overflow c).product overflow (partTransform overflow d))
  | _ => none

/-- `root_transform_unit_t` of a unit with the given parts, PhysicalValues.hpp:1149-1155: a right fold. -/
def rootOf [DecidableEq N] (e : Units.Env N) : List (Simple N K × Bool) → Option (Units.Unit N)
  | [] => none
  | [c] => some (.single (partRoot c))
  | c :: d :: l => (rootOf e (d :: l)).bind (Units.mul e (.single (partRoot c)))

/-- `convert_to` for units with the given parts. -/
def convertParts [DecidableEq N] (overflow : Int → Int → Bool) (e : Units.Env N) (free : Bool) (u w : List (Simple N K × Bool)) (v : K) : Option K :=
  match rootOf e u, rootOf e w, transformOf overflow u, transformOf overflow w with
  | some r, some r', some t, some t' => if r = r' then some (apply overflow free t t' v) else none
  | _, _, _, _ => none

end

/-! ### Validators -/

section
variable {K N : Type} [Field K] [LinearOrder K]

/-- `defines_identity_validator_v`, Spaces.hpp:701-702 and 785-788. -/
def Validator.definesIdentity : Validator K → Bool
  | .identity => true
  | .interval none none => true
  | _ => false

/-- `defines_half_line_validator_v`, Spaces.hpp:777-783. -/
def Validator.definesHalfLine : Validator K → Bool
  | .halfLine => true
  | .interval (some l) none => decide (l = 0)
  | _ => false

/-- `scale_invariant_validator_v`, PhysicalValues.hpp:931-947. -/
def Validator.scaleInvariant (v : Validator K) : Bool := v.definesIdentity || v.definesHalfLine

/-- `translation_invariant_validator_v`, PhysicalValues.hpp:949-959. -/
def Validator.translationInvariant : Validator K → Bool
  | .identity => true
  | _ => false

/-- `(val * Ratio::num / Ratio::den) + Displacement`, PhysicalValues.hpp:1052-1055. -/
def Transform.bound (t : Transform K) (x : K) : K := ((((Val.fp x).mul t.ratio.1).div t.ratio.2).add t.disp).toK

/-- `interval_validator<T, Lower, Upper>` requires `Upper > Lower`. -/
def mkInterval (lower upper : Option K) : Option (Validator K) :=
  match lower, upper with
  | some l, some u => if l < u then some (.interval lower upper) else none
  | _, _ => some (.interval lower upper)

/-- `synthesised_validator`, PhysicalValues.hpp:1027-1058.  If the constraints of the first two specializations are satisfied neither is more specialized.  For the second the
displacement must be a floating point number.  Bounds are transformed on the assumption that the ratio is positive, which matters for infinite ones only. -/
def synthesised (v : Validator K) (t : Transform K) : Option (Validator K) :=
  if v.scaleInvariant then
    if t.disp.toK = 0 then some v
    else if v.translationInvariant then none
    else
      match t.disp with
      | .int _ => none
      | .fp d => some (.interval (some d) none)
  else
    match v with
    | .interval l u => mkInterval (l.map t.bound) (u.map t.bound)
    | _ => none

/-- The validator of a unit. -/
def Simple.validator : Simple N K → Option (Validator K)
  | .base _ v => some v
  | .derived _ w t => w.validator.bind fun v => synthesised v t

/-- Whether a validator accepts a value, Spaces.hpp:710-760; otherwise it throws. -/
def Validator.accepts : Validator K → K → Bool
  | .identity, _ => true
  | .halfLine, x => !decide (x < 0)
  | .interval l u, x => !(l.any fun l => decide (x < l)) && !(u.any fun u => decide (u < x))

end
end Verif.Convert
