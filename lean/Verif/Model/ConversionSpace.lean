import Verif.Model.Convert
/-
Model of what the conversion of a quantity does to its type: /repo/Source/sequoia/Physics/PhysicalValues.hpp.  The values are converted as in Verif.Model.Convert.

Quantities have one dimension, units are not composite, and bases are canonical.  Spaces are those declared by the library or its users, the relaxed forms of spaces and their associated displacement
spaces.  Numbers are elements of an ordered field, whatever the representation type; whether that is a field is said by the space.  Ill-formed types give `none`.
-/
namespace Verif.ConversionSpace
open Verif.Convert

deriving instance DecidableEq for Simple

/-- What a declared space is: a free module, an affine space which is none, or a convex space which is neither, with or without a distinguished origin; Spaces.hpp:475-529, 1069-1108. -/
inductive Kind where
  | convex (origin : Bool)
  | affine
  | module
  deriving DecidableEq

/-- A declared space, PhysicalValues.hpp:780-923: whether its ring is a field, whether it has a `base_space`, and the class declared as its `free_module_type`, if that is not the associated
displacement space, as in lines 892-902. -/
structure Decl where
  kind : Kind
  field : Bool := true
  base : Bool := true
  free : Option Nat := none

/-- Declared spaces, `relaxed_space`, PhysicalValues.hpp:854-862, and `associated_displacement_space`, PhysicalValues.hpp:780-800. -/
inductive Sp where
  | decl (n : Nat)
  | relaxed (s : Sp)
  | disp (s : Sp)
  deriving DecidableEq

section
variable (env : Nat → Decl)

/-- `free_module`, Spaces.hpp:475-476; a relaxed space inherits the names it does not declare. -/
def isFree : Sp → Bool
  | .decl n => decide ((env n).kind = .module)
  | .relaxed s => isFree s
  | .disp _ => true

/-- Whether the ring is a field; `commutative_ring_type` of a displacement space is the representation type, PhysicalValues.hpp:785 and 796. -/
def isField : Sp → Bool
  | .decl n => (env n).field
  | .relaxed s => isField s
  | .disp s => isField s

/-- `identifies_as_affine_space_v`; this is inherited as well. -/
def identifiesAffine : Sp → Bool
  | .decl n => decide ((env n).kind = .affine)
  | .relaxed s => identifiesAffine s
  | .disp _ => false

/-- `affine_space`, Spaces.hpp:528-529: vector spaces are affine spaces, but free modules over a ring are not. -/
def isAffine (s : Sp) : Bool := (isFree env s && isField env s) || identifiesAffine env s

/-- Whether there is a `base_space`; it is required by line 858 of PhysicalValues.hpp. -/
def hasBase : Sp → Bool
  | .decl n => (env n).base
  | .relaxed s => hasBase s
  | .disp s => hasBase s

/-- `has_distinguished_origin_v`, Spaces.hpp:1069-1108.  For a relaxed space which is a free module, no partial specialization is more specialized than the others. -/
def hasOrigin : Sp → Option Bool
  | .decl n =>
    match (env n).kind with
    | .convex b => some b
    | .affine => some false
    | .module => some true
  | .relaxed s =>
    match hasOrigin s with
    | some true => if isFree env s || !hasBase env s then none else some false
    | _ => none
  | .disp s => (hasOrigin s).map fun _ => true

/-- `free_module_type_of_t`, Spaces.hpp:543-565, with PhysicalValues.hpp:808, 819, 859, 895 and 901. -/
def freeOf : Sp → Sp
  | .decl n =>
    if (env n).kind = .module then .decl n
    else match (env n).free with
      | some m => .decl m
      | none => .disp (.decl n)
  | .relaxed s => .disp (.relaxed s)
  | .disp s => .disp s

/-- `conversion_space` where the space is neither relaxed with a unit without translation as the destination nor a displacement space, PhysicalValues.hpp:429-433 and 1186-1200.  `from0` and `to0` say
that the transforms of the units to their roots have identity translations. -/
def conversionPlain (from0 to0 : Bool) (s : Sp) : Option Sp :=
  (hasOrigin env s).bind fun h =>
    if !h || (!from0 && !to0) then some s
    else if h && (from0 && !to0) then some (.relaxed s)
    else some s

/-- `conversion_space`, PhysicalValues.hpp:429-436, 1186-1207 and 1406-1410: the specializations for relaxed spaces and for displacement spaces are more specialized than the others. -/
def conversionSpace (from0 to0 : Bool) : Sp → Option Sp
  | .disp s => (conversionSpace from0 to0 s).map .disp
  | .relaxed s => if hasOrigin env s = some true ∧ to0 = true then some s else conversionPlain env from0 to0 (.relaxed s)
  | .decl n => conversionPlain env from0 to0 (.decl n)

end

/-- The types of origins, PhysicalValues.hpp:236-244; they are those for the space and the unit of the quantity.  The origin is a template parameter which may be any other type as well. -/
inductive Origin where
  | distinguished
  | unitDefined
  | implicitAffine
  | custom (k : Nat)
  deriving DecidableEq

/-- The type of a quantity, PhysicalValues.hpp:464-474. -/
structure Ty (N K : Type) where
  space : Sp
  unit : Simple N K
  origin : Origin
  validator : Validator K
  deriving DecidableEq

structure Quantity (N K : Type) where
  type : Ty N K
  value : K
  deriving DecidableEq

section
variable (env : Nat → Decl) {N K : Type} [DecidableEq N] [Field K] [LinearOrder K]

/-- `to_origin_type`, PhysicalValues.hpp:246-271. -/
def originOf (s : Sp) : Option Origin :=
  (hasOrigin env s).map fun h => if h then .distinguished else if isAffine env s then .implicitAffine else .unitDefined

/-- `default_validator_t`, PhysicalValues.hpp:438-439. -/
def defaultValidator (s : Sp) (u : Simple N K) : Option (Validator K) :=
  u.validator.map fun v => if isAffine env s then .identity else v

/-- The type of a quantity in a space and a unit, with the default arguments, PhysicalValues.hpp:464-471. -/
def defaultType (s : Sp) (u : Simple N K) : Option (Ty N K) :=
  (originOf env s).bind fun o => (defaultValidator env s u).map fun v => ⟨s, u, o, v⟩

/-- `has_identity_translation_v<root_transform_t<Unit>>`, PhysicalValues.hpp:1172-1184. -/
def unshifted (overflow : Int → Int → Bool) (u : Simple N K) : Bool := decide ((u.transform overflow).disp.toK = 0)

/-- The type of the result of `convert_to`, PhysicalValues.hpp:667-684: the overload for the unit of the quantity itself is not a template, so it is preferred. -/
def convertType (overflow : Int → Int → Bool) (t : Ty N K) (w : Simple N K) : Option (Ty N K) :=
  if w = t.unit then some t
  else if t.unit.root = w.root then
    (conversionSpace env (unshifted overflow t.unit) (unshifted overflow w) t.space).bind fun s => defaultType env s w
  else none

/-- The construction of a quantity, PhysicalValues.hpp:522-528: the validator may throw. -/
def make (t : Ty N K) (x : K) : Res (Quantity N K) := if t.validator.accepts x then .ok ⟨t, x⟩ else .throws

/-- `convert_to`, PhysicalValues.hpp:667-684 and 1554-1576. -/
def convertTo (overflow : Int → Int → Bool) (q : Quantity N K) (w : Simple N K) : Option (Res (Quantity N K)) :=
  if w = q.type.unit then some (.ok q)
  else (convertType env overflow q.type w).bind fun t => (convert overflow (isFree env q.type.space) q.type.unit w q.value).map (make t)

/-- Converting to each of some units, one after the other. -/
def convertAll (overflow : Int → Int → Bool) (q : Quantity N K) : List (Simple N K) → Option (Res (Quantity N K))
  | [] => some (.ok q)
  | w :: ws =>
    match convertTo env overflow q w with
    | some (.ok r) => convertAll overflow r ws
    | x => x

/-- `operator*` with a number, Spaces.hpp:1385-1399: it is there if there is a distinguished origin. -/
def scaleBy (k : K) (q : Quantity N K) : Option (Res (Quantity N K)) :=
  if hasOrigin env q.type.space = some true then some (make q.type (q.value * k)) else none

/-- The type of displacements, PhysicalValues.hpp:273-279. -/
def dispType (t : Ty N K) : Ty N K := ⟨freeOf env t.space, t.unit, .distinguished, .identity⟩

/-- `operator-` for two quantities of the same type, PhysicalValues.hpp:582-598, where the unit is not `no_unit_t`. -/
def minus (q r : Quantity N K) : Option (Res (Quantity N K)) :=
  if q.type = r.type ∧ q.type.space ≠ freeOf env q.type.space then some (make (dispType env q.type) (q.value - r.value)) else none

end
end Verif.ConversionSpace
