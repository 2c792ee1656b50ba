/-
Model of the classification of spaces in /repo/Source/sequoia/Maths/Geometry/Spaces.hpp: the concepts `free_module`, `vector_space`, `convex_space` and `affine_space`, direct products and duals.

A class is described by the names it declares.  Where instantiation is ill-formed, such as when no partial specialization is more specialized than the others, the result is `none`; as instantiation may be recursive, it is
given fuel, and running out of it gives `none` as well.  A type is ill-formed if it gives `none` for all amounts of fuel.

Simplifications: sets are not distinguished from one another; types used as rings are elements of a type `R` which comes with what the code asks of them; bases and coordinates are left out.  A name which is declared has the right form: a type convertible to
`std::true_type` where one is expected, a dimension which is convertible to `std::size_t`.
-/
namespace Verif.Spaces

/-- The types of spaces: classes which have been declared, `direct_product`, Spaces.hpp:829-866, and `dual`, Spaces.hpp:975-1012. -/
inductive Space where
  | decl (name : Nat)
  | prod (ts : List Space)
  | dual (t : Space)

/-- The names declared by a class: `set_type`, `dimension`, `commutative_ring_type`, `field_type`, `is_convex_space`, `is_affine_space`, `is_free_module`, `is_vector_space`, `free_module_type`, `vector_space_type`,
`distinguished_origin` and `half_line`. -/
structure Members (R : Type) where
  hasSet : Bool := false
  dimension : Option Nat := none
  ring : Option R := none
  field : Option R := none
  convex : Bool := false
  affine : Bool := false
  free : Bool := false
  vector : Bool := false
  freeModule : Option Space := none
  vectorSpace : Option Space := none
  origin : Option Bool := none
  halfLine : Option Bool := none

/-- What is known about types used as rings: `weak_commutative_ring`, Spaces.hpp:320-327, `weak_field`, Spaces.hpp:333-334, and `std::common_type`. -/
structure Rings (R : Type) where
  weakRing : R → Bool
  weakField : R → Bool
  common : List R → Option R

section
variable {R : Type} (K : Rings R)

/-- `has_field_type_v`, Spaces.hpp:354-360. -/
def hasField (m : Members R) : Bool := m.field.any K.weakField

/-- `defines_commutative_ring_v`, Spaces.hpp:343-349 and 368-369. -/
def definesRing (m : Members R) : Bool := m.ring.any K.weakRing || hasField K m

/-- `defines_field_v`, Spaces.hpp:378-385. -/
def definesField (m : Members R) : Bool := hasField K m || m.ring.any K.weakField

/-- `free_module`, Spaces.hpp:475-476. -/
def isFree (m : Members R) : Bool := m.hasSet && m.dimension.isSome && definesRing K m && (m.free || m.vector)

/-- `vector_space`, Spaces.hpp:481-482. -/
def isVector (m : Members R) : Bool := isFree K m && definesField K m

/-- Whether a name is declared and denotes a class satisfying a condition, as in `has_vector_space_type_v` and `has_free_module_type_v`, Spaces.hpp:488-506; `mem` gives the names declared by a class. -/
def denotes (mem : Space → Option (Members R)) (p : Members R → Bool) : Option Space → Option Bool
  | none => some false
  | some s => (mem s).map p

/-- `convex_space`, Spaces.hpp:515-520. -/
def isConvex (mem : Space → Option (Members R)) (m : Members R) : Option Bool :=
  if isFree K m then some true
  else if !m.hasSet then some false
  else (denotes mem (isVector K) m.vectorSpace).bind fun v =>
    if v then some (m.convex || m.affine) else (denotes mem (isFree K) m.freeModule).map fun f => f && (m.convex || m.affine)

/-- `affine_space`, Spaces.hpp:528-529. -/
def isAffine (mem : Space → Option (Members R)) (m : Members R) : Option Bool :=
  if isVector K m then some true else (isConvex K mem m).map fun c => c && m.affine

/-- `free_module_type_of`, Spaces.hpp:543-565: ill-formed for classes which are not convex, or if both names are declared. -/
def freeModuleOf (mem : Space → Option (Members R)) (s : Space) : Option Space :=
  (mem s).bind fun m => (isConvex K mem m).bind fun c =>
    if !c then none
    else if m.free || m.vector then some s
    else (denotes mem (isFree K) m.freeModule).bind fun f => (denotes mem (isVector K) m.vectorSpace).bind fun v =>
      match f, v with
      | true, false => m.freeModule
      | false, true => m.vectorSpace
      | _, _ => none

/-- `commutative_ring_type_of`, Spaces.hpp:575-586. -/
def ringOf (mem : Space → Option (Members R)) (s : Space) : Option R :=
  (freeModuleOf K mem s).bind fun f => (mem f).bind fun m => if isVector K m && hasField K m then m.field else m.ring

/-- `dimension_of`, Spaces.hpp:598-599. -/
def dimensionOf (mem : Space → Option (Members R)) (s : Space) : Option Nat := (freeModuleOf K mem s).bind fun f => (mem f).bind (·.dimension)

/-- `has_common_ring_v`, Spaces.hpp:834-837. -/
def hasCommonRing (rs : List R) : Bool := (rs.all K.weakField || rs.all fun r => !K.weakField r) && (K.common rs).isSome

/-- The names declared by `direct_product`, Spaces.hpp:829-866.  If two of the partial specializations match, neither of them is more specialized, as the `requires`-clause of each has conditions which do not occur in the
other one.  In the first of them all classes have a dimension, so that the default is not used. -/
def prodMembers (mem : Space → Option (Members R)) (ts : List Space) : Option (Members R) :=
  (ts.mapM mem).bind fun ms => (ms.mapM (isConvex K mem)).bind fun cs => (ms.mapM (isAffine K mem)).bind fun as =>
    let fs := ms.map (isFree K)
    (if fs.all id then ts.mapM (ringOf K mem) else some []).bind fun rs =>
      let first := !ts.isEmpty && fs.all id && hasCommonRing K rs
      let second := !ts.isEmpty && as.all id && fs.all (!·)
      let third := !ts.isEmpty && cs.all id && (as.all (!·) || (fs.any id && fs.any (!·)))
      match first, second, third with
      | true, false, false => some { hasSet := true, ring := K.common rs, free := true, dimension := some (ms.map fun m => m.dimension.getD 0).sum }
      | false, true, false => (ts.mapM (freeModuleOf K mem)).map fun fm => { hasSet := true, freeModule := some (.prod fm), affine := true }
      | false, false, true => (ts.mapM (freeModuleOf K mem)).map fun fm => { hasSet := true, freeModule := some (.prod fm), convex := true }
      | false, false, false => some {}
      | _, _, _ => none

/-- The names declared by `dual`, Spaces.hpp:975-1012; if no specialization matches then the class is incomplete, and a condition asking for a name is not satisfied. -/
def dualMembers (mem : Space → Option (Members R)) (t : Space) : Option (Members R) :=
  (mem t).bind fun m => (isConvex K mem m).bind fun c => (isAffine K mem m).bind fun a =>
    if c && !a then (ringOf K mem t).bind fun _ => (freeModuleOf K mem t).map fun f => { hasSet := true, freeModule := some (.dual f), convex := true }
    else if a && !isVector K m then (ringOf K mem t).bind fun _ => (freeModuleOf K mem t).map fun f => { hasSet := true, freeModule := some (.dual f), affine := true }
    else if isVector K m then (ringOf K mem t).map fun r => { hasSet := true, field := some r, vector := true, dimension := m.dimension }
    else some {}

/-- The names declared by a class, where `Γ` gives those of the classes which have been declared. -/
def members (Γ : Nat → Members R) : Nat → Space → Option (Members R)
  | 0, _ => none
  | _ + 1, .decl n => some (Γ n)
  | f + 1, .prod ts => prodMembers K (members Γ f) ts
  | f + 1, .dual t => dualMembers K (members Γ f) t

/-- `is_half_line`, Spaces.hpp:1059-1067 and 1115-1134, for a class which satisfies `convex_space`. -/
def isHalfLine (Γ : Nat → Members R) (f : Nat) : Space → Option Bool
  | .dual t => isHalfLine Γ f t
  | s => (members K Γ f s).bind fun m =>
    match m.halfLine with
    | none => some false
    | some true => (dimensionOf K (members K Γ f) s).bind fun d => if d = 1 then some true else none
    | some false => some false

/-- `has_distinguished_origin`, Spaces.hpp:1069-1113, for a class which satisfies `convex_space`.  If two of the partial specializations match, neither of them is more specialized, except for duals. -/
def hasOrigin (Γ : Nat → Members R) (f : Nat) : Space → Option Bool
  | .dual t => hasOrigin Γ f t
  | s => (members K Γ f s).bind fun m => (isAffine K (members K Γ f) m).bind fun a => (isHalfLine K Γ f s).bind fun h =>
    match m.origin, h, isFree K m, a && !isFree K m with
    | some b, h, false, false => if !h || b then some b else none
    | none, true, false, false => some true
    | none, false, true, _ => some true
    | none, false, false, true => some false
    | none, false, false, false => some false
    | _, _, _, _ => none

/-- `dual_of`, Spaces.hpp:1037-1052, for spaces. -/
def dualOf (mem : Space → Option (Members R)) : Space → Option Space
  | .dual t => (mem t).bind fun m => (isConvex K mem m).bind fun c => if c then (ringOf K mem t).map fun r => if K.weakField r then t else .dual (.dual t) else some t
  | s => some (.dual s)

end

end Verif.Spaces
