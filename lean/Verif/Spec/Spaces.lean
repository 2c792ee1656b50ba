import Verif.Model.Spaces

/-! What is said about spaces, their direct products and their duals. -/
namespace Verif.Spec.Spaces
open Verif.Spaces

/-- The kinds of spaces over a field. -/
inductive Kind where
  | vector
  | affine
  | convex
  deriving DecidableEq

/-- Each vector space is an affine space and each affine space is a convex space: kinds with a greater rank have less structure. -/
def Kind.rank : Kind → Nat
  | .vector => 0
  | .affine => 1
  | .convex => 2

/-- The kind of a product according to mathematics: as much structure as all the factors have. -/
def weakest (ks : List Kind) : Option Kind := some (if .convex ∈ ks then .convex else if .affine ∈ ks then .affine else .vector)

/-- The kind of a product according to the library; `none` if it is not a space. -/
def assigned (ks : List Kind) : Option Kind :=
  if ∀ k ∈ ks, k = .vector then some .vector
  else if ∀ k ∈ ks, k = .affine then some .affine
  else if ∀ k ∈ ks, k = .convex then some .convex
  else if .vector ∈ ks then some .convex
  else none

variable {R : Type}

/-- What is expected of types used as rings. -/
structure Lawful (K : Rings R) : Prop where
  field_ring : ∀ r, K.weakField r = true → K.weakRing r = true
  common_field : ∀ rs r, K.common rs = some r → (∀ r' ∈ rs, K.weakField r' = true) → K.weakField r = true

/-- A class which declares itself to be a vector space over the field `r`, of dimension `d`. -/
structure DeclaresVector (K : Rings R) (m : Members R) (r : R) (d : Nat) : Prop where
  set : m.hasSet = true
  dimension : m.dimension = some d
  identifies : m.free = true ∨ m.vector = true
  field : K.weakField r = true
  declares : m.field = some r ∨ m.field = none ∧ m.ring = some r

/-- A class which declares itself to be an affine space or a convex space over the vector space `v`. -/
structure DeclaresOver (m : Members R) (k : Kind) (v : Space) : Prop where
  set : m.hasSet = true
  notFree : m.free = false
  notVector : m.vector = false
  declares : m.freeModule = some v ∧ m.vectorSpace = none ∨ m.freeModule = none ∧ m.vectorSpace = some v
  identifies : k = .affine ∧ m.affine = true ∨ k = .convex ∧ m.affine = false ∧ m.convex = true

/-- `Is rule K Γ s k r d`: with the given rule for products, `s` is a space of kind `k`, over the field `r`, of dimension `d`. -/
inductive Is (rule : List Kind → Option Kind) (K : Rings R) (Γ : Nat → Members R) : Space → Kind → R → Nat → Prop where
  | vector {n r d} : DeclaresVector K (Γ n) r d → Is rule K Γ (.decl n) .vector r d
  | over {n k v r d} : DeclaresOver (Γ n) k v → Is rule K Γ v .vector r d → Is rule K Γ (.decl n) k r d
  | prod {k r} (l : List (Space × Kind × R × Nat)) : l ≠ [] → (∀ x ∈ l, Is rule K Γ x.1 x.2.1 x.2.2.1 x.2.2.2) → rule (l.map (·.2.1)) = some k → K.common (l.map (·.2.2.1)) = some r →
      Is rule K Γ (.prod (l.map (·.1))) k r (l.map (·.2.2.2)).sum
  | dual {s k r d} : Is rule K Γ s k r d → Is rule K Γ (.dual s) k r d

/-- What a user can ask about a class: whether it satisfies `free_module`, `vector_space`, `affine_space` and `convex_space`. -/
structure Concepts where
  free : Bool
  vector : Bool
  affine : Bool
  convex : Bool
  deriving DecidableEq

/-- The concepts satisfied by spaces of some kind. -/
def Kind.concepts : Kind → Concepts
  | .vector => ⟨true, true, true, true⟩
  | .affine => ⟨false, false, true, true⟩
  | .convex => ⟨false, false, false, true⟩

/-- The concepts satisfied by a class, given the names declared by classes. -/
def conceptsOf (K : Rings R) (mem : Space → Option (Members R)) (s : Space) : Option Concepts :=
  (mem s).bind fun m => (isAffine K mem m).bind fun a => (isConvex K mem m).map fun c => ⟨isFree K m, isVector K m, a, c⟩

/-- The space of which a class is the dual, the dual of the dual, and so on. -/
def core : Space → Space
  | .dual t => core t
  | s => s

/-- Only convex spaces which are not affine declare to be half-lines or whether they have a distinguished origin; half-lines have dimension one and, if they say anything about it, an origin. -/
def Consistent (Γ : Nat → Members R) (s : Space) (k : Kind) (d : Nat) : Prop :=
  ∀ n, core s = .decl n → (k ≠ .convex → (Γ n).origin = none ∧ (Γ n).halfLine = none) ∧ ((Γ n).halfLine = some true → d = 1 ∧ (Γ n).origin ≠ some false)

/-- Declared, by the class itself or the one it is the dual of, to be a half-line. -/
def HalfLine (Γ : Nat → Members R) (s : Space) : Prop := ∃ n, core s = .decl n ∧ (Γ n).halfLine = some true

/-- Vector spaces have a distinguished origin, and so have half-lines and spaces which declare one. -/
def Pointed (Γ : Nat → Members R) (s : Space) (k : Kind) : Prop := k = .vector ∨ ∃ n, core s = .decl n ∧ ((Γ n).halfLine = some true ∨ (Γ n).origin = some true)

/-- A class which declares itself to be a free module over the ring `r`, which is not a field. -/
structure DeclaresModule (K : Rings R) (m : Members R) (r : R) (d : Nat) : Prop where
  set : m.hasSet = true
  dimension : m.dimension = some d
  identifies : m.free = true
  ring : K.weakRing r = true
  notField : K.weakField r = false
  declares : m.field = none ∧ m.ring = some r
  notAffine : m.affine = false

end Verif.Spec.Spaces
