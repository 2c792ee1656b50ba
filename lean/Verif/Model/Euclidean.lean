import Mathlib.Analysis.Real.Sqrt
import Verif.Model.Basic
import Verif.Model.Coordinates
import Verif.Model.Spaces
/-
Model of Euclidean spaces, of their inner products and norms, of bases and of arenas: /repo/Source/sequoia/Maths/Geometry/Spaces.hpp:600-630 and 1678-1836.

Numbers are real; every operation on them is followed by `rnd`, which is the identity if there is no rounding.  Infinities and NaN are left out, and products are rounded before they are added (there is no contraction).
-/
namespace Verif.Euclidean

open Verif.Spaces

section values
variable {D : Nat}

/-- `inner_product`, Spaces.hpp:1721-1727: a left fold over the pairs of values, which begins with zero. -/
noncomputable def inner (rnd : ℝ → ℝ) (v w : Fin D → ℝ) : ℝ :=
  ((List.ofFn v).zip (List.ofFn w)).foldl (fun f z => rnd (f + rnd (z.1 * z.2))) 0

/-- `dot`, Spaces.hpp:1729-1735. -/
noncomputable def dot (rnd : ℝ → ℝ) (v w : Fin D → ℝ) : ℝ := inner rnd v w

/-- `norm`, Spaces.hpp:1737-1749; `std::abs` is exact. -/
noncomputable def norm (rnd : ℝ → ℝ) (v : Fin D → ℝ) : ℝ :=
  if h : D = 1 then |v ⟨0, by omega⟩| else rnd (Real.sqrt (inner rnd v v))

/-- What `coordinates_base` knows about `euclidean_vector_space`, Spaces.hpp:1245-1247, 1594-1607 and 1711-1718. -/
def space (D : Nat) : Coordinates.Space D ℝ := { validate := .ok, hasIdentityValidator := true, hasDistinguishedOrigin := true, isVectorSpace := true }

end values

section classes
variable {R : Type} (K : Rings R)

/-- The names declared by a class which is used as a basis: `is_basis`, `free_module_type`, `vector_space_type` and `orthonormal`; where the last is declared it is recorded whether it is `std::true_type`. -/
structure Basis where
  isBasis : Bool := false
  freeModule : Option Space := none
  vectorSpace : Option Space := none
  orthonormal : Option Bool := none

/-- `basis`, Spaces.hpp:609-622. -/
def Basis.basis (mem : Space → Option (Members R)) (b : Basis) : Prop :=
  b.isBasis = true ∧ (denotes mem (isFree K) b.freeModule = some true ∨ denotes mem (isVector K) b.vectorSpace = some true)

/-- `basis_for`, Spaces.hpp:627-629. -/
def Basis.basisFor (mem : Space → Option (Members R)) (b : Basis) (M : Space) : Prop :=
  b.basis K mem ∧ (b.freeModule = some M ∨ b.vectorSpace = some M)

/-- `is_orthonormal_basis_v`, Spaces.hpp:1678-1684. -/
def Basis.isOrthonormal (b : Basis) : Prop := b.orthonormal = some true

/-- `arbitary_basis`, Spaces.hpp:1686-1687: it declares nothing. -/
def arbitraryBasis : Basis := {}

/-- `canonical_right_handed_basis`, Spaces.hpp:1815-1820. -/
def canonical (M : Space) : Basis := { isBasis := true, freeModule := some M }

/-- The names declared by `euclidean_vector_space`, Spaces.hpp:1711-1718; `T` is the type of the numbers. -/
def vectorMembers (T : R) (D : Nat) : Members R := { hasSet := true, field := some T, vector := true, dimension := some D }

/-- The names declared by `euclidean_affine_space`, Spaces.hpp:1752-1759; `V` is the vector space. -/
def affineMembers (V : Space) : Members R := { hasSet := true, vectorSpace := some V, affine := true }

/-- The names declared by `euclidean_half_space`, Spaces.hpp:1761-1770. -/
def halfMembers (V : Space) : Members R := { hasSet := true, vectorSpace := some V, convex := true, origin := some true, halfLine := some true }

/-- Whether `vector_coordinates<V, Basis>` is a type, Spaces.hpp:1195-1199. -/
def formed (mem : Space → Option (Members R)) (V : Space) (b : Basis) : Prop :=
  (∃ m, mem V = some m ∧ isVector K m = true) ∧ ∃ M, freeModuleOf K mem V = some M ∧ b.basisFor K mem M

/-- Whether a call such as `inner_product(v, v)` or `norm(v)` is possible for coordinates of a space with respect to a basis; `accepts` says which bases are accepted by the function which is found. -/
def callable (mem : Space → Option (Members R)) (accepts : Space → Basis → Prop) (V : Space) (b : Basis) : Prop := formed K mem V b ∧ accepts V b

/-- The functions of `euclidean_vector_space` accept orthonormal bases, Spaces.hpp:1720-1739. -/
def euclideanAccepts (_ : Space) (b : Basis) : Prop := b.isOrthonormal

/-- `has_norm_v` and `has_inner_product_v`, Spaces.hpp:1689-1701: a requires-expression whose parameters have no type is false. -/
def hasFunction (mem : Space → Option (Members R)) (accepts : Space → Basis → Prop) (V : Space) : Prop := callable K mem accepts V arbitraryBasis

/-- `normed_vector_space` and `inner_product_space`, Spaces.hpp:1703-1707. -/
def satisfies (mem : Space → Option (Members R)) (accepts : Space → Basis → Prop) (V : Space) : Prop :=
  (∃ m, mem V = some m ∧ isVector K m = true) ∧ hasFunction K mem accepts V

/-- Whether a class satisfies `free_module`. -/
def freeClass (mem : Space → Option (Members R)) (M : Space) : Bool := (mem M).any (isFree K)

/-- `dual_of` for canonical bases, Spaces.hpp:1822-1832: the module of the resulting basis; the second specialization is the more specialized one. -/
def dualBasis (mem : Space → Option (Members R)) : Space → Option Space
  | .dual t => if freeClass K mem t then some t else
      if freeClass K mem (.dual t) then (dualOf K mem (.dual t)).filter (freeClass K mem) else none
  | M => if freeClass K mem M then (dualOf K mem M).filter (freeClass K mem) else none

end classes

/- `arena_type_of`, Spaces.hpp:1772-1803.  Neither `dual` nor `direct_product` declares `arena_type`.  `arenas` gives the arenas of the classes which have been declared, `common` is `std::common_type`, and `convex` says which
classes satisfy `convex_space`. -/
mutual
/-- `arena_type_of`, Spaces.hpp:1777-1803. -/
def arenaOf {A : Type} (arenas : Nat → Option A) (common : List A → Option A) (convex : Space → Bool) : Space → Option A
  | .decl n => arenas n
  | .dual t => if convex t then arenaOf arenas common convex t else none
  | .prod ts => (arenasOf arenas common convex ts).bind common
/-- The arenas of the factors of a direct product, Spaces.hpp:1798-1803. -/
def arenasOf {A : Type} (arenas : Nat → Option A) (common : List A → Option A) (convex : Space → Bool) : List Space → Option (List A)
  | [] => some []
  | t :: ts => if convex t then (arenaOf arenas common convex t).bind fun a => (arenasOf arenas common convex ts).map (a :: ·) else none
end

end Verif.Euclidean
