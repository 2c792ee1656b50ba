import Verif.Spec.Convert
import Verif.Model.ConversionSpace
/-
What the type of a quantity is usually: the zero of the unit is the distinguished origin of the space, or else the space is the relaxed one.
-/
namespace Verif.Spec
open Verif.Convert Verif.ConversionSpace

section
variable {N K : Type} [Field K]

/-- Zero is zero with respect to the root as well: true for kelvins and grams, but not for degrees Celsius. -/
def ZeroIsOrigin (u : Simple N K) : Prop := coord u 0 = 0

/-- The quantity with the value `p` with respect to the root of its unit, in the space declared as `n`, and the unit `u`: its value is the coordinate of `p`, and its type is the usual one. -/
structure UsualQuantity (env : Nat → Decl) (n : Nat) (u : Simple N K) (p : K) (q : Quantity N K) [LinearOrder K] : Prop where
  unit : q.type.unit = u
  value : q.value = coord u p
  /-- A convex space with a distinguished origin is relaxed precisely if zero is not the origin; all other spaces are as declared. -/
  relaxed : (env n).kind = .convex true → ¬ ZeroIsOrigin u → q.type.space = .relaxed (.decl n) ∧ q.type.origin = .unitDefined
  distinguished : (env n).kind = .convex true → ZeroIsOrigin u → q.type.space = .decl n ∧ q.type.origin = .distinguished
  convex : (env n).kind = .convex false → q.type.space = .decl n ∧ q.type.origin = .unitDefined
  affine : (env n).kind = .affine → q.type.space = .decl n ∧ q.type.origin = .implicitAffine
  module : (env n).kind = .module → q.type.space = .decl n ∧ q.type.origin = .distinguished
  /-- Values in affine spaces, which include vector spaces, are not constrained.  Otherwise they are as the unit demands. -/
  free : (env n).kind = .affine ∨ ((env n).kind = .module ∧ (env n).field = true) → q.type.validator = .identity
  constrained : ¬ ((env n).kind = .affine ∨ ((env n).kind = .module ∧ (env n).field = true)) → u.validator = some q.type.validator

/-- The difference `d`, with respect to the root, of two such quantities. -/
structure UsualDifference (n : Nat) (u : Simple N K) (d : K) (q : Quantity N K) : Prop where
  unit : q.type.unit = u
  value : q.value = factor u * d
  relaxed : ¬ ZeroIsOrigin u → q.type.space = .disp (.relaxed (.decl n))
  distinguished : ZeroIsOrigin u → q.type.space = .disp (.decl n)
  origin : q.type.origin = .distinguished
  validator : q.type.validator = .identity

end

section
variable {N K : Type} [Field K] [LinearOrder K]

/-- What is asked of units: they derive, by positive ratios and displacements which are not integers, from the same root; and they have well-formed validators. -/
structure Good (r : N) (b : Validator K) (u : Simple N K) : Prop where
  proper : Proper u
  notIntegral : NotIntegral u
  positive : PositiveRatios u
  root : u.root = r
  validator : baseValidator u = b
  wellFormed : u.validator ≠ none

/-- A unit may be used with a space: free modules have no relaxed forms, and neither have spaces without a base space. -/
def Suits (d : Decl) (u : Simple N K) : Prop := ZeroIsOrigin u ∨ d.kind ≠ .module ∧ (d.kind = .convex true → d.base = true)

end
end Verif.Spec
