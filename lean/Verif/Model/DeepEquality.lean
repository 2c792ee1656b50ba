/-
Model of `is_deep_equality_comparable`, /repo/Source/sequoia/Core/Meta/TypeTraits.hpp:118-185.

Simplifications: types are neither references nor qualified; no type is part of itself; `value_type` is the name of a type; what `std::get` returns for the first template arguments is
what it returns without references and qualifiers.
-/
namespace Verif.DeepEquality

/-- A type.  For classes, `declared` is whether `std::equality_comparable` holds, which depends on declarations only, and `uses` are the types which are compared by the body of
`operator==`. -/
inductive Ty where
  /-- An array, as in `int[3]`. -/
  | array (t : Ty)
  /-- A type without `value_type`, which is not an instance of a template such that `std::get<0>` is possible. -/
  | plain (declared : Bool) (uses : List Ty)
  /-- A class with `value_type`. -/
  | homogeneous (declared : Bool) (uses : List Ty) (value : Ty)
  /-- An instance of a template with `args` arguments, all of them types, without `value_type`, and with the given elements for `std::get`, of which there is at least one. -/
  | heterogeneous (declared : Bool) (uses : List Ty) (args : Nat) (elements : List Ty)

mutual
/-- `is_deep_equality_comparable_v`, TypeTraits.hpp:165-178. -/
def deep : Ty → Bool
  | .array _ => false
  | .plain d _ => d
  | .homogeneous d _ v => d && deep v
  | .heterogeneous d _ n es => d && deepFirst n es

/-- `heterogeneous_deep_equality`, TypeTraits.hpp:144-163: an element which does not exist makes the requirement false. -/
def deepFirst : Nat → List Ty → Bool
  | 0, _ => true
  | _ + 1, [] => false
  | n + 1, e :: es => deep e && deepFirst n es
end

end Verif.DeepEquality
