import Verif.Model.TypeLists
/-
Model of the multiplication and division of physical units, which the compiler executes: /repo/Source/sequoia/Physics/PhysicalValuesDetails.hpp and PhysicalValues.hpp.

`Option` is used where an instantiation may be ill-formed.
-/
namespace Verif.Units
open Verif.TypeLists

/-! ### The comparison of types -/

/-- Types: `disp t` stands for `associated_displacement_space<t>`, `dual t` for `maths::dual<t>`, `base n` for every other type. -/
inductive Ty (N : Type) where
  | base (n : N)
  | disp (t : Ty N)
  | dual (t : Ty N)
  deriving DecidableEq

/-- The arguments of a partial specialization with the template parameters `T` and `U`. -/
inductive Pat where
  | T
  | U
  | disp (p : Pat)
  | dual (p : Pat)
  deriving DecidableEq

/-- A constraint: two types differ, a type is not an `associated_displacement_space`, a type is not a `dual`. -/
inductive Cond where
  | differ (p q : Pat)
  | notDisp (p : Pat)
  | notDual (p : Pat)
  deriving DecidableEq

/-- A partial specialization of `type_comparator`.  Its value is given, or it is `type_name<T>() < type_name<U>()`. -/
structure Spec where
  left : Pat
  right : Pat
  conds : List Cond
  value : Option Bool
  deriving DecidableEq

/-- The partial specializations, PhysicalValuesDetails.hpp:61-156, in their order. -/
def specs : List Spec := [
  ⟨.dual .T, .U, [.differ .T .U], none⟩,
  ⟨.T, .dual .U, [.differ .T .U, .notDisp .T, .notDisp .U], none⟩,
  ⟨.dual .T, .dual .U, [], none⟩,
  ⟨.disp .T, .U, [.notDual .U], none⟩,
  ⟨.T, .disp .U, [.notDual .T], none⟩,
  ⟨.disp .T, .dual .U, [.differ (.disp .T) .U, .notDisp .U], none⟩,
  ⟨.dual .T, .disp .U, [.differ .T (.disp .U)], none⟩,
  ⟨.dual (.disp .T), .U, [.differ (.disp .T) .U], none⟩,
  ⟨.T, .dual (.disp .U), [.differ .T (.disp .U), .notDisp .T], none⟩,
  ⟨.disp .T, .disp .U, [], none⟩,
  ⟨.dual (.disp .T), .dual (.disp .U), [], none⟩,
  ⟨.T, .dual .T, [], some true⟩,
  ⟨.dual .T, .T, [], some false⟩,
  ⟨.T, .disp .T, [], some true⟩,
  ⟨.disp .T, .T, [], some false⟩,
  ⟨.T, .dual (.disp .T), [], some true⟩,
  ⟨.dual (.disp .T), .T, [], some false⟩,
  ⟨.disp .T, .dual .T, [], some true⟩,
  ⟨.dual .T, .disp .T, [], some false⟩,
  ⟨.dual .T, .dual (.disp .T), [], some true⟩,
  ⟨.dual (.disp .T), .dual .T, [], some false⟩]

section
variable {N : Type} [DecidableEq N]

/-- What has been deduced for `T` and for `U`. -/
abbrev Subst (N : Type) := Option (Ty N) × Option (Ty N)

/-- Template argument deduction, [temp.deduct.type] in the C++ standard. -/
def deduce : Pat → Ty N → Subst N → Option (Subst N)
  | .T, t, (none, u) => some (some t, u)
  | .T, t, (some t', u) => if t = t' then some (some t', u) else none
  | .U, t, (u, none) => some (u, some t)
  | .U, t, (u, some t') => if t = t' then some (u, some t') else none
  | .disp p, .disp t, s => deduce p t s
  | .dual p, .dual t, s => deduce p t s
  | .disp _, _, _ => none
  | .dual _, _, _ => none

/-- A pattern with the deduced types in the place of the parameters. -/
def subst (s : Subst N) : Pat → Option (Ty N)
  | .T => s.1
  | .U => s.2
  | .disp p => (subst s p).map .disp
  | .dual p => (subst s p).map .dual

/-- Whether a constraint is satisfied. -/
def Cond.holds (s : Subst N) : Cond → Bool
  | .differ p q => decide (subst s p ≠ subst s q)
  | .notDisp p => match subst s p with | some (.disp _) => false | _ => true
  | .notDual p => match subst s p with | some (.dual _) => false | _ => true

/-- The types deduced for a specialization which is matched by the arguments `t` and `u`. -/
def Spec.matched (s : Spec) (t u : Ty N) : Option (Subst N) :=
  match (deduce s.left t (none, none)).bind (deduce s.right u) with
  | none => none
  | some b => if s.conds.all (Cond.holds b) then some b else none

/-- A pattern with unique types in the place of the parameters. -/
def Pat.unique : Pat → Ty Bool
  | .T => .base true
  | .U => .base false
  | .disp p => .disp p.unique
  | .dual p => .dual p.unique

/-- `s` is at least as specialized as `s'`, [temp.func.order] in the C++ standard: the arguments of `s` match the patterns of `s'`. -/
def Spec.atLeast (s s' : Spec) : Bool := ((deduce s'.left s.left.unique (none, none)).bind (deduce s'.right s.right.unique)).isSome

/-- `s` is more specialized than `s'`.  No two of the specializations have the same patterns, so that constraints do not matter for this. -/
def Spec.more (s s' : Spec) : Bool := s.atLeast s' && !s'.atLeast s

/-- The specialization which is more specialized than all others which are matched, [temp.spec.partial.match] in the C++ standard. -/
def select (l : List (Spec × Subst N)) : Option (Spec × Subst N) := l.find? fun x => l.all fun y => x.1 = y.1 || x.1.more y.1

/-- The specializations which are matched by the arguments `t` and `u`, with the types deduced for them. -/
def matching (t u : Ty N) : List (Spec × Subst N) := specs.filterMap fun s => (s.matched t u).map fun b => (s, b)

/-- The value, given the specializations which are matched. -/
def resolve (lt : Ty N → Ty N → Bool) (t u : Ty N) : List (Spec × Subst N) → Option Bool
  | [] => some (lt t u)
  | x :: l =>
    match select (x :: l) with
    | none => none
    | some (s, b) =>
      match s.value, b with
      | some v, _ => some v
      | none, (some t, some u) => some (lt t u)
      | none, _ => none

/-- `type_comparator<T, U>::value`, TypeAlgorithms.hpp:61-69 and PhysicalValuesDetails.hpp:61-156.  `lt` is the comparison of `type_name<T>()` with `type_name<U>()`; it is
what the primary template gives.  The instantiation is ill-formed if no specialization which is matched is more specialized than the others. -/
def typeComparator (lt : Ty N → Ty N → Bool) (t u : Ty N) : Option Bool := resolve lt t u (matching t u)

/-! ### Units -/

/-- A unit which is not composite: `n` or `dual<n>`. -/
structure Atom (N : Type) where
  name : N
  isDual : Bool
  deriving DecidableEq

def Atom.toTy (a : Atom N) : Ty N := if a.isDual then .dual (.base a.name) else .base a.name

/-- The comparison of units. -/
def cmp (lt : Ty N → Ty N → Bool) (a b : Atom N) : Bool := typeComparator lt a.toTy b.toTy = some true

/-- Validators: `std::identity`, `half_line_validator`, others. -/
inductive Validator where
  | identity
  | halfLine
  | other (k : Nat)
  deriving DecidableEq

/-- What is known about the units which are not composite: the one which stands for no unit, those which derive from `no_unit_t`, and the validators. -/
structure Env (N : Type) where
  lt : Ty N → Ty N → Bool
  noUnit : N
  derived : N → Bool
  validator : N → Validator

/-- A unit. -/
inductive Unit (N : Type) where
  | single (a : Atom N)
  | composite (l : List (Atom N))
  deriving DecidableEq

/-- `dual_of`, Spaces.hpp:1037-1052 and PhysicalValues.hpp:70-74. -/
def dualOf (e : Env N) (a : Atom N) : Atom N := if a = ⟨e.noUnit, false⟩ then a else ⟨a.name, !a.isDual⟩

/-- `dual_of` for units, PhysicalValuesDetails.hpp:461-465. -/
def Unit.dualOf (e : Env N) : Unit N → Unit N
  | .single a => .single (Units.dualOf e a)
  | .composite l => .composite (l.map (Units.dualOf e))

/-- The validator of a unit, PhysicalValues.hpp:47-66; that of the dual of a unit with a validator which is neither the identity nor for the half line is `void`. -/
def atomValidator (e : Env N) (a : Atom N) : Validator :=
  if a.isDual then
    match e.validator a.name with
    | .identity => .identity
    | .halfLine => .halfLine
    | .other _ => .other 0
  else e.validator a.name

/-- `reduced_validator` of two, PhysicalValues.hpp:196-213; the general case would be instantiated with itself. -/
def reducedTwo : Validator → Validator → Option Validator
  | _, .identity => some .identity
  | .identity, _ => some .identity
  | .halfLine, .halfLine => some .halfLine
  | _, _ => none

/-- `reduced_validator`, PhysicalValues.hpp:81-97. -/
def reducedValidator : List Validator → Option Validator
  | [] => none
  | [v] => some v
  | v :: v' :: l => (reducedValidator (v' :: l)).bind (reducedTwo v)

/-- The validator of a unit, where it has one; PhysicalValues.hpp:107-112. -/
def Unit.validator (e : Env N) : Unit N → Option Validator
  | .single a => some (atomValidator e a)
  | .composite l => reducedValidator (l.map (atomValidator e))

/-- `count_and_combine` of a unit and counted units, PhysicalValuesDetails.hpp:207-232, the specializations which concern units. -/
def combine (e : Env N) (s : Atom N) : List (Atom N × Int) → Option (List (Atom N × Int))
  | [] => none
  | (t, i) :: l =>
    if s = t then some ((t, i + 1) :: l)
    else if s.isDual = true ∧ t = ⟨s.name, false⟩ then some ((t, i - 1) :: l)
    else if s.isDual = false then some ((s, 1) :: (t, i) :: l)
    else if ⟨s.name, false⟩ ≠ t ∧ ⟨s.name, false⟩ ≠ dualOf e t ∧ t ≠ dualOf e ⟨s.name, false⟩ then some ((s, 1) :: (t, i) :: l)
    else none

/-- The same for several units, PhysicalValuesDetails.hpp:191-205. -/
def combineAll (e : Env N) : List (Atom N) → List (Atom N × Int) → Option (List (Atom N × Int))
  | [], l => some l
  | s :: ss, l => (combine e s l).bind (combineAll e ss)

/-- `count_and_combine` of units, PhysicalValuesDetails.hpp:173-194. -/
def countAndCombine (e : Env N) : List (Atom N) → Option (List (Atom N × Int))
  | [] => some []
  | s :: ss => combineAll e ss [(s, 1)]

/-- `unpack` of a counted unit, PhysicalValuesDetails.hpp:274-298.  There is no `dual<dual<T>>` here, as duals are never counted below zero. -/
def unpackOne (x : Atom N × Int) : Option (List (Atom N)) :=
  if 0 < x.2 then some (List.replicate x.2.toNat x.1)
  else if x.2 < 0 then (if x.1.isDual then none else some (List.replicate (-x.2).toNat ⟨x.1.name, true⟩))
  else none

/-- `unpack`, PhysicalValuesDetails.hpp:300-304; `flatten` is applied to a list of lists, for which it joins them (`C62_flatten_partial`). -/
def unpack (l : List (Atom N × Int)) : Option (List (Atom N)) := (l.mapM unpackOne).map List.flatten

/-- A unit which derives from `no_unit_t`; duals never do. -/
def isDerived (e : Env N) (a : Atom N) : Bool := !a.isDual && e.derived a.name

/-- `potentially_prunable`, PhysicalValuesDetails.hpp:312-315 and 341-345. -/
def prunable (e : Env N) (x : Atom N × Int) : Bool := x.2 = 0 || isDerived e x.1

/-- `reduce` for units, PhysicalValuesDetails.hpp:357-374. -/
def reduce (e : Env N) (l : List (Atom N × Int)) : Option (List (Atom N)) :=
  match l with
  | [(u, i)] =>
    if i = 0 then some [⟨e.noUnit, false⟩]
    else if isDerived e u ∧ 0 < i then some [u]
    else (filterByTrait (fun x => !prunable e x) l).bind unpack
  | _ => (filterByTrait (fun x => !prunable e x) l).bind unpack

/-- What both cases of `simplify` do to a sorted list, PhysicalValuesDetails.hpp:415-426. -/
def simplifySorted (e : Env N) (l : List (Atom N)) : Option (List (Atom N)) := ((countAndCombine e l).bind (reduce e)).map TypeLists.reverse

/-- `reduction` of a product of two units, PhysicalValues.hpp:142-164. -/
def reduction (e : Env N) : Unit N → Unit N → Option (List (Atom N))
  | .single a, .single b => (stableSortT (cmp e.lt) [a, b]).bind (simplifySorted e)
  | .composite l, .single b => (merge (cmp e.lt) l [b]).bind (simplifySorted e)
  | .single a, .composite m => (merge (cmp e.lt) [a] m).bind (simplifySorted e)
  | .composite l, .composite m => (merge (cmp e.lt) l m).bind (simplifySorted e)

/-- `to_composite_space`, PhysicalValuesDetails.hpp:428-450.  For nothing at all two specializations are matched, neither of which is more specialized.  A composite unit needs
a validator. -/
def toComposite (e : Env N) : List (Atom N) → Option (Unit N)
  | [] => none
  | [a] => some (.single a)
  | l => if (reducedValidator (l.map (atomValidator e))).isSome then some (.composite l) else none

/-- The unit of the product of two quantities, `physical_value_product`, PhysicalValues.hpp:404-421. -/
def valueProduct (e : Env N) (u v : Unit N) : Option (Unit N) := (reduction e u v).bind (toComposite e)

/-- `operator*` for units, PhysicalValues.hpp:367-384. -/
def mul (e : Env N) (u v : Unit N) : Option (Unit N) :=
  if v = .single ⟨e.noUnit, false⟩ then some u
  else if u = .single ⟨e.noUnit, false⟩ then some v
  else valueProduct e u v

/-- `operator/` for units, PhysicalValues.hpp:386-403. -/
def div (e : Env N) (u v : Unit N) : Option (Unit N) :=
  if v = .single ⟨e.noUnit, false⟩ then some u
  else if u = .single ⟨e.noUnit, false⟩ then some (v.dualOf e)
  else valueProduct e u (v.dualOf e)

end
end Verif.Units
