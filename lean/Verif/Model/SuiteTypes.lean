import Verif.Model.Suite
/-
The types which go with the extraction of leaves and trees from suites: /repo/Source/sequoia/Core/Object/Suite.hpp:66-198, and whether what is extracted can be put
into containers and trees of these types.  Suites are those of `Verif.Model.Suite`, with types in the place of items.  References and qualifiers are left out, and types other
than variants are taken not to be convertible to each other.
-/
namespace Verif.SuiteTypes
open Verif.Suites

/-- Types: `std::variant` of some types, and other types. -/
inductive Ty where
  | other (n : Nat)
  | variant (alternatives : List Ty)
  deriving Repr

mutual
/-- Types can be compared: `std::is_same`. -/
def Ty.decEq : (a b : Ty) → Decidable (a = b)
  | .other n, .other m => if h : n = m then isTrue (h ▸ rfl) else isFalse fun e => h (Ty.other.inj e)
  | .other _, .variant _ => isFalse nofun
  | .variant _, .other _ => isFalse nofun
  | .variant l, .variant k =>
    match decEqList l k with
    | isTrue h => isTrue (h ▸ rfl)
    | isFalse h => isFalse fun e => h (Ty.variant.inj e)

/-- The same for lists. -/
def decEqList : (a b : List Ty) → Decidable (a = b)
  | [], [] => isTrue rfl
  | [], _ :: _ => isFalse nofun
  | _ :: _, [] => isFalse nofun
  | x :: l, y :: k =>
    match Ty.decEq x y, decEqList l k with
    | isTrue h, isTrue h' => isTrue (h ▸ h' ▸ rfl)
    | isFalse h, _ => isFalse fun e => h (List.cons.inj e).1
    | _, isFalse h => isFalse fun e => h (List.cons.inj e).2
end

instance : DecidableEq Ty := Ty.decEq

/-- `leaf_extractor` for several tuples, Suite.hpp:91-95 and 109-113; there is none for no tuple. -/
def joinTuples {L : Type} : List (List L) → List L
  | [] => []
  | [t] => t
  | t :: u :: vs => joinTuples ((t ++ u) :: vs)
termination_by l => l.length

mutual
/-- `leaf_extractor` for suites, Suite.hpp:78-89; a suite of nothing is one of items.  The specializations for a tuple and a suite, 97-107, do not occur. -/
def leafTypes {S L : Type} : Suite S L → List L
  | .flat _ items => items
  | .deep _ subs => joinTuples (leafTypesList subs)

/-- The suites within. -/
def leafTypesList {S L : Type} : List (Suite S L) → List (List L)
  | [] => []
  | s :: subs => leafTypes s :: leafTypesList subs
end

/-- `leaves_to_variant_or_unique_type`, Suite.hpp:115-139, given the types to which the leaves are transformed; `std::variant<>` cannot be instantiated. -/
def leavesType : List Ty → Option Ty
  | [] => none
  | t :: ts => if ts.all (· = t) then some t else some (.variant (t :: ts))

/-- `faithful_variant` of a variant and a type, Suite.hpp:158-169. -/
def addType (v : List Ty) (t : Ty) : List Ty := if t ∈ v then v else v ++ [t]

/-- `faithful_variant`, Suite.hpp:142-181: the alternatives. -/
def faithful : Ty → List Ty → List Ty
  | t, [] => [t]
  | .variant v, ts => ts.foldl addType v
  | .other n, ts => ts.foldl addType [.other n]

/-- A variant with one alternative is replaced by that, Suite.hpp:197. -/
def collapse : List Ty → Ty
  | [t] => t
  | v => .variant v

mutual
/-- `to_variant_or_unique_type`, Suite.hpp:184-198, where `rS` and `rL` give the types to which suites and items are transformed. -/
def treeType {S L : Type} (rS : S → Ty) (rL : L → Ty) : Suite S L → Ty
  | .flat s items => collapse (faithful (rS s) (items.map rL))
  | .deep s subs => collapse (faithful (rS s) (treeTypeList rS rL subs))

/-- The suites within. -/
def treeTypeList {S L : Type} (rS : S → Ty) (rL : L → Ty) : List (Suite S L) → List Ty
  | [] => []
  | s :: subs => treeType rS rL s :: treeTypeList rS rL subs
end

mutual
/-- Whether an object of a type can be constructed from one of the type `s`: for `std::variant`, the same type is copied or moved; otherwise the converting constructor needs a best
alternative, which is one of the type `s` if there is exactly one, and, if there is none, the only one which can be constructed. -/
def accepts (s : Ty) : Ty → Bool
  | .other n => s = .other n
  | .variant l => s = .variant l || (if l.count s ≠ 0 then l.count s = 1 else accepting s l = 1)

/-- How many alternatives can be constructed. -/
def accepting (s : Ty) : List Ty → Nat
  | [] => 0
  | t :: l => (if accepts s t then 1 else 0) + accepting s l
end

/-- Whether `extract_leaves` can be instantiated: each result is given to `emplace_back`, Suite.hpp:210-222 and 285-294. -/
def containerOk (results : List Ty) : Bool :=
  match leavesType results with
  | none => false
  | some t => results.all (accepts · t)

mutual
/-- The types of all objects which are given to `add_node` in `extract_tree`, Suite.hpp:236-283. -/
def produced {S L : Type} (rS : S → Ty) (rL : L → Ty) : Suite S L → List Ty
  | .flat s items => rS s :: items.map rL
  | .deep s subs => rS s :: producedList rS rL subs

/-- The suites within. -/
def producedList {S L : Type} (rS : S → Ty) (rL : L → Ty) : List (Suite S L) → List Ty
  | [] => []
  | s :: subs => produced rS rL s ++ producedList rS rL subs
end

/-- Whether `extract_tree` can be instantiated with the default type of trees, Suite.hpp:296-305. -/
def treeOk {S L : Type} (rS : S → Ty) (rL : L → Ty) (s : Suite S L) : Bool := (produced rS rL s).all (accepts · (treeType rS rL s))

end Verif.SuiteTypes
