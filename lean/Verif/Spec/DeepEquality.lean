import Verif.Model.DeepEquality
/- What deep equality means. -/
namespace Verif.Spec.DeepEquality
open Verif.DeepEquality

/-- What is compared when objects of a type are compared. -/
def compared : Ty → List Ty
  | .array _ => []
  | .plain _ us => us
  | .homogeneous _ us _ => us
  | .heterogeneous _ us _ _ => us

/-- What can be seen of a type from outside: its `value_type`, or its elements. -/
def visible : Ty → List Ty
  | .array _ => []
  | .plain _ _ => []
  | .homogeneous _ _ v => [v]
  | .heterogeneous _ _ n es => es.take n

/-- There is `operator==`, as far as declarations go. -/
def Declared : Ty → Prop
  | .array _ => False
  | .plain d _ => d = true
  | .homogeneous d _ _ => d = true
  | .heterogeneous d _ _ _ => d = true

/-- Objects can be compared: there is `operator==`, and its body compiles.  Arrays cannot: what is compared is their addresses. -/
inductive Comparable : Ty → Prop
  | mk {t : Ty} : Declared t → (∀ u ∈ compared t, Comparable u) → Comparable t

/-- Nothing is compared which is hidden. -/
inductive Open : Ty → Prop
  | mk {t : Ty} : (∀ u ∈ compared t, u ∈ visible t) → (∀ u ∈ visible t, Open u) → Open t

/-- Elements exist for all arguments of the template. -/
def Whole : Ty → Prop
  | .heterogeneous _ _ n es => n ≤ es.length
  | _ => True

/-- Everything which is visible is compared. -/
inductive Thorough : Ty → Prop
  | mk {t : Ty} : Whole t → (∀ u ∈ visible t, u ∈ compared t) → (∀ u ∈ visible t, Thorough u) → Thorough t

/-! ### The types of the standard library -/

/-- `std::vector`, `std::array`, `std::set`, `std::optional` and the like; their `operator==` is not constrained. -/
def container (t : Ty) : Ty := .homogeneous true [t] t

/-- `std::pair`, `std::tuple` and `std::variant`. -/
def product (ts : List Ty) : Ty := .heterogeneous true ts ts.length ts

/-- `std::map`. -/
def map (k v : Ty) : Ty := container (product [k, v])

/-- `std::expected`, whose `value_type` says nothing of the type of errors. -/
def expected (t e : Ty) : Ty := .homogeneous true [t, e] t

/-- Iterators, whose `value_type` is that of the container; pointers are compared. -/
def iterator (t : Ty) : Ty := .homogeneous true [] t

/-- A class with the given bases or members, and a comparison which is defaulted. -/
def aggregate (ts : List Ty) : Ty := .plain true ts

/-- Types made of classes with `operator==` of which `P` holds, or without of which it does not, by means of standard containers. -/
inductive Standard : Ty → Prop
  | leaf (d : Bool) : Standard (.plain d [])
  | array (t : Ty) : Standard (.array t)
  | container {t : Ty} : Standard t → Standard (container t)
  | product {ts : List Ty} : ts ≠ [] → (∀ t ∈ ts, Standard t) → Standard (product ts)

/-- A part of a type, at any depth. -/
inductive Part : Ty → Ty → Prop
  | refl (t : Ty) : Part t t
  | container {s t : Ty} : Part s t → Part s (container t)
  | product {s t : Ty} {ts : List Ty} : t ∈ ts → Part s t → Part s (product ts)

end Verif.Spec.DeepEquality
