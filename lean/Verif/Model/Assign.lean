import Verif.Model.Basic
/-
Model of copy assignment of objects which own containers with allocators: `assignment_helper` in /repo/Source/sequoia/Core/ContainerUtilities/AssignmentUtilities.hpp, as used by
the copy assignment of `connectivity_base` in /repo/Source/sequoia/Maths/Graph/Connectivity.hpp.

An object is a family of containers, one for each of the functions which return an allocator, after those which return `void` have been dropped.  A container is an
allocator and its contents.  Allocators which compare equal are identified; in particular, there is only one allocator of a type whose allocators are always equal.  The
operations of the containers are those prescribed by the standard.
-/
namespace Verif.Assign

/-- The traits of an allocator, `std::allocator_traits`. -/
structure Traits where
  copy : Bool
  move : Bool
  swap : Bool
  alwaysEqual : Bool
  deriving DecidableEq, Repr

/-- A container with its allocator. -/
structure Cont (A C : Type) where
  alloc : A
  contents : C
  deriving DecidableEq, Repr

section
variable {A C : Type}

/-- Copy assignment of a container. -/
def copyAssign (t : Traits) (to source : Cont A C) : Cont A C := ⟨if t.copy then source.alloc else to.alloc, source.contents⟩

/-- Move assignment of a container; if the allocator does not propagate and the allocators differ, the elements are moved one by one. -/
def moveAssign (t : Traits) (to source : Cont A C) : Cont A C := ⟨if t.move then source.alloc else to.alloc, source.contents⟩

/-- Swapping is undefined if the allocators do not propagate and differ. -/
def canSwap [DecidableEq A] (t : Traits) (lhs rhs : Cont A C) : Bool := t.swap || lhs.alloc = rhs.alloc

/-- What the first container becomes when two are swapped. -/
def swapped (t : Traits) (lhs rhs : Cont A C) : Cont A C := ⟨if t.swap then rhs.alloc else lhs.alloc, rhs.contents⟩

end

/-- `copy_propagation`, `move_propagation` and `swap_propagation` for one allocator, AssignmentUtilities.hpp:145-167. -/
def copyPropagation (t : Traits) : Bool := t.copy || t.alwaysEqual
def movePropagation (t : Traits) : Bool := t.move || t.alwaysEqual
def swapPropagation (t : Traits) : Bool := t.swap || t.alwaysEqual

/-- `consistent`, AssignmentUtilities.hpp:124-130. -/
def consistent (l r : Traits) : Bool :=
  copyPropagation l == copyPropagation r && movePropagation l == movePropagation r && swapPropagation l == swapPropagation r

/-- `get_allocator`, AssignmentUtilities.hpp:132-143. -/
def getAllocator {A C : Type} (t : Traits) (to source : Cont A C) : A := if copyPropagation t then source.alloc else to.alloc

variable {n : Nat} {A C : Fin (n + 1) → Type}

/-- An object with at least one container; without any there is nothing to choose. -/
abbrev Obj (A C : Fin (n + 1) → Type) := ∀ i, Cont (A i) (C i)

/-- `consistency`, AssignmentUtilities.hpp:111-122: the first is compared with the others. -/
def consistency (traits : Fin (n + 1) → Traits) : Bool := decide (∀ i : Fin n, consistent (traits 0) (traits i.succ))

/-- The constructor which copies with given allocators, Connectivity.hpp:372-376 with `copy_edges`, 1307-1330, and PartitionedData.hpp:107-123 and 903-915: the allocators
are those which `select_on_container_copy_construction`, here `select`, makes of the given ones. -/
def construct (select : ∀ i, A i → A i) (source : Obj A C) (allocs : ∀ i, A i) : Obj A C := fun i => ⟨select i (allocs i), (source i).contents⟩

/-- `swap`, Connectivity.hpp:425-429 and PartitionedData.hpp:676-681: memberwise. -/
def swapObj [∀ i, DecidableEq (A i)] (traits : Fin (n + 1) → Traits) (lhs rhs : Obj A C) : Res (Obj A C) :=
  if ∀ i, canSwap (traits i) (lhs i) (rhs i) then .ok fun i => swapped (traits i) (lhs i) (rhs i) else .ub

/-- `reset`, Connectivity.hpp:417-423 and PartitionedData.hpp:434-439 and 649-658: an empty container with the allocator is copy assigned. -/
def reset (empty : ∀ i, C i) (traits : Fin (n + 1) → Traits) (to : Obj A C) (allocs : ∀ i, A i) : Obj A C :=
  fun i => copyAssign (traits i) (to i) ⟨allocs i, empty i⟩

/-- `assign_filtered`, AssignmentUtilities.hpp:72-102; `throws` stands for a program which is rejected by the compiler.  The conditions look at the first allocator only. -/
def assign [∀ i, DecidableEq (A i)] (select : ∀ i, A i → A i) (empty : ∀ i, C i) (traits : Fin (n + 1) → Traits) (to source : Obj A C) : Res (Obj A C) :=
  if ∀ i, (traits i).alwaysEqual then .ok fun i => moveAssign (traits i) (to i) (construct select source (fun j => (source j).alloc) i)
  else if !consistency traits then .throws
  else
    let tmp := construct select source fun i => getAllocator (traits i) (to i) (source i)
    if movePropagation (traits 0) || !copyPropagation (traits 0) then .ok fun i => moveAssign (traits i) (to i) (tmp i)
    else
      let to := if swapPropagation (traits 0) then to else reset empty traits to fun i => (tmp i).alloc
      swapObj traits to tmp

end Verif.Assign
