import Verif.Model.CountingAllocator
/-
What is expected of counting allocators: each belongs to a family, and the calls of all members of a family are counted.
-/
namespace Verif.Spec.CountingAllocator
open Verif.CountingAllocator (Op Val)

/-- A block which is in use: the family which it was obtained from, and for how many objects. -/
structure Block where
  id : Nat
  family : Nat
  objects : Nat
  deriving DecidableEq, Repr

/-- The families of the allocators, the number of families, the calls so far which were for at least one object (by family; `true` for `allocate`), the blocks in use, and how many there have been. -/
structure State where
  family : List Nat
  families : Nat
  calls : List (Nat × Bool)
  live : List Block
  next : Nat

/-- The calls, with one more if there is an object. -/
def State.called (s : State) (f : Nat) (a : Bool) (n : Nat) : List (Nat × Bool) := if n = 0 then s.calls else (f, a) :: s.calls

/-- What is expected.  Nothing is if a size is not a `std::size_t`, if there have been more calls than an `int` can count, or if a block is returned to another family than that which it was obtained from, or not as what it was. -/
def step (size : Nat) (avail : Nat → Nat → Bool) (s : State) : Op → Outcome State Val
  | .create => .ret { s with family := s.family ++ [s.families], families := s.families + 1 } .unit
  | .copy i =>
    match s.family[i]? with
    | some f => .ret { s with family := s.family ++ [f] } .unit
    | none => .ub
  | .assign i j =>
    match s.family[i]?, s.family[j]? with
    | some _, some f => .ret { s with family := s.family.set i f } .unit
    | _, _ => .ub
  | .allocate i n =>
    match s.family[i]? with
    | some f =>
      if 2 ^ 64 ≤ n * size then .ub
      else if avail s.next (n * size) = false then .threw s
      else if 2 ^ 31 ≤ (s.called f true n).count (f, true) then .ub
      else .ret { s with calls := s.called f true n, live := s.live ++ [⟨s.next, f, n⟩], next := s.next + 1 } (.block s.next (n * size))
    | none => .ub
  | .deallocate i b n =>
    match s.family[i]? with
    | some f =>
      if ⟨b, f, n⟩ ∈ s.live ∧ (s.called f false n).count (f, false) < 2 ^ 31 then
        .ret { s with calls := s.called f false n, live := s.live.filter fun x => x.id ≠ b } .unit
      else .ub
    | none => .ub
  | .allocs i =>
    match s.family[i]? with
    | some f => .ret s (.int (s.calls.count (f, true)))
    | none => .ub
  | .deallocs i =>
    match s.family[i]? with
    | some f => .ret s (.int (s.calls.count (f, false)))
    | none => .ub
  | .equal i j =>
    match s.family[i]?, s.family[j]? with
    | some f, some g => .ret s (.bool (decide (f = g)))
    | _, _ => .ub

end Verif.Spec.CountingAllocator
