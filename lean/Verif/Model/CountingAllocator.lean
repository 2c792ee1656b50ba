import Verif.Model.Basic
/-
Model of `shared_counting_allocator`, /repo/Source/sequoia/TestFramework/AllocationTestUtilities.hpp:40-113.

A program has allocators which are numbered in the order in which they are made; they are not destroyed.  Counters are cells in memory, to which the shared pointers of allocators point.  Blocks of memory are
numbered, too.  Whether `::operator new` succeeds is left open: it may depend on the number of blocks which have been obtained, and on the number of bytes.  `std::size_t` has 64 bits and `int` has 32.
-/
namespace Verif.CountingAllocator

/-- What a program may do with allocators. -/
inductive Op where
  /-- The default constructor, :58-60. -/
  | create
  /-- The copy constructor, :62. -/
  | copy (i : Nat)
  /-- `i = j`, :64. -/
  | assign (i j : Nat)
  /-- `i.allocate(n)`, :66-73. -/
  | allocate (i n : Nat)
  /-- `i.deallocate(b, n)`, :75-79. -/
  | deallocate (i b n : Nat)
  /-- `i.allocs()`, :81-82. -/
  | allocs (i : Nat)
  /-- `i.deallocs()`, :84-85. -/
  | deallocs (i : Nat)
  /-- `i == j`, :87-88. -/
  | equal (i j : Nat)

/-- What a call returns: for `allocate` the block and its size in bytes. -/
inductive Val where
  | unit
  | block (b bytes : Nat)
  | int (n : Nat)
  | bool (b : Bool)
  deriving DecidableEq, Repr

/-- An allocator: `m_pAllocs` and `m_pDeallocs`, :90. -/
structure Obj where
  allocs : Nat
  deallocs : Nat
  deriving DecidableEq, Repr

/-- The counters, the allocators, the blocks which are in use, and how many blocks there have been. -/
structure World where
  cells : List Nat
  objs : List Obj
  live : List Nat
  next : Nat

/-- `++(*p)`, where `p` points to an `int`; nothing if it overflows. -/
def bump (cells : List Nat) (p : Nat) : Option (List Nat) :=
  match cells[p]? with
  | some c => if c < 2 ^ 31 - 1 then some (cells.set p (c + 1)) else none
  | none => none

/-- `if(n) ++(*p);`, :70 and :78. -/
def count (cells : List Nat) (p n : Nat) : Option (List Nat) := if n = 0 then some cells else bump cells p

/-- The members of the class; `size` is `sizeof(T)`, and `avail` says whether `::operator new` succeeds. -/
def step (size : Nat) (avail : Nat → Nat → Bool) (s : World) : Op → Outcome World Val
  | .create => .ret { s with cells := s.cells ++ [0, 0], objs := s.objs ++ [⟨s.cells.length, s.cells.length + 1⟩] } .unit
  | .copy i =>
    match s.objs[i]? with
    | some o => .ret { s with objs := s.objs ++ [o] } .unit
    | none => .ub
  | .assign i j =>
    match s.objs[i]?, s.objs[j]? with
    | some _, some p => .ret { s with objs := s.objs.set i p } .unit
    | _, _ => .ub
  | .allocate i n =>
    match s.objs[i]? with
    | some o =>
      if avail s.next (n * size % 2 ^ 64) then
        match count s.cells o.allocs n with
        | some cells => .ret { s with cells := cells, live := s.live ++ [s.next], next := s.next + 1 } (.block s.next (n * size % 2 ^ 64))
        | none => .ub
      else .threw s
    | none => .ub
  | .deallocate i b n =>
    match s.objs[i]? with
    | some o =>
      if b ∈ s.live then
        match count s.cells o.deallocs n with
        | some cells => .ret { s with cells := cells, live := s.live.filter (· ≠ b) } .unit
        | none => .ub
      else .ub
    | none => .ub
  | .allocs i =>
    match s.objs[i]? with
    | some o => match s.cells[o.allocs]? with
      | some c => .ret s (.int c)
      | none => .ub
    | none => .ub
  | .deallocs i =>
    match s.objs[i]? with
    | some o => match s.cells[o.deallocs]? with
      | some c => .ret s (.int c)
      | none => .ub
    | none => .ub
  | .equal i j =>
    match s.objs[i]?, s.objs[j]? with
    | some o, some p => .ret s (.bool (decide (o = p)))
    | _, _ => .ub

end Verif.CountingAllocator
