import Verif.Model.Heap
import Verif.Model.Basic
/-
Model of the fixed capacity containers in /repo/Source/sequoia/Core/DataStructures.

`std::array<T, N>` is `Vector α N`.  An index outside the array is undefined behaviour.
-/
namespace Verif.Static

/-- What a caller of a container can see. -/
inductive Val (α : Type) where
  | unit
  | elem (a : α)
  | num (n : Nat)
  | bool (b : Bool)
  deriving DecidableEq, Repr

/-- `utilities::to_array<T, N>(l)`, Core/ContainerUtilities/ArrayUtilities.hpp:27-42 and 53-63, for a default
constructible element type: the list padded with default values; throws if the list is too long. -/
def toArray {α : Type} (dflt : α) (N : Nat) (l : List α) : Res (Vector α N) :=
  if N < l.length then .throws
  else .ok (Vector.ofFn fun i : Fin N => if h : i.val < l.length then l[i.val] else dflt)

/-! ### static_stack -/

inductive StackOp (α : Type) where
  | push (a : α)
  | pop
  | top
  | size
  | empty

/-- StaticStack.hpp:81-83: `m_Stack` and `m_End`. -/
structure Stack (α : Type) (N : Nat) where
  data : Vector α N
  e : Nat

/-- Constructor from an initializer list, StaticStack.hpp:29-33. -/
def Stack.mk' {α : Type} {N : Nat} (dflt : α) (l : List α) : Res (Stack α N) :=
  do let d ← toArray dflt N l; pure ⟨d, l.length⟩

/-- The members of static_stack, StaticStack.hpp:42-72.  Reading the top of an empty stack accesses `m_Stack[-1]`.
Simplification: popping an empty stack wraps the unsigned counter `m_End` and so breaks every later call; the model
reports it as undefined immediately. -/
def Stack.step {α : Type} {N : Nat} (s : Stack α N) : StackOp α → Outcome (Stack α N) (Val α)
  | .push a =>
    if s.e = N then .threw s
    else if h : s.e < N then .ret ⟨s.data.set s.e a, s.e + 1⟩ .unit else .ub
  | .pop => if s.e = 0 then .ub else .ret ⟨s.data, s.e - 1⟩ .unit
  | .top => if s.e = 0 then .ub else if h : s.e - 1 < N then .ret s (.elem s.data[s.e - 1]) else .ub
  | .size => .ret s (.num s.e)
  | .empty => .ret s (.bool (s.e == 0))

/-- `operator==`, StaticStack.hpp:75-79: `std::ranges::equal` on the first `m_End` elements of each. -/
def Stack.eq {α : Type} {N : Nat} [BEq α] (s t : Stack α N) : Bool :=
  s.e == t.e && (s.data.toList.take s.e == t.data.toList.take t.e)

/-! ### static_queue -/

inductive QueueOp (α : Type) where
  | push (a : α)
  | pop
  | front
  | back
  | size
  | empty

/-- StaticQueue.hpp:142-144: `m_Queue`, `m_Front`, `m_Back`. -/
structure Queue (α : Type) (N : Nat) where
  data : Vector α N
  front : Nat
  back : Nat

/-- Constructor, StaticQueue.hpp:29-34. -/
def Queue.mk' {α : Type} {N : Nat} (dflt : α) (l : List α) : Res (Queue α N) :=
  do let d ← toArray dflt N l
     pure ⟨d, if l.length ≠ 0 then 0 else N, if l.length ≠ 0 then l.length - 1 else N⟩

/-- `size`, StaticQueue.hpp:101-115. -/
def Queue.size {α : Type} {N : Nat} (q : Queue α N) : Nat :=
  if q.front = N then 0
  else if q.front ≤ q.back then q.back + 1 - q.front
  else N + 1 - (q.front - q.back)

/-- `push`, StaticQueue.hpp:43-67, with the write to `m_Queue[m_Back]`. -/
def Queue.push {α : Type} {N : Nat} (q : Queue α N) (a : α) : Outcome (Queue α N) (Val α) :=
  if 0 < N then
    if q.size = N then .threw q
    else
      let f := if q.front = N then 0 else q.front
      let b := if q.front = N then 0 else (q.back + 1) % N
      if h : b < N then .ret ⟨q.data.set b a, f, b⟩ .unit else .ub
  else .threw q

/-- The members of static_queue, StaticQueue.hpp:43-115.  Popping an empty queue is a no-op in the code (line 83). -/
def Queue.step {α : Type} {N : Nat} (q : Queue α N) : QueueOp α → Outcome (Queue α N) (Val α)
  | .push a => q.push a
  | .pop => if q.front = q.back then .ret ⟨q.data, N, N⟩ .unit else .ret ⟨q.data, (q.front + 1) % N, q.back⟩ .unit
  | .front => if h : q.front < N then .ret q (.elem q.data[q.front]) else .ub
  | .back => if h : q.back < N then .ret q (.elem q.data[q.back]) else .ub
  | .size => .ret q (.num q.size)
  | .empty => .ret q (.bool (q.front == N))

/-- The loop of `operator==`, StaticQueue.hpp:125-132. -/
def Queue.eqLoop {α : Type} {N : Nat} [BEq α] (p q : Queue α N) : (todo l r : Nat) → Res Bool
  | 0, _, _ => .ok true
  | k + 1, l, r =>
    if hl : l < N then
      if hr : r < N then
        if p.data[l] != q.data[r] then .ok false else eqLoop p q k ((l + 1) % N) ((r + 1) % N)
      else .ub
    else .ub

/-- `operator==`, StaticQueue.hpp:118-140. -/
def Queue.eq {α : Type} {N : Nat} [BEq α] (p q : Queue α N) : Res Bool :=
  if 0 < N then
    if p.size ≠ q.size then .ok false else Queue.eqLoop p q p.size p.front q.front
  else .ok true

/-! ### static_priority_queue -/

inductive PQOp (α : Type) where
  | push (a : α)
  | pop
  | top
  | size
  | empty

/-- StaticPriorityQueue.hpp:95-97. -/
structure PQ (α : Type) (N : Nat) where
  data : Vector α N
  e : Nat

/-- Default constructor and constructor from a comparator, StaticPriorityQueue.hpp:29-31. -/
def PQ.init {α : Type} {N : Nat} (dflt : α) : PQ α N := ⟨Vector.replicate N dflt, 0⟩

/-- `make_Q` and the initializer list constructors, StaticPriorityQueue.hpp:33-43 and 101-107: the *whole* array,
padding included, is made into a heap. -/
def PQ.mk' {α : Type} {N : Nat} (lt : α → α → Bool) (dflt : α) (l : List α) : Res (PQ α N) :=
  do let d ← toArray dflt N l
     pure ⟨Heap.makeHeap (Heap.valComp lt) d N (Nat.le_refl N), l.length⟩

/-- The members of static_priority_queue, StaticPriorityQueue.hpp:54-87.  Simplification: as for the stack, popping an
empty queue is reported as undefined at once (the code swaps `*begin` with `*(begin - 1)`). -/
def PQ.step {α : Type} {N : Nat} (lt : α → α → Bool) (q : PQ α N) : PQOp α → Outcome (PQ α N) (Val α)
  | .push a =>
    if q.e = N then .threw q
    else if h : q.e < N then .ret ⟨Heap.bubbleUp (Heap.valComp lt) (q.data.set q.e a) q.e h, q.e + 1⟩ .unit
    else .ub
  | .pop =>
    if h : 0 < q.e ∧ q.e ≤ N then
      .ret ⟨Heap.makeHeap (Heap.valComp lt) (q.data.swap 0 (q.e - 1) (by omega) (by omega)) (q.e - 1) (by omega),
        q.e - 1⟩ .unit
    else .ub
  | .top => if h : 0 < q.e ∧ 0 < N then .ret q (.elem (q.data[0]'h.2)) else .ub
  | .size => .ret q (.num q.e)
  | .empty => .ret q (.bool (q.e == 0))

/-- `operator==`, StaticPriorityQueue.hpp:89-93: the sizes, and `std::ranges::equal` on the first `m_End` elements of the arrays. -/
def PQ.eq {α : Type} {N : Nat} [BEq α] (q r : PQ α N) : Bool :=
  q.e == r.e && (q.data.toList.take q.e == r.data.toList.take r.e)

end Verif.Static
