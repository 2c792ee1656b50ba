import Verif.Model.Basic
/-
Model of /repo/Source/sequoia/Core/DataStructures/PartitionedData.hpp: `bucketed_sequence` (a vector of vectors) and
`partitioned_sequence` (one contiguous vector with an increasing sequence of partition bounds).

An iterator into partition `i` is a pair of `i` and an offset from the beginning of the partition; what a call returns
is reported in these terms so that the two storages can be compared.
-/
namespace Verif.Partitioned

/-- Calls made by users of either storage. -/
inductive Op (α : Type) where
  | addSlot
  | insertSlot (pos : Nat)
  | eraseSlot (n : Nat)
  | swapPartitions (i j : Nat)
  | pushBack (i : Nat) (a : α)
  | insert (i pos : Nat) (a : α)
  | erase (i pos : Nat)
  /-- `erase_from_partition(first, last)` with iterators at offset `p` in partition `i` and `q` in partition `j` -/
  | eraseRange (i p j q : Nat)
  | clear
  | partition (i : Nat)
  | numPartitions
  | size

/-- What a caller sees. -/
inductive Val (α : Type) where
  | unit
  | num (n : Nat)
  | list (l : List α)
  /-- iterator at an offset within a partition -/
  | iter (partition offset : Nat)
  /-- the iterator with partition index npos -/
  | npos
  deriving DecidableEq, Repr

/-! ### contiguous storage -/

/-- `m_Partitions` and `m_Data`, PartitionedData.hpp:884-885. -/
structure Contig (α : Type) where
  bounds : List Nat
  data : List α
  deriving DecidableEq, Repr

/-- `m_Partitions.mutate(unsafe_t{}, first, last, f)`, MonotonicSequence.hpp:115-123. -/
def mutateU (b : List Nat) (first last : Nat) (f : Nat → Nat) : List Nat :=
  b.take first ++ ((b.take last).drop first).map f ++ b.drop last

/-- Offset computed by `get_begin_iterator`, PartitionedData.hpp:953-960. -/
def Contig.beginOff {α : Type} (c : Contig α) (i : Nat) : Nat :=
  if h : 0 < i ∧ i < c.bounds.length then c.bounds[i - 1] else 0

/-- Offset computed by `get_end_iterator`, PartitionedData.hpp:962-982. -/
def Contig.endOff {α : Type} (c : Contig α) (i : Nat) : Nat :=
  if h : i < c.bounds.length then c.bounds[i] else c.data.length

/-- The elements between two positions of a vector. -/
def slice {α : Type} (l : List α) (a b : Nat) : List α := (l.take b).drop a

/-- `partition(i)`, PartitionedData.hpp:598-605. -/
def Contig.partition {α : Type} (c : Contig α) (i : Nat) : List α := slice c.data (c.beginOff i) (c.endOff i)

/-- `std::ranges::iter_swap` on two positions of a vector. -/
def iterSwap {α : Type} (l : List α) (i j : Nat) : Res (List α) :=
  match l[i]?, l[j]? with
  | some a, some b => .ok ((l.set i b).set j a)
  | _, _ => .ub

/-- The swapping loop, PartitionedData.hpp:623-626. -/
def swapLoop {α : Type} : Nat → List α → Nat → Nat → Res (List α)
  | 0, l, _, _ => .ok l
  | k + 1, l, i, j => do let l' ← iterSwap l i j; swapLoop k l' (i + 1) (j + 1)

/-- `std::ranges::rotate(first, mid, last)` by its documented effect. -/
def rotate {α : Type} (l : List α) (first mid last : Nat) : Res (List α) :=
  if first ≤ mid ∧ mid ≤ last ∧ last ≤ l.length then
    .ok (l.take first ++ slice l mid last ++ slice l first mid ++ l.drop last)
  else .ub

/-- The effect of `swap_partitions` on the data for partitions `[bi, ei)` and `[bj, ej)`, PartitionedData.hpp:618-635:
swap element by element as far as both reach, then rotate the surplus of the longer one into place. -/
def swapData {α : Type} (data : List α) (bi ei bj ej : Nat) : Res (List α) :=
  (swapLoop (min (ei - bi) (ej - bj)) data bi bj).bind fun d =>
    if ej - bj < ei - bi then rotate d (bi + (ej - bj)) (bi + (ei - bi)) ej
    else if ei - bi < ej - bj then rotate d (bi + (ei - bi)) (bj + (ei - bi)) ej
    else .ok d

/-- `swap_partitions` for `i < j`, PartitionedData.hpp:618-643: the data, then the bounds. -/
def Contig.swapLt {α : Type} (c : Contig α) (i j : Nat) : Res (Contig α) :=
  let leni := c.endOff i - c.beginOff i
  let lenj := c.endOff j - c.beginOff j
  (swapData c.data (c.beginOff i) (c.endOff i) (c.beginOff j) (c.endOff j)).bind fun d =>
    .ok ⟨if leni ≠ lenj then mutateU c.bounds i j (fun x => x + lenj - leni) else c.bounds, d⟩

/-- Lift a computation which cannot throw to an outcome. -/
def ofRes {σ β : Type} (s : σ) (r : Res σ) (b : β) : Outcome σ β :=
  match r with
  | .ok t => .ret t b
  | .throws => .threw s
  | .ub => .ub

/-- `swap_partitions`, PartitionedData.hpp:610-646. -/
def Contig.swapPartitions {α : Type} (c : Contig α) (i j : Nat) : Outcome (Contig α) (Val α) :=
  if i < c.bounds.length ∧ j < c.bounds.length then
    if i ≠ j then (if j < i then ofRes c (c.swapLt j i) .unit else ofRes c (c.swapLt i j) .unit)
    else .ret c .unit
  else .ret c .unit

/-- `add_slot`, PartitionedData.hpp:726-729, including the check made by `monotonic_sequence::push_back`
(MonotonicSequence.hpp:168-174, comparator `greater`). -/
def Contig.addSlot {α : Type} (c : Contig α) : Outcome (Contig α) (Val α) :=
  if (match c.bounds.getLast? with | some b => decide (c.data.length < b) | none => false) then .threw c
  else .ret ⟨c.bounds ++ [c.data.length], c.data⟩ .unit

/-- `insert_slot`, PartitionedData.hpp:731-743, including the check made by `monotonic_sequence::insert`
(MonotonicSequence.hpp:176-184). -/
def Contig.insertSlot {α : Type} (c : Contig α) (pos : Nat) : Outcome (Contig α) (Val α) :=
  if h : pos < c.bounds.length then
    let nb := if pos = 0 then 0 else c.bounds[pos - 1]
    if c.bounds[pos] < nb ∨ (pos ≠ 0 ∧ nb < c.bounds[pos - 1]) then .threw c
    else .ret ⟨c.bounds.insertIdx pos nb, c.data⟩ .unit
  else c.addSlot

/-- `erase_slot`, PartitionedData.hpp:745-759. -/
def Contig.eraseSlot {α : Type} (c : Contig α) (n : Nat) : Outcome (Contig α) (Val α) :=
  if h : n < c.bounds.length then
    let offset := if 0 < n then c.bounds[n - 1] else 0
    let erased := if 0 < c.bounds[n] then c.bounds[n] - offset else 0
    let data := if 0 < c.bounds[n] then c.data.take offset ++ c.data.drop c.bounds[n] else c.data
    let b := c.bounds.eraseIdx n
    .ret ⟨mutateU b n b.length (fun x => x - erased), data⟩ .unit
  else .ret c .unit

/-- `push_back_to_partition`, PartitionedData.hpp:795-812. -/
def Contig.pushBack {α : Type} (c : Contig α) (i : Nat) (a : α) : Outcome (Contig α) (Val α) :=
  if h : i < c.bounds.length then
    let data := if i = c.bounds.length - 1 then c.data ++ [a] else c.data.insertIdx c.bounds[i] a
    .ret ⟨mutateU c.bounds i c.bounds.length (· + 1), data⟩ .unit
  else .threw c

/-- `insert_to_partition(index, pos, ...)`, PartitionedData.hpp:814-830: the position is clamped to the end of the
partition by `std::ranges::next`.  The iterator formed for an `index` out of range has partition index `npos`, so
that `check_range` throws. -/
def Contig.insert {α : Type} (c : Contig α) (i pos : Nat) (a : α) : Outcome (Contig α) (Val α) :=
  if i < c.bounds.length then
    let p := min pos (c.endOff i - c.beginOff i)
    .ret ⟨mutateU c.bounds i c.bounds.length (· + 1), c.data.insertIdx (c.beginOff i + p) a⟩ (.iter i p)
  else .threw c

/-- `erase_from_partition(index, pos)`, PartitionedData.hpp:832-848 and 874-877. -/
def Contig.erase {α : Type} (c : Contig α) (i pos : Nat) : Outcome (Contig α) (Val α) :=
  if i < c.bounds.length then
    let p := min pos (c.endOff i - c.beginOff i)
    if c.beginOff i + p = c.endOff i then .ret c (.iter i p)
    else .ret ⟨mutateU c.bounds i c.bounds.length (· - 1), c.data.eraseIdx (c.beginOff i + p)⟩ (.iter i p)
  else .ret c .npos

/-- `erase_from_partition(first, last)`, PartitionedData.hpp:850-872, for iterators obtained from the sequence. -/
def Contig.eraseRange {α : Type} (c : Contig α) (i p j q : Nat) : Outcome (Contig α) (Val α) :=
  if i < c.bounds.length ∧ j < c.bounds.length ∧ p ≤ c.endOff i - c.beginOff i ∧ q ≤ c.endOff j - c.beginOff j then
    if i = j then
      if p < q then
        .ret ⟨mutateU c.bounds i c.bounds.length (· - (q - p)),
          c.data.take (c.beginOff i + p) ++ c.data.drop (c.beginOff i + q)⟩ (.iter i p)
      else .ret c (.iter i p)
    else .threw c
  else .ub

/-- The members of partitioned_sequence. -/
def Contig.step {α : Type} (c : Contig α) : Op α → Outcome (Contig α) (Val α)
  | .addSlot => c.addSlot
  | .insertSlot pos => c.insertSlot pos
  | .eraseSlot n => c.eraseSlot n
  | .swapPartitions i j => c.swapPartitions i j
  | .pushBack i a => c.pushBack i a
  | .insert i pos a => c.insert i pos a
  | .erase i pos => c.erase i pos
  | .eraseRange i p j q => c.eraseRange i p j q
  | .clear => .ret ⟨[], []⟩ .unit
  | .partition i => .ret c (.list (c.partition i))
  | .numPartitions => .ret c (.num c.bounds.length)
  | .size => .ret c (.num c.data.length)

/-- Repeated `push_back_to_partition` of one initializer list, PartitionedData.hpp:897-900. -/
def Contig.pushAll {α : Type} (c : Contig α) (i : Nat) : List α → Outcome (Contig α) (Val α)
  | [] => .ret c .unit
  | a :: t => match c.pushBack i a with
    | .ret c' _ => c'.pushAll i t
    | .threw c' => .threw c'
    | .ub => .ub

/-- The loop of `init`, PartitionedData.hpp:893-901; `i` is the distance from the beginning of the list. -/
def Contig.initLoop {α : Type} (c : Contig α) (i : Nat) : List (List α) → Outcome (Contig α) (Val α)
  | [] => .ret c .unit
  | l :: ls => match c.addSlot with
    | .ret c' _ => match c'.pushAll i l with
      | .ret c'' _ => c''.initLoop (i + 1) ls
      | .threw c'' => .threw c''
      | .ub => .ub
    | .threw c' => .threw c'
    | .ub => .ub

/-- Construction from nested initializer lists, PartitionedData.hpp:889-902. -/
def Contig.init {α : Type} (ls : List (List α)) : Outcome (Contig α) (Val α) := Contig.initLoop ⟨[], []⟩ 0 ls

/-! ### bucketed storage -/

/-- The members of bucketed_sequence, PartitionedData.hpp:171-324 and 406-420; the state is `m_Buckets`. -/
def bucketStep {α : Type} (s : List (List α)) : Op α → Outcome (List (List α)) (Val α)
  | .addSlot => .ret (s ++ [[]]) .unit
  | .insertSlot pos => if pos < s.length then .ret (s.insertIdx pos []) .unit else .ret (s ++ [[]]) .unit
  | .eraseSlot n => if n < s.length then .ret (s.eraseIdx n) .unit else .ret s .unit
  | .swapPartitions i j =>
    if i < s.length ∧ j < s.length then
      if i ≠ j then ofRes s (iterSwap s i j) .unit else .ret s .unit
    else .ret s .unit
  | .pushBack i a =>
    if h : i < s.length then .ret (s.set i (s[i] ++ [a])) .unit else .threw s
  | .insert i pos a =>
    if h : i < s.length then
      if s[i].length < pos then .threw s
      else .ret (s.set i (s[i].insertIdx pos a)) (.iter i pos)
    else .threw s
  | .erase i pos =>
    if s.isEmpty then .threw s
    else if h : i < s.length then
      let p := min pos s[i].length
      if p = s[i].length then .ret s (.iter i p)
      else .ret (s.set i (s[i].eraseIdx p)) (.iter i p)
    else .ret s .npos
  | .eraseRange i p j q =>
    if h : i < s.length ∧ j < s.length then
      if p ≤ s[i].length ∧ q ≤ s[j].length then
        if i = j then
          if p < q then .ret (s.set i (s[i].take p ++ s[i].drop q)) (.iter i p)
          else .ret s (.iter i p)
        else .threw s
      else .ub
    else .ub
  | .clear => .ret [] .unit
  | .partition i =>
    if s.isEmpty then .threw s
    else if h : i < s.length then .ret s (.list s[i]) else .ret s (.list [])
  | .numPartitions => .ret s (.num s.length)
  | .size => .ret s (.num (s.foldl (fun n b => n + b.length) 0))

end Verif.Partitioned
