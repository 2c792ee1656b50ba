import Verif.Model.StaticStorage
/-
Model of `static_linearly_partitioned_sequence`, /repo/Source/sequoia/Core/DataStructures/StaticLinearlyPartitionedSequence.hpp: an array whose partitions all have the same size, so that their bounds are computed rather than
stored, by `static_linear_sequence` of /repo/Source/sequoia/Maths/Sequences/LinearSequence.hpp.  The rest is `static_partitioned_sequence` and its base class in PartitionedData.hpp.

The type of the indices is unsigned and `upper` is its largest value; `n` is `NelementsPerPartition` and `k` is `Npartitions`.  `std::size_t` has 64 bits.
-/
namespace Verif.LinearStorage

/-- `linear_sequence::operator[]`, LinearSequence.hpp:29. -/
def linear (start step : Int) (i : Nat) : Int := start + i * step

/-- `static_linear_sequence::operator[]`, LinearSequence.hpp:64, for the partitions, whose first value and step are `NelementsPerPartition`; the result is converted to the type of the indices. -/
def bound (upper n i : Nat) : Nat := (n + i * n) % (upper + 1)

/-- The loop in `make_element`, PartitionedData.hpp:1163-1168: the partition of position `i`, starting from `p`, which is of the type of the indices. -/
def find (upper n i : Nat) : Nat → Nat → Res Nat
  | 0, _ => .ub
  | fuel + 1, p => if i = bound upper n p then find upper n i fuel ((p + 1) % (upper + 1)) else .ok p

variable {T : Type}

/-- `make_element`, PartitionedData.hpp:1160-1173; reading beyond the end of an `initializer_list` is undefined. -/
def element (upper n : Nat) (list : List (List T)) (i p : Nat) : Res (T × Nat) :=
  (find upper n i (list.length + 1) p).bind fun q =>
    let b := if q = 0 then 0 else bound upper n (q - 1)
    if i < b then .ub
    else match (list[q]?).bind (·[i - b]?) with
      | none => .ub
      | some x => .ok (x, q)

/-- The elements from position `i` on, PartitionedData.hpp:1149. -/
def elements (upper n : Nat) (list : List (List T)) : Nat → Nat → Nat → Res (List T)
  | 0, _, _ => .ok []
  | m + 1, i, p => (element upper n list i p).bind fun (x, q) => (elements upper n list m (i + 1) q).bind fun xs => .ok (x :: xs)

/-- The constructor, PartitionedData.hpp:1112-1114 with `fill`, 1131-1157, and `make_partitions`, StaticLinearlyPartitionedSequence.hpp:26-30, which does not look at the lists. -/
def construct (upper k n : Nat) (list : List (List T)) : Res (List T) :=
  if list.length ≠ k then .throws
  else if (list.map List.length).sum ≠ k * n then .throws
  else elements upper n list (k * n) 0 0

/-- What a function does which is `noexcept`. -/
inductive Call (α : Type) where
  | returns (a : α)
  | terminates
  | undefined
  deriving DecidableEq, Repr

/-- An exception within such a function ends the process. -/
def noexcept {α : Type} : Res α → Call α
  | .ok a => .returns a
  | .throws => .terminates
  | .ub => .undefined

/-- The offset in `get_begin_iterator`, PartitionedData.hpp:953-960. -/
def beginOff (upper k n i : Nat) : Nat := if 0 < i ∧ i < k then bound upper n (i - 1) else 0

/-- The offset in `get_end_iterator`, PartitionedData.hpp:962-982. -/
def endOff (upper k n : Nat) (data : List T) (i : Nat) : Res Nat :=
  if upper < data.length then .throws
  else .ok (if i < k then bound upper n i else data.length)

/-- The elements of `partition`, PartitionedData.hpp:596-599. -/
def partition (upper k n : Nat) (data : List T) (i : Nat) : Call (List T) :=
  noexcept <| (endOff upper k n data i).bind fun e =>
    if beginOff upper k n i ≤ e ∧ e ≤ data.length then .ok ((data.take e).drop (beginOff upper k n i)) else .ub

/-- `size_of_partition`, PartitionedData.hpp:515-518: the difference of the positions, which `partition` has found, as a `std::size_t`. -/
def sizeOf (upper k n : Nat) (data : List T) (i : Nat) : Call Nat :=
  noexcept <| (endOff upper k n data i).bind fun e => .ok (if beginOff upper k n i ≤ e then e - beginOff upper k n i else 2 ^ 64 - (beginOff upper k n i - e))

/-- `s[i][j]`, PartitionedData.hpp:605-608. -/
def read (upper k n : Nat) (data : List T) (i j : Nat) : Call T :=
  match data[beginOff upper k n i + j]? with
  | some x => .returns x
  | none => .undefined

/-- `s[i][j] = x`. -/
def write (upper k n : Nat) (data : List T) (i j : Nat) (x : T) : Call (List T) :=
  if beginOff upper k n i + j < data.length then .returns (data.set (beginOff upper k n i + j) x) else .undefined

end Verif.LinearStorage
