import Verif.Model.Basic
/-
Model of the choice of the index type of static graphs, /repo/Source/sequoia/Maths/Graph/StaticGraphDetails.hpp, and of the construction of the storage of
their edges, `static_partitioned_sequence` in /repo/Source/sequoia/Core/DataStructures/PartitionedData.hpp.
-/
namespace Verif.StaticStorage

/-- `graph_flavour`, GraphTypes. -/
inductive Flavour where
  | directed
  | undirected
  | embedded
  deriving DecidableEq, Repr

/-- `index_type_tag`, StaticGraphDetails.hpp:23; `u_int` is never chosen. -/
inductive Tag where
  | uchar
  | ushort
  | ulong
  deriving DecidableEq, Repr

/-- `std::numeric_limits::max` of the type which belongs to the tag, StaticGraphDetails.hpp:36-71; 64 bits for `std::size_t`. -/
def Tag.max : Tag → Nat
  | .uchar => 255
  | .ushort => 65535
  | .ulong => 2 ^ 64 - 1

/-- `to_index_max`, StaticGraphDetails.hpp:25-32, with `is_embedded(Flavour)`, StaticGraphConfig.hpp:21. -/
def toIndexMax (size order : Nat) (fl : Flavour) : Tag :=
  if order < 255 ∧ (fl ≠ .embedded ∨ size < 255) then .uchar
  else if order < 65535 ∧ (fl ≠ .embedded ∨ size < 65535) then .ushort
  else .ulong

/-- `num_static_edges`, GraphDetails.hpp:71-74. -/
def numStaticEdges (fl : Flavour) (size : Nat) : Nat := if fl ≠ .directed then 2 * size else size

/-- The sums in `make_partitions`, PartitionedData.hpp:1077-1089; `prev` is the sum so far. -/
def accumulate (upper prev : Nat) : List Nat → Res (List Nat)
  | [] => .ok []
  | s :: l => if upper - prev < s then .throws else (accumulate upper (prev + s) l).bind fun r => .ok ((prev + s) :: r)

/-- `make_partitions`, PartitionedData.hpp:1064-1092, on the sizes of the lists. -/
def makePartitions (upper : Nat) (sizes : List Nat) : Res (List Nat) :=
  if sizes.any (upper < ·) then .throws
  else match sizes with
    | [] => .ok []
    | s :: l => (accumulate upper s l).bind fun r => .ok (s :: r)

/-- The loop in `make_element`, PartitionedData.hpp:1163-1168: the partition to which position `i` belongs, starting from `p`. -/
def findPartition (partitions : List Nat) (i : Nat) : Nat → Nat → Res Nat
  | 0, _ => .ub
  | fuel + 1, p =>
    match partitions[p]? with
    | none => .ub
    | some boundary => if i = boundary then findPartition partitions i fuel (p + 1) else .ok p

variable {T : Type}

/-- `make_element`, PartitionedData.hpp:1160-1173: the element at position `i` and the partition reached. -/
def makeElement (list : List (List T)) (partitions : List Nat) (i p : Nat) : Res (T × Nat) :=
  (findPartition partitions i (partitions.length + 1) p).bind fun q =>
    let start := if q = 0 then some 0 else partitions[q - 1]?
    match start with
    | none => .ub
    | some b => match (list[q]?).bind (·[i - b]?) with
      | none => .ub
      | some x => .ok (x, q)

/-- The elements at positions `i, i + 1, …, i + n - 1`, PartitionedData.hpp:1149. -/
def makeElements (list : List (List T)) (partitions : List Nat) : Nat → Nat → Nat → Res (List T)
  | 0, _, _ => .ok []
  | n + 1, i, p => (makeElement list partitions i p).bind fun (x, q) => (makeElements list partitions n (i + 1) q).bind fun xs => .ok (x :: xs)

/-- `fill`, PartitionedData.hpp:1131-1157: the partitions and the elements.  `upper` is the largest value of the index type. -/
def fill (upper order nElements : Nat) (list : List (List T)) : Res (List Nat × List T) :=
  if list.length ≠ order then .throws
  else (makePartitions upper (list.map List.length)).bind fun partitions =>
    if (list.map List.length).sum ≠ nElements then .throws
    else (makeElements list partitions nElements 0 0).bind fun elements => .ok (partitions, elements)

/-- Construction of the edges of a static graph, StaticGraphConfig.hpp:18-30. -/
def construct (fl : Flavour) (size order : Nat) (list : List (List T)) : Res (List Nat × List T) :=
  fill (toIndexMax size order fl).max order (numStaticEdges fl size) list

end Verif.StaticStorage
