import Verif.Model.Basic
import Verif.Model.StableSort
/-
Model of /repo/Source/sequoia/Maths/Graph/Connectivity.hpp (`connectivity_base`) together with the node handling of
GraphPrimitive.hpp, for the flavours directed, undirected and undirected_embedded.

Edge storage is a list (per node) of lists of edges: either partitioned storage refines this, see Props/Partitioned.
An edge iterator is a pair of a node and a position.  A model function yields `.ub` when it would dereference an
invalid iterator or index, and also when a check inside it would throw half-way through a modification, since what is
left behind then is not modelled; the theorems show that neither happens for graphs satisfying the invariants.
Weights are compared with a lawful `==`.  For graphs with shared weights take the weight to be the address of the
weight object, see Model/SharedWeights.
-/
namespace Verif.Graph

/-- `partial_edge`, Edge.hpp:259-281 (with its bases, Edge.hpp:45-251): target, weight and meta data. -/
structure Edge (W M : Type) where
  target : Nat
  weight : W
  md : M
  deriving DecidableEq, Repr

/-- `embedded_partial_edge`, Edge.hpp:290-345: additionally the position of the other half within the target node. -/
structure EEdge (W M : Type) where
  target : Nat
  comp : Nat
  weight : W
  md : M
  deriving DecidableEq, Repr

/-- What the code common to both kinds of edge uses: `target_node()` and `target_node(n)`, Edge.hpp:151-154. -/
class EdgeLike (E : Type) where
  target : E → Nat
  retarget : E → Nat → E

instance {W M : Type} : EdgeLike (Edge W M) where
  target e := e.target
  retarget e t := { e with target := t }

instance {W M : Type} : EdgeLike (EEdge W M) where
  target e := e.target
  retarget e t := { e with target := t }

open EdgeLike

/-- Edge storage. -/
abbrev Edges (E : Type) := List (List E)

/-- `graph_primitive`: the node weights of `Nodes` and the edges of `Connectivity`, GraphPrimitive.hpp:104-106.
Simplification: for empty node weights, which are not stored, the model still keeps a list of them. -/
structure G (N E : Type) where
  nodes : List N
  edges : Edges E
  deriving DecidableEq, Repr

/-! ### Storage primitives (their meaning for lists of lists; proved of both storages in Props/Partitioned) -/

/-- `insert_slot`, PartitionedData.hpp:731-743 and 236-243. -/
def insertSlot {E : Type} (s : Edges E) (n : Nat) : Edges E := if n < s.length then s.insertIdx n [] else s ++ [[]]

/-- Change one partition. -/
def onNode {E : Type} (s : Edges E) (n : Nat) (f : List E → List E) : Edges E := s.modify n f

/-- `m_Edges.size()`, PartitionedData.hpp:154-160, or the size of the storage, 509-512. -/
def numHalves {E : Type} (s : Edges E) : Nat := s.foldr (fun l n => l.length + n) 0

/-- `connectivity_base::size`, Connectivity.hpp:220-223, for directed graphs. -/
def sizeDirected {E : Type} (s : Edges E) : Nat := numHalves s

/-- `connectivity_base::size`, Connectivity.hpp:220-223, for undirected graphs. -/
def sizeUndirected {E : Type} (s : Edges E) : Nat := numHalves s / 2

/-! ### Operations common to all flavours -/

section common
variable {E : Type} [EdgeLike E]

/-- `fix_edge_data`, Connectivity.hpp:1598-1609. -/
def fixEdgeData (pred : Nat → Bool) (f : Nat → Nat) (s : Edges E) : Edges E :=
  s.map fun l => l.map fun e => if pred (target e) then retarget e (f (target e)) else e

/-- `connectivity_base::insert_node`, Connectivity.hpp:609-618. -/
def insertNode (s : Edges E) (n : Nat) : Edges E :=
  fixEdgeData (fun t => decide (n ≤ t)) (· + 1) (insertSlot s n)

/-- Insertion into a strictly increasing list. -/
def insertUnique (a : Nat) : List Nat → List Nat
  | [] => [a]
  | b :: t => if a < b then a :: b :: t else if a = b then b :: t else b :: insertUnique a t

/-- `std::ranges::sort` followed by `std::ranges::unique`, by their documented effect: the distinct values in increasing
order. -/
def sortUnique (l : List Nat) : List Nat := l.foldr insertUnique []

/-- The lambda `fixUp` of `swap_nodes`, Connectivity.hpp:446-454. -/
def fixUp (i j : Nat) (l : List E) : List E :=
  l.map fun e => if target e = i then retarget e j else if target e = j then retarget e i else e

/-- `m_Edges.swap_partitions`, PartitionedData.hpp:610-646. -/
def swapSlots (s : Edges E) (i j : Nat) : Edges E :=
  match s[i]?, s[j]? with
  | some a, some b => (s.set i b).set j a
  | _, _ => s

/-- Apply `f` to the partitions with the given indices in turn; an index out of range is not modelled. -/
def visit (f : List E → List E) : List Nat → Edges E → Res (Edges E)
  | [], s => .ok s
  | n :: ns, s => if n < s.length then visit f ns (onNode s n f) else .ub

/-- `swap_nodes` for directed graphs, Connectivity.hpp:440-479: every node is fixed up. -/
def swapNodesDirected (s : Edges E) (i j : Nat) : Res (Edges E) :=
  if i < s.length ∧ j < s.length then
    if i = j then .ok s
    else (visit (fixUp i j) (List.range s.length) s).bind fun s' => .ok (swapSlots s' i j)
  else .throws

/-- `swap_nodes` for undirected graphs, Connectivity.hpp:440-479: only the nodes which are the target of an edge of
either node are fixed up. -/
def swapNodesUndirected (s : Edges E) (i j : Nat) : Res (Edges E) :=
  match s[i]?, s[j]? with
  | some li, some lj =>
    if i = j then .ok s
    else (visit (fixUp i j) (sortUnique (li.map target ++ lj.map target)) s).bind fun s' => .ok (swapSlots s' i j)
  | _, _ => .throws

/-- `erase_from_partition_if`, Connectivity.hpp:913-918, with the predicate of `erase_node`. -/
def dropTarget (n : Nat) (l : List E) : List E := l.filter fun e => decide (target e ≠ n)

/-- The end of `erase_node`, Connectivity.hpp:673-678. -/
def eraseSlotFix (s : Edges E) (n : Nat) : Edges E :=
  fixEdgeData (fun t => decide (n < t)) (· - 1) (s.eraseIdx n)

/-- `erase_node` for directed graphs, Connectivity.hpp:620-679. -/
def eraseNodeDirected (s : Edges E) (n : Nat) : Res (Edges E) :=
  if n < s.length then
    (visit (dropTarget n) ((List.range s.length).filter (· ≠ n)) s).bind fun s' => .ok (eraseSlotFix s' n)
  else .throws

/-- `partitionsToVisit` of `erase_node`, Connectivity.hpp:626-636. -/
def partitionsToVisit (l : List E) (n : Nat) : List Nat := sortUnique ((l.map target).filter (· ≠ n))

/-- `erase_node` for undirected graphs, Connectivity.hpp:620-679. -/
def eraseNodeUndirected (s : Edges E) (n : Nat) : Res (Edges E) :=
  match s[n]? with
  | some l => (visit (dropTarget n) (partitionsToVisit l n) s).bind fun s' => .ok (eraseSlotFix s' n)
  | none => .throws

/-- `swap_edges`, Connectivity.hpp:432-437. -/
def swapEdges (s : Edges E) (n i j : Nat) : Res (Edges E) :=
  match s[n]? with
  | some l =>
    match l[i]?, l[j]? with
    | some a, some b => .ok (onNode s n fun l => (l.set i b).set j a)
    | _, _ => .throws
  | none => .throws

/-- `sort_edges` / `stable_sort_edges`, Connectivity.hpp:871-901, with the sorting algorithm as a parameter; the
iterators are at position `p` of node `n` and position `q` of node `m`. -/
def sortEdges (srt : List E → List E) (s : Edges E) (n p m q : Nat) : Res (Edges E) :=
  match s[n]?, s[m]? with
  | some l, some k =>
    if p ≤ l.length ∧ q ≤ k.length then
      if n ≠ m then .ok s
      else if p ≤ q then .ok (onNode s n fun l => l.take p ++ srt ((l.take q).drop p) ++ l.drop q)
      else .ub
    else .ub
  | _, _ => .ub

end common

/-! ### Directed graphs -/
section directed
variable {W M : Type}

/-- `join` for directed graphs, Connectivity.hpp:681-707, with `add_to_partition`, 1523-1528. -/
def joinDirected (s : Edges (Edge W M)) (i j : Nat) (w : W) (m : M) : Res (Edges (Edge W M)) :=
  if i < s.length ∧ j < s.length then .ok (onNode s i (· ++ [⟨j, w, m⟩])) else .throws

/-- `erase_edge` for directed graphs, Connectivity.hpp:761-766 and 860-863; the iterator is at position `k` of `n`. -/
def eraseEdgeDirected {E : Type} (s : Edges E) (n k : Nat) : Res (Edges E) :=
  if s.isEmpty then .ok s
  else match s[n]? with
  | some l => if k < l.length then .ok (onNode s n (·.eraseIdx k)) else if k = l.length then .ok s else .ub
  | none => .ub

end directed

/-- A weight which can be set, Edge.hpp:60-75. -/
def Edge.setWeight {W M : Type} (e : Edge W M) (w : W) : Edge W M := { e with weight := w }
/-- A weight which can be set, Edge.hpp:60-75. -/
def EEdge.setWeight {W M : Type} (e : EEdge W M) (w : W) : EEdge W M := { e with weight := w }

/-- Change one edge. -/
def onEdge {E : Type} (s : Edges E) (n k : Nat) (f : E → E) : Edges E := onNode s n (·.modify k f)

/-! ### Undirected graphs -/
section undirected
variable {W M : Type} [DecidableEq W] [DecidableEq M]

/-- `join` for undirected graphs, Connectivity.hpp:681-707, with `add_to_partition`, 1523-1528, and `reciprocal_join`,
1461-1475. -/
def joinUndirected (s : Edges (Edge W M)) (i j : Nat) (w : W) (m₁ m₂ : M) : Res (Edges (Edge W M)) :=
  if i < s.length ∧ j < s.length then
    .ok (onNode (onNode s i (· ++ [⟨j, w, m₁⟩])) j (· ++ [⟨i, w, m₂⟩]))
  else .throws

/-- The predicate `pred` of `erase_edge`, Connectivity.hpp:771-790. -/
def isPartner (source : Nat) (w : W) (e : Edge W M) : Bool := decide (e.target = source) && decide (e.weight = w)

/-- `std::ranges::find_if` on positions `[b, e)`, with `e` the result if nothing is found. -/
def findIn {E : Type} (l : List E) (b e : Nat) (p : E → Bool) : Nat := b + ((l.take e).drop b).findIdx p

/-- `erase_edge` for undirected graphs, Connectivity.hpp:761-858; the iterator is at position `k` of `n`. -/
def eraseEdgeUndirected (s : Edges (Edge W M)) (n k : Nat) : Res (Edges (Edge W M)) :=
  if s.isEmpty then .ok s
  else match s[n]? with
  | none => .ub
  | some l => match l[k]? with
    | none => if k = l.length then .ok s else .ub
    | some e =>
      if n ≠ e.target then
        match s[e.target]? with
        | none => .ub
        | some lt =>
          let found := lt.findIdx (isPartner n e.weight)
          if found = lt.length then .throws
          else .ok (onNode (onNode s n (·.eraseIdx k)) e.target (·.eraseIdx found))
      else
        let found := findIn l 0 k (isPartner n e.weight)
        let found := if found = k then findIn l (k + 1) l.length (isPartner n e.weight) else found
        if found = l.length then .throws
        else
          let dist := if found < k then k - 1 else k
          .ok (onNode s n fun l => (l.eraseIdx found).eraseIdx dist)

/-- The search of `manipulate_partner_edge_weight` for non-embedded edges, Connectivity.hpp:1405-1432, among the edges
of the target node; the end if nothing is found. -/
def partnerIdx (lt : List (Edge W M)) (n k : Nat) (e : Edge W M) : Nat :=
  if n = e.target then (List.range lt.length).findIdx fun i => decide (i ≠ k) && decide (lt[i]? = some e)
  else lt.findIdx fun f => decide (f.target = n) && decide (f.weight = e.weight)

/-- The position of the partner among the edges of the target node, Connectivity.hpp:1405-1437. -/
def partnerPos (s : Edges (Edge W M)) (n k : Nat) (e : Edge W M) : Res Nat :=
  match s[e.target]? with
  | none => .ub
  | some lt => if partnerIdx lt n k e < lt.length then .ok (partnerIdx lt n k e) else .throws

/-- `mutate_edge_weight` for undirected graphs without sharing, Connectivity.hpp:298-308: the function is applied to the
partner, then to the edge itself.  Simplification: the function is pure and its return value is dropped. -/
def mutateWeightUndirected (s : Edges (Edge W M)) (n k : Nat) (f : W → W) : Res (Edges (Edge W M)) :=
  match s[n]?.bind (·[k]?) with
  | none => .ub
  | some e => (partnerPos s n k e).bind fun p =>
    .ok (onEdge (onEdge s e.target p fun e => e.setWeight (f e.weight)) n k fun e => e.setWeight (f e.weight))

/-- `set_edge_weight` for undirected graphs without sharing, Connectivity.hpp:265-289: the partner is set to the new
weight, then the edge itself to the weight of the partner. -/
def setWeightUndirected (s : Edges (Edge W M)) (n k : Nat) (w : W) : Res (Edges (Edge W M)) :=
  match s[n]?.bind (·[k]?) with
  | none => .ub
  | some e => (partnerPos s n k e).bind fun p =>
    let s' := onEdge s e.target p fun e => e.setWeight w
    match s'[e.target]?.bind (·[p]?) with
    | none => .ub
    | some e' => .ok (onEdge s' n k fun e => e.setWeight e'.weight)

end undirected

/-- `set_edge_weight` for directed graphs, Connectivity.hpp:285-288. -/
def setWeightDirected {W M : Type} (s : Edges (Edge W M)) (n k : Nat) (w : W) : Res (Edges (Edge W M)) :=
  match s[n]?.bind (·[k]?) with
  | none => .ub
  | some _ => .ok (onEdge s n k fun e => e.setWeight w)

/-- `set_edge_meta_data`, Connectivity.hpp:317-322. -/
def setMeta {W M : Type} (s : Edges (Edge W M)) (n k : Nat) (m : M) : Res (Edges (Edge W M)) :=
  match s[n]?.bind (·[k]?) with
  | none => .ub
  | some _ => .ok (onEdge s n k fun e => { e with md := m })

/-! ### Embedded graphs -/
section embedded
variable {W M : Type}

/-- The lambda `setPartnerCompIndex` of `modify_comp_indices`, Connectivity.hpp:1557-1562. -/
def setComp (s : Edges (EEdge W M)) (n c : Nat) (f : Nat → Nat) : Res (Edges (EEdge W M)) :=
  match s[n]?.bind (·[c]?) with
  | none => .ub
  | some _ => .ok (onEdge s n c fun e => { e with comp := f e.comp })

/-- `modify_comp_indices`, Connectivity.hpp:1548-1584, for the `k` edges of node `n` starting at position `p`. -/
def modifyComp (f : Nat → Nat) (n : Nat) : Nat → Nat → Edges (EEdge W M) → Res (Edges (EEdge W M))
  | _, 0, s => .ok s
  | p, k + 1, s =>
    match s[n]?.bind (·[p]?) with
    | none => .ub
    | some e =>
      (if n ≠ e.target then setComp s e.target e.comp f
       else if f e.comp ≤ p then setComp s e.target e.comp f
       else setComp s e.target (f e.comp) f).bind fun s' => modifyComp f n (p + 1) k s'

/-- The function of `decrement_comp_indices`, Connectivity.hpp:1586-1590. -/
def dec (num c : Nat) : Nat := if num ≤ c then c - num else 0

/-- The number of edges at a node. -/
def degree {E : Type} (s : Edges E) (n : Nat) : Nat := match s[n]? with | some l => l.length | none => 0

/-- `decrement_comp_indices` from position `p` of node `n` to its end, Connectivity.hpp:1586-1590. -/
def decrement (num n p : Nat) (s : Edges (EEdge W M)) : Res (Edges (EEdge W M)) :=
  modifyComp (dec num) n p (degree s n - p) s

/-- `increment_comp_indices` on the positions `[p, q)` of node `n`, Connectivity.hpp:1592-1596. -/
def increment (n p q : Nat) (s : Edges (EEdge W M)) : Res (Edges (EEdge W M)) := modifyComp (· + 1) n p (q - p) s

/-- `join` for embedded graphs, Connectivity.hpp:681-707, with `add_to_partition`, 1529-1535, and `reciprocal_join`,
1470-1474. -/
def joinEmbedded (s : Edges (EEdge W M)) (i j : Nat) (w : W) (m₁ m₂ : M) : Res (Edges (EEdge W M)) :=
  if i < s.length ∧ j < s.length then
    let c := if i = j then degree s j + 1 else degree s j
    let s' := onNode s i (· ++ [⟨j, c, w, m₁⟩])
    .ok (onNode s' j (· ++ [⟨i, degree s' i - 1, w, m₂⟩]))
  else .throws

/-- `insert_to_partition` at position `p` of node `n`, Connectivity.hpp:1538-1546. -/
def insertHalf (s : Edges (EEdge W M)) (n p : Nat) (e : EEdge W M) : Res (Edges (EEdge W M)) :=
  let s' := onNode s n (·.insertIdx p e)
  increment n (p + 1) (degree s' n) s'

/-- `insert_join(citer1, pos2, ...)`, Connectivity.hpp:735-745, with `insert_reciprocal_join(citer1, pos2, ...)`,
1478-1505; the iterator is at position `p` of node `n`.  Yields also the positions of the two halves. -/
def insertJoinPos (s : Edges (EEdge W M)) (n p q : Nat) (w : W) (m₁ m₂ : M) : Res (Edges (EEdge W M) × Nat × Nat) :=
  match s[n]? with
  | none => .ub
  | some l =>
    if l.length < p then .ub
    else if l.length + 1 < q then .throws
    else (insertHalf s n p ⟨n, q, w, m₁⟩).bind fun s₁ =>
      let pos₁ := if q ≤ p then p + 1 else p
      let s₂ := onNode s₁ n (·.insertIdx q ⟨n, pos₁, w, m₂⟩)
      (if pos₁ < q then increment n (q + 1) (degree s₂ n) s₂
       else (increment n (q + 1) pos₁ s₂).bind fun s₃ => increment n (pos₁ + 1) (degree s₃ n) s₃).bind fun s₄ =>
      .ok (s₄, pos₁, q)

/-- `insert_join(citer1, citer2, ...)`, Connectivity.hpp:709-721, with `insert_reciprocal_join(citer1, citer2, ...)`,
1507-1521; the iterators are at position `p` of node `n` and position `q` of node `m`. -/
def insertJoin (s : Edges (EEdge W M)) (n p m q : Nat) (w : W) (m₁ m₂ : M) : Res (Edges (EEdge W M) × Nat × Nat) :=
  match s[n]?, s[m]? with
  | some l, some k =>
    if p ≤ l.length ∧ q ≤ k.length then
      if n = m then insertJoinPos s n p q w m₁ m₂
      else (insertHalf s n p ⟨m, q, w, m₁⟩).bind fun s₁ =>
        (insertHalf s₁ m q ⟨n, p, w, m₂⟩).bind fun s₂ => .ok (s₂, p, q)
    else .ub
  | _, _ => .ub

/-- `erase_from_partition` of one half followed by `decrement_comp_indices`, as in Connectivity.hpp:797-801 and
827-832. -/
def eraseHalf (s : Edges (EEdge W M)) (n k : Nat) : Res (Edges (EEdge W M)) :=
  decrement 1 n k (onNode s n (·.eraseIdx k))

/-- `erase_edge` for embedded graphs, Connectivity.hpp:761-840; the iterator is at position `k` of `n`. -/
def eraseEdgeEmbedded (s : Edges (EEdge W M)) (n k : Nat) : Res (Edges (EEdge W M)) :=
  if s.isEmpty then .ok s
  else match s[n]? with
  | none => .ub
  | some l => match l[k]? with
    | none => if k = l.length then .ok s else .ub
    | some e =>
      if n ≠ e.target then
        (eraseHalf s n k).bind fun s₁ =>
          if e.comp < degree s₁ e.target then eraseHalf s₁ e.target e.comp else .ub
      else if e.comp = k + 1 then
        decrement 2 n k (onNode s n fun l => l.take k ++ l.drop (k + 2))
      else if e.comp + 1 = k then
        decrement 2 n (k - 1) (onNode s n fun l => l.take (k - 1) ++ l.drop (k + 1))
      else
        let (a, b) := if e.comp < k then (k, e.comp) else (e.comp, k)
        if a < l.length then (eraseHalf s n a).bind fun s₁ => eraseHalf s₁ n b else .ub

/-- The loop over one partition in `erase_node` for embedded graphs, Connectivity.hpp:644-655: `fuel` bounds the number
of iterations by the size of the partition. -/
def eraseLoop (n : Nat) (part : Nat) : Nat → Nat → Edges (EEdge W M) → Res (Edges (EEdge W M))
  | 0, _, s => .ok s
  | fuel + 1, p, s =>
    match s[part]?.bind (·[p]?) with
    | none => .ok s
    | some e =>
      if e.target = n then (eraseHalf s part p).bind fun s' => eraseLoop n part fuel p s'
      else eraseLoop n part fuel (p + 1) s

/-- The loop over the partitions in `erase_node` for embedded graphs, Connectivity.hpp:638-661. -/
def eraseParts (n : Nat) : List Nat → Edges (EEdge W M) → Res (Edges (EEdge W M))
  | [], s => .ok s
  | p :: ps, s => if p < s.length then (eraseLoop n p (degree s p) 0 s).bind (eraseParts n ps) else .ub

/-- `erase_node` for embedded graphs, Connectivity.hpp:620-679. -/
def eraseNodeEmbedded (s : Edges (EEdge W M)) (n : Nat) : Res (Edges (EEdge W M)) :=
  match s[n]? with
  | some l => (eraseParts n (partitionsToVisit l n) s).bind fun s' => .ok (eraseSlotFix s' n)
  | none => .throws

/-- `mutate_edge_weight` for embedded graphs without sharing, Connectivity.hpp:298-308 and 1394-1403. -/
def mutateWeightEmbedded (s : Edges (EEdge W M)) (n k : Nat) (f : W → W) : Res (Edges (EEdge W M)) :=
  match s[n]?.bind (·[k]?) with
  | none => .ub
  | some e => match s[e.target]?.bind (·[e.comp]?) with
    | none => .ub
    | some _ => .ok (onEdge (onEdge s e.target e.comp fun e => e.setWeight (f e.weight)) n k
        fun e => e.setWeight (f e.weight))

/-- `set_edge_weight` for embedded graphs without sharing, Connectivity.hpp:265-289 and 1394-1403. -/
def setWeightEmbedded (s : Edges (EEdge W M)) (n k : Nat) (w : W) : Res (Edges (EEdge W M)) :=
  match s[n]?.bind (·[k]?) with
  | none => .ub
  | some e =>
    let s' := onEdge s e.target e.comp fun e => e.setWeight w
    match s'[e.target]?.bind (·[e.comp]?) with
    | none => .ub
    | some e' => .ok (onEdge s' n k fun e => e.setWeight e'.weight)

end embedded

/-! ### Graphs with node weights -/

/-- Calls made by users of a graph.  Iterators are given as a node and a position. -/
inductive Op (N W M E : Type) where
  | addNode (w : N)
  | insertNode (pos : Nat) (w : N)
  | eraseNode (n : Nat)
  | swapNodes (i j : Nat)
  | clear
  | join (i j : Nat) (w : W) (m₁ m₂ : M)
  | insertJoin (n p m q : Nat) (w : W) (m₁ m₂ : M)
  | insertJoinPos (n p q : Nat) (w : W) (m₁ m₂ : M)
  | eraseEdge (n k : Nat)
  | setWeight (n k : Nat) (w : W)
  | mutateWeight (n k : Nat) (f : W → W)
  | swapEdges (n i j : Nat)
  | sortEdges (lt : E → E → Bool) (n p m q : Nat)
  | stableSortEdges (lt : E → E → Bool) (n p m q : Nat)

/-- What is returned to the caller. -/
inductive Val where
  | unit
  | index (n : Nat)
  /-- two edge iterators: positions within given nodes -/
  | iters (n p m q : Nat)
  deriving DecidableEq, Repr

section steps
variable {N W M E : Type}

/-- An operation on the edges only. -/
def onEdges (g : G N E) (r : Res (Edges E)) : Outcome (G N E) Val :=
  match r with
  | .ok s => .ret ⟨g.nodes, s⟩ .unit
  | .throws => .threw g
  | .ub => .ub

/-- An operation on the edges only which yields the positions of two halves. -/
def onEdges2 (g : G N E) (n m : Nat) (r : Res (Edges E × Nat × Nat)) : Outcome (G N E) Val :=
  match r with
  | .ok (s, p, q) => .ret ⟨g.nodes, s⟩ (.iters n p m q)
  | .throws => .threw g
  | .ub => .ub

/-- `graph_primitive::insert_node`, GraphPrimitive.hpp:468-474 and 579-589 (no exception is thrown on insertion; for
that see Model/Rollback). -/
def G.insertNode [EdgeLike E] (g : G N E) (pos : Nat) (w : N) : Outcome (G N E) Val :=
  let node := min pos g.edges.length
  if node ≤ g.nodes.length then .ret ⟨g.nodes.insertIdx node w, Graph.insertNode g.edges node⟩ (.index node) else .ub

/-- `graph_primitive::erase_node`, GraphPrimitive.hpp:476-480, and `node_storage::erase_node`, NodeStorage.hpp:247-252. -/
def G.eraseNode (g : G N E) (n : Nat) (r : Res (Edges E)) : Outcome (G N E) Val :=
  match r with
  | .ok s => if n < g.nodes.length then .ret ⟨g.nodes.eraseIdx n, s⟩ .unit else .ub
  | .throws => .threw g
  | .ub => .ub

/-- `graph_primitive::swap_nodes`, GraphPrimitive.hpp:175-183, and `node_storage::swap_nodes`, NodeStorage.hpp:204-210;
should the connectivity throw after the weights have been swapped, that is not modelled. -/
def G.swapNodes (g : G N E) (i j : Nat) (r : Res (Edges E)) : Outcome (G N E) Val :=
  match g.nodes[i]?, g.nodes[j]? with
  | some a, some b =>
    match r with
    | .ok s => .ret ⟨(g.nodes.set i b).set j a, s⟩ .unit
    | _ => .ub
  | _, _ => .threw g

variable (stdSort : {α : Type} → (α → α → Bool) → List α → List α)

/-- The members of a directed graph.  `stdSort` stands for `std::ranges::sort`. -/
def directedStep (g : G N (Edge W M)) : Op N W M (Edge W M) → Outcome (G N (Edge W M)) Val
  | .addNode w => g.insertNode g.edges.length w
  | .insertNode pos w => g.insertNode pos w
  | .eraseNode n => g.eraseNode n (eraseNodeDirected g.edges n)
  | .swapNodes i j => g.swapNodes i j (swapNodesDirected g.edges i j)
  | .clear => .ret ⟨[], []⟩ .unit
  | .join i j w m _ => onEdges g (joinDirected g.edges i j w m)
  | .insertJoin .. => .ub
  | .insertJoinPos .. => .ub
  | .eraseEdge n k => onEdges g (eraseEdgeDirected g.edges n k)
  | .setWeight n k w => onEdges g (setWeightDirected g.edges n k w)
  | .mutateWeight n k f => onEdges g (match g.edges[n]?.bind (·[k]?) with
      | none => .ub
      | some _ => .ok (onEdge g.edges n k fun e => e.setWeight (f e.weight)))
  | .swapEdges n i j => onEdges g (swapEdges g.edges n i j)
  | .sortEdges lt n p m q => onEdges g (sortEdges (stdSort lt) g.edges n p m q)
  | .stableSortEdges lt n p m q => onEdges g (sortEdges (StableSort.stableSort lt) g.edges n p m q)

/-- The members of an undirected graph; `stdSort` stands for `std::ranges::sort`.  A member which the flavour does not
offer is out of contract. -/
def undirectedStep [DecidableEq W] [DecidableEq M] (g : G N (Edge W M)) :
    Op N W M (Edge W M) → Outcome (G N (Edge W M)) Val
  | .addNode w => g.insertNode g.edges.length w
  | .insertNode pos w => g.insertNode pos w
  | .eraseNode n => g.eraseNode n (eraseNodeUndirected g.edges n)
  | .swapNodes i j => g.swapNodes i j (swapNodesUndirected g.edges i j)
  | .clear => .ret ⟨[], []⟩ .unit
  | .join i j w m₁ m₂ => onEdges g (joinUndirected g.edges i j w m₁ m₂)
  | .insertJoin .. => .ub
  | .insertJoinPos .. => .ub
  | .eraseEdge n k => onEdges g (eraseEdgeUndirected g.edges n k)
  | .setWeight n k w => onEdges g (setWeightUndirected g.edges n k w)
  | .mutateWeight n k f => onEdges g (mutateWeightUndirected g.edges n k f)
  | .swapEdges n i j => onEdges g (swapEdges g.edges n i j)
  | .sortEdges lt n p m q => onEdges g (sortEdges (stdSort lt) g.edges n p m q)
  | .stableSortEdges lt n p m q => onEdges g (sortEdges (StableSort.stableSort lt) g.edges n p m q)

/-- The members of an embedded graph.  A member which the flavour does not offer is out of contract. -/
def embeddedStep (g : G N (EEdge W M)) : Op N W M (EEdge W M) → Outcome (G N (EEdge W M)) Val
  | .addNode w => g.insertNode g.edges.length w
  | .insertNode pos w => g.insertNode pos w
  | .eraseNode n => g.eraseNode n (eraseNodeEmbedded g.edges n)
  | .swapNodes i j => g.swapNodes i j (swapNodesUndirected g.edges i j)
  | .clear => .ret ⟨[], []⟩ .unit
  | .join i j w m₁ m₂ => onEdges g (joinEmbedded g.edges i j w m₁ m₂)
  | .insertJoin n p m q w m₁ m₂ => onEdges2 g n m (insertJoin g.edges n p m q w m₁ m₂)
  | .insertJoinPos n p q w m₁ m₂ => onEdges2 g n n (insertJoinPos g.edges n p q w m₁ m₂)
  | .eraseEdge n k => onEdges g (eraseEdgeEmbedded g.edges n k)
  | .setWeight n k w => onEdges g (setWeightEmbedded g.edges n k w)
  | .mutateWeight n k f => onEdges g (mutateWeightEmbedded g.edges n k f)
  | .swapEdges .. => .ub
  | .sortEdges .. => .ub
  | .stableSortEdges .. => .ub

end steps

end Verif.Graph
