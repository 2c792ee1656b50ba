import Verif.Model.Graph
import Verif.Model.Cluster
/-
Model of the initialisation of a graph from nested lists of edges:
`make_edges` of /repo/Source/sequoia/Maths/Graph/Connectivity.hpp:920-1284.

The standard algorithms `upper_bound` and `equal_range` are modelled by their documented effect on ranges which are
suitably partitioned; the ranges they are applied to are sorted.
-/
namespace Verif.Graph

/-- What is known at compile time about the weight type (`std::is_empty_v` and `std::totally_ordered` in
Connectivity.hpp:160, 956 and 1243). -/
inductive WeightKind (W : Type) where
  /-- Empty: weights are ignored. -/
  | empty
  /-- Totally ordered, by the given `operator<`. -/
  | ordered (lt : W → W → Bool)
  /-- Neither: only `operator==` is available. -/
  | equality

/-- The constant `clusterEdges`, Connectivity.hpp:956 and 1243. -/
def WeightKind.clusters {W : Type} : WeightKind W → Bool
  | .equality => true
  | _ => false

section undirected
variable {W M : Type} [DecidableEq W] [DecidableEq M]

/-- `edge_comparer`, Connectivity.hpp:151-169. -/
def edgeLess (k : WeightKind W) (e f : Edge W M) : Bool :=
  match k with
  | .ordered lt => if e.target = f.target then lt e.weight f.weight else decide (e.target < f.target)
  | _ => decide (e.target < f.target)

/-- `sequoia::cluster` on a block of edges with `weight() == weight()`, Connectivity.hpp:969-971.  (It cannot run out of
fuel, by C03.) -/
def clusterBlock (l : List (Edge W M)) : Res (List (Edge W M)) :=
  match Cluster.cluster (fun e f => decide (e.weight = f.weight)) (l.length + 1) (⟨l.toArray, by simp⟩ : Vector _ l.length) 0 with
  | some v => .ok v.toList
  | none => .ub

/-- The loop of `preprocess`, Connectivity.hpp:964-974: each block of edges with the same target is clustered.  The
block starts at the head of the list; a new iteration starts behind it. -/
def clusterBlocks : List (Edge W M) → Res (List (Edge W M))
  | [] => .ok []
  | e :: l =>
    (clusterBlock (e :: l.takeWhile fun f => decide (e.target = f.target))).bind fun b =>
    (clusterBlocks (l.dropWhile fun f => decide (e.target = f.target))).bind fun r => .ok (b ++ r)
termination_by l => l.length
decreasing_by
  have := (List.dropWhile_sublist (l := l) fun f => decide (e.target = f.target)).length_le
  simp only [List.length_cons]; omega

/-- One iteration of the loop of `preprocess`, Connectivity.hpp:958-976. -/
def preprocessNode (k : WeightKind W) (l : List (Edge W M)) : Res (List (Edge W M)) :=
  if k.clusters then clusterBlocks (StableSort.stableSort (edgeLess k) l) else .ok (StableSort.stableSort (edgeLess k) l)

/-- `preprocess` for undirected graphs, Connectivity.hpp:951-979. -/
def preprocess (k : WeightKind W) : Edges (Edge W M) → Res (Edges (Edge W M))
  | [] => .ok []
  | l :: s => (preprocessNode k l).bind fun l' => (preprocess k s).bind fun s' => .ok (l' :: s')

/-- What `visit_edges` does on reaching a block of edges: the callback for loops, with the node and the positions of
the block; the callback for links, with host, target, and the positions of the block at the host and at the target; a
failed check of the index range; or an infinite loop. -/
inductive Visit where
  | loop (node lo hi : Nat)
  | link (host target lo hi tlo thi : Nat)
  | outOfRange
  | stuck
  deriving DecidableEq, Repr

/-- `find_cluster_end`, Connectivity.hpp:1131-1135, as a position within the view. -/
def clusterEnd (l : List (Edge W M)) : Nat :=
  match l with
  | [] => 0
  | e :: _ => l.findIdx fun f => !decide (f = e)

/-- `upperIter` of `visit_edges`, Connectivity.hpp:1252-1253, for `lowerIter` at position `lo`, where the edge is `e`. -/
def blockEnd (k : WeightKind W) (l : List (Edge W M)) (lo : Nat) (e : Edge W M) : Nat :=
  let up := lo + (l.drop lo).findIdx fun f => edgeLess k e f
  if k.clusters then lo + clusterEnd ((l.take up).drop lo) else up

/-- `eqrange` of `visit_edges`, Connectivity.hpp:1263-1277: the edges of the target node `t` matching an edge `e` of node
`i`. -/
def matching (k : WeightKind W) (t : List (Edge W M)) (i : Nat) (e : Edge W M) : Nat × Nat :=
  let c : Edge W M := { e with target := i }
  let lo := t.findIdx fun f => !edgeLess k f c
  let hi := t.findIdx fun f => edgeLess k c f
  if k.clusters then
    let lo' := lo + ((t.take hi).drop lo).findIdx fun f => decide (f.weight = e.weight)
    (lo', lo' + clusterEnd ((t.take hi).drop lo'))
  else (lo, hi)

/-- The body of the inner loop of `visit_edges`, Connectivity.hpp:1255-1278, for a block of edges like `e`. -/
def blockVisit (k : WeightKind W) (s : Edges (Edge W M)) (i : Nat) (e : Edge W M) (lo up : Nat) : Visit :=
  if e.target = i then .loop i lo up
  else match s[e.target]? with
    | none => .outOfRange
    | some t => .link i e.target lo up (matching k t i e).1 (matching k t i e).2

/-- The inner loop of `visit_edges`, Connectivity.hpp:1249-1281, for node `i` with edges `l`, from position `lo`. -/
def visitNode (k : WeightKind W) (s : Edges (Edge W M)) (i : Nat) (l : List (Edge W M)) (lo : Nat) : List Visit :=
  if h : lo < l.length then
    let e := l[lo]
    let up := blockEnd k l lo e
    if _hup : lo < up then
      blockVisit k s i e lo up :: visitNode k s i l up
    else [.stuck]
  else []
termination_by l.length - lo
decreasing_by
  have : lo < blockEnd k l lo l[lo] := _hup
  omega

/-- `visit_edges`, Connectivity.hpp:1234-1284, node by node. -/
def visitEdges (k : WeightKind W) (s : Edges (Edge W M)) : List (List Visit) :=
  s.mapIdx fun i l => visitNode k s i l 0

/-- The checks of `validate` for one block, Connectivity.hpp:1100-1126: whether nothing is thrown. -/
def Visit.valid : Visit → Bool
  | .loop _ lo hi => (hi - lo) % 2 == 0
  | .link _ _ lo hi tlo thi => decide (thi - tlo ≠ 0) && decide (hi - lo = thi - tlo)
  | .outOfRange => false
  | .stuck => false

/-- `validate` for undirected graphs, Connectivity.hpp:1089-1129: the first block for which a check fails throws. -/
def validateUndirected (k : WeightKind W) (s : Edges (Edge W M)) : Res (Edges (Edge W M)) :=
  if (visitEdges k s).flatten.any (· == .stuck) then .ub
  else if (visitEdges k s).flatten.all Visit.valid then .ok s else .throws

/-- `make_edges` for undirected graphs without sharing, Connectivity.hpp:920-925, with the first `process_edges`,
1137-1143. -/
def makeUndirected (k : WeightKind W) (s : Edges (Edge W M)) : Res (Edges (Edge W M)) :=
  (preprocess k s).bind (validateUndirected k)

end undirected

/-- `validate` for directed graphs, Connectivity.hpp:1064-1083, and so `make_edges`. -/
def makeDirected {W M : Type} (s : Edges (Edge W M)) : Res (Edges (Edge W M)) :=
  if s.all fun l => l.all fun e => decide (e.target < s.length) then .ok s else .throws

/-- The checks of `validate` for one embedded edge `e` at position `k` of node `n`, Connectivity.hpp:987-1040 (with
`is_directed(flavour)` false): whether nothing is thrown. -/
def embeddedEdgeValid {W M : Type} [DecidableEq W] (s : Edges (EEdge W M)) (n k : Nat) (e : EEdge W M) : Bool :=
  match s[e.target]? with
  | none => false
  | some t =>
    match t[e.comp]? with
    | none => false
    | some e' =>
      if e.target = n ∧ e.comp = k then false
      else if e'.comp ≠ k then false
      else if e'.target ≠ n then false
      else decide (e.weight = e'.weight)

/-- `validate` for embedded graphs, Connectivity.hpp:981-1062, and so `make_edges` (without sharing). -/
def makeEmbedded {W M : Type} [DecidableEq W] (s : Edges (EEdge W M)) : Res (Edges (EEdge W M)) :=
  if (s.mapIdx fun n l => (l.mapIdx fun k e => embeddedEdgeValid s n k e).all id).all id then .ok s else .throws

end Verif.Graph
