import Verif.Model.Rollback
import Verif.Model.Tree
/-
Operations of /repo/Source/sequoia/Maths/Graph/GraphPrimitive.hpp which change both the edges and the node weights, when they
fail part way: assignment, `swap_nodes`, `erase_node` and the insertion of nodes into trees.

For assignment, a number says how many allocations and copies of edges and of weights succeed before one fails.  Elsewhere a
`Bool` for each place says whether there is a failure.  Everything else does not fail.  Node weights are not of an empty type.
-/
namespace Verif.Graph
open EdgeLike

/-- How an assignment ends; `terminated` is a call of `std::terminate`. -/
inductive Assigned (σ : Type) where
  | done (g : σ)
  | threw (g : σ)
  | terminated
  deriving DecidableEq, Repr

/-- An allocation or the copy of one element, when `k` more of them succeed. -/
def spend : Nat → Option Nat
  | 0 => none
  | k + 1 => some k

/-- The elements of a `std::vector` are copied one by one. -/
def copyElements {α β : Type} (copy : Nat → α → Option (β × Nat)) : Nat → List α → Option (List β × Nat)
  | k, [] => some ([], k)
  | k, a :: l => (copy k a).bind fun (b, k₁) => (copyElements copy k₁ l).map fun (bs, k₂) => (b :: bs, k₂)

/-- A copy of a `std::vector`: nothing is allocated for an empty one. -/
def copyVector {α β : Type} (copy : Nat → α → Option (β × Nat)) (k : Nat) (l : List α) : Option (List β × Nat) :=
  if l.isEmpty then some ([], k) else (spend k).bind fun k₁ => copyElements copy k₁ l

/-- A copy of an edge or of a node weight. -/
def copyElement {α : Type} (k : Nat) (a : α) : Option (α × Nat) := (spend k).map fun k₁ => (a, k₁)

/-- The first step of `assignment_helper::assign`, AssignmentUtilities.hpp:77 and 83, for bucketed storage and weights which are not shared:
a copy of the edges, Connectivity.hpp:212-214 and 372-376. -/
def copyEdges {E : Type} (k : Nat) (s : Edges E) : Option (Edges E × Nat) := copyVector (copyVector copyElement) k s

section
variable {N E : Type}

/-- The copy assignment of `node_storage`, NodeStorage.hpp:282, which is `noexcept`: the weights are copied anew. -/
def assignNodes (k : Nat) (source : List N) : Option (List N) := (copyVector copyElement k source).map Prod.fst

/-- The copy assignment of `graph_primitive`, GraphPrimitive.hpp:420: the bases in turn, namely the connectivity, Connectivity.hpp:389-414, with
AssignmentUtilities.hpp:72-102, and the node weights.  `same` says whether the graph is assigned to itself. -/
def assignGraph (same : Bool) (k : Nat) (g source : G N E) : Assigned (G N E) :=
  if same then .done g
  else match copyEdges k source.edges with
  | none => .threw g
  | some (edges, k₁) =>
    let g₁ : G N E := ⟨g.nodes, edges⟩
    match assignNodes k₁ source.nodes with
    | none => .terminated
    | some nodes => .done ⟨nodes, g₁.edges⟩

/-- `swap`, GraphPrimitive.hpp:422-427, for equal allocators. -/
def swapGraphs (g h : G N E) : G N E × G N E :=
  let (ge, he) := (h.edges, g.edges)
  let (gn, hn) := (h.nodes, g.nodes)
  (⟨gn, ge⟩, ⟨hn, he⟩)

/-- `clear`, GraphPrimitive.hpp:482-486. -/
def clearGraph (g : G N E) : G N E :=
  let g₁ : G N E := ⟨[], g.edges⟩
  ⟨g₁.nodes, []⟩

/-- `swap_nodes`, GraphPrimitive.hpp:175-183: first the weights, NodeStorage.hpp:204-210, and then the edges.  `f` says whether the allocation of the list of
targets, Connectivity.hpp:459-460, fails; there is none if `i` and `j` are the same or the graph is directed. -/
def G.swapNodesF (directed f : Bool) (g : G N E) (i j : Nat) (r : Res (Edges E)) : Outcome (G N E) Val :=
  match g.nodes[i]?, g.nodes[j]? with
  | some a, some b =>
    let nodes := (g.nodes.set i b).set j a
    if f && !directed && decide (i ≠ j) then .threw ⟨nodes, g.edges⟩
    else match r with
    | .ok s => .ret ⟨nodes, s⟩ .unit
    | .throws => .threw ⟨nodes, g.edges⟩
    | .ub => .ub
  | _, _ => .threw g

/-- `std::vector::erase`, when the assignment of the weights after `n` to their new places fails after `k` of them: the place at which it fails is
left with some value `x`. -/
def eraseFailing (l : List N) (n k : Nat) (x : N) : List N := l.take n ++ (l.drop (n + 1)).take k ++ x :: l.drop (n + k + 1)

/-- `erase_node`, GraphPrimitive.hpp:476-480: first the edges, then the weights.  `f₁` says whether the allocation of the list of nodes to visit, Connectivity.hpp:621-627,
fails; there is none if the graph is directed.  `f₂` says after how many assignments of weights one of them fails, and what it leaves behind. -/
def G.eraseNodeF (directed f₁ : Bool) (f₂ : Option (Nat × N)) (g : G N E) (n : Nat) (r : Res (Edges E)) : Outcome (G N E) Val :=
  if g.edges.length ≤ n then .threw g
  else if f₁ && !directed then .threw g
  else match r with
  | .ub => .ub
  | .throws => .threw g
  | .ok s =>
    if n < g.nodes.length then
      match f₂ with
      | some (k, x) => if n + k + 1 < g.nodes.length then .threw ⟨eraseFailing g.nodes n k x, s⟩ else .ret ⟨g.nodes.eraseIdx n, s⟩ .unit
      | none => .ret ⟨g.nodes.eraseIdx n, s⟩ .unit
    else .ub

end

section
variable {N W M : Type} [DecidableEq W] [DecidableEq M]

/-- The failures when a node is inserted into a tree: of the node weight, of the slot for its edges, of the edge to the parent and of either half of
the edge from the parent. -/
structure TreeFaults where
  weight : Bool
  slot : Bool
  up : Bool
  down₁ : Bool
  down₂ : Bool
  deriving DecidableEq, Repr

/-- The first call to `join` in `insert_node_to_tree`, GraphPrimitive.hpp:495-498. -/
def joinUpF (f : TreeFaults) (kind : TreeKind) (dw : W) (dm : M) (s : Edges (Edge W M)) (n parent : Nat) : Outcome (Edges (Edge W M)) Unit :=
  if kind = .backward ∨ kind = .symmetric then joinDirectedF f.up s n parent dw dm else .ret s ()

/-- The second call to `join` in `insert_node_to_tree`, GraphPrimitive.hpp:500-503. -/
def joinDownF (f : TreeFaults) (kind : TreeKind) (dw : W) (dm : M) (s : Edges (Edge W M)) (n parent : Nat) : Outcome (Edges (Edge W M)) Unit :=
  if kind = .backward then .ret s ()
  else if kind = .undirected then joinUndirectedF f.down₁ f.down₂ s parent n dw dm dm
  else joinDirectedF f.down₁ s parent n dw dm

/-- `insert_node_to_tree`, GraphPrimitive.hpp:488-507. -/
def insertNodeToTreeF (f : TreeFaults) (kind : TreeKind) (dw : W) (dm : M) (g : G N (Edge W M)) (pos parent : Nat) (w : N) :
    Outcome (G N (Edge W M)) Val :=
  match g.insertNodeF f.weight f.slot pos w with
  | .ret g₁ (.index n) =>
    if 1 < g₁.edges.length then
      match joinUpF f kind dw dm g₁.edges n parent with
      | .ret e₂ _ =>
        match joinDownF f kind dw dm e₂ n parent with
        | .ret e₃ _ => .ret ⟨g₁.nodes, e₃⟩ (.index n)
        | .threw e₃ => .threw ⟨g₁.nodes, e₃⟩
        | .ub => .ub
      | .threw e₂ => .threw ⟨g₁.nodes, e₂⟩
      | .ub => .ub
    else .ret g₁ (.index n)
  | .ret .. => .ub
  | .threw g₁ => .threw g₁
  | .ub => .ub

end
end Verif.Graph
