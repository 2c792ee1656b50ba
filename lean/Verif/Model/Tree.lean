import Verif.Model.Graph
/-
Model of /repo/Source/sequoia/Maths/Graph/DynamicTree.hpp and of the members of GraphPrimitive.hpp used there only.
-/
namespace Verif.Graph
open EdgeLike

/-- The kinds of tree: `directed_tree` with each `tree_link_direction`, DynamicTree.hpp:157-190, and `undirected_tree`,
DynamicTree.hpp:192-226. -/
inductive TreeKind where
  | forward
  | backward
  | symmetric
  | undirected
  deriving DecidableEq, Repr

section
variable {N W M : Type} [DecidableEq W] [DecidableEq M]

/-- `erase_node` of the underlying graph. -/
def eraseNodeOf (kind : TreeKind) (s : Edges (Edge W M)) (n : Nat) : Res (Edges (Edge W M)) :=
  if kind = .undirected then eraseNodeUndirected s n else eraseNodeDirected s n

/-- `swap_nodes` of the underlying graph. -/
def swapNodesOf (kind : TreeKind) (s : Edges (Edge W M)) (i j : Nat) : Res (Edges (Edge W M)) :=
  if kind = .undirected then swapNodesUndirected s i j else swapNodesDirected s i j

/-- The first call to `join` in `insert_node_to_tree`, GraphPrimitive.hpp:495-498; `dw` and `dm` are the
default-constructed weight and meta data. -/
def joinUp (kind : TreeKind) (dw : W) (dm : M) (s : Edges (Edge W M)) (n parent : Nat) : Res (Edges (Edge W M)) :=
  if kind = .backward ∨ kind = .symmetric then joinDirected s n parent dw dm else .ok s

/-- The second call to `join` in `insert_node_to_tree`, GraphPrimitive.hpp:500-503. -/
def joinDown (kind : TreeKind) (dw : W) (dm : M) (s : Edges (Edge W M)) (n parent : Nat) : Res (Edges (Edge W M)) :=
  if kind = .backward then .ok s
  else if kind = .undirected then joinUndirected s parent n dw dm dm
  else joinDirected s parent n dw dm

/-- `insert_node_to_tree`, GraphPrimitive.hpp:488-507. -/
def insertNodeToTree (kind : TreeKind) (dw : W) (dm : M) (g : G N (Edge W M)) (pos parent : Nat) (w : N) :
    Outcome (G N (Edge W M)) Val :=
  match g.insertNode pos w with
  | .ret g₁ (.index n) =>
    if 1 < g₁.edges.length then
      match joinUp kind dw dm g₁.edges n parent with
      | .ok e₂ =>
        match joinDown kind dw dm e₂ n parent with
        | .ok e₃ => .ret ⟨g₁.nodes, e₃⟩ (.index n)
        | .throws => .threw ⟨g₁.nodes, e₂⟩
        | .ub => .ub
      | .throws => .threw g₁
      | .ub => .ub
    else .ret g₁ (.index n)
  | .ret .. => .ub
  | .threw g₁ => .threw g₁
  | .ub => .ub

/-- `add_node_to_tree`, GraphPrimitive.hpp:509-513. -/
def addNodeToTree (kind : TreeKind) (dw : W) (dm : M) (g : G N (Edge W M)) (parent : Nat) (w : N) :
    Outcome (G N (Edge W M)) Val :=
  insertNodeToTree kind dw dm g g.edges.length parent w

/-- A list of `tree_initializer`s, GraphPrimitive.hpp:82-94: the first tree with its weight and children, and the others. -/
inductive TreeInits (N : Type) where
  | nil
  | cons (w : N) (children rest : TreeInits N)

/-- The loop of `build_tree`, GraphPrimitive.hpp:553-557; the nested call does not add a node, since its root exists. -/
def buildChildren (kind : TreeKind) (dw : W) (dm : M) : TreeInits N → Nat → G N (Edge W M) → Outcome (G N (Edge W M)) Unit
  | .nil, _, g => .ret g ()
  | .cons w cs rest, root, g =>
    match addNodeToTree kind dw dm g root w with
    | .ret g₁ (.index n) =>
      match buildChildren kind dw dm cs n g₁ with
      | .ret g₂ _ => buildChildren kind dw dm rest root g₂
      | .threw g₂ => .threw g₂
      | .ub => .ub
    | .ret .. => .ub
    | .threw g₁ => .threw g₁
    | .ub => .ub

/-- Construction from a `tree_initializer`, GraphPrimitive.hpp:162-165 and 547-571. -/
def buildTree (kind : TreeKind) (dw : W) (dm : M) (w : N) (children : TreeInits N) : Outcome (G N (Edge W M)) Unit :=
  match (⟨[], []⟩ : G N (Edge W M)).insertNode 0 w with
  | .ret g (.index n) => buildChildren kind dw dm children n g
  | _ => .ub

/-- `prune` for forward trees, DynamicTree.hpp:95-104 (`sym = false`), and for symmetric trees, 106-117 (`sym = true`).
Calls are given fuel; `none` says that it has run out. -/
def pruneDown (er : Edges (Edge W M) → Nat → Res (Edges (Edge W M))) (sym : Bool) :
    Nat → G N (Edge W M) → Nat → Option (Outcome (G N (Edge W M)) Val)
  | 0, _, _ => none
  | fuel + 1, g, node =>
    match g.edges[node]? with
    | none => some (.threw g)
    | some l =>
      if (if sym ∧ node ≠ 0 then 1 else 0) < l.length then
        match l.getLast? with
        | none => some .ub
        | some e =>
          match pruneDown er sym fuel g e.target with
          | some (.ret g' _) => pruneDown er sym fuel g' node
          | r => r
      else some (g.eraseNode node (er g.edges node))

/-- The recursive part of `prune` for backward trees, DynamicTree.hpp:138-152. -/
def markUp (s : Edges (Edge W M)) : Nat → Nat → List Bool → Option (Res (List Bool))
  | 0, _, _ => none
  | fuel + 1, node, td =>
    match s[node]? with
    | none => some .throws
    | some [] => some (.ok td)
    | some (e :: _) =>
      match td[e.target]? with
      | none => some .ub
      | some true => some (.ok (td.set node true))
      | some false =>
        match markUp s fuel e.target td with
        | some (.ok td') =>
          match td'[e.target]? with
          | none => some .ub
          | some true => some (.ok (td'.set node true))
          | some false => some (.ok td')
        | r => r

/-- The first loop of `prune` for backward trees, DynamicTree.hpp:126-129. -/
def markAll (s : Edges (Edge W M)) (fuel : Nat) : List Nat → List Bool → Option (Res (List Bool))
  | [], td => some (.ok td)
  | i :: is, td =>
    match td[i]? with
    | none => some .ub
    | some true => markAll s fuel is td
    | some false =>
      match markUp s fuel i td with
      | some (.ok td') => markAll s fuel is td'
      | r => r

/-- The second loop of `prune` for backward trees, DynamicTree.hpp:131-136: `j` nodes remain to be looked at. -/
def eraseMarked (td : List Bool) : Nat → G N (Edge W M) → Outcome (G N (Edge W M)) Val
  | 0, g => .ret g .unit
  | j + 1, g =>
    match td[j]? with
    | none => .ub
    | some false => eraseMarked td j g
    | some true =>
      match g.eraseNode j (eraseNodeDirected g.edges j) with
      | .ret g' _ => eraseMarked td j g'
      | r => r

/-- `prune` for backward trees, DynamicTree.hpp:119-136. -/
def pruneBackward (fuel : Nat) (g : G N (Edge W M)) (node : Nat) : Option (Outcome (G N (Edge W M)) Val) :=
  if node < g.edges.length then
    match markAll g.edges fuel (List.range g.edges.length) ((List.replicate g.edges.length false).set node true) with
    | some (.ok td) => some (eraseMarked td g.edges.length g)
    | some .throws => some (.threw g)
    | some .ub => some .ub
    | none => none
  else some (.ret g .unit)

/-- `prune`, DynamicTree.hpp:79-82. -/
def prune (kind : TreeKind) (fuel : Nat) (g : G N (Edge W M)) (node : Nat) : Option (Outcome (G N (Edge W M)) Val) :=
  match kind with
  | .forward => pruneDown (eraseNodeOf .forward) false fuel g node
  | .backward => pruneBackward fuel g node
  | .symmetric => pruneDown (eraseNodeOf .symmetric) true fuel g node
  | .undirected => pruneDown (eraseNodeOf .undirected) true fuel g node

/-- The mutating members of a tree, DynamicTree.hpp:64-88, except `sort_nodes` and `prune`. -/
inductive TreeOp (N W M : Type) where
  | addNode (parent : Nat) (w : N)
  | insertNode (pos parent : Nat) (w : N)
  | swapEdges (n i j : Nat)
  | sortEdges (lt : Edge W M → Edge W M → Bool) (n p m q : Nat)
  | stableSortEdges (lt : Edge W M → Edge W M → Bool) (n p m q : Nat)
  | swapNodes (i j : Nat)

/-- One call.  `stdSort` stands for `std::ranges::sort`. -/
def treeStep (stdSort : {α : Type} → (α → α → Bool) → List α → List α) (kind : TreeKind) (dw : W) (dm : M)
    (g : G N (Edge W M)) : TreeOp N W M → Outcome (G N (Edge W M)) Val
  | .addNode parent w => addNodeToTree kind dw dm g parent w
  | .insertNode pos parent w => insertNodeToTree kind dw dm g pos parent w
  | .swapEdges n i j => onEdges g (swapEdges g.edges n i j)
  | .sortEdges lt n p m q => onEdges g (sortEdges (stdSort lt) g.edges n p m q)
  | .stableSortEdges lt n p m q => onEdges g (sortEdges (StableSort.stableSort lt) g.edges n p m q)
  | .swapNodes i j => g.swapNodes i j (swapNodesOf kind g.edges i j)

end
end Verif.Graph
