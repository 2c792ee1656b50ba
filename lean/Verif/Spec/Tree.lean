import Verif.Spec.SubGraph
import Verif.Model.Tree
/- Rooted trees. -/
namespace Verif.Spec
open Verif.Graph EdgeLike

/-- Node `p` is the parent of node `c`, where `par` gives the parents of all nodes but the root. -/
def IsParent (root : Nat) (par : Nat → Nat) (p c : Nat) : Prop := c ≠ root ∧ par c = p

instance (root : Nat) (par : Nat → Nat) (p c : Nat) : Decidable (IsParent root par p c) := by
  unfold IsParent; infer_instance

/-- Going up from a node leads to `n`: the node is `n` or one of its descendants. -/
inductive Below (root : Nat) (par : Nat → Nat) (n : Nat) : Nat → Prop
  | self : Below root par n n
  | up {x : Nat} : x ≠ root → Below root par n (par x) → Below root par n x

/-- The number of edges from `a` to `b`. -/
def links {E : Type} [EdgeLike E] (s : Edges E) (a b : Nat) : Nat := match s[a]? with
  | some l => l.countP fun e => decide (target e = b)
  | none => 0

/-- Which links are stored: from parents to children, unless the tree is backward; from children to parents, unless it
is forward. -/
def downwards : TreeKind → Bool
  | .backward => false
  | _ => true
def upwards : TreeKind → Bool
  | .forward => false
  | _ => true

/-- The nodes form a tree with the given root and parents: going up from any node leads to the root, and the edges are
one from each parent to each of its children and/or one from each child to its parent. -/
structure TreeOf (kind : TreeKind) {E : Type} [EdgeLike E] (s : Edges E) (root : Nat) (par : Nat → Nat) : Prop where
  root_lt : root < s.length
  par_lt : ∀ x < s.length, x ≠ root → par x < s.length
  descends : ∀ x < s.length, Below root par root x
  inRange : InRange s
  edges : ∀ a < s.length, ∀ b < s.length, links s a b =
    (if downwards kind = true ∧ IsParent root par a b then 1 else 0) + (if upwards kind = true ∧ IsParent root par b a then 1 else 0)

/-- The empty tree or a proper one. -/
def IsTree (kind : TreeKind) {E : Type} [EdgeLike E] (s : Edges E) : Prop := s = [] ∨ ∃ root par, TreeOf kind s root par

/-- The numbering which arises from adding nodes at the end: parents come before their children. -/
def ParentsBefore (n root : Nat) (par : Nat → Nat) : Prop := ∀ x < n, x ≠ root → par x < x

/-- The first edge of every node but the root leads to its parent. -/
def ParentFirst {E : Type} [EdgeLike E] (s : Edges E) (root : Nat) (par : Nat → Nat) : Prop :=
  ∀ x < s.length, x ≠ root → ∃ e, edgeAt s x 0 = some e ∧ target e = par x

/-- The parents after a node has been inserted at `n` as a child of `p`, where `p` is its index after the insertion. -/
def parentsWith (par : Nat → Nat) (n p : Nat) (x : Nat) : Nat := if x = n then p else raise n (par (lower n x))

/-- Calls which name a node of the tree as parent, other than the position of insertion, and valid iterators. -/
def InTreeContract {N W M : Type} (g : G N (Edge W M)) : TreeOp N W M → Prop
  | .addNode parent _ => g.edges = [] ∨ parent < g.edges.length
  | .insertNode pos parent _ => g.edges = [] ∨ parent ≤ g.edges.length ∧ parent ≠ min pos g.edges.length
  | .swapEdges _ _ _ => True
  | .sortEdges lt n p m q => StrictWeak lt ∧ ValidIter g.edges n p ∧ ValidIter g.edges m q ∧ (n = m → p ≤ q)
  | .stableSortEdges lt n p m q => StrictWeak lt ∧ ValidIter g.edges n p ∧ ValidIter g.edges m q ∧ (n = m → p ≤ q)
  | .swapNodes _ _ => True

end Verif.Spec

namespace Verif.Spec
open Verif.Graph EdgeLike

/-- Trees listed depth first, parents before children: the weight of each node with the index of its parent, where the
first node listed gets index `next`. -/
def depthFirst {N : Type} : TreeInits N → Nat → Nat → List (N × Nat)
  | .nil, _, _ => []
  | .cons w cs rest, parent, next =>
    (w, parent) :: depthFirst cs next (next + 1) ++ depthFirst rest parent (next + 1 + (depthFirst cs next (next + 1)).length)

/-- Trees made by initialization, by adding nodes, by pruning and, in forward trees, by rearranging edges. -/
inductive Grown {N W M : Type} [DecidableEq W] [DecidableEq M] (stdSort : {α : Type} → (α → α → Bool) → List α → List α) (kind : TreeKind)
    (dw : W) (dm : M) : G N (Edge W M) → Prop
  | empty : Grown stdSort kind dw dm ⟨[], []⟩
  | built {w : N} {children : TreeInits N} {g : G N (Edge W M)} : buildTree kind dw dm w children = .ret g () → Grown stdSort kind dw dm g
  | added {g g' : G N (Edge W M)} {parent : Nat} {w : N} {v : Val} : Grown stdSort kind dw dm g → InTreeContract g (.addNode parent w) →
      treeStep stdSort kind dw dm g (.addNode parent w) = .ret g' v → Grown stdSort kind dw dm g'
  | pruned {g g' : G N (Edge W M)} {n fuel : Nat} {v : Val} : Grown stdSort kind dw dm g → prune kind fuel g n = some (.ret g' v) →
      Grown stdSort kind dw dm g'
  | swapped {g g' : G N (Edge W M)} {n i j : Nat} {v : Val} : kind = .forward → Grown stdSort kind dw dm g →
      treeStep stdSort kind dw dm g (.swapEdges n i j) = .ret g' v → Grown stdSort kind dw dm g'
  | sorted {g g' : G N (Edge W M)} {lt : Edge W M → Edge W M → Bool} {n p m q : Nat} {v : Val} : kind = .forward →
      Grown stdSort kind dw dm g → InTreeContract g (.sortEdges lt n p m q : TreeOp N W M) →
      treeStep stdSort kind dw dm g (.sortEdges lt n p m q) = .ret g' v → Grown stdSort kind dw dm g'
  | stableSorted {g g' : G N (Edge W M)} {lt : Edge W M → Edge W M → Bool} {n p m q : Nat} {v : Val} : kind = .forward →
      Grown stdSort kind dw dm g → InTreeContract g (.stableSortEdges lt n p m q : TreeOp N W M) →
      treeStep stdSort kind dw dm g (.stableSortEdges lt n p m q) = .ret g' v → Grown stdSort kind dw dm g'

/-- Backward trees made in any way. -/
inductive GrownBackward {N W M : Type} [DecidableEq W] [DecidableEq M] (stdSort : {α : Type} → (α → α → Bool) → List α → List α)
    (dw : W) (dm : M) : G N (Edge W M) → Prop
  | empty : GrownBackward stdSort dw dm ⟨[], []⟩
  | built {w : N} {children : TreeInits N} {g : G N (Edge W M)} : buildTree .backward dw dm w children = .ret g () →
      GrownBackward stdSort dw dm g
  | called {g g' : G N (Edge W M)} {o : TreeOp N W M} {v : Val} : GrownBackward stdSort dw dm g → InTreeContract g o →
      treeStep stdSort .backward dw dm g o = .ret g' v → GrownBackward stdSort dw dm g'
  | pruned {g g' : G N (Edge W M)} {n fuel : Nat} {v : Val} : GrownBackward stdSort dw dm g →
      prune .backward fuel g n = some (.ret g' v) → GrownBackward stdSort dw dm g'

end Verif.Spec
