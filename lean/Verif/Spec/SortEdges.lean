import Verif.Model.Graph
import Verif.Spec.Order
/-
What it means to reorder the edges of a node.
-/
namespace Verif.Spec.SortEdges
open Verif.Graph Verif.Spec

/-- Nodes, and the edges of all nodes except the given one, are the same. -/
def SameElsewhere {N E : Type} (g g' : G N E) (n : Nat) : Prop :=
  g'.nodes = g.nodes ∧ g'.edges.length = g.edges.length ∧ ∀ k, k ≠ n → g'.edges[k]? = g.edges[k]?

/-- What is in the positions from `p` up to, but not including, `q`. -/
def range {E : Type} (l : List E) (p q : Nat) : List E := (l.take q).drop p

/-- The positions from `p` up to, but not including, `q` have been sorted. -/
structure RangeSorted {E : Type} (lt : E → E → Bool) (l l' : List E) (p q : Nat) : Prop where
  length : l'.length = l.length
  outside : ∀ i, i < p ∨ q ≤ i → l'[i]? = l[i]?
  perm : (range l' p q).Perm (range l p q)
  sorted : Sorted lt (range l' p q)

/-- The positions `i` and `j` have been exchanged. -/
structure Exchanged {E : Type} (l l' : List E) (i j : Nat) : Prop where
  length : l'.length = l.length
  left : l'[i]? = l[j]?
  right : l'[j]? = l[i]?
  other : ∀ k, k ≠ i → k ≠ j → l'[k]? = l[k]?

/-- `std::ranges::sort` sorts. -/
def Sorts (stdSort : {α : Type} → (α → α → Bool) → List α → List α) : Prop :=
  ∀ (α : Type) (lt : α → α → Bool) (l : List α), StrictWeak lt → (stdSort lt l).Perm l ∧ Sorted lt (stdSort lt l)

end Verif.Spec.SortEdges
