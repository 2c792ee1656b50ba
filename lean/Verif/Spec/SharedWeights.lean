import Verif.Spec.Graph
import Verif.Model.SharedWeights
/-
What it means for the two halves of each edge to share a weight.  The half edges of a graph with shared weights hold the
address of a weight object.
-/
namespace Verif.Spec
open Verif.Graph Verif.Graph.EdgeLike

/-- Half edges which hold an address. -/
class HasAddr (E : Type) where
  addr : E → Nat

instance (M : Type) : HasAddr (Edge Nat M) := ⟨Edge.weight⟩
instance (M : Type) : HasAddr (EEdge Nat M) := ⟨EEdge.weight⟩

export HasAddr (addr)

/-- The number of half edges which refer to the weight object at address `a`. -/
def uses {E : Type} [HasAddr E] (s : Edges E) (a : Nat) : Nat := (s.map fun l => l.countP fun e => decide (addr e = a)).sum

/-- Weight objects are used by at most two half edges, and all of them have been allocated. -/
def AtMostTwo {E : Type} [HasAddr E] (next : Nat) (s : Edges E) : Prop :=
  ∀ a, uses s a ≤ 2 ∧ (next ≤ a → uses s a = 0)

/-- What a user sees of an undirected graph: the edges with the values of their weights. -/
def seen {W M : Type} (m : Mem W) (s : Edges (Edge Nat M)) : Edges (Edge W M) := s.map (·.map (Edge.see m))

/-- What a user sees of an embedded graph: the edges with the values of their weights. -/
def seenE {W M : Type} (m : Mem W) (s : Edges (EEdge Nat M)) : Edges (EEdge W M) := s.map (·.map (EEdge.see m))

/-- The half edge at `(n, k)` has precisely one other half: the one at `(t, p)`. It is at the target of the former, leads
back, and these two refer to one weight object, to which no other half edge refers. -/
structure SoleHalves {E : Type} [HasAddr E] [EdgeLike E] (s : Edges E) (n k t p : Nat) : Prop where
  ne : (t, p) ≠ (n, k)
  halves : ∃ e e', edgeAt s n k = some e ∧ edgeAt s t p = some e' ∧ target e = t ∧ target e' = n ∧ addr e' = addr e ∧
    ∀ i j f, edgeAt s i j = some f → addr f = addr e → (i, j) = (n, k) ∨ (i, j) = (t, p)

/-- Every half edge has precisely one other half. -/
def AllPaired {E : Type} [HasAddr E] [EdgeLike E] (s : Edges E) : Prop :=
  ∀ n k, ValidEdge s n k → ∃ t p, SoleHalves s n k t p

end Verif.Spec
