import Verif.Spec.Graph
/- Induced subgraphs. -/
namespace Verif.Spec
open Verif.Graph EdgeLike

/-- The graph induced on the nodes satisfying `keep`: they stay in order, and so do the edges between them, whose targets
are renumbered. -/
def inducedOn {E : Type} [EdgeLike E] (s : Edges E) (keep : Nat → Bool) : Edges E :=
  (keepIdx keep s).map fun l => relabel (rank keep) (l.filter fun e => keep (target e))

/-- The embedded graph induced on the nodes satisfying `keep`: as `inducedOn`, and the complementary index of each edge
becomes the number of edges kept before its other half. -/
def inducedOnE {W M : Type} (s : Edges (EEdge W M)) (keep : Nat → Bool) : Edges (EEdge W M) :=
  (keepIdx keep s).map fun l => (l.filter fun e => keep e.target).map fun e =>
    { e with
      target := rank keep e.target
      comp := match s[e.target]? with
        | some t => (t.take e.comp).countP fun e' => keep e'.target
        | none => 0 }

/-- The weight of the node with a given index satisfies `pred`. -/
def keeps {N : Type} (nodes : List N) (pred : N → Bool) (i : Nat) : Bool := match nodes[i]? with
  | some w => pred w
  | none => false

end Verif.Spec
