import Verif.Model.NodeWeights
import Verif.Spec.Graph
/-
What the weights of nodes are meant to be: a list, indexed by the nodes.
-/
namespace Verif.Spec.NodeWeights
open Verif.Graph Verif.NodeWeights

variable {N W M E : Type}

/-- What a call does to the weights. -/
def after (ws : List N) : NodeOp N (Op N W M E) → List N
  | .call (.addNode w) => ws ++ [w]
  | .call (.insertNode pos w) => ws.take pos ++ w :: ws.drop pos
  | .call (.eraseNode n) => ws.take n ++ ws.drop (n + 1)
  | .call (.swapNodes i j) => match ws[i]?, ws[j]? with
    | some a, some b => (ws.set i b).set j a
    | _, _ => ws
  | .call .clear => []
  | .setWeight n w => ws.mapIdx fun i v => if i = n then w else v
  | .mutateWeight n f => ws.mapIdx fun i w => if i = n then f w else w
  | .call _ => ws

/-- Calls as in `InContract`; the iterators to weights are valid, including the one to the end. -/
def NodeContract (fl : Spec.Flavour) (g : G N E) : NodeOp N (Op N W M E) → Prop
  | .call o => InContract fl g o
  | .setWeight n _ => n ≤ g.nodes.length
  | .mutateWeight n _ => n ≤ g.nodes.length

end Verif.Spec.NodeWeights
