import Verif.Model.Graph
/-
Model of the operations on the meta data of edges, of the operations which address an edge by a reverse iterator and of `mutate_edge_weight` with functions which have a state,
/repo/Source/sequoia/Maths/Graph/Connectivity.hpp:265-345 and 1367-1455.
-/
namespace Verif.MetaData
open Verif.Graph

section
variable {W M σ R : Type}

/-- `set_edge_meta_data` for embedded graphs, Connectivity.hpp:317-322; for the others see `setMeta` in Model/Graph. -/
def setMetaEmbedded (s : Edges (EEdge W M)) (n k : Nat) (m : M) : Res (Edges (EEdge W M)) :=
  match s[n]?.bind (·[k]?) with
  | none => .ub
  | some _ => .ok (onEdge s n k fun e => { e with md := m })

/-- `mutate_edge_meta_data`, Connectivity.hpp:332-337 and Edge.hpp:270-274: the function changes the meta data and its result is returned. -/
def mutateMeta (s : Edges (Edge W M)) (n k : Nat) (f : M → M × R) : Res (Edges (Edge W M) × R) :=
  match s[n]?.bind (·[k]?) with
  | none => .ub
  | some e => .ok (onEdge s n k fun e => { e with md := (f e.md).1 }, (f e.md).2)

def mutateMetaEmbedded (s : Edges (EEdge W M)) (n k : Nat) (f : M → M × R) : Res (Edges (EEdge W M) × R) :=
  match s[n]?.bind (·[k]?) with
  | none => .ub
  | some e => .ok (onEdge s n k fun e => { e with md := (f e.md).1 }, (f e.md).2)

/-- `to_const_edge_iterator`, Connectivity.hpp:1367-1372: the position for a reverse iterator which has been advanced `r` times from `crbegin_edges(n)`.  The iterator before the first edge, which is what one gets for `crend_edges(n)`,
must not be formed. -/
def fromReverse {E : Type} (s : Edges E) (n r : Nat) : Res Nat :=
  match s[n]? with
  | none => .ub
  | some l => if r ≤ l.length then if l.length - r = 0 then .ub else .ok (l.length - r - 1) else .ub

/-- An operation which is given a reverse iterator, Connectivity.hpp:291-296, 310-315, 324-329 and 340-345. -/
def viaReverse {E A : Type} (s : Edges E) (n r : Nat) (op : Nat → Res A) : Res A := (fromReverse s n r).bind op

/-- `mutate_edge_weight` for undirected graphs without sharing, Connectivity.hpp:298-308, with a function whose result depends on a state which its copies share: it is called for the partner first. -/
def mutateWeightShared [DecidableEq W] [DecidableEq M] (s : Edges (Edge W M)) (n k : Nat) (f : σ → W → σ × W) (st : σ) : Res (Edges (Edge W M) × σ) :=
  match s[n]?.bind (·[k]?) with
  | none => .ub
  | some e => (partnerPos s n k e).bind fun p =>
    match s[e.target]?.bind (·[p]?) with
    | none => .ub
    | some e' =>
      let first := f st e'.weight
      let second := f first.1 e.weight
      .ok (onEdge (onEdge s e.target p fun x => x.setWeight first.2) n k fun x => x.setWeight second.2, second.1)

end
end Verif.MetaData
