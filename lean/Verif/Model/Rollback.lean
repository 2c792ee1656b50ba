import Verif.Model.Graph
/-
Operations of /repo/Source/sequoia/Maths/Graph/Connectivity.hpp and GraphPrimitive.hpp which may fail part way, because
memory runs out or because a weight throws when constructed, copied or assigned.

Each place at which this can happen is given by a `Bool`, which is `true` if the failure occurs.  A failing insertion into the
edge storage or the node storage leaves that storage as it was: this is what `std::vector` guarantees for insertion at the
end, and in the middle for elements with a non-throwing move, which edges have (Edge.hpp:98).  Changing indices, moving and
erasing do not fail.
-/
namespace Verif.Graph
open EdgeLike

/-- The destructor of `join_sentinel`, Connectivity.hpp:139-145: `size` is the size of the storage when it was constructed. -/
def joinSentinel {E : Type} (node pos size : Nat) (s : Edges E) : Edges E :=
  if numHalves s = size then onNode s node (·.eraseIdx pos) else s

/-- The outcome of an operation on edge storage which leaves it alone when it throws. -/
def ofRes {E β : Type} (s : Edges E) : Res (Edges E × β) → Outcome (Edges E) β
  | .ok (s', b) => .ret s' b
  | .throws => .threw s
  | .ub => .ub

section
variable {W M : Type} [DecidableEq W] [DecidableEq M]

/-- `join` for directed graphs, Connectivity.hpp:681-707; `f` says whether the creation of the edge fails. -/
def joinDirectedF (f : Bool) (s : Edges (Edge W M)) (i j : Nat) (w : W) (m : M) : Outcome (Edges (Edge W M)) Unit :=
  if i < s.length ∧ j < s.length then
    if f then .threw s else .ret (onNode s i (· ++ [⟨j, w, m⟩])) ()
  else .threw s

/-- `join` for undirected graphs, Connectivity.hpp:681-707, with `reciprocal_join`, 1461-1475; `f₁` and `f₂` say whether the
creation of the first half and of the second half fail.  In both cases the sentinel is destroyed last. -/
def joinUndirectedF (f₁ f₂ : Bool) (s : Edges (Edge W M)) (i j : Nat) (w : W) (m₁ m₂ : M) : Outcome (Edges (Edge W M)) Unit :=
  if i < s.length ∧ j < s.length then
    if f₁ then .threw s
    else
      let s' := onNode s i (· ++ [⟨j, w, m₁⟩])
      let pos := degree s' i - 1
      let size := numHalves s'
      if f₂ then .threw (joinSentinel i pos size s')
      else .ret (joinSentinel i pos size (onNode s' j (· ++ [⟨i, w, m₂⟩]))) ()
  else .threw s

/-- `join` for embedded graphs, Connectivity.hpp:681-707, with `add_to_partition`, 1529-1535, and `reciprocal_join`, 1461-1475. -/
def joinEmbeddedF (f₁ f₂ : Bool) (s : Edges (EEdge W M)) (i j : Nat) (w : W) (m₁ m₂ : M) : Outcome (Edges (EEdge W M)) Unit :=
  if i < s.length ∧ j < s.length then
    if f₁ then .threw s
    else
      let c := if i = j then degree s j + 1 else degree s j
      let s' := onNode s i (· ++ [⟨j, c, w, m₁⟩])
      let pos := degree s' i - 1
      let size := numHalves s'
      if f₂ then .threw (joinSentinel i pos size s')
      else .ret (joinSentinel i pos size (onNode s' j (· ++ [⟨i, degree s' i - 1, w, m₂⟩]))) ()
  else .threw s

/-- `insert_join(citer1, pos2, ...)`, Connectivity.hpp:735-745, with `insert_reciprocal_join(citer1, pos2, ...)`, 1478-1505. -/
def insertJoinPosF (f₁ f₂ : Bool) (s : Edges (EEdge W M)) (n p q : Nat) (w : W) (m₁ m₂ : M) : Outcome (Edges (EEdge W M)) (Nat × Nat) :=
  match s[n]? with
  | none => .ub
  | some l =>
    if l.length < p then .ub
    else if l.length + 1 < q then .threw s
    else if f₁ then .threw s
    else match insertHalf s n p ⟨n, q, w, m₁⟩ with
    | .ok s₁ =>
      let pos₁ := if q ≤ p then p + 1 else p
      let size := numHalves s₁
      if f₂ then .threw (joinSentinel n p size s₁)
      else
        let s₂ := onNode s₁ n (·.insertIdx q ⟨n, pos₁, w, m₂⟩)
        match (if pos₁ < q then increment n (q + 1) (degree s₂ n) s₂
          else (increment n (q + 1) pos₁ s₂).bind fun s₃ => increment n (pos₁ + 1) (degree s₃ n) s₃) with
        | .ok s₄ => .ret (joinSentinel n p size s₄) (pos₁, q)
        | _ => .ub
    | _ => .ub

/-- `insert_join(citer1, citer2, ...)`, Connectivity.hpp:709-721, with `insert_reciprocal_join(citer1, citer2, ...)`,
1507-1521. -/
def insertJoinF (f₁ f₂ : Bool) (s : Edges (EEdge W M)) (n p m q : Nat) (w : W) (m₁ m₂ : M) : Outcome (Edges (EEdge W M)) (Nat × Nat) :=
  match s[n]?, s[m]? with
  | some l, some k =>
    if p ≤ l.length ∧ q ≤ k.length then
      if n = m then insertJoinPosF f₁ f₂ s n p q w m₁ m₂
      else if f₁ then .threw s
      else match insertHalf s n p ⟨m, q, w, m₁⟩ with
      | .ok s₁ =>
        let size := numHalves s₁
        if f₂ then .threw (joinSentinel n p size s₁)
        else match insertHalf s₁ m q ⟨n, p, w, m₂⟩ with
        | .ok s₂ => .ret (joinSentinel n p size s₂) (p, q)
        | _ => .ub
      | _ => .ub
    else .ub
  | _, _ => .ub

/-- `set_edge_weight` for undirected graphs without sharing, Connectivity.hpp:265-283, with `weight_sentinel`, 94-123: `f₁`,
`f₂` and `f₃` say whether the copy of the old weight, the change of the partner and the change of the edge itself fail.  The
work is done in the constructor of the sentinel, so that its destructor does not run when one of them does. -/
def setWeightUndirectedF (f₁ f₂ f₃ : Bool) (s : Edges (Edge W M)) (n k : Nat) (w : W) : Outcome (Edges (Edge W M)) Unit :=
  match s[n]?.bind (·[k]?) with
  | none => .ub
  | some e =>
    if f₁ then .threw s
    else match partnerPos s n k e with
    | .ub => .ub
    | .throws => .threw s
    | .ok p =>
      if f₂ then .threw s
      else
        let s' := onEdge s e.target p fun e => e.setWeight w
        match s'[e.target]?.bind (·[p]?) with
        | none => .ub
        | some e' => if f₃ then .threw s' else .ret (onEdge s' n k fun e => e.setWeight e'.weight) ()

/-- `set_edge_weight` for embedded graphs without sharing, Connectivity.hpp:265-283 and 1394-1403. -/
def setWeightEmbeddedF (f₁ f₂ f₃ : Bool) (s : Edges (EEdge W M)) (n k : Nat) (w : W) : Outcome (Edges (EEdge W M)) Unit :=
  match s[n]?.bind (·[k]?) with
  | none => .ub
  | some e =>
    if f₁ then .threw s
    else match s[e.target]?.bind (·[e.comp]?) with
    | none => .ub
    | some _ =>
      if f₂ then .threw s
      else
        let s' := onEdge s e.target e.comp fun e => e.setWeight w
        match s'[e.target]?.bind (·[e.comp]?) with
        | none => .ub
        | some e' => if f₃ then .threw s' else .ret (onEdge s' n k fun e => e.setWeight e'.weight) ()

end

section
variable {N E : Type} [EdgeLike E]

/-- The destructor of `insertion_sentinel`, GraphPrimitive.hpp:523-530, with `remove_excess_node`, 591-597: `pos` is the position
as it was passed to `insert_node`. -/
def insertionSentinel (pos : Nat) (g : G N E) : Res (G N E) :=
  if g.edges.length < g.nodes.length then
    if pos < g.nodes.length then .ok ⟨g.nodes.eraseIdx pos, g.edges⟩ else .ub
  else .ok g

/-- `insert_node`, GraphPrimitive.hpp:468-474 and 579-589: `f₁` and `f₂` say whether storing the node weight and extending the
edge storage fail. -/
def G.insertNodeF (f₁ f₂ : Bool) (g : G N E) (pos : Nat) (w : N) : Outcome (G N E) Val :=
  let node := min pos g.edges.length
  if g.nodes.length < node then .ub
  else
    let g₁ : G N E := if f₁ then g else ⟨g.nodes.insertIdx node w, g.edges⟩
    let g₂ : G N E := if f₁ ∨ f₂ then g₁ else ⟨g₁.nodes, Graph.insertNode g.edges node⟩
    match insertionSentinel pos g₂ with
    | .ok g₃ => if f₁ ∨ f₂ then .threw g₃ else .ret g₃ (.index node)
    | _ => .ub

/-- `add_node`, GraphPrimitive.hpp:462-466. -/
def G.addNodeF (f₁ f₂ : Bool) (g : G N E) (w : N) : Outcome (G N E) Val := g.insertNodeF f₁ f₂ g.edges.length w

end
end Verif.Graph
