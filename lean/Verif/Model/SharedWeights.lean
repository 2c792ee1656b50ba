import Verif.Model.GraphInit
/-
Model of graphs whose edge weights are shared, i.e. held by a `std::shared_ptr` so that both halves of an edge refer to
one weight object: `shared` of /repo/Source/sequoia/Core/Ownership/Handlers.hpp:20-60, `weighting` of
Maths/Graph/Edge.hpp:45-115 and those parts of Maths/Graph/Connectivity.hpp which depend on `shared_weight_v`.

A half edge holds the address of its weight.  Memory is total; addresses below `next` have been allocated.  Addresses are
never reused, whereas the allocator may reuse those of weights which no edge refers to any more.
-/
namespace Verif.Graph

/-- Memory for weights. -/
structure Mem (W : Type) where
  cell : Nat → W
  next : Nat

/-- `std::make_shared`, Handlers.hpp:44-48: the new weight is at address `next`. -/
def Mem.alloc {W : Type} (m : Mem W) (w : W) : Mem W :=
  ⟨fun a => if a = m.next then w else m.cell a, m.next + 1⟩

/-- Assignment to a weight, Edge.hpp:60-75. -/
def Mem.write {W : Type} (m : Mem W) (a : Nat) (w : W) : Mem W := { m with cell := fun b => if b = a then w else m.cell b }

/-- A graph with shared weights: the edges hold addresses. -/
structure SG (N W E : Type) where
  mem : Mem W
  g : G N E

section undirected
variable {N W M : Type} [DecidableEq M]

/-- What a user sees of an edge. -/
def Edge.see (m : Mem W) (e : Edge Nat M) : Edge W M := ⟨e.target, m.cell e.weight, e.md⟩

/-- An operation which does not touch weights. -/
def keepMem {E : Type} (m : Mem W) : Outcome (G N E) Val → Outcome (SG N W E) Val
  | .ret g v => .ret ⟨m, g⟩ v
  | .threw g => .threw ⟨m, g⟩
  | .ub => .ub

/-- Copies of `weighting` get a weight of their own, Edge.hpp:95-112: the weights of the given list are copied one after
the other. -/
def copyAll (m : Mem W) : List (Edge Nat M) → Mem W × List (Edge Nat M)
  | [] => (m, [])
  | e :: l =>
    let r := copyAll (m.alloc (m.cell e.weight)) l
    (r.1, { e with weight := m.next } :: r.2)

/-- `stable_sort_edges` for shared weights, Connectivity.hpp:887-901, with `sequoia::stable_sort`,
Core/Algorithms (Algorithms.hpp:104-132): if there are at least two edges they are merged into a buffer and copied back,
by copy assignment.  Simplification: only the last copies are recorded. -/
def stableSortShared (s : SG N W (Edge Nat M)) (lt : Edge W M → Edge W M → Bool) (n p m q : Nat) :
    Outcome (SG N W (Edge Nat M)) Val :=
  let srt := StableSort.stableSort fun e f : Edge Nat M => lt (e.see s.mem) (f.see s.mem)
  match s.g.edges[n]?, s.g.edges[m]? with
  | some l, some k =>
    if p ≤ l.length ∧ q ≤ k.length then
      if n ≠ m then .ret s .unit
      else if p ≤ q then
        let part := (l.take q).drop p
        if part.length < 2 then .ret s .unit
        else
          let r := copyAll s.mem (srt part)
          .ret ⟨r.1, ⟨s.g.nodes, onNode s.g.edges n fun l => l.take p ++ r.2 ++ l.drop q⟩⟩ .unit
      else .ub
    else .ub
  | _, _ => .ub

variable (stdSort : {α : Type} → (α → α → Bool) → List α → List α)

/-- The members of an undirected graph with shared weights.  Those which neither create nor compare weights are as
without sharing; `erase_edge` compares the addresses of weights, Connectivity.hpp:776-779; setting a weight assigns to
the one weight of the edge, 285-288 and 303-308; sorting moves edges about. -/
def sharedStep (s : SG N W (Edge Nat M)) (op : Op N W M (Edge W M)) : Outcome (SG N W (Edge Nat M)) Val :=
  match op with
  | .addNode w => keepMem s.mem (undirectedStep stdSort s.g (.addNode w))
  | .insertNode pos w => keepMem s.mem (undirectedStep stdSort s.g (.insertNode pos w))
  | .eraseNode n => keepMem s.mem (undirectedStep stdSort s.g (.eraseNode n))
  | .swapNodes i j => keepMem s.mem (undirectedStep stdSort s.g (.swapNodes i j))
  | .clear => keepMem s.mem (undirectedStep stdSort s.g .clear)
  | .join i j w m₁ m₂ => keepMem (s.mem.alloc w) (undirectedStep stdSort s.g (.join i j s.mem.next m₁ m₂))
  | .insertJoin .. => .ub
  | .insertJoinPos .. => .ub
  | .eraseEdge n k => keepMem s.mem (undirectedStep stdSort s.g (.eraseEdge n k))
  | .setWeight n k w => match s.g.edges[n]?.bind (·[k]?) with
    | none => .ub
    | some e => .ret ⟨s.mem.write e.weight w, s.g⟩ .unit
  | .mutateWeight n k f => match s.g.edges[n]?.bind (·[k]?) with
    | none => .ub
    | some e => .ret ⟨s.mem.write e.weight (f (s.mem.cell e.weight)), s.g⟩ .unit
  | .swapEdges n i j => keepMem s.mem (undirectedStep stdSort s.g (.swapEdges n i j))
  | .sortEdges lt n p m q =>
    keepMem s.mem (undirectedStep stdSort s.g (.sortEdges (fun e f => lt (e.see s.mem) (f.see s.mem)) n p m q))
  | .stableSortEdges lt n p m q => stableSortShared s lt n p m q

end undirected

section embedded
variable {N W M : Type}

/-- What a user sees of an edge. -/
def EEdge.see (m : Mem W) (e : EEdge Nat M) : EEdge W M := ⟨e.target, e.comp, m.cell e.weight, e.md⟩

/-- The members of an embedded graph with shared weights: as for undirected graphs, with `insert_join` in addition. -/
def sharedEmbeddedStep (s : SG N W (EEdge Nat M)) (op : Op N W M (EEdge W M)) : Outcome (SG N W (EEdge Nat M)) Val :=
  match op with
  | .addNode w => keepMem s.mem (embeddedStep s.g (.addNode w))
  | .insertNode pos w => keepMem s.mem (embeddedStep s.g (.insertNode pos w))
  | .eraseNode n => keepMem s.mem (embeddedStep s.g (.eraseNode n))
  | .swapNodes i j => keepMem s.mem (embeddedStep s.g (.swapNodes i j))
  | .clear => keepMem s.mem (embeddedStep s.g .clear)
  | .join i j w m₁ m₂ => keepMem (s.mem.alloc w) (embeddedStep s.g (.join i j s.mem.next m₁ m₂))
  | .insertJoin n p m q w m₁ m₂ => keepMem (s.mem.alloc w) (embeddedStep s.g (.insertJoin n p m q s.mem.next m₁ m₂))
  | .insertJoinPos n p q w m₁ m₂ => keepMem (s.mem.alloc w) (embeddedStep s.g (.insertJoinPos n p q s.mem.next m₁ m₂))
  | .eraseEdge n k => keepMem s.mem (embeddedStep s.g (.eraseEdge n k))
  | .setWeight n k w => match s.g.edges[n]?.bind (·[k]?) with
    | none => .ub
    | some e => .ret ⟨s.mem.write e.weight w, s.g⟩ .unit
  | .mutateWeight n k f => match s.g.edges[n]?.bind (·[k]?) with
    | none => .ub
    | some e => .ret ⟨s.mem.write e.weight (f (s.mem.cell e.weight)), s.g⟩ .unit
  | .swapEdges .. => .ub
  | .sortEdges .. => .ub
  | .stableSortEdges .. => .ub

/-- The second `process_edges`, Connectivity.hpp:1165-1186, for one node of an embedded graph constructed from
initializer lists: each half edge is constructed from what is listed, with a weight of its own
(the conversion from an edge with another handler, Edge.hpp). -/
def initEmbeddedNode (m : Mem W) : List (EEdge W M) → Mem W × List (EEdge Nat M)
  | [] => (m, [])
  | e :: l =>
    let r := initEmbeddedNode (m.alloc e.weight) l
    (r.1, ⟨e.target, e.comp, m.next, e.md⟩ :: r.2)

/-- The second `process_edges`, Connectivity.hpp:1165-1186, for all nodes. -/
def initEmbedded (m : Mem W) : Edges (EEdge W M) → Mem W × Edges (EEdge Nat M)
  | [] => (m, [])
  | l :: s =>
    let r := initEmbeddedNode m l
    let r' := initEmbedded r.1 s
    (r'.1, r.2 :: r'.2)

/-- `make_edges` for embedded graphs with shared weights, Connectivity.hpp:920-925. -/
def makeEmbeddedShared [DecidableEq W] (m : Mem W) (s : Edges (EEdge W M)) : Res (Mem W × Edges (EEdge Nat M)) :=
  (makeEmbedded s).bind fun s => .ok (initEmbedded m s)

end embedded

/-! ### Copying -/
section copy
variable {W M : Type}

/-- An entry of the map of `edge_maker`, Connectivity.hpp:60-64. -/
structure WeightEntry where
  ptr : Nat
  node : Nat
  idx : Nat

/-- Where the copying of edges has got to: memory, the edges copied so far and the map of weights. -/
structure Copying (W E : Type) where
  mem : Mem W
  out : Edges E
  map : List WeightEntry

/-- `edge_maker::operator()`, Connectivity.hpp:73-91, for the edge `e` at position `k` of node `n`. -/
def edgeMaker (c : Copying W (Edge Nat M)) (n k : Nat) (e : Edge Nat M) : Res (Copying W (Edge Nat M)) :=
  let found := c.map.findIdx fun d => !decide (d.ptr < e.weight)
  match c.map[found]? with
  | some d =>
    if d.ptr ≠ e.weight then
      .ok ⟨c.mem.alloc (c.mem.cell e.weight), onNode c.out n (· ++ [{ e with weight := c.mem.next }]),
        c.map.insertIdx found ⟨e.weight, n, k⟩⟩
    else match c.out[d.node]?.bind (·[d.idx]?) with
      | some e' => .ok { c with out := onNode c.out n (· ++ [{ e with weight := e'.weight }]) }
      | none => .ub
  | none =>
    .ok ⟨c.mem.alloc (c.mem.cell e.weight), onNode c.out n (· ++ [{ e with weight := c.mem.next }]),
      c.map.insertIdx found ⟨e.weight, n, k⟩⟩

/-- The lambda `processor` of `copy_edges` for embedded graphs, Connectivity.hpp:1325-1341, for the edge `e` at position
`k` of node `n`.  Assumes that `this->m_Edges` is the storage under construction, which holds if the compiler elides the
copy of `storage` on return. -/
def embeddedProcessor (c : Copying W (EEdge Nat M)) (n k : Nat) (e : EEdge Nat M) : Res (Copying W (EEdge Nat M)) :=
  if e.target < n ∨ (e.target = n ∧ e.comp < k) then
    match c.out[e.target]?.bind (·[e.comp]?) with
    | some e' => .ok { c with out := onNode c.out n (· ++ [{ e with weight := e'.weight }]) }
    | none => .ub
  else .ok { c with mem := c.mem.alloc (c.mem.cell e.weight), out := onNode c.out n (· ++ [{ e with weight := c.mem.next }]) }

/-- The inner loop of `copy_edges`, Connectivity.hpp:1362-1365, from position `k` of node `n`. -/
def copyNode {E : Type} (proc : Copying W E → Nat → Nat → E → Res (Copying W E)) (n : Nat) :
    Nat → List E → Copying W E → Res (Copying W E)
  | _, [], c => .ok c
  | k, e :: l, c => (proc c n k e).bind (copyNode proc n (k + 1) l)

/-- The outer loop of `copy_edges`, Connectivity.hpp:1355-1366, from node `n`. -/
def copyNodes {E : Type} (proc : Copying W E → Nat → Nat → E → Res (Copying W E)) :
    Nat → Edges E → Copying W E → Res (Copying W E)
  | _, [], c => .ok c
  | n, l :: s, c => (copyNode proc n 0 l { c with out := c.out ++ [[]] }).bind (copyNodes proc (n + 1) s)

/-- `copy_edges` for undirected graphs with shared weights, Connectivity.hpp:1310-1345. -/
def copyShared (m : Mem W) (s : Edges (Edge Nat M)) : Res (Mem W × Edges (Edge Nat M)) :=
  (copyNodes edgeMaker 0 s ⟨m, [], []⟩).bind fun c => .ok (c.mem, c.out)

/-- `copy_edges` for embedded graphs with shared weights, Connectivity.hpp:1310-1345. -/
def copySharedEmbedded (m : Mem W) (s : Edges (EEdge Nat M)) : Res (Mem W × Edges (EEdge Nat M)) :=
  (copyNodes embeddedProcessor 0 s ⟨m, [], []⟩).bind fun c => .ok (c.mem, c.out)

end copy

/-! ### Initialization of undirected graphs -/
section init
variable {W : Type}

/-- The lambda `addToStorage` of `process_edges` for undirected graphs, Connectivity.hpp:1201-1206: without a complementary index the
edge is made from what is listed, with a new weight, Edge.hpp:198-202; otherwise it shares the weight of the edge with that
index at the target, Edge.hpp:165-168.  Assumes that `this->m_Edges` is the storage under construction, which holds if the
compiler elides the copy of `storage` on return; reading an edge which is not there yet is undefined.  There is no meta
data, as otherwise the edge could not be constructed from the target and the other edge. -/
def shareEdge (c : Mem W × Edges (Edge Nat Unit)) (host target : Nat) (comp : Option Nat) (e : Edge W Unit) :
    Res (Mem W × Edges (Edge Nat Unit)) :=
  match comp with
  | none => .ok (c.1.alloc e.weight, onNode c.2 host (· ++ [⟨e.target, c.1.next, ()⟩]))
  | some q => match c.2[target]?.bind (·[q]?) with
    | some e' => .ok (c.1, onNode c.2 host (· ++ [⟨target, e'.weight, ()⟩]))
    | none => .ub

/-- The loops over `hostRange`, Connectivity.hpp:1212-1218 and 1221-1227: `d` edges are left, the next of which is at
position `p` of `l`.  The complementary index depends on both. -/
def shareRange (host target : Nat) (l : List (Edge W Unit)) (comp : Nat → Nat → Option Nat) :
    Nat → Nat → Mem W × Edges (Edge Nat Unit) → Res (Mem W × Edges (Edge Nat Unit))
  | 0, _, c => .ok c
  | d + 1, p, c => match l[p]? with
    | some e => (shareEdge c host target (comp p (d + 1)) e).bind (shareRange host target l comp d (p + 1))
    | none => .ub

/-- `compIndex` for loops, Connectivity.hpp:1214-1215.  Simplification: for `p = 0` the cast gives `npos`; this does not
happen, as the number of halves of loops is even. -/
def loopComp (p d : Nat) : Option Nat := if d % 2 = 1 then some (p - 1) else none

/-- `compIndex` for links, Connectivity.hpp:1223-1224.  Simplification: the difference is not negative, as otherwise
`validate` throws. -/
def linkComp (host target thi d : Nat) : Option Nat := if host > target then some (thi - d) else none

/-- The lambdas passed to `visit_edges`, Connectivity.hpp:1211-1228. -/
def shareVisit (l : List (Edge W Unit)) (c : Mem W × Edges (Edge Nat Unit)) : Visit → Res (Mem W × Edges (Edge Nat Unit))
  | .loop i lo hi => shareRange i i l loopComp (hi - lo) lo c
  | .link i t lo hi _ thi => shareRange i t l (fun _ d => linkComp i t thi d) (hi - lo) lo c
  | .outOfRange => .throws
  | .stuck => .ub

/-- The blocks of one node, Connectivity.hpp:1249-1282. -/
def shareVisits (l : List (Edge W Unit)) : List Visit → Mem W × Edges (Edge Nat Unit) → Res (Mem W × Edges (Edge Nat Unit))
  | [], c => .ok c
  | v :: vs, c => (shareVisit l c v).bind (shareVisits l vs)

/-- `process_edges` for undirected graphs, Connectivity.hpp:1191-1232, from node `i`: `add_slot` and then the blocks of edges. -/
def shareNodes [DecidableEq W] (k : WeightKind W) (s : Edges (Edge W Unit)) :
    Nat → Edges (Edge W Unit) → Mem W × Edges (Edge Nat Unit) → Res (Mem W × Edges (Edge Nat Unit))
  | _, [], c => .ok c
  | i, l :: r, c => (shareVisits l (visitNode k s i l 0) (c.1, c.2 ++ [[]])).bind (shareNodes k s (i + 1) r)

/-- `make_edges` for undirected graphs with shared weights, Connectivity.hpp:920-925. -/
def makeUndirectedShared [DecidableEq W] (k : WeightKind W) (m : Mem W) (s : Edges (Edge W Unit)) :
    Res (Mem W × Edges (Edge Nat Unit)) :=
  (makeUndirected k s).bind fun s => shareNodes k s 0 s (m, [])

end init

end Verif.Graph
