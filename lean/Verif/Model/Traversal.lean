import Verif.Model.Graph
import Verif.Model.StaticContainers
/-
Model of graph traversals: /repo/Source/sequoia/Maths/Graph/GraphTraversalDetails.hpp, with the containers chosen by
DynamicGraphTraversalDetails.hpp and StaticGraphTraversalDetails.hpp.

A traversal yields the sequence of calls it makes to the functions it is given (in the order in which they are pushed to
the task processing model).  All functions are taken to be present; leaving one out only removes the calls to it.  Edge
iterators are given as node and (forward) position.  Exceptions from the user's functions are not modelled.
The `while` and `do ... while` loops and the recursion are given fuel; `.ok none` says that it has run out.
-/
namespace Verif.Graph
open EdgeLike

/-- A call to `nodeBeforeEdgesFn`, `nodeAfterEdgesFn`, `edgeFirstTraversalFn` or `edgeSecondTraversalFn`. -/
inductive Event where
  | before (n : Nat)
  | after (n : Nat)
  | first (n k : Nat)
  | second (n k : Nat)
  deriving DecidableEq, Repr

/-- `queue_type` and `get_container_element` of `traversal_traits_base`. -/
structure Container (Q : Type) where
  init : Q
  isEmpty : Q → Bool
  push : Q → Nat → Res Q
  get : Q → Res Nat
  pop : Q → Res Q

/-- `std::queue`, DynamicGraphTraversalDetails.hpp:34-41. -/
def stdQueue : Container (List Nat) where
  init := []
  isEmpty := List.isEmpty
  push l a := .ok (l ++ [a])
  get | [] => .ub | a :: _ => .ok a
  pop | [] => .ub | _ :: l => .ok l

/-- `std::stack`, DynamicGraphTraversalDetails.hpp:43-50; the top is the head of the list. -/
def stdStack : Container (List Nat) where
  init := []
  isEmpty := List.isEmpty
  push l a := .ok (a :: l)
  get | [] => .ub | a :: _ => .ok a
  pop | [] => .ub | _ :: l => .ok l

/-- The state left by an operation. -/
def stateOf {σ β : Type} : Outcome σ β → Res σ
  | .ret s _ => .ok s
  | .threw _ => .throws
  | .ub => .ub

/-- The element returned by an operation. -/
def elemOf {σ : Type} : Outcome σ (Static.Val Nat) → Res Nat
  | .ret _ (.elem a) => .ok a
  | .ret _ _ => .ub
  | .threw _ => .throws
  | .ub => .ub

/-- `static_queue` of capacity `order()`, StaticGraphTraversalDetails.hpp:32-39. -/
def staticQueue (N : Nat) : Container (Static.Queue Nat N) where
  init := ⟨Vector.replicate N 0, N, N⟩
  isEmpty q := q.front == N
  push q a := stateOf (q.step (.push a))
  get q := elemOf (q.step .front)
  pop q := stateOf (q.step .pop)

/-- `static_stack` of capacity `order()`, StaticGraphTraversalDetails.hpp:41-48. -/
def staticStack (N : Nat) : Container (Static.Stack Nat N) where
  init := ⟨Vector.replicate N 0, 0⟩
  isEmpty q := q.e == 0
  push q a := stateOf (q.step (.push a))
  get q := elemOf (q.step .top)
  pop q := stateOf (q.step .pop)

/-- `static_priority_queue` of capacity `order()`, StaticGraphTraversalDetails.hpp:50-57; `lt` is the `node_comparer`,
GraphTraversalDetails.hpp:262-279, which compares the weights of the nodes. -/
def staticPQ (lt : Nat → Nat → Bool) (N : Nat) : Container (Static.PQ Nat N) where
  init := Static.PQ.init 0
  isEmpty q := q.e == 0
  push q a := stateOf (q.step lt (.push a))
  get q := elemOf (q.step lt .top)
  pop q := stateOf (q.step lt .pop)

/-- Which `loop_processor` and which branch of `inner_loop` a flavour of graph has, GraphTraversalDetails.hpp:281-330 and
529-555. -/
inductive LoopRule (E : Type) where
  | directed
  | undirected
  | embedded (comp : E → Nat)

/-- The state of a traversal: queue, `discovered`, `processed`, `m_NumDiscovered` and `m_Restart`; and the calls made so
far.  (`m_NumDiscovered` and `m_Restart` are absent in `ignore_disconnected_t`, where nothing depends on them.) -/
structure Trav (Q : Type) where
  queue : Q
  discovered : List Bool
  processed : List Bool
  num : Nat
  restart : Nat
  events : List Event

section
variable {E : Type} [EdgeLike E] {Q : Type}

/-- Is this the second traversal of the edge `e`, GraphTraversalDetails.hpp:536-537, with `loop_matched`, 281-330; and the
new `m_Matched`.  The edge comes `dist` places after the first one of node `n`. -/
def isSecond (rule : LoopRule E) (n dist : Nat) (matched : Bool) (e : E) (processed : Bool) : Bool × Bool :=
  match rule with
  | .directed => (false, matched)
  | .undirected => if target e = n then (processed || !matched, !matched) else (processed, matched)
  | .embedded comp => (processed || (decide (target e = n) && decide (comp e < dist)), matched)

/-- The loop over edges of `inner_loop` for queue based traversals, GraphTraversalDetails.hpp:517-582. -/
def innerEdges (c : Container Q) (rule : LoopRule E) (n : Nat) :
    Nat → Bool → List (E × Nat) → Trav Q → Res (Trav Q)
  | _, _, [], st => .ok st
  | dist, m, (e, k) :: l, st =>
    match st.discovered[target e]?, st.processed[target e]? with
    | some d, some p =>
      let r := isSecond rule n dist m e p
      let ev := st.events ++ [if r.1 then .second n k else .first n k]
      if d then innerEdges c rule n (dist + 1) r.2 l { st with events := ev }
      else (c.push st.queue (target e)).bind fun q =>
        innerEdges c rule n (dist + 1) r.2 l
          { st with queue := q, discovered := st.discovered.set (target e) true, num := st.num + 1, events := ev }
    | _, _ => .ub

/-- The order in which the edges of a node are considered, with their positions: backwards for pseudo depth first,
GraphTraversalDetails.hpp:208-231. -/
def iteration (rev : Bool) (l : List E) : List (E × Nat) := if rev then l.zipIdx.reverse else l.zipIdx

/-- `inner_loop` for queue based traversals, GraphTraversalDetails.hpp:494-591. -/
def innerLoop (c : Container Q) (rule : LoopRule E) (rev : Bool) (s : Edges E) (n : Nat) (st : Trav Q) : Res (Trav Q) :=
  match s[n]? with
  | none => .ub
  | some l =>
    (innerEdges c rule n 0 true (iteration rev l) { st with events := st.events ++ [.before n] }).bind fun st =>
      if n < st.processed.length then
        .ok { st with events := st.events ++ [.after n], processed := st.processed.set n true }
      else .ub

/-- `while(!nodeIndexQueue.empty())`, GraphTraversalDetails.hpp:385-408. -/
def whileLoop (c : Container Q) (rule : LoopRule E) (rev : Bool) (s : Edges E) : Nat → Trav Q → Res (Option (Trav Q))
  | 0, st => if c.isEmpty st.queue then .ok (some st) else .ok none
  | fuel + 1, st =>
    if c.isEmpty st.queue then .ok (some st)
    else (c.get st.queue).bind fun n => (c.pop st.queue).bind fun q =>
      (innerLoop c rule rev s n { st with queue := q }).bind (whileLoop c rule rev s fuel)

/-- `while(b[m_Restart]) ++m_Restart`, GraphTraversalDetails.hpp:86: `l` is what is left of `b` from position `i` on.
Running off the end is undefined. -/
def skip : List Bool → Nat → Res Nat
  | [], _ => .ub
  | b :: l, i => if b then skip l (i + 1) else .ok i

/-- `compute_restart_index`, GraphTraversalDetails.hpp:80-92 and 121-125; `findAll` for `find_disconnected_t`.  (The new
value of `m_Restart` is the one returned.) -/
def restartIndex (findAll : Bool) (start : Nat) (st : Trav Q) : Res Nat :=
  if findAll && st.num != 0 then skip (st.discovered.drop st.restart) st.restart else .ok start

/-- One round of `do ... while(!conditions.terminate(graph.order()))`, GraphTraversalDetails.hpp:378-408. -/
def phase (c : Container Q) (rule : LoopRule E) (rev findAll : Bool) (s : Edges E) (start fuel : Nat) (st : Trav Q) :
    Res (Option (Trav Q)) :=
  (restartIndex findAll start st).bind fun r =>
    (c.push st.queue r).bind fun q =>
      if r < st.discovered.length then
        whileLoop c rule rev s fuel
          { st with queue := q, discovered := st.discovered.set r true, num := st.num + 1,
                    restart := if findAll && st.num != 0 then r else st.restart }
      else .ub

/-- `do ... while(!conditions.terminate(graph.order()))`, GraphTraversalDetails.hpp:378-409. -/
def doLoop (c : Container Q) (rule : LoopRule E) (rev findAll : Bool) (s : Edges E) (start fuel : Nat) :
    Nat → Trav Q → Res (Option (Trav Q))
  | 0, _ => .ok none
  | rounds + 1, st =>
    (phase c rule rev findAll s start fuel st).bind fun
      | none => .ok none
      | some st => if !findAll || st.num == s.length then .ok (some st)
                   else doLoop c rule rev findAll s start fuel rounds st

/-- `traverse` for queue based traversals, GraphTraversalDetails.hpp:354-412, with `fuel` for either loop: the calls
made. -/
def traverse (c : Container Q) (rule : LoopRule E) (rev findAll : Bool) (s : Edges E) (start fuel : Nat) :
    Res (Option (List Event)) :=
  if start < s.length then
    (doLoop c rule rev findAll s start fuel fuel
      ⟨c.init, List.replicate s.length false, List.replicate s.length false, 0, 0, []⟩).bind fun r =>
        .ok (r.map (·.events))
  else .ok (some [])

/-! ### Depth first -/

/-- The loop over edges of `inner_loop` for depth first search, GraphTraversalDetails.hpp:517-582; `visit` is the
recursive call. -/
def dfsEdges (visit : Nat → Trav Unit → Res (Option (Trav Unit))) (n : Nat) :
    List (E × Nat) → Trav Unit → Res (Option (Trav Unit))
  | [], st => .ok (some st)
  | (e, k) :: l, st =>
    match st.discovered[target e]? with
    | some true => dfsEdges visit n l st
    | some false =>
      (visit (target e) { st with events := st.events ++ [.first n k], discovered := st.discovered.set (target e) true,
                                  num := st.num + 1 }).bind fun
        | none => .ok none
        | some st => dfsEdges visit n l st
    | none => .ub

/-- `inner_loop` for depth first search, GraphTraversalDetails.hpp:494-591. -/
def dfsNode (s : Edges E) : Nat → Nat → Trav Unit → Res (Option (Trav Unit))
  | 0, _, _ => .ok none
  | fuel + 1, n, st =>
    match s[n]? with
    | none => .ub
    | some l =>
      (dfsEdges (dfsNode s fuel) n l.zipIdx { st with events := st.events ++ [.before n] }).bind fun
        | none => .ok none
        | some st =>
          if n < st.processed.length then
            .ok (some { st with events := st.events ++ [.after n], processed := st.processed.set n true })
          else .ub

/-- One round of `do ... while`, GraphTraversalDetails.hpp:442-460. -/
def dfsPhase (findAll : Bool) (s : Edges E) (start fuel : Nat) (st : Trav Unit) : Res (Option (Trav Unit)) :=
  (restartIndex findAll start st).bind fun r =>
    if r < st.discovered.length then
      dfsNode s fuel r { st with discovered := st.discovered.set r true, num := st.num + 1,
                                 restart := if findAll && st.num != 0 then r else st.restart }
    else .ub

/-- `do ... while`, GraphTraversalDetails.hpp:442-462. -/
def dfsLoop (findAll : Bool) (s : Edges E) (start fuel : Nat) : Nat → Trav Unit → Res (Option (Trav Unit))
  | 0, _ => .ok none
  | rounds + 1, st =>
    (dfsPhase findAll s start fuel st).bind fun
      | none => .ok none
      | some st => if !findAll || st.num == s.length then .ok (some st)
                   else dfsLoop findAll s start fuel rounds st

/-- `traverse(depth_first, ...)`, GraphTraversalDetails.hpp:425-466.  `first n k` is a call to
`edgeToUndiscoveredNodeFn`. -/
def traverseDfs (findAll : Bool) (s : Edges E) (start fuel : Nat) : Res (Option (List Event)) :=
  if start < s.length then
    (dfsLoop findAll s start fuel fuel
      ⟨(), List.replicate s.length false, List.replicate s.length false, 0, 0, []⟩).bind fun r =>
        .ok (r.map (·.events))
  else .ok (some [])

end

end Verif.Graph
