import Verif.Model.Traversal
import Verif.Model.ThreadPool
/-
Model of the calls a graph traversal makes if some of the functions are left out, and of what becomes of the results: `inner_loop` and `results_accumulator`,
/repo/Source/sequoia/Maths/Graph/GraphTraversalDetails.hpp:145-207 and 494-591, with `serial` and `asynchronous`, /repo/Source/sequoia/Core/Concurrency/ConcurrencyModels.hpp:146-193, and the `push` of a
`thread_pool`, 224-267.

A function object has a state, which calls may change; a call yields a result or an exception.  All the functions passed to a traversal share one state here, of which each of them uses its own part.
-/
namespace Verif.Graph
open EdgeLike

/-- Which of the functions are present, that is, are not `null_func_obj`. -/
structure Given where
  before : Bool
  after : Bool
  first : Bool
  second : Bool
deriving DecidableEq, Repr

section
variable {E : Type} [EdgeLike E] {Q : Type}

/-- The calls for an edge, GraphTraversalDetails.hpp:521-555, and the new `m_Matched`: whether an edge is traversed for the second time is only found out if it matters. -/
def callsForEdge (has : Given) (rule : LoopRule E) (n k dist : Nat) (matched : Bool) (e : E) (processed : Bool) : List Event × Bool :=
  match rule with
  | .directed => (if has.first then [.first n k] else [], matched)
  | rule =>
    if has.first || has.second then
      if (isSecond rule n dist matched e processed).1 then (if has.second then [.second n k] else [], (isSecond rule n dist matched e processed).2)
      else (if has.first then [.first n k] else [], (isSecond rule n dist matched e processed).2)
    else ([], matched)

/-- The loop over edges of `inner_loop`, GraphTraversalDetails.hpp:515-582, as in `innerEdges`. -/
def innerEdgesOf (has : Given) (c : Container Q) (rule : LoopRule E) (n : Nat) : Nat → Bool → List (E × Nat) → Trav Q → Res (Trav Q)
  | _, _, [], st => .ok st
  | dist, m, (e, k) :: l, st =>
    match st.discovered[target e]?, st.processed[target e]? with
    | some d, some p =>
      let r := callsForEdge has rule n k dist m e p
      if d then innerEdgesOf has c rule n (dist + 1) r.2 l { st with events := st.events ++ r.1 }
      else (c.push st.queue (target e)).bind fun q =>
        innerEdgesOf has c rule n (dist + 1) r.2 l { st with queue := q, discovered := st.discovered.set (target e) true, num := st.num + 1, events := st.events ++ r.1 }
    | _, _ => .ub

/-- `inner_loop`, GraphTraversalDetails.hpp:494-591, as in `innerLoop`. -/
def innerLoopOf (has : Given) (c : Container Q) (rule : LoopRule E) (rev : Bool) (s : Edges E) (n : Nat) (st : Trav Q) : Res (Trav Q) :=
  match s[n]? with
  | none => .ub
  | some l =>
    (innerEdgesOf has c rule n 0 true (iteration rev l) { st with events := st.events ++ if has.before then [.before n] else [] }).bind fun st =>
      if n < st.processed.length then .ok { st with events := st.events ++ (if has.after then [.after n] else []), processed := st.processed.set n true }
      else .ub

/-- `while(!nodeIndexQueue.empty())`, GraphTraversalDetails.hpp:385-408, as in `whileLoop`. -/
def whileLoopOf (has : Given) (c : Container Q) (rule : LoopRule E) (rev : Bool) (s : Edges E) : Nat → Trav Q → Res (Option (Trav Q))
  | 0, st => if c.isEmpty st.queue then .ok (some st) else .ok none
  | fuel + 1, st =>
    if c.isEmpty st.queue then .ok (some st)
    else (c.get st.queue).bind fun n => (c.pop st.queue).bind fun q => (innerLoopOf has c rule rev s n { st with queue := q }).bind (whileLoopOf has c rule rev s fuel)

/-- One round of `do ... while`, GraphTraversalDetails.hpp:378-408, as in `phase`. -/
def phaseOf (has : Given) (c : Container Q) (rule : LoopRule E) (rev findAll : Bool) (s : Edges E) (start fuel : Nat) (st : Trav Q) : Res (Option (Trav Q)) :=
  (restartIndex findAll start st).bind fun r =>
    (c.push st.queue r).bind fun q =>
      if r < st.discovered.length then
        whileLoopOf has c rule rev s fuel
          { st with queue := q, discovered := st.discovered.set r true, num := st.num + 1, restart := if findAll && st.num != 0 then r else st.restart }
      else .ub

/-- `do ... while`, GraphTraversalDetails.hpp:378-409, as in `doLoop`. -/
def doLoopOf (has : Given) (c : Container Q) (rule : LoopRule E) (rev findAll : Bool) (s : Edges E) (start fuel : Nat) : Nat → Trav Q → Res (Option (Trav Q))
  | 0, _ => .ok none
  | rounds + 1, st =>
    (phaseOf has c rule rev findAll s start fuel st).bind fun
      | none => .ok none
      | some st => if !findAll || st.num == s.length then .ok (some st) else doLoopOf has c rule rev findAll s start fuel rounds st

/-- `traverse` for queue based traversals, GraphTraversalDetails.hpp:354-412, as in `traverse`, with those functions only which are present. -/
def traverseOf (has : Given) (c : Container Q) (rule : LoopRule E) (rev findAll : Bool) (s : Edges E) (start fuel : Nat) : Res (Option (List Event)) :=
  if start < s.length then
    (doLoopOf has c rule rev findAll s start fuel fuel ⟨c.init, List.replicate s.length false, List.replicate s.length false, 0, 0, []⟩).bind fun r => .ok (r.map (·.events))
  else .ok (some [])

/-- The loop over edges of `inner_loop` for depth first search, GraphTraversalDetails.hpp:515-582, as in `dfsEdges`. -/
def dfsEdgesOf (has : Given) (visit : Nat → Trav Unit → Res (Option (Trav Unit))) (n : Nat) : List (E × Nat) → Trav Unit → Res (Option (Trav Unit))
  | [], st => .ok (some st)
  | (e, k) :: l, st =>
    match st.discovered[target e]? with
    | some true => dfsEdgesOf has visit n l st
    | some false =>
      (visit (target e) { st with events := st.events ++ (if has.first then [.first n k] else []), discovered := st.discovered.set (target e) true, num := st.num + 1 }).bind fun
        | none => .ok none
        | some st => dfsEdgesOf has visit n l st
    | none => .ub

/-- `inner_loop` for depth first search, GraphTraversalDetails.hpp:494-591, as in `dfsNode`. -/
def dfsNodeOf (has : Given) (s : Edges E) : Nat → Nat → Trav Unit → Res (Option (Trav Unit))
  | 0, _, _ => .ok none
  | fuel + 1, n, st =>
    match s[n]? with
    | none => .ub
    | some l =>
      (dfsEdgesOf has (dfsNodeOf has s fuel) n l.zipIdx { st with events := st.events ++ if has.before then [.before n] else [] }).bind fun
        | none => .ok none
        | some st =>
          if n < st.processed.length then .ok (some { st with events := st.events ++ (if has.after then [.after n] else []), processed := st.processed.set n true })
          else .ub

/-- One round of `do ... while`, GraphTraversalDetails.hpp:442-460, as in `dfsPhase`. -/
def dfsPhaseOf (has : Given) (findAll : Bool) (s : Edges E) (start fuel : Nat) (st : Trav Unit) : Res (Option (Trav Unit)) :=
  (restartIndex findAll start st).bind fun r =>
    if r < st.discovered.length then
      dfsNodeOf has s fuel r { st with discovered := st.discovered.set r true, num := st.num + 1, restart := if findAll && st.num != 0 then r else st.restart }
    else .ub

/-- `do ... while`, GraphTraversalDetails.hpp:442-462, as in `dfsLoop`. -/
def dfsLoopOf (has : Given) (findAll : Bool) (s : Edges E) (start fuel : Nat) : Nat → Trav Unit → Res (Option (Trav Unit))
  | 0, _ => .ok none
  | rounds + 1, st =>
    (dfsPhaseOf has findAll s start fuel st).bind fun
      | none => .ok none
      | some st => if !findAll || st.num == s.length then .ok (some st) else dfsLoopOf has findAll s start fuel rounds st

/-- `traverse(depth_first, ...)`, GraphTraversalDetails.hpp:425-466, as in `traverseDfs`, with those functions only which are present. -/
def traverseDfsOf (has : Given) (findAll : Bool) (s : Edges E) (start fuel : Nat) : Res (Option (List Event)) :=
  if start < s.length then
    (dfsLoopOf has findAll s start fuel fuel ⟨(), List.replicate s.length false, List.replicate s.length false, 0, 0, []⟩).bind fun r => .ok (r.map (·.events))
  else .ok (some [])

end

/-! ### Results -/

section
variable {S R X : Type}

/-- What a traversal leaves behind: the state of the functions, the calls made, and the results or an exception. -/
structure Left (S R X : Type) where
  state : S
  calls : List Event
  results : Except X (List R)

/-- `results_accumulator<concurrency::serial<void>>`, GraphTraversalDetails.hpp:170-186, with `serial::push`, ConcurrencyModels.hpp:154-160: the function is called at once, and it is passed by reference.  (The
results, of type void, are listed so that their number is known.) -/
def serialVoid (f : S → Event → S × Except X R) : S → List Event → Left S R X
  | s, [] => ⟨s, [], .ok []⟩
  | s, e :: l =>
    match f s e with
    | (s', .error x) => ⟨s', [e], .error x⟩
    | (s', .ok r) =>
      let q := serialVoid f s' l
      ⟨q.state, e :: q.calls, match q.results with | .ok rs => .ok (r :: rs) | .error x => .error x⟩

/-- `results_accumulator<concurrency::serial<R>>`, GraphTraversalDetails.hpp:188-207: the function is called at once, but it is passed by value, so that it is a copy which is called. -/
def serialCopies (f : S → Event → S × Except X R) (s : S) : List Event → Left S R X
  | [] => ⟨s, [], .ok []⟩
  | e :: l =>
    match (f s e).2 with
    | .error x => ⟨s, [e], .error x⟩
    | .ok r =>
      let q := serialCopies f s l
      ⟨q.state, e :: q.calls, match q.results with | .ok rs => .ok (r :: rs) | .error x => .error x⟩

/-- `results_accumulator` with `asynchronous`, GraphTraversalDetails.hpp:145-168 and ConcurrencyModels.hpp:180-184: for each call there is a future, which yields what the call of a copy of the function does. -/
def futures (f : S → Event → S × Except X R) (s : S) (es : List Event) : List (Except X R) := es.map fun e => (f s e).2

/-- `results_accumulator` with `thread_pool`, GraphTraversalDetails.hpp:145-168 and ConcurrencyModels.hpp:224-267: the `k`-th call is the task `k`, and its future is ready once that task has been executed. -/
def poolFutures (f : S → Event → S × Except X R) (s : S) (es : List Event) (executed : List Nat) : List (Option (Except X R)) :=
  es.zipIdx.map fun ek => if ek.2 ∈ executed then some (f s ek.1).2 else none

end

end Verif.Graph
