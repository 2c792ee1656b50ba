import Verif.Lemmas.TraversalResults
import Verif.Props.Traversal
import Verif.Props.ThreadPool
/-
C96: the functions passed to a traversal, and their results.
-/
namespace Verif.Props
open Verif.Graph Verif.Spec Verif.Spec.TraversalResults EdgeLike

section
variable {E : Type} [EdgeLike E] {Q S R X : Type}

/-- **C96** A traversal, whatever its container and whatever the graph, calls the functions which are present exactly as it calls them if all are present: leaving some out changes neither the order nor the number of the
calls of the others. -/
theorem C96_functions_left_out (has : Given) (c : Container Q) (rule : LoopRule E) (rev findAll : Bool) (s : Edges E) (start fuel : Nat) :
    traverseOf has c rule rev findAll s start fuel = only has (traverse c rule rev findAll s start fuel) ∧
    traverseDfsOf has findAll s start fuel = only has (traverseDfs findAll s start fuel) :=
  ⟨traverseOf_eq has c rule rev findAll s start fuel, traverseDfsOf_eq has findAll s start fuel⟩

example : traverseOf ⟨true, false, false, false⟩ stdQueue .directed false false cyclic 0 6 = .ok (some [.before 0, .before 1, .before 2, .before 3]) := by decide +kernel
example : traverseOf ⟨false, false, false, true⟩ stdQueue .undirected false false ([[⟨1, 0, ()⟩, ⟨0, 1, ()⟩, ⟨0, 2, ()⟩], [⟨0, 0, ()⟩]] : Edges (Edge Nat Unit)) 0 2 =
    .ok (some [.second 0 2, .second 1 0]) := by decide +kernel
example : traverseDfsOf ⟨false, true, true, false⟩ false cyclic 0 7 = .ok (some [.first 0 0, .first 1 0, .after 3, .after 1, .first 0 1, .after 2, .after 0]) := by decide +kernel

/-- The calls before the edges of each node. -/
theorem only_before {events : List Event} {order : List Nat} (h : NodeCalls events order) :
    events.filter (Present ⟨true, false, false, false⟩) = order.map Event.before := by
  unfold NodeCalls at h
  have h2 : events.filter (Present ⟨true, false, false, false⟩) = (events.filter isNodeCall).filter (Present ⟨true, false, false, false⟩) := by
    rw [List.filter_filter]
    congr 1
    funext e
    cases e <;> simp [Present, isNodeCall]
  rw [h2, h]
  clear h h2
  induction order with
  | nil => rfl
  | cons n l ih => rw [List.flatMap_cons, List.filter_append, ih]; rfl

/-- **C96** A breadth first search with a function of nodes, which has no state and throws no exceptions, and an execution model which runs it at once, returns one result for each node which can be reached, in the order in which
the nodes are visited; the futures obtained from `asynchronous` hold the same results, in the same order. -/
theorem C96_results (rule : LoopRule E) {s : Edges E} (hs : InRange s) {start : Nat} (hstart : start < s.length) {fuel : Nat} (hf : s.length ≤ fuel)
    {f : S → Event → S × Except X R} {g : Nat → R} (hfg : ∀ st n, f st (.before n) = (st, .ok (g n))) (st : S) :
    ∃ (calls : List Event) (order : List Nat), traverseOf ⟨true, false, false, false⟩ stdQueue rule false false s start fuel = .ok (some calls) ∧
      order.Nodup ∧ (∀ n, n ∈ order ↔ Reach s start n) ∧ order.Pairwise (fun a b => ∀ d, Walk s start b d → ∃ d' ≤ d, Walk s start a d') ∧
      (serialCopies f st calls).results = .ok (order.map g) ∧ (serialCopies f st calls).calls = order.map .before ∧
      futures f st calls = order.map fun n => .ok (g n) := by
  obtain ⟨events, order, h1, h2, h3, h4, h5⟩ := C22_breadth_first rule hs hstart hf
  refine ⟨order.map .before, order, ?_, h3, h4, h5, ?_⟩
  · rw [(C96_functions_left_out _ _ _ _ _ _ _ _).1, h1, only, only_before h2]
  have hfu : futures f st (order.map .before) = (order.map g).map .ok := by
    simp [futures, hfg]
  have hr := (serialCopies_iff f st).2 hfu
  refine ⟨hr, ?_, by rw [hfu, List.map_map]; rfl⟩
  obtain ⟨_, hc, hc2⟩ := serialCopies_eq f st (order.map Event.before)
  rw [hc2] at hr
  rw [hc]
  exact (serialVoid_ok hr).1

example : (serialCopies (X := Empty) (fun (_ : Unit) e => match e with | .before n => ((), .ok (10 * n)) | _ => ((), .ok 0)) () [.before 0, .before 1, .before 2, .before 3]).results.toOption =
    some [0, 10, 20, 30] := by decide +kernel

end

section
variable {S R X : Type}

/-- **C96** With the default model, `serial<void>`, the function objects themselves are called, each call going on from the state left by the one before.  If none throws, all the calls are made and the caller finds the objects in the state
reached by all of them; if one does, the exception is that of the first call which throws, and no calls are made after it. -/
theorem C96_serial (f : S → Event → S × Except X R) (s : S) (calls : List Event) :
    (∀ rs, (serialVoid f s calls).results = .ok rs →
      (serialVoid f s calls).calls = calls ∧ (serialVoid f s calls).state = after f s calls ∧ rs.length = calls.length) ∧
    (∀ x, (serialVoid f s calls).results = .error x → ∃ done e rest, calls = done ++ e :: rest ∧ (serialVoid f s calls).calls = done ++ [e] ∧
      (f (after f s done) e).2 = .error x ∧ (serialVoid f s calls).state = after f s (done ++ [e]) ∧
      ∀ k (hk : k < done.length), ∃ r, (f (after f s (done.take k)) done[k]).2 = .ok r) :=
  ⟨fun _ h => serialVoid_ok h, fun _ h => serialVoid_error h⟩

/-- Calls are recorded in the state; a call for node 2 throws. -/
def recorder (s : List Event) (e : Event) : List Event × Except Nat Nat := (s ++ [e], if e = .before 2 then .error 7 else .ok s.length)

example : (serialVoid recorder [] [.before 0, .before 1]).state = [.before 0, .before 1] := by decide +kernel
example : (serialVoid recorder [] [.before 0, .before 2, .before 1]).calls = [.before 0, .before 2] ∧
    (match (serialVoid recorder [] [.before 0, .before 2, .before 1]).results with | .error x => x = 7 | .ok _ => False) := by
  refine ⟨by decide +kernel, ?_⟩
  simp [serialVoid, recorder]

/-- **C96** For functions without state all the models agree: `serial<void>` and `serial<R>` make the same calls and end in the same way; the results are there just if every future holds a result, and they are those the futures hold. -/
theorem C96_models_agree {f : S → Event → S × Except X R} {g : Event → Except X R} (hf : Stateless f g) (s : S) (calls : List Event) :
    serialVoid f s calls = serialCopies f s calls ∧ futures f s calls = calls.map g ∧
    (∀ rs, (serialCopies f s calls).results = .ok rs ↔ calls.map g = rs.map .ok) := by
  have hfu : futures f s calls = calls.map g := by
    unfold futures
    congr 1
    funext e
    rw [hf s e]
  refine ⟨?_, hfu, fun rs => by rw [serialCopies_iff, hfu]⟩
  clear hfu
  induction calls with
  | nil => rfl
  | cons e l ih =>
    unfold serialVoid serialCopies
    rw [hf s e]
    cases g e with
    | error x => rfl
    | ok r => simp only []; rw [ih]

example : Stateless (X := Nat) (fun (s : Nat) e => (s, if e = .before 2 then .error 7 else .ok e)) (fun e => if e = .before 2 then .error 7 else .ok e) := fun _ _ => rfl

/-- **C96** With a thread pool there is one future for each call, in the order of the calls.  In every execution of the pool, whatever the number of threads, a future which is ready holds the outcome of its call; once the pool has been
joined, every future is ready. -/
theorem C96_pool (f : S → Event → S × Except X R) (s : S) (calls : List Event) {c : Pool.Cfg} (hc : 0 < c.threads) {ls : List Pool.Lbl} {p : Pool.St}
    (h : Pool.Exec c (Pool.init (List.range calls.length)) ls p) :
    (poolFutures f s calls p.executed).length = calls.length ∧
    (∀ (k : Nat) (x : Except X R), (poolFutures f s calls p.executed)[k]? = some (some x) → ∃ e, calls[k]? = some e ∧ x = (f s e).2 ∧ p.executed.count k = 1) ∧
    (p.owner = .returned → poolFutures f s calls p.executed = (futures f s calls).map some) := by
  refine ⟨by simp [poolFutures], ?_, ?_⟩
  · intro k x hk
    simp only [poolFutures, List.getElem?_map, List.getElem?_zipIdx, Option.map_eq_some_iff] at hk
    obtain ⟨⟨e, k'⟩, h1, h2⟩ := hk
    cases he : calls[k]? with
    | none => simp [he] at h1
    | some e' =>
      simp [he] at h1
      obtain ⟨rfl, rfl⟩ := h1
      simp only at h2
      split at h2
      · next hm =>
        refine ⟨e', rfl, by simpa using h2.symm, ?_⟩
        have := C32_nodup hc List.nodup_range h
        have h3 := List.nodup_iff_count.1 this k
        have h4 := List.count_pos_iff.2 hm
        omega
      · simp at h2
  · intro hr
    have hp := (C32_exactly_once hc h hr).1
    apply List.ext_getElem?
    intro k
    simp only [poolFutures, futures, List.getElem?_map, List.getElem?_zipIdx]
    cases he : calls[k]? with
    | none => simp
    | some e =>
      have hk : k < calls.length := (List.getElem?_eq_some_iff.1 he).1
      have : k ∈ p.executed := hp.mem_iff.2 (List.mem_range.2 hk)
      simp [this]

example : (poolFutures (X := Nat) (fun (_ : Unit) e => ((), if e = .before 2 then .error 7 else .ok 1)) () [.before 0, .before 2, .before 1] [2, 0]).map (·.map Except.toOption) =
    [some (some 1), none, some (some 1)] := by decide +kernel

/-- **C96 (violated)** The comment in `traverse` has it that the functions are not to be captured by value, since they may have mutable state.  With `serial<R>`, if `R` is not void, it is copies which are called: the objects
passed are unchanged after the traversal, and each call starts from the state which they had before; a function which numbers the nodes gives each of them the number 0. -/
theorem C96_state_violated :
    (∀ (f : S → Event → S × Except X R) (s : S) (calls : List Event), (serialCopies f s calls).state = s) ∧
    ∃ (f : Nat → Event → Nat × Except Empty Nat) (calls : List Event),
      traverseOf ⟨true, false, false, false⟩ stdQueue .directed false false cyclic 0 6 = .ok (some calls) ∧
      (serialVoid f 0 calls).results = .ok [0, 1, 2, 3] ∧ (serialVoid f 0 calls).state = 4 ∧
      (serialCopies f 0 calls).results = .ok [0, 0, 0, 0] ∧ (serialCopies f 0 calls).state = 0 := by
  refine ⟨fun f s calls => (serialCopies_eq f s calls).1, fun n _ => (n + 1, .ok n), [.before 0, .before 1, .before 2, .before 3], by decide +kernel, ?_, ?_, ?_, ?_⟩ <;>
    simp [serialVoid, serialCopies]

end

end Verif.Props
