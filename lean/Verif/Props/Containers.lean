import Verif.Lemmas.StaticContainers
import Verif.Lemmas.PriorityQueueEq
import Verif.Lemmas.Monotonic
import Verif.Props.Algorithms

/-! Properties C04-C07: the small containers of /repo/Source/sequoia/Core/DataStructures and Maths/Sequences. -/
namespace Verif.Props
open Verif.Spec Verif.Static

/-- C04.  A static_stack constructed from a list (of admissible length) and put through any history of calls shows its
caller exactly what a bounded list-stack shows (values, exceptions, undefined behaviour for popping or reading an empty
stack and nothing else), and afterwards holds the same contents. -/
theorem C04_static_stack {α : Type} (N : Nat) (dflt : α) (l : List α) (hl : l.length ≤ N) (ops : List (StackOp α)) :
    ∃ s : Stack α N, Stack.mk' dflt l = .ok s ∧
      ((run Stack.step s ops = none ∧ run (stackStep N) l ops = none) ∨
       ∃ s' m outs, run Stack.step s ops = some (s', outs) ∧ run (stackStep N) l ops = some (m, outs) ∧
         s'.e = m.length ∧ s'.data.toList.take s'.e = m) := by
  obtain ⟨s, hs, hR⟩ := Stack.mk'_spec (N := N) dflt l hl
  refine ⟨s, hs, ?_⟩
  rcases run_sim (R := StackR) (fun s t o h => Stack.sim s t o h) s l hR ops with h | ⟨s', m, outs, h1, h2, h3⟩
  · exact .inl h
  · refine .inr ⟨s', m, outs, h1, h2, ?_, h3.2⟩
    rw [← h3.2]; have := h3.1; simp [Stack.contents]; omega

/-- C04: constructing from too long a list throws. -/
theorem C04_static_stack_too_long {α : Type} (N : Nat) (dflt : α) (l : List α) (hl : N < l.length) :
    (Stack.mk' dflt l : Res (Stack α N)) = .throws := by
  simp [Stack.mk', toArray, hl]

/-- C04: `operator==` of two stacks with arbitrary histories is equality of the logical contents. -/
theorem C04_static_stack_eq {α : Type} [BEq α] [LawfulBEq α] (N : Nat) (dflt : α) (l m l' m' : List α)
    (hl : l.length ≤ N) (hm : m.length ≤ N) (ops ops' : List (StackOp α)) (outs outs' : List (Option (Val α)))
    (h : run (stackStep N) l ops = some (l', outs)) (h' : run (stackStep N) m ops' = some (m', outs')) :
    ∃ s s' t t' : Stack α N, Stack.mk' dflt l = .ok s ∧ run Stack.step s ops = some (s', outs) ∧
      Stack.mk' dflt m = .ok t ∧ run Stack.step t ops' = some (t', outs') ∧ Stack.eq s' t' = (l' == m') := by
  obtain ⟨s, hs, hR⟩ := Stack.mk'_spec (N := N) dflt l hl
  obtain ⟨t, ht, hT⟩ := Stack.mk'_spec (N := N) dflt m hm
  rcases run_sim (R := StackR) (fun s t o h => Stack.sim s t o h) s l hR ops with ⟨_, hc⟩ | ⟨s', m1, o1, h1, h2, h3⟩
  · rw [hc] at h; cases h
  · rcases run_sim (R := StackR) (fun s t o h => Stack.sim s t o h) t m hT ops' with ⟨_, hc⟩ | ⟨t', m2, o2, h4, h5, h6⟩
    · rw [hc] at h'; cases h'
    · rw [h2] at h; rw [h5] at h'
      simp only [Option.some.injEq, Prod.mk.injEq] at h h'
      obtain ⟨rfl, rfl⟩ := h
      obtain ⟨rfl, rfl⟩ := h'
      exact ⟨s, s', t, t', hs, h1, ht, h4, Stack.eq_spec h3 h6⟩

/-- A history meeting the hypotheses: overflow, pop, read. -/
example : run (stackStep 2) [5] [.push 6, .push 7, .top, .pop, .size] =
    some ([5], [some .unit, none, some (.elem 6), some .unit, some (.num 1)]) := by decide

/-- C05.  A static_queue constructed from a list and put through any history shows its caller exactly what a bounded
FIFO list shows.  (Reading an empty queue is undefined; popping an empty queue does nothing.) -/
theorem C05_static_queue {α : Type} (N : Nat) (dflt : α) (l : List α) (hl : l.length ≤ N) (ops : List (QueueOp α)) :
    ∃ q : Queue α N, Queue.mk' dflt l = .ok q ∧
      ((run Queue.step q ops = none ∧ run (queueStep N) l ops = none) ∨
       ∃ q' m outs, run Queue.step q ops = some (q', outs) ∧ run (queueStep N) l ops = some (m, outs) ∧
         q'.size = m.length) := by
  obtain ⟨q, hq, hR⟩ := Queue.mk'_spec (N := N) dflt l hl
  refine ⟨q, hq, ?_⟩
  rcases run_sim (R := QueueR) (fun s t o h => Queue.sim s t o h) q l hR ops with h | ⟨s', m, outs, h1, h2, h3⟩
  · exact .inl h
  · exact .inr ⟨s', m, outs, h1, h2, h3.size⟩

/-- C05: `operator==` of two queues with arbitrary histories never reads out of range and is equality of the logical
contents, wherever they sit in the ring. -/
theorem C05_static_queue_eq {α : Type} [BEq α] [LawfulBEq α] (N : Nat) (dflt : α) (l m l' m' : List α)
    (hl : l.length ≤ N) (hm : m.length ≤ N) (ops ops' : List (QueueOp α)) (outs outs' : List (Option (Val α)))
    (h : run (queueStep N) l ops = some (l', outs)) (h' : run (queueStep N) m ops' = some (m', outs')) :
    ∃ s s' t t' : Queue α N, Queue.mk' dflt l = .ok s ∧ run Queue.step s ops = some (s', outs) ∧
      Queue.mk' dflt m = .ok t ∧ run Queue.step t ops' = some (t', outs') ∧ Queue.eq s' t' = .ok (l' == m') := by
  obtain ⟨s, hs, hR⟩ := Queue.mk'_spec (N := N) dflt l hl
  obtain ⟨t, ht, hT⟩ := Queue.mk'_spec (N := N) dflt m hm
  rcases run_sim (R := QueueR) (fun s t o h => Queue.sim s t o h) s l hR ops with ⟨_, hc⟩ | ⟨s', m1, o1, h1, h2, h3⟩
  · rw [hc] at h; cases h
  · rcases run_sim (R := QueueR) (fun s t o h => Queue.sim s t o h) t m hT ops' with ⟨_, hc⟩ | ⟨t', m2, o2, h4, h5, h6⟩
    · rw [hc] at h'; cases h'
    · rw [h2] at h; rw [h5] at h'
      simp only [Option.some.injEq, Prod.mk.injEq] at h h'
      obtain ⟨rfl, rfl⟩ := h
      obtain ⟨rfl, rfl⟩ := h'
      exact ⟨s, s', t, t', hs, h1, ht, h4, Queue.eq_spec h3 h6⟩

/-- A history with wrap-around and overflow meeting the hypotheses. -/
example : run (queueStep 2) [5] [.push 6, .push 7, .pop, .push 8, .front, .back] =
    some ([6, 8], [some .unit, none, some .unit, some .unit, some (.elem 6), some (.elem 8)]) := by decide

/-- The elements a priority queue holds: the first `size()` entries of its array. -/
def held {α : Type} {N : Nat} (q : PQ α N) : List α := q.data.toList.take q.e

/-- Priority queues obtained by default construction and any history of calls. -/
inductive PQReachable {α : Type} {N : Nat} (lt : α → α → Bool) (dflt : α) : PQ α N → Prop
  | init : PQReachable lt dflt (PQ.init dflt)
  | ret {q q' : PQ α N} {o b} : PQReachable lt dflt q → q.step lt o = .ret q' b → PQReachable lt dflt q'
  | threw {q q' : PQ α N} {o} : PQReachable lt dflt q → q.step lt o = .threw q' → PQReachable lt dflt q'

theorem PQReachable.inv {α : Type} {N : Nat} {lt : α → α → Bool} (hlt : StrictWeak lt) {dflt : α} {q : PQ α N}
    (h : PQReachable lt dflt q) : q.Inv lt := by
  induction h with
  | init => exact PQ.init_inv dflt
  | ret _ hs ih => have := PQ.step_inv hlt _ ih; rename_i o _ _; have := this o; rw [hs] at this; exact this
  | threw _ hs ih => have := PQ.step_inv hlt _ ih; rename_i o _; have := this o; rw [hs] at this; rw [this]; exact ih

/-- C06.  In every reachable state of a static_priority_queue: `top` is a held element than which no held element is
greater; `pop` removes exactly that element; `push` adds exactly its argument, or throws when full and changes nothing;
size counts the held elements. -/
theorem C06_static_priority_queue {α : Type} (N : Nat) (lt : α → α → Bool) (hlt : StrictWeak lt) (dflt : α)
    (q : PQ α N) (h : PQReachable lt dflt q) :
    q.step lt .size = .ret q (.num (held q).length) ∧
    q.step lt .empty = .ret q (.bool (held q).isEmpty) ∧
    (∀ a, (held q).length < N → ∃ q', q.step lt (.push a) = .ret q' .unit ∧ (held q').Perm (a :: held q)) ∧
    (∀ a, (held q).length = N → q.step lt (.push a) = .threw q) ∧
    (held q = [] → q.step lt .top = .ub ∧ q.step lt .pop = .ub) ∧
    (held q ≠ [] → ∃ a q', q.step lt .top = .ret q (.elem a) ∧ a ∈ held q ∧ (∀ b ∈ held q, lt a b = false) ∧
      q.step lt .pop = .ret q' .unit ∧ (held q).Perm (a :: held q')) := by
  have hi := h.inv hlt
  have hlen : (held q).length = q.e := by have := hi.1; simp [held]; omega
  refine ⟨by simp only [PQ.step, hlen], ?_, ?_, ?_, ?_, ?_⟩
  · simp only [PQ.step]
    congr 2
    rw [Bool.eq_iff_iff]
    simp only [beq_iff_eq, List.isEmpty_iff, ← List.length_eq_zero_iff, hlen]
  · intro a ha
    obtain ⟨q', h1, _, _, h2⟩ := PQ.push_spec hlt q hi a (by omega)
    exact ⟨q', h1, h2⟩
  · intro a ha; exact PQ.push_full q a (by omega)
  · intro h0
    have : q.e = 0 := by rw [← hlen, h0]; rfl
    simp [PQ.step, this]
  · intro h0
    have : 0 < q.e := by rw [← hlen]; exact List.length_pos_iff.2 h0
    obtain ⟨a, h1, h2, h3⟩ := PQ.top_spec hlt q hi this
    obtain ⟨q', b, h4, _, _, h5, h6⟩ := PQ.pop_spec hlt q hi this
    rw [h1] at h5
    cases h5
    exact ⟨a, q', h1, h2, h3, h4, h6⟩

/-- C06, initializer list, partial: the queue holds exactly the listed elements provided the list fills the capacity or
no listed element is less than the default value used as padding.  The full claim (any list) fails, see
`C06_initializer_list_violated`. -/
theorem C06_initializer_list_partial {α : Type} (N : Nat) (lt : α → α → Bool) (hlt : StrictWeak lt) (dflt : α)
    (l : List α) (hl : l.length ≤ N) (hd : l.length = N ∨ ∀ a ∈ l, lt a dflt = false) :
    ∃ q : PQ α N, PQ.mk' lt dflt l = .ok q ∧ (held q).Perm l ∧ (held q).length = l.length := by
  obtain ⟨q, h1, _, h3⟩ := PQ.mk'_spec (N := N) hlt dflt l hl hd
  exact ⟨q, h1, h3, h3.length_eq⟩

example : ([3, 1, 2] : List Nat).length ≤ 5 ∧ ∀ a ∈ ([3, 1, 2] : List Nat), decide (a < 0) = false := by decide

/-- C06, initializer list: the claim is false of the code.  static_priority_queue<int, 2>{-1} makes a heap of the whole
array {-1, 0}; its single held element is 0, which was never listed. -/
theorem C06_initializer_list_violated :
    ∃ q : PQ Int 2, PQ.mk' (fun a b => decide (a < b)) 0 [-1] = .ok q ∧ held q = [0] := by
  refine ⟨_, rfl, ?_⟩
  simp [held, Heap.makeHeap, Heap.makeHeapLoop, Heap.bubbleUp, Heap.valComp]
  decide

example : PQReachable (fun a b : Nat => decide (a < b)) 0 (⟨#v[0, 0], 0⟩ : PQ Nat 2) := PQReachable.init

/-- C06, `operator==`, partial: queues which compare equal hold the same elements, as often; they cannot be told apart by any history of calls, and are equal after it; a queue is equal to itself, and to what it is a copy of.
That queues which hold the same elements are equal fails, see `C06_eq_violated`. -/
theorem C06_eq_partial {α : Type} [BEq α] [LawfulBEq α] (N : Nat) (lt : α → α → Bool) (hlt : StrictWeak lt) (dflt : α)
    (q r : PQ α N) (hq : PQReachable lt dflt q) (hr : PQReachable lt dflt r) :
    q.eq q = true ∧ q.eq r = r.eq q ∧
    (q.eq r = true → (held q).Perm (held r) ∧ ∀ ops,
      (run (PQ.step lt) q ops = none ∧ run (PQ.step lt) r ops = none) ∨
      ∃ q' r' outs, run (PQ.step lt) q ops = some (q', outs) ∧ run (PQ.step lt) r ops = some (r', outs) ∧ q'.eq r' = true) := by
  have h1 := (hq.inv hlt).1
  have h2 := (hr.inv hlt).1
  refine ⟨(PQ.eq_iff q q h1).2 ⟨rfl, h1, fun _ _ _ => rfl⟩, ?_, ?_⟩
  · rw [Bool.eq_iff_iff, PQ.eq_iff q r h1, PQ.eq_iff r q h2]
    exact ⟨fun ⟨a, _, c⟩ => ⟨a.symm, h2, fun i hi hn => (c i (a ▸ hi) hn).symm⟩, fun ⟨a, _, c⟩ => ⟨a.symm, h1, fun i hi hn => (c i (a ▸ hi) hn).symm⟩⟩
  · intro he
    have hs := (PQ.eq_iff q r h1).1 he
    refine ⟨?_, fun ops => ?_⟩
    · have : held q = held r := by
        unfold held
        rw [← hs.1]
        exact (take_eq_iff _ _ _).2 hs.2.2
      rw [this]
    · rcases run_sim (R := PQ.Same) (fun q r o h => PQ.same_step lt q r o h) q r hs ops with h | ⟨q', r', outs, h1, h2, h3⟩
      · exact .inl h
      · exact .inr ⟨q', r', outs, h1, h2, (PQ.eq_iff q' r' h3.2.1).2 h3⟩

/-- C06, `operator==`: equality is not that of what is held.  Pushing 3, 1, 2 and pushing 3, 2, 1 give queues with the same elements, which yield the same whatever is done with them, but which are not equal. -/
theorem C06_eq_violated :
    ∃ (q r : PQ Nat 3) (oq or : List (PQOp Nat)) (outq outr : List (Option (Val Nat))),
      run (PQ.step fun a b => decide (a < b)) (PQ.init 0) oq = some (q, outq) ∧ run (PQ.step fun a b => decide (a < b)) (PQ.init 0) or = some (r, outr) ∧
      (held q).Perm (held r) ∧ q.eq r = false := by
  refine ⟨_, _, [.push 3, .push 1, .push 2], [.push 3, .push 2, .push 1], _, _, rfl, rfl, ?_, ?_⟩
  · simp [held, PQ.init, Heap.bubbleUp, Heap.valComp]
    decide
  · simp [PQ.eq, PQ.init, Heap.bubbleUp, Heap.valComp]
    decide

example : ∃ (q r : PQ Nat 3) (outq outr : List (Option (Val Nat))),
    run (PQ.step fun a b => decide (a < b)) (PQ.init 0) [.push 1] = some (q, outq) ∧ run (PQ.step fun a b => decide (a < b)) (PQ.init 0) [.push 1, .push 2, .pop] = some (r, outr) ∧
    q.data ≠ r.data ∧ q.eq r = true := by
  refine ⟨_, _, _, _, rfl, rfl, ?_, ?_⟩
  · simp [PQ.init, Heap.bubbleUp, Heap.valComp, Heap.makeHeap]
    decide
  · simp [PQ.eq, PQ.init, Heap.bubbleUp, Heap.valComp, Heap.makeHeap]
    decide

/-- C07.  On a monotonic sequence every checked operation does what the plain list operation does if the result is
monotonic, and otherwise throws and leaves the sequence alone.  (`mutate` may be given a function which throws.) -/
theorem C07_checked_operations {α : Type} (cmp : α → α → Bool) (hc : StrictWeak cmp) (s : List α)
    (hs : Monotone cmp s) (o : Monotonic.Op α) : Monotonic.step cmp s o = monotonicStep cmp s o :=
  Monotonic.step_spec hc s hs o

/-- C07: construction throws exactly when the list is not monotonic (dynamic sequences). -/
theorem C07_construct {α : Type} (cmp : α → α → Bool) (l : List α) :
    (Monotone cmp l → Monotonic.construct cmp l = .ok l) ∧ (¬ Monotone cmp l → Monotonic.construct cmp l = .throws) := by
  unfold Monotonic.construct
  rw [← Monotonic.check_iff]
  constructor
  · intro h; simp [h]
  · intro h; simp at h; simp [h]

/-- C07: the same for static sequences, where the list must not be too long, and is first padded to the given length. -/
theorem C07_construct_static {α : Type} (cmp : α → α → Bool) (dflt : α) (N : Nat) (l : List α) :
    (l.length ≤ N → Monotone cmp (l ++ List.replicate (N - l.length) dflt) → Monotonic.constructStatic cmp dflt N l = .ok (l ++ List.replicate (N - l.length) dflt)) ∧
    (¬ (l.length ≤ N ∧ Monotone cmp (l ++ List.replicate (N - l.length) dflt)) → Monotonic.constructStatic cmp dflt N l = .throws) := by
  have h := C07_construct cmp (l ++ List.replicate (N - l.length) dflt)
  unfold Monotonic.constructStatic
  constructor
  · intro h1 h2
    rw [if_neg (by omega)]
    exact h.1 h2
  · intro h1
    by_cases hN : N < l.length
    · rw [if_pos hN]
    · rw [if_neg hN]
      exact h.2 fun h2 => h1 ⟨by omega, h2⟩

/-- C07: after every history of checked operations on a successfully constructed sequence, the sequence is monotonic. -/
theorem C07_always_monotonic {α : Type} (cmp : α → α → Bool) (hc : StrictWeak cmp) (l s t : List α)
    (hl : Monotonic.construct cmp l = .ok s) (ops : List (Monotonic.Op α)) (outs : List (Option Unit))
    (h : run (Monotonic.step cmp) s ops = some (t, outs)) : Monotone cmp t := by
  have hs : Monotone cmp s := by
    unfold Monotonic.construct at hl
    split at hl
    · cases hl
    · rename_i hcc
      cases hl
      exact (Monotonic.check_iff _).1 (by simpa using hcc)
  clear hl
  induction ops generalizing s outs with
  | nil => simp [run] at h; rw [← h.1]; exact hs
  | cons o os ih =>
    unfold run at h
    rw [C07_checked_operations cmp hc s hs o] at h
    unfold monotonicStep at h
    cases he : effect s o with
    | ub => rw [he] at h; simp at h
    | throws =>
      rw [he] at h
      simp only [Option.map_eq_some_iff] at h
      obtain ⟨r, hr, hrt⟩ := h
      exact ih s r.2 (by rw [hr]; cases hrt; rfl) hs
    | ok u =>
      rw [he] at h
      simp only at h
      by_cases hm : Monotone cmp u
      · rw [if_pos hm] at h
        simp only [Option.map_eq_some_iff] at h
        obtain ⟨r, hr, hrt⟩ := h
        exact ih u r.2 (by rw [hr]; cases hrt; rfl) hm
      · rw [if_neg hm] at h
        simp only [Option.map_eq_some_iff] at h
        obtain ⟨r, hr, hrt⟩ := h
        exact ih s r.2 (by rw [hr]; cases hrt; rfl) hs

/-- C07: for a strict weak order, adjacent monotonicity is monotonicity between any two positions. -/
theorem C07_monotone_everywhere {α : Type} (cmp : α → α → Bool) (hc : StrictWeak cmp) (s : List α)
    (hs : Monotone cmp s) (i j : Nat) (hij : i < j) (hj : j < s.length) : cmp s[i] s[j] = false := by
  obtain ⟨d, rfl⟩ : ∃ d, j = i + d + 1 := ⟨j - i - 1, by omega⟩
  induction d with
  | zero => exact hs i hj
  | succ d ih => exact hc.negTrans _ _ _ (ih (by omega) (by omega)) (hs (i + d + 1) hj)

/-- Hypotheses of C07 met: a non-increasing sequence with ties, an accepted and a rejected operation. -/
example : Monotonic.construct (fun a b : Nat => decide (a < b)) [5, 3, 3, 1] = .ok [5, 3, 3, 1] ∧
    Monotonic.step (fun a b : Nat => decide (a < b)) [5, 3, 3, 1] (.insert 1 4) = .ret [5, 4, 3, 3, 1] () ∧
    Monotonic.step (fun a b : Nat => decide (a < b)) [5, 3, 3, 1] (.insert 1 2) = .threw [5, 3, 3, 1] ∧
    StrictWeak (fun a b : Nat => decide (a < b)) :=
  ⟨by decide, by decide, by decide, ⟨by simp; omega, by simp; omega⟩⟩

end Verif.Props
