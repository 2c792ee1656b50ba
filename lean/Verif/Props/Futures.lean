import Verif.Lemmas.Futures

/-! # C110: what clients of thread pools get

A client pushes functions and asks for their answers, in any order it likes, and leaves; `start w prog` is the beginning, in which `w i` is what the `i`-th function is going to act on, and an execution is any
interleaving of the steps of the client and the workers.  `s.pool.owner = .returned` says that the client has left and that the pool has been destroyed. -/
namespace Verif.Props
open Verif.Pool Verif.Futures

section
variable {W R E : Type} {c : Cfg} {fn : Nat → W → W × Except E R} {w : Nat → W} {prog : List Op}

/-- **C110 (part)** Once the client has left and the pool has been destroyed, whatever the schedule: the answers are those of the functions asked, in the order in which they were asked, up to the first exception, and
it is this one that made the client leave; each function which was pushed has been called exactly once, those whose answers nobody wanted and those which throw included, and no other function has been called. -/
theorem C110_pool (hc : 0 < c.threads) {ls : List Lbl} {s : Sys W R E} (h : SExec c fn (start w prog) ls s) (hr : s.pool.owner = .returned) :
    (s.got, s.thrown) = answers (fun t => (fn t (w t)).2) prog ∧ s.pool.executed.Perm (List.range (pushes (fun t => (fn t (w t)).2) prog)) ∧
    ∀ i, s.item i = if i < pushes (fun t => (fn t (w t)).2) prog then (fn i (w i)).1 else w i := by
  have hi := inv_exec hc rfl h
  have hp : s.prog = [] := hi.ending (by rw [hr]; trivial)
  obtain ⟨ls', hex⟩ := hi.exec
  have hperm := (C32_exactly_once hc hex hr).1
  have hn : s.pushed = pushes (fun t => (fn t (w t)).2) prog := by rw [hi.pushes, hp]; rfl
  refine ⟨?_, hn ▸ hperm, fun i => ?_⟩
  · rw [hi.answers, hp]
    simp [answers]
  · rw [hi.item i, ← hn]
    simp only [hperm.mem_iff, List.mem_range]

/-- **C110 (part)** At any time, whatever the schedule: what the client has got so far is the beginning of the answers; each function has been called at most once, on what it was meant for, and none which has not been pushed;
and if the client has got the answer of a function, then this function has been called. -/
theorem C110_always (hc : 0 < c.threads) {ls : List Lbl} {s : Sys W R E} (h : SExec c fn (start w prog) ls s) :
    s.got <+: (answers (fun t => (fn t (w t)).2) prog).1 ∧ s.pool.executed.Nodup ∧ (∀ i ∈ s.pool.executed, i < s.pushed) ∧
    (∀ i, s.item i = if i ∈ s.pool.executed then (fn i (w i)).1 else w i) ∧ ∀ i x, s.ready i = some x → i ∈ s.pool.executed ∧ x = (fn i (w i)).2 := by
  have hi := inv_exec hc rfl h
  obtain ⟨ls', hex⟩ := hi.exec
  refine ⟨?_, C32_nodup hc List.nodup_range hex, ?_, hi.item, ?_⟩
  · rw [hi.answers]; exact List.prefix_append _ _
  · intro i hm
    have h1 := C32_never_twice hc hex i
    have h2 : 0 < s.pool.executed.count i := List.count_pos_iff.mpr hm
    have h3 : 0 < (List.range s.pushed).count i := by omega
    exact List.mem_range.mp (List.count_pos_iff.mp h3)
  · intro i x hx
    have := hi.ready i
    rw [hx] at this
    split at this
    · rename_i hm; exact ⟨hm, Option.some.inj this⟩
    · cases this

/-- **C110 (part)** The client never waits in vain: if it asks only for the answers of functions which it has pushed, then in every state, as long as the pool has not been destroyed, somebody can make a step; every execution can be
continued until the client has left; and without spurious wake-ups every schedule leads there within a number of steps which does not depend on the schedule. -/
theorem C110_ends (hc : 0 < c.threads) (hu : Usable 0 [] prog) {ls : List Lbl} {s : Sys W R E} (h : SExec c fn (start w prog) ls s) :
    (s.pool.owner ≠ .returned → ∃ s', SStep c fn s .proper s') ∧ (∃ ls' s', SExec c fn s ls' s' ∧ s'.pool.owner = .returned) ∧
    ∃ B, ∀ ls' s', SExec c fn s ls' s' → ls'.count .proper ≤ B + 2 * ls'.count .spurious := by
  have hi := inv_exec hc rfl h
  obtain ⟨a, ha⟩ := usable_exec rfl hu h
  exact ⟨sProgress hc hi ha, reaches hc _ (Nat.le_refl _) hi ⟨a, ha⟩, sMeasure c s, fun ls' s' h' => by have := sMeasure_exec hc rfl h h'; omega⟩

/-- **C110 (part)** Clients of `asynchronous` get the same answers as those of pools, and every function whose answer was asked for has been called; at no time has one been called twice.  What is missing: functions whose answers nobody wants,
see `C110_async_violated`. -/
theorem C110_async_partial {s : Async W R E} (h : AExec fn (Async.start w prog) s) (hl : s.left = true) :
    (s.got, s.thrown) = answers (fun t => (fn t (w t)).2) prog ∧ (∀ i ∈ asked (fun t => (fn t (w t)).2) prog, s.item i = (fn i (w i)).1) ∧
    (∀ i < pushes (fun t => (fn t (w t)).2) prog, s.item i = (fn i (w i)).1 ∨ (s.item i = w i ∧ i ∈ s.deferred)) ∧
    ∀ i, pushes (fun t => (fn t (w t)).2) prog ≤ i → s.item i = w i := by
  have hi := ainv_exec rfl h
  obtain ⟨hp, hrun⟩ := hi.left hl
  have hn : s.pushed = pushes (fun t => (fn t (w t)).2) prog := by rw [hi.pushes, hp]; rfl
  have hready : ∀ i, s.ready i ≠ none → s.item i = (fn i (w i)).1 := by
    intro i hne
    cases hx : s.ready i with
    | none => exact absurd hx hne
    | some x => exact (hi.called i x hx).2
  refine ⟨?_, ?_, ?_, ?_⟩
  · rw [hi.answers, hp]; simp [answers]
  · intro i hm
    rcases hi.asked i hm with h1 | h1
    · exact hready i h1
    · rw [hp] at h1; cases h1
  · intro i hlt
    rcases hi.known i (hn ▸ hlt) with h1 | h1
    · rw [hrun, List.nil_append] at h1
      exact .inr ⟨hi.uncalled i (hi.waiting i (by rw [hrun]; exact h1)).2, h1⟩
    · exact .inl (hready i h1)
  · intro i hle
    exact hi.uncalled i (hi.unpushed i (hn ▸ hle))

/-- **C110 (part)** Clients of `asynchronous` do not wait in vain either. -/
theorem C110_async_progress (hu : Usable 0 [] prog) {s : Async W R E} (h : AExec fn (Async.start w prog) s) (hl : s.left = false) : ∃ s', AStep fn s s' := by
  have hi := ainv_exec rfl h
  obtain ⟨a, ha⟩ := ausable_exec rfl hu h
  cases hp : s.prog with
  | nil =>
    cases hr : s.running with
    | nil => exact ⟨_, .leave hl hp hr⟩
    | cons t ts => exact ⟨_, .run (t := t) (by rw [hr]; exact List.mem_cons_self)⟩
  | cons op rest =>
    cases op with
    | push => exact ⟨_, .pushAsync hl hp⟩
    | get i =>
      rw [hp] at ha
      rcases hi.known i ha.1 with h1 | h1
      · rcases List.mem_append.mp h1 with h1 | h1
        · exact ⟨_, .run h1⟩
        · exact ⟨_, .runDeferred hl hp h1⟩
      · cases hx : s.ready i with
        | none => exact absurd hx h1
        | some x =>
          cases x with
          | ok r => exact ⟨_, .get hl hp hx⟩
          | error e => exact ⟨_, .rethrow hl hp hx⟩

end

/-- **C110 (violated)** A function which has been given to `asynchronous` need not be called: if nobody asks for its answer and `std::async` has deferred it, then it is dropped.  A pool calls it (`C110_pool`). -/
theorem C110_async_violated : ∃ s : Async Nat Unit Unit, AExec (fun _ x => (x + 1, .ok ())) (Async.start (fun _ => 0) [.push]) s ∧ s.left = true ∧ s.item 0 = 0 :=
  ⟨_, .step (.step (.refl _) (.pushDeferred rfl rfl)) (.leave rfl rfl rfl), rfl, rfl⟩

section
variable {W E : Type} {fn : W → W × Except E Unit}

namespace Futures

theorem answers_pushes (result : Nat → Except E Unit) (n : Nat) (ops : List Op) : answers result (List.replicate n .push ++ ops) = answers result ops := by
  induction n with
  | zero => rfl
  | succ n ih => rw [List.replicate_succ, List.cons_append]; exact ih

theorem pushes_gets (result : Nat → Except E Unit) (l : List Nat) : pushes result (l.map .get) = 0 := by
  induction l with
  | nil => rfl
  | cons i l ih =>
    rw [List.map_cons, pushes]
    split
    · exact ih
    · rfl

theorem pushes_pushes (result : Nat → Except E Unit) (n : Nat) (ops : List Op) : pushes result (List.replicate n .push ++ ops) = n + pushes result ops := by
  induction n with
  | zero => simp
  | succ n ih => rw [List.replicate_succ, List.cons_append]; simp only [pushes, ih]; omega

theorem usable_gets (n : Nat) (l asked : List Nat) (hl : ∀ i ∈ l, i < n ∧ i ∉ asked) (hnd : l.Nodup) : Usable n asked (l.map .get) := by
  induction l generalizing asked with
  | nil => trivial
  | cons i l ih =>
    rw [List.nodup_cons] at hnd
    refine ⟨(hl i List.mem_cons_self).1, (hl i List.mem_cons_self).2, ih (i :: asked) (fun j hj => ⟨(hl j (List.mem_cons_of_mem _ hj)).1, ?_⟩) hnd.2⟩
    intro hm
    rcases List.mem_cons.mp hm with rfl | hm
    · exact hnd.1 hj
    · exact (hl j (List.mem_cons_of_mem _ hj)).2 hm

theorem usable_pushes (n k : Nat) (ops : List Op) (h : Usable (n + k) [] ops) : Usable n [] (List.replicate k .push ++ ops) := by
  induction k generalizing n with
  | zero => exact h
  | succ k ih =>
    rw [List.replicate_succ, List.cons_append]
    exact ih (n + 1) (by rw [Nat.add_right_comm, Nat.add_assoc]; exact h)

theorem usable_accelerate (n : Nat) : Usable 0 [] (accelerateProg n) :=
  usable_pushes 0 n _ (usable_gets _ _ _ (fun i hi => ⟨by rw [Nat.zero_add]; exact List.mem_range.mp hi, by simp⟩) List.nodup_range)

theorem answers_firstThrown (items : List W) (k : Nat) (g : Nat → W) (hg : ∀ j (h : j < items.length), g (k + j) = items[j]) :
    (answers (fun t => (fn (g t)).2) ((List.range' k items.length).map .get)).2 = firstThrown fn items := by
  induction items generalizing k with
  | nil => rfl
  | cons w ws ih =>
    have h0 : g k = w := hg 0 (by simp)
    rw [List.length_cons, List.range'_succ, List.map_cons]
    simp only [answers, h0, firstThrown]
    cases hf : (fn w).2 with
    | ok r =>
      simp only
      refine ih (k + 1) fun j hj => ?_
      have := hg (j + 1) (by simp; omega)
      rw [show k + 1 + j = k + (j + 1) by omega, this]
      rfl
    | error e => rfl

end Futures
open Futures

/-- **C110 (part)** When `accelerate` returns or throws, with a pool of at least one thread and whatever the schedule, the function has been called exactly once for every item, even if it throws for some of them, and the exception which
is thrown is that of the first of these items, in the order of the items and not in that of time; if there is none, then none is thrown. -/
theorem C110_accelerate {num : Nat} (hn : 0 < num) {items : List W} {out : List W × Option E} (h : Accelerate num fn items out) : out = (items.map fun w => (fn w).1, firstThrown fn items) := by
  match items, h with
  | [], h => exact h
  | [w], h =>
    rw [show out = _ from h]
    simp only [List.map_cons, List.map_nil, firstThrown]
    cases (fn w).2 <;> rfl
  | w :: w' :: ws, h =>
    obtain ⟨ls, s, hex, hr, hout⟩ := h
    have hc : 0 < min (w :: w' :: ws).length num := by simp only [List.length_cons]; omega
    obtain ⟨h1, _, h3⟩ := C110_pool (c := ⟨min (w :: w' :: ws).length num, true, 46⟩) hc hex hr
    have hp : ∀ result : Nat → Except E Unit, pushes result (accelerateProg (w :: w' :: ws).length) = (w :: w' :: ws).length := fun result => by
      rw [accelerateProg, pushes_pushes, pushes_gets]; rfl
    rw [hout]
    refine Prod.ext ?_ ?_
    · refine List.ext_getElem (by simp) fun i hi1 hi2 => ?_
      have hi : i < (w :: w' :: ws).length := by simpa using hi2
      simp only [List.getElem_map, List.getElem_range]
      rw [h3 i, hp, if_pos hi, dif_pos hi]
    · have h4 : s.thrown = (answers (fun t => (fn (if h : t < (w :: w' :: ws).length then (w :: w' :: ws)[t] else w)).2) (accelerateProg (w :: w' :: ws).length)).2 := by rw [← h1]
      show s.thrown = _
      rw [h4, accelerateProg, answers_pushes, List.range_eq_range']
      refine answers_firstThrown (w :: w' :: ws) 0 (fun t => if h : t < (w :: w' :: ws).length then (w :: w' :: ws)[t] else w) fun j hj => ?_
      rw [Nat.zero_add, dif_pos hj]

/-- **C110 (part)** It does return or throw. -/
theorem C110_accelerate_ends {num : Nat} (hn : 0 < num) (fn : W → W × Except E Unit) (items : List W) : ∃ out, Accelerate num fn items out := by
  match items with
  | [] => exact ⟨_, rfl⟩
  | [w] => exact ⟨_, rfl⟩
  | w :: w' :: ws =>
    have hc : 0 < min (w :: w' :: ws).length num := by simp only [List.length_cons]; omega
    obtain ⟨_, ⟨ls, s, h1, h2⟩, _⟩ := C110_ends (c := ⟨min (w :: w' :: ws).length num, true, 46⟩) (fn := fun _ => fn) hc (usable_accelerate (w :: w' :: ws).length)
      (SExec.refl (start (fun i => if h : i < (w :: w' :: ws).length then (w :: w' :: ws)[i] else w) _))
    exact ⟨_, ls, s, h1, h2, rfl⟩

/-- **C110 (part)** Calling the function for one item after the other has the same effects, if there is no exception, and always leads to the same exception.  What is missing: `C110_in_order_violated`. -/
theorem C110_in_order_partial {num : Nat} (hn : 0 < num) {items : List W} {out : List W × Option E} (h : Accelerate num fn items out) :
    out.2 = (inOrder fn items).2 ∧ (out.2 = none → out = inOrder fn items) := by
  have h1 : (inOrder fn items).2 = firstThrown fn items ∧ (firstThrown fn items = none → (inOrder fn items).1 = items.map fun w => (fn w).1) := by
    clear h
    induction items with
    | nil => exact ⟨rfl, fun _ => rfl⟩
    | cons w ws ih =>
      simp only [inOrder, firstThrown]
      cases hf : (fn w).2 with
      | ok r => exact ⟨ih.1, fun hh => by simp only [List.map_cons]; rw [ih.2 hh]⟩
      | error e => exact ⟨rfl, fun hh => by cases hh⟩
  rw [C110_accelerate hn h]
  exact ⟨h1.1.symm, fun hh => Prod.ext (h1.2 hh).symm h1.1.symm⟩

end

/-- **C110 (violated)** If the function throws for an item, then it is called for the items behind it by `accelerate`, but not if the items are dealt with one after the other. -/
theorem C110_in_order_violated : ∃ (fn : Nat → Nat × Except String Unit) (items : List Nat), (∀ num, 0 < num → ∀ out, Accelerate num fn items out → out = ([1, 2], some "failure")) ∧
    inOrder fn items = ([1, 1], some "failure") := by
  refine ⟨fun n => (n + 1, if n = 0 then .error "failure" else .ok ()), [0, 1], fun num hn out h => ?_, rfl⟩
  rw [C110_accelerate hn h]; rfl

/-! Not vacuous: a client which pushes, asks and pushes again is one of those considered; its executions end, one of the functions throws, and what is pushed afterwards is not done. -/

example : Usable 0 [] [.push, .push, .get 1, .push, .get 0, .push] := by simp [Usable]

example : ∃ ls, ∃ s : Sys Nat Nat String, SExec ⟨2, true, 46⟩ (fun i x => (x + 1, if i = 0 then .error "failure" else .ok (x + i))) (start (fun i => 10 * i) [.push, .push, .get 1, .push, .get 0, .push]) ls s ∧
    s.pool.owner = .returned ∧ s.got = [11] ∧ s.thrown = some "failure" ∧ s.item 2 = 21 ∧ s.item 3 = 30 := by
  obtain ⟨_, ⟨ls, s, h, hr⟩, _⟩ := C110_ends (c := ⟨2, true, 46⟩) (fn := fun i x => (x + 1, if i = 0 then .error "failure" else .ok (x + i))) (prog := [.push, .push, .get 1, .push, .get 0, .push]) (w := fun i => 10 * i)
    (by decide) (by simp [Usable]) (SExec.refl _)
  obtain ⟨h1, _, h3⟩ := C110_pool (by decide) h hr
  refine ⟨ls, s, h, hr, congrArg Prod.fst h1, congrArg Prod.snd h1, h3 2, h3 3⟩

example : ∃ out, Accelerate 3 (fun n : Nat => (n * n, if n = 2 then .error "two" else if n = 5 then .error "five" else .ok ())) [4, 5, 2, 7] out ∧ out = ([16, 25, 4, 49], some "five") := by
  obtain ⟨out, h⟩ := C110_accelerate_ends (num := 3) (by decide) (fun n : Nat => (n * n, if n = 2 then .error "two" else if n = 5 then .error "five" else .ok ())) [4, 5, 2, 7]
  exact ⟨out, h, by rw [C110_accelerate (by decide) h]; rfl⟩

example : ∃ s : Async Nat Nat Unit, AExec (fun i x => (x + 1, .ok i)) (Async.start (fun _ => 0) [.push, .push, .get 1, .get 0]) s ∧ s.left = true ∧ s.got = [1, 0] :=
  ⟨_, .step (.step (.step (.step (.step (.step (.step (.refl _) (.pushDeferred rfl rfl)) (.pushAsync rfl rfl)) (.run (t := 1) (by simp [Async.start]))) (.get rfl rfl rfl))
    (.runDeferred rfl rfl (by simp [Async.call, Async.start]))) (.get rfl rfl rfl)) (.leave rfl rfl rfl), rfl, rfl⟩

end Verif.Props
