import Verif.Lemmas.ThreadPoolCount

/-! # C32 and C33: the thread pool

An execution starts with the pool after its construction, the owner of the pool being about to push the tasks `tasks` and then to join.
`s.executed` lists the tasks which have been run, in the order in which they ended; `s.owner = .returned` says that `join` has returned. -/
namespace Verif.Props
open Verif.Pool

section lemmas

theorem Exec.trans {c : Cfg} {s s' s'' : St} {ls ls' : List Lbl} (h : Exec c s ls s') (h' : Exec c s' ls' s'') : Exec c s (ls ++ ls') s'' := by
  induction h' with
  | refl => simpa using h
  | step _ hs ih => rw [← List.append_assoc]; exact .step ih hs

end lemmas

/-! ## C32 -/

/-- C32: when `join` returns, every task has been executed exactly once: the tasks which have been executed are the tasks
which were pushed, with multiplicities.  Moreover all workers have left their loops, and the queues are empty. -/
theorem C32_exactly_once {c : Cfg} (hc : 0 < c.threads) {tasks : List Nat} {ls : List Lbl} {s : St} (h : Exec c (init tasks) ls s)
    (hr : s.owner = .returned) :
    s.executed.Perm tasks ∧ (∀ w, w < c.threads → s.worker w = .done) ∧ ∀ k, k < c.queues → (s.queue k).tasks = [] := by
  obtain ⟨hctl, hcnt⟩ := exec_inv hc rfl h
  have hd : ∀ w, w < c.threads → s.worker w = .done := fun w hw => hctl.returned w hr hw
  have hq : ∀ k, k < c.queues → (s.queue k).tasks = [] := by
    intro k hk
    obtain ⟨w, hw, rfl⟩ := exists_home hc hk
    exact (hctl.done w hw (hd w hw)).2
  refine ⟨List.perm_iff_count.2 fun t => ?_, hd, hq⟩
  have h1 := hcnt.pushed t
  have h2 := hcnt.taken t
  have h3 : s.todo = [] := hctl.todo (by rw [hr]; trivial)
  have h4 : queued c s t = 0 := sumTo_zero fun k hk => by rw [hq k hk]; rfl
  have h5 : running c s t = 0 := sumTo_zero fun w hw => by rw [hd w hw]; rfl
  rw [h3, hr] at h1
  simp [hand] at h1
  omega

/-- C32: at no time has a task been executed more often than it was pushed. -/
theorem C32_never_twice {c : Cfg} (hc : 0 < c.threads) {tasks : List Nat} {ls : List Lbl} {s : St} (h : Exec c (init tasks) ls s) (t : Nat) :
    s.executed.count t + s.todo.count t ≤ tasks.count t := by
  obtain ⟨hctl, hcnt⟩ := exec_inv hc rfl h
  have h1 := hcnt.pushed t
  have h2 := hcnt.taken t
  omega

/-- C32: in particular, if the tasks are pairwise different, then none is executed twice. -/
theorem C32_nodup {c : Cfg} (hc : 0 < c.threads) {tasks : List Nat} (hn : tasks.Nodup) {ls : List Lbl} {s : St} (h : Exec c (init tasks) ls s) :
    s.executed.Nodup := by
  rw [List.nodup_iff_count] at *
  intro t
  have := C32_never_twice hc h t
  have := hn t
  omega

/-- C32: in a pool with a single queue the tasks are taken in the order in which they were pushed. -/
theorem C32_order {c : Cfg} (hc : 0 < c.threads) (hm : c.multi = false) {tasks : List Nat} {ls : List Lbl} {s : St} (h : Exec c (init tasks) ls s) :
    s.started <+: tasks := by
  have := exec_order hc hm rfl h
  rw [List.append_assoc, List.append_assoc] at this
  exact ⟨_, this⟩

/-- C32: with one worker and one queue, they are executed in that order. -/
theorem C32_order_one_worker {c : Cfg} (hc : c.threads = 1) (hm : c.multi = false) {tasks : List Nat} {ls : List Lbl} {s : St}
    (h : Exec c (init tasks) ls s) : s.executed <+: tasks ∧ (s.owner = .returned → s.executed = tasks) := by
  have h1 : s.executed <+: tasks := by
    have h1 := exec_one hc rfl h
    have h2 := C32_order (by omega) hm h
    rw [h1] at h2
    exact (List.prefix_append _ _).trans h2
  exact ⟨h1, fun hr => h1.eq_of_length (C32_exactly_once (by omega) h hr).1.length_eq⟩

/-- C32: two threads are never in critical sections of the same queue at the same time. -/
theorem C32_mutual_exclusion {c : Cfg} (hc : 0 < c.threads) {tasks : List Nat} {ls : List Lbl} {s : St} (h : Exec c (init tasks) ls s)
    {k : Nat} {a b : Tid} (ha : Holds c s a k) (hb : Holds c s b k) : a = b := by
  have hctl := (exec_inv hc rfl h).1
  have h1 := (hctl.lock k a).2 ha
  have h2 := (hctl.lock k b).2 hb
  rw [h1] at h2
  exact Option.some.inj h2

/-- C32 needs a worker: a pool of no workers with one queue accepts a task, and `join` returns although it has not been executed. -/
theorem C32_no_workers_violated : ∃ ls s, Exec ⟨0, false, 46⟩ (init [7]) ls s ∧ s.owner = .returned ∧ s.executed = [] := by
  have h : Exec ⟨0, false, 46⟩ (init [7]) _ _ := .step (.step (.step (.step (.step (.step (.step (.step (.step (.step (.refl (init [7]))
    (.push rfl rfl)) (show Step ⟨0, false, 46⟩ _ .proper _ from .pushLock rfl rfl)) (.pushDo rfl))
    (.notifyNone rfl fun w hw => absurd hw (Nat.not_lt_zero w))) (.join rfl rfl)) (.finLock rfl (by decide) rfl)) (.finDo rfl)) (.notifyAll rfl))
    (.finEnd rfl (by decide))) (.joinEnd rfl (by decide))
  exact ⟨_, _, h, rfl, rfl⟩

/-! ## C33 -/

/-- C33: as long as `join` has not returned, some thread can make a step, which is not a spurious wake-up: there is no deadlock, in
any schedule. -/
theorem C33_no_deadlock {c : Cfg} (hc : 0 < c.threads) {tasks : List Nat} {ls : List Lbl} {s : St} (h : Exec c (init tasks) ls s)
    (hr : s.owner ≠ .returned) : ∃ s', Step c s .proper s' :=
  progress hc (exec_inv hc rfl h).1 hr

/-- C33: only finitely many steps are made: their number is bounded by a number which does not depend on the schedule, and two more
for each spurious wake-up. -/
theorem C33_finite {c : Cfg} (hc : 0 < c.threads) (tasks : List Nat) :
    ∃ B, ∀ ls s, Exec c (init tasks) ls s → ls.count .proper ≤ B + 2 * ls.count .spurious :=
  ⟨Pool.measure c (init tasks), fun ls s h => by have := exec_measure hc rfl h; omega⟩

/-- C33: therefore every execution can be continued until `join` returns, and if there are no more spurious wake-ups, then
every schedule leads there within a bounded number of steps. -/
theorem C33_join_returns {c : Cfg} (hc : 0 < c.threads) {tasks : List Nat} {ls : List Lbl} {s : St} (h : Exec c (init tasks) ls s) :
    (∃ ls' s', Exec c s ls' s' ∧ s'.owner = .returned) ∧
    ∃ B, ∀ ls' s', Exec c s ls' s' → .spurious ∉ ls' → ls'.length ≤ B ∧ (s'.owner ≠ .returned → ∃ s'', Step c s' .proper s'') := by
  have key : ∀ ls' s', Exec c s ls' s' → .spurious ∉ ls' → ls'.length + Pool.measure c s' ≤ Pool.measure c s := by
    intro ls' s' h' hn
    induction h' with
    | refl => simp
    | @step s₁ s₂ ls₁ l h₁ hs ih =>
      have h2 := measure_step hc (exec_inv hc rfl (Exec.trans h h₁)).1 hs
      have h3 := ih fun hh => hn (List.mem_append_left _ hh)
      cases l with
      | spurious => exact absurd (List.mem_append_right _ (List.mem_singleton_self _)) hn
      | proper => simp at h2 ⊢; omega
  refine ⟨?_, Pool.measure c s, fun ls' s' h' hn => ⟨?_, fun hr => C33_no_deadlock hc (Exec.trans h h') hr⟩⟩
  · have : ∀ n s, Pool.measure c s ≤ n → Ctl c s → ∃ ls' s', Exec c s ls' s' ∧ s'.owner = .returned := by
      intro n
      induction n with
      | zero =>
        intro s hs hctl
        by_cases hr : s.owner = .returned
        · exact ⟨[], s, .refl s, hr⟩
        · obtain ⟨s', hs'⟩ := progress hc hctl hr
          have := measure_step hc hctl hs'
          simp at this
          omega
      | succ n ih =>
        intro s hs hctl
        by_cases hr : s.owner = .returned
        · exact ⟨[], s, .refl s, hr⟩
        · obtain ⟨s', hs'⟩ := progress hc hctl hr
          have := measure_step hc hctl hs'
          simp at this
          obtain ⟨ls', s'', h1, h2⟩ := ih s' (by omega) (ctl_step hc hctl hs')
          exact ⟨_, s'', Exec.trans (.step (.refl s) hs') h1, h2⟩
    exact this _ s (Nat.le_refl _) (exec_inv hc rfl h).1
  · have := key ls' s' h' hn
    exact Nat.le_trans (Nat.le_add_right _ _) this

/-- C33: no wake-up is lost.  Let the owner rest between two calls; if the workers cannot make a step without it (a step of a worker is
one which leaves the owner where it is), then every task which has been pushed has been executed, although
`join` has not been called: a task never waits in a queue while all those who look after the queue sleep. -/
theorem C33_no_lost_wake_up {c : Cfg} (hc : 0 < c.threads) {tasks : List Nat} {ls : List Lbl} {s : St} (h : Exec c (init tasks) ls s)
    (ho : s.owner = .next) (hidle : ∀ s', s'.owner = s.owner → ¬ Step c s .proper s') : (s.executed ++ s.todo).Perm tasks := by
  obtain ⟨hctl, hcnt⟩ := exec_inv hc rfl h
  have hno : ∀ {s'}, Step c s .proper s' → s'.owner = s.owner → False := fun h1 h2 => hidle _ h2 h1
  have hw : ∀ w, w < c.threads → s.worker w = .waiting := by
    intro w hw
    have hfin : ∀ k, (s.queue k).finished ≠ true := fun k hk => by have := (hctl.closed k).1 hk; rw [ho] at this; exact this
    cases hpc : s.worker w with
    | scan i =>
      by_cases hi : i < c.threads
      · exact (hno (.tryFail hw hpc hi) rfl).elim
      · exact (hno (.scanEnd hw hpc hi) rfl).elim
    | scanHold i =>
      cases ht : (s.queue ((w + i) % c.threads)).tasks with
      | cons t ts => exact (hno (.scanTake hw hpc ht) rfl).elim
      | nil => exact (hno (.scanEmpty hw hpc ht) rfl).elim
    | want =>
      cases hh : (s.queue (c.home w)).holder with
      | none => exact (hno (.lock hw hpc hh) rfl).elim
      | some tid =>
        rw [hctl.lock] at hh
        cases tid with
        | owner => rcases hh with ⟨t, hh⟩ | hh <;> rw [ho] at hh <;> cases hh
        | worker w' =>
          obtain ⟨hw', ⟨hk, _⟩ | ⟨i, hk, _⟩⟩ := hh
          · cases ht : (s.queue (c.home w')).tasks with
            | cons t ts => exact (hno (.take hw' hk ht) rfl).elim
            | nil => exact (hno (.sleep hw' hk ht (by simpa using hfin (c.home w'))) rfl).elim
          · cases ht : (s.queue ((w' + i) % c.threads)).tasks with
            | cons t ts => exact (hno (.scanTake hw' hk ht) rfl).elim
            | nil => exact (hno (.scanEmpty hw' hk ht) rfl).elim
    | hold =>
      cases ht : (s.queue (c.home w)).tasks with
      | cons t ts => exact (hno (.take hw hpc ht) rfl).elim
      | nil => exact (hno (.sleep hw hpc ht (by simpa using hfin (c.home w))) rfl).elim
    | waiting => rfl
    | run t => exact (hno (.run hw hpc) rfl).elim
    | done => exact absurd (hctl.done w hw hpc).1 (hfin _)
  have hq : ∀ k, k < c.queues → (s.queue k).tasks = [] := by
    intro k hk
    refine Decidable.byContradiction fun hne => ?_
    rcases hctl.awake k hk hne with h1 | ⟨w, h1, _, h2⟩
    · rw [ho] at h1; cases h1
    · exact h2 (hw w h1)
  refine List.perm_iff_count.2 fun t => ?_
  have h1 := hcnt.pushed t
  have h2 := hcnt.taken t
  have h4 : queued c s t = 0 := sumTo_zero fun k hk => by rw [hq k hk]; rfl
  have h5 : running c s t = 0 := sumTo_zero fun w hw' => by rw [hw w hw']; rfl
  rw [ho] at h1
  simp only [hand, List.count_nil] at h1
  rw [List.count_append]
  omega

/-- C33 needs a worker: pushing to a pool of no workers with a queue for each of them computes a remainder modulo zero, which is undefined
behaviour; the model has no further step. -/
theorem C33_no_workers_violated : ∃ ls s, Exec ⟨0, true, 46⟩ (init [7]) ls s ∧ s.owner ≠ .returned ∧ ∀ l s', ¬ Step ⟨0, true, 46⟩ s l s' := by
  have h : Exec ⟨0, true, 46⟩ (init [7]) _ _ := .step (.refl (init [7])) (.push rfl rfl)
  refine ⟨_, _, h, by decide, fun l s' hs => ?_⟩
  clear h
  cases hs <;> simp_all [Cfg.startPush, init] <;> omega

/-! Not vacuous: pools of both kinds with tasks have executions which end, and an execution of a pool can get to a state in which its owner
rests, its only worker sleeps and a task has been executed. -/

example : ∃ ls s, Exec ⟨2, true, 46⟩ (init [5, 6, 5]) ls s ∧ s.owner = .returned ∧ s.executed.Perm [5, 6, 5] := by
  obtain ⟨⟨ls, s, h, hr⟩, _⟩ := C33_join_returns (c := ⟨2, true, 46⟩) (by decide) (Exec.refl (init [5, 6, 5]))
  exact ⟨ls, s, h, hr, (C32_exactly_once (by decide) h hr).1⟩

example : ∃ ls s, Exec ⟨1, false, 46⟩ (init [5, 6]) ls s ∧ s.owner = .returned ∧ s.executed = [5, 6] := by
  obtain ⟨⟨ls, s, h, hr⟩, _⟩ := C33_join_returns (c := ⟨1, false, 46⟩) (by decide) (Exec.refl (init [5, 6]))
  exact ⟨ls, s, h, hr, (C32_order_one_worker rfl rfl h).2 hr⟩

example : ∃ ls s, Exec ⟨1, false, 46⟩ (init [5, 6]) ls s ∧ s.owner = .next ∧ s.worker 0 = .waiting ∧ s.executed = [5] ∧ s.todo = [6] := by
  have h : Exec ⟨1, false, 46⟩ (init [5, 6]) _ _ := .step (.step (.step (.step (.step (.step (.step (.step (.step (.refl (init [5, 6])) (.push rfl rfl))
    (show Step ⟨1, false, 46⟩ _ .proper _ from .pushLock rfl rfl)) (.pushDo rfl))
    (.notifyNone rfl (by intro w _ _ h; cases h))) (.lock (w := 0) (by decide) rfl rfl)) (.take (w := 0) (by decide) rfl rfl)) (.run (w := 0) (by decide) rfl))
    (.lock (w := 0) (by decide) rfl rfl)) (.sleep (w := 0) (by decide) rfl rfl rfl)
  exact ⟨_, _, h, rfl, rfl, rfl, rfl⟩

end Verif.Props
