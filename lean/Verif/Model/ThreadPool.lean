import Verif.Model.Basic
/-
Model of `task_queue` and `thread_pool`, /repo/Source/sequoia/Core/Concurrency/ConcurrencyModels.hpp:35-124 and 195-343, as a
transition system whose steps are taken by the threads in any order.

The owner of the pool pushes a list of tasks and then joins (`join_all`, called by `join` or by the destructor); the workers run
the lambda `loop` of `make_pool`.  Each thread has a program counter.  A critical section consists of two steps, one which acquires
the mutex and is only possible if nobody holds it, and one which does the work and releases it.  Waiting on a condition variable
releases the mutex and sleeps in one step; a sleeping thread is woken by a notification, or spuriously, and has then to acquire the
mutex again.  Notifications are sent after the mutex has been released, as in the code.  `try_lock` may fail at any time, which the
standard allows.

Not modelled: construction (the workers exist from the beginning; they read `m_Threads.size()` only after a queue has been filled or
finished, which happens after construction); futures; tasks are numbers, they terminate, do not use the pool, and an exception of theirs
ends up in the future (`std::packaged_task`); pushing from several threads or after `join`, which the class does not support.
-/
namespace Verif.Pool

/-- A thread: the owner of the pool, or a worker. -/
inductive Tid where
  | owner
  | worker (w : Nat)
  deriving DecidableEq, Repr

/-- `task_queue`, ConcurrencyModels.hpp:107-110; the condition variable is represented by the workers in state `waiting`. -/
structure Q where
  tasks : List Nat
  finished : Bool
  holder : Option Tid
  deriving DecidableEq, Repr

/-- Where a worker is within `loop`, ConcurrencyModels.hpp:290-328. -/
inductive WPC where
  /-- about to call `pop(try_to_lock)` on the `i`-th queue after its own, 307-311 -/
  | scan (i : Nat)
  /-- within that call, holding the mutex, 90-93 -/
  | scanHold (i : Nat)
  /-- about to acquire the mutex of its own queue within `pop()`, 101 or 102 -/
  | want
  /-- within `pop()`, holding the mutex, 102-104 -/
  | hold
  /-- sleeping in `m_CV.wait`, 102 -/
  | waiting
  /-- about to run a task, 295 or 322 -/
  | run (t : Nat)
  /-- has left `loop`, 297 or 324 -/
  | done
  deriving DecidableEq, Repr

/-- Where the owner is. -/
inductive OPC where
  /-- between calls -/
  | next
  /-- within `push`, about to try the `i`-th queue after `q`, 241-245 -/
  | trying (t q i : Nat)
  /-- within `task_queue::push`, about to acquire the mutex of queue `q`, 63 -/
  | wantPush (t q : Nat)
  /-- holding the mutex of queue `q`, 64 or 75 -/
  | holdPush (t q : Nat)
  /-- about to call `notify_one` for queue `q`, 67 or 82 -/
  | notifyOne (q : Nat)
  /-- within `join_all`, about to finish queue `k`, 336-339 -/
  | wantFin (k : Nat)
  /-- within `task_queue::finish`, holding the mutex of queue `k`, 53-54 -/
  | holdFin (k : Nat)
  /-- about to call `notify_all` for queue `k`, 57 -/
  | notifyAll (k : Nat)
  /-- within `join_all`, about to join worker `w`, 341 -/
  | joining (w : Nat)
  /-- `join_all` has returned -/
  | returned
  deriving DecidableEq, Repr

/-- The parameters of a pool: `numThreads`, `MultiPipeline` and `push_cycles`. -/
structure Cfg where
  threads : Nat
  multi : Bool
  cycles : Nat

/-- The number of queues: `queue_details`, ConcurrencyModels.hpp:126-144, and 210. -/
def Cfg.queues (c : Cfg) : Nat := if c.multi then c.threads else 1

/-- The queue on which a worker calls `pop()`, ConcurrencyModels.hpp:293, 314 and 318. -/
def Cfg.home (c : Cfg) (w : Nat) : Nat := if c.multi then w else 0

/-- What a worker does after it has run a task, ConcurrencyModels.hpp:300-319. -/
def Cfg.afterRun (c : Cfg) : WPC := if c.multi then .scan 0 else .want

/-- The state of a pool; `todo` are the tasks which have not been pushed yet, `index` is `m_QueueIndex`.  The tasks taken from a
queue and the tasks run are recorded. -/
structure St where
  queue : Nat → Q
  worker : Nat → WPC
  owner : OPC
  todo : List Nat
  index : Nat
  started : List Nat
  executed : List Nat

/-- Change a function in one place. -/
def upd {α : Type} (f : Nat → α) (i : Nat) (v : α) : Nat → α := fun j => if j = i then v else f j

/-- After construction; `tasks` are going to be pushed. -/
def init (tasks : List Nat) : St :=
  ⟨fun _ => ⟨[], false, none⟩, fun _ => .want, .next, tasks, 0, [], []⟩

/-- Whether a step is a spurious wake-up. -/
inductive Lbl where
  | proper
  | spurious
  deriving DecidableEq, Repr

/-- The first state of `push`, ConcurrencyModels.hpp:234-253. -/
def Cfg.startPush (c : Cfg) (index t : Nat) : OPC :=
  if c.multi then
    if c.threads ≤ index then .trying t index 0 else .wantPush t (index % c.threads)
  else .wantPush t 0

/-- One step. -/
inductive Step (c : Cfg) : St → Lbl → St → Prop where
  /-- `std::unique_lock lock{m_Mutex, t}` succeeds in `pop(try_to_lock)`, 90 -/
  | tryLock {s : St} {w i : Nat} (hw : w < c.threads) (hpc : s.worker w = .scan i) (hi : i < c.threads)
      (hfree : (s.queue ((w + i) % c.threads)).holder = none) :
      Step c s .proper { s with
        queue := upd s.queue ((w + i) % c.threads) { s.queue ((w + i) % c.threads) with holder := some (.worker w) }
        worker := upd s.worker w (.scanHold i) }
  /-- it fails, and the next queue is tried, 90 and 95 -/
  | tryFail {s : St} {w i : Nat} (hw : w < c.threads) (hpc : s.worker w = .scan i) (hi : i < c.threads) :
      Step c s .proper { s with worker := upd s.worker w (.scan (i + 1)) }
  /-- `get` takes the front of the queue, 115-120 -/
  | scanTake {s : St} {w i t : Nat} {ts : List Nat} (hw : w < c.threads) (hpc : s.worker w = .scanHold i)
      (hq : (s.queue ((w + i) % c.threads)).tasks = t :: ts) :
      Step c s .proper { s with
        queue := upd s.queue ((w + i) % c.threads) { s.queue ((w + i) % c.threads) with tasks := ts, holder := none }
        worker := upd s.worker w (.run t)
        started := s.started ++ [t] }
  /-- `get` finds the queue empty, 122 -/
  | scanEmpty {s : St} {w i : Nat} (hw : w < c.threads) (hpc : s.worker w = .scanHold i)
      (hq : (s.queue ((w + i) % c.threads)).tasks = []) :
      Step c s .proper { s with
        queue := upd s.queue ((w + i) % c.threads) { s.queue ((w + i) % c.threads) with holder := none }
        worker := upd s.worker w (.scan (i + 1)) }
  /-- no task has been found, 313-314 -/
  | scanEnd {s : St} {w i : Nat} (hw : w < c.threads) (hpc : s.worker w = .scan i) (hi : ¬ i < c.threads) :
      Step c s .proper { s with worker := upd s.worker w .want }
  /-- `std::unique_lock lock{m_Mutex}` in `pop()`, 101, or the end of `m_CV.wait` -/
  | lock {s : St} {w : Nat} (hw : w < c.threads) (hpc : s.worker w = .want) (hfree : (s.queue (c.home w)).holder = none) :
      Step c s .proper { s with
        queue := upd s.queue (c.home w) { s.queue (c.home w) with holder := some (.worker w) }
        worker := upd s.worker w .hold }
  /-- `pop()` takes the front of the queue, 102-104 -/
  | take {s : St} {w t : Nat} {ts : List Nat} (hw : w < c.threads) (hpc : s.worker w = .hold)
      (hq : (s.queue (c.home w)).tasks = t :: ts) :
      Step c s .proper { s with
        queue := upd s.queue (c.home w) { s.queue (c.home w) with tasks := ts, holder := none }
        worker := upd s.worker w (.run t)
        started := s.started ++ [t] }
  /-- `pop()` yields an invalid task, and the worker leaves, 297 or 324 -/
  | leave {s : St} {w : Nat} (hw : w < c.threads) (hpc : s.worker w = .hold) (hq : (s.queue (c.home w)).tasks = [])
      (hf : (s.queue (c.home w)).finished = true) :
      Step c s .proper { s with
        queue := upd s.queue (c.home w) { s.queue (c.home w) with holder := none }
        worker := upd s.worker w .done }
  /-- `m_CV.wait`, 102 -/
  | sleep {s : St} {w : Nat} (hw : w < c.threads) (hpc : s.worker w = .hold) (hq : (s.queue (c.home w)).tasks = [])
      (hf : (s.queue (c.home w)).finished = false) :
      Step c s .proper { s with
        queue := upd s.queue (c.home w) { s.queue (c.home w) with holder := none }
        worker := upd s.worker w .waiting }
  | spurious {s : St} {w : Nat} (hw : w < c.threads) (hpc : s.worker w = .waiting) :
      Step c s .spurious { s with worker := upd s.worker w .want }
  /-- `task()`, 295 or 322 -/
  | run {s : St} {w t : Nat} (hw : w < c.threads) (hpc : s.worker w = .run t) :
      Step c s .proper { s with worker := upd s.worker w c.afterRun, executed := s.executed ++ [t] }
  /-- the owner calls `push`, 229-239 -/
  | push {s : St} {t : Nat} {ts : List Nat} (hpc : s.owner = .next) (ht : s.todo = t :: ts) :
      Step c s .proper { s with owner := c.startPush s.index t, todo := ts, index := s.index + 1 }
  /-- `push(task, try_to_lock)` acquires the mutex, 73 -/
  | pushTry {s : St} {t q i : Nat} (hpc : s.owner = .trying t q i) (hi : i < c.threads * c.cycles)
      (hfree : (s.queue ((q + i) % c.threads)).holder = none) :
      Step c s .proper { s with
        queue := upd s.queue ((q + i) % c.threads) { s.queue ((q + i) % c.threads) with holder := some .owner }
        owner := .holdPush t ((q + i) % c.threads) }
  /-- it does not, 77-80 -/
  | pushFail {s : St} {t q i : Nat} (hpc : s.owner = .trying t q i) (hi : i < c.threads * c.cycles) :
      Step c s .proper { s with owner := .trying t q (i + 1) }
  /-- the end of the loop, 248; without threads the remainder is undefined, and there is no step -/
  | pushEnd {s : St} {t q i : Nat} (hpc : s.owner = .trying t q i) (hi : ¬ i < c.threads * c.cycles) (hc : 0 < c.threads) :
      Step c s .proper { s with owner := .wantPush t (q % c.threads) }
  /-- `std::scoped_lock lock{m_Mutex}` in `push`, 63 -/
  | pushLock {s : St} {t q : Nat} (hpc : s.owner = .wantPush t q) (hfree : (s.queue q).holder = none) :
      Step c s .proper { s with
        queue := upd s.queue q { s.queue q with holder := some .owner }
        owner := .holdPush t q }
  /-- `m_Q.push`, 64 or 75 -/
  | pushDo {s : St} {t q : Nat} (hpc : s.owner = .holdPush t q) :
      Step c s .proper { s with
        queue := upd s.queue q { s.queue q with tasks := (s.queue q).tasks ++ [t], holder := none }
        owner := .notifyOne q }
  /-- `notify_one` wakes a sleeping worker, 67 or 82 -/
  | notifyOne {s : St} {q w : Nat} (hpc : s.owner = .notifyOne q) (hw : w < c.threads) (hq : c.home w = q)
      (hwait : s.worker w = .waiting) :
      Step c s .proper { s with worker := upd s.worker w .want, owner := .next }
  /-- `notify_one` finds nobody -/
  | notifyNone {s : St} {q : Nat} (hpc : s.owner = .notifyOne q)
      (hno : ∀ w, w < c.threads → c.home w = q → s.worker w ≠ .waiting) :
      Step c s .proper { s with owner := .next }
  /-- the owner calls `join` or the destructor, 334 -/
  | join {s : St} (hpc : s.owner = .next) (ht : s.todo = []) : Step c s .proper { s with owner := .wantFin 0 }
  /-- `std::scoped_lock lock{m_Mutex}` in `finish`, 53 -/
  | finLock {s : St} {k : Nat} (hpc : s.owner = .wantFin k) (hk : k < c.queues) (hfree : (s.queue k).holder = none) :
      Step c s .proper { s with
        queue := upd s.queue k { s.queue k with holder := some .owner }
        owner := .holdFin k }
  /-- `m_Finished = true`, 54 -/
  | finDo {s : St} {k : Nat} (hpc : s.owner = .holdFin k) :
      Step c s .proper { s with
        queue := upd s.queue k { s.queue k with finished := true, holder := none }
        owner := .notifyAll k }
  /-- `notify_all`, 57 -/
  | notifyAll {s : St} {k : Nat} (hpc : s.owner = .notifyAll k) :
      Step c s .proper { s with
        worker := fun w => if w < c.threads ∧ c.home w = k ∧ s.worker w = .waiting then .want else s.worker w
        owner := .wantFin (k + 1) }
  /-- all queues are finished, 341 -/
  | finEnd {s : St} {k : Nat} (hpc : s.owner = .wantFin k) (hk : ¬ k < c.queues) :
      Step c s .proper { s with owner := .joining 0 }
  /-- `t.join()`, 341 -/
  | joinOne {s : St} {w : Nat} (hpc : s.owner = .joining w) (hw : w < c.threads) (hdone : s.worker w = .done) :
      Step c s .proper { s with owner := .joining (w + 1) }
  | joinEnd {s : St} {w : Nat} (hpc : s.owner = .joining w) (hw : ¬ w < c.threads) :
      Step c s .proper { s with owner := .returned }

/-- An execution and its labels. -/
inductive Exec (c : Cfg) : St → List Lbl → St → Prop where
  | refl (s : St) : Exec c s [] s
  | step {s s' s'' : St} {ls : List Lbl} {l : Lbl} : Exec c s ls s' → Step c s' l s'' → Exec c s (ls ++ [l]) s''

end Verif.Pool
