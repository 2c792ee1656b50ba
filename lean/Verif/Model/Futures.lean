import Verif.Model.ThreadPool
/-
Model of what a client of `thread_pool` and of `asynchronous` sees, /repo/Source/sequoia/Core/Concurrency/ConcurrencyModels.hpp:166-343: futures are obtained by `push`, answers by `get`; and of
`accelerate`, /repo/Source/sequoia/TestFramework/TestRunner.cpp:45-80, with which the test runner executes its tests.

The client does a list of things one after the other and then leaves, which destroys the pool; if `get` throws, then it leaves at once.  The `i`-th function which is pushed acts on an item of its own, the
`i`-th, and gives an answer or throws; this is one step, since nobody else uses the item until the answer is there.  A `std::future` becomes ready in that step (`std::packaged_task`).  The pool itself is
the transition system of Model/ThreadPool.  Not modelled: futures which are waited for with a time limit or are given to other threads; failures to create threads.
-/
namespace Verif.Futures
open Verif.Pool

/-- What a client does: `push` the next function, or `get` the answer of the one which was pushed as number `i`. -/
inductive Op where
  | push
  | get (i : Nat)
  deriving DecidableEq, Repr

section
variable {W R E : Type}

/-- The client, its pool, the items and the futures; `pushed` is the number of functions which have been pushed, `ready` the shared states of the futures, `got` the answers obtained and `thrown` the
exception which has made the client leave. -/
structure Sys (W R E : Type) where
  pool : St
  prog : List Op
  pushed : Nat
  item : Nat → W
  ready : Nat → Option (Except E R)
  got : List R
  thrown : Option E

/-- After construction of the pool, ConcurrencyModels.hpp:201-213. -/
def start (item : Nat → W) (prog : List Op) : Sys W R E := ⟨init [], prog, 0, item, fun _ => none, [], none⟩

/-- One step; `fn i` is the `i`-th function. -/
inductive SStep (c : Cfg) (fn : Nat → W → W × Except E R) : Sys W R E → Lbl → Sys W R E → Prop where
  /-- a step within the pool, in which no function is called and the client does not call anything -/
  | inside {s : Sys W R E} {l : Lbl} {p : St} (hs : Step c s.pool l p) (ho : s.pool.owner = .next → p.owner = .next) (hr : p.executed = s.pool.executed) : SStep c fn s l { s with pool := p }
  /-- `task()`: function `t` is called and its future becomes ready, ConcurrencyModels.hpp:295 and 322 -/
  | task {s : Sys W R E} {l : Lbl} {p : St} {t : Nat} (hs : Step c s.pool l p) (hr : p.executed = s.pool.executed ++ [t]) :
      SStep c fn s l { s with pool := p, item := upd s.item t (fn t (s.item t)).1, ready := upd s.ready t (some (fn t (s.item t)).2) }
  /-- `push` is called, ConcurrencyModels.hpp:229-257 -/
  | push {s : Sys W R E} {rest : List Op} {p : St} (hp : s.prog = .push :: rest) (ho : s.pool.owner = .next) (hs : Step c { s.pool with todo := [s.pushed] } .proper p) (ht : p.todo = []) :
      SStep c fn s .proper { s with pool := p, prog := rest, pushed := s.pushed + 1 }
  /-- `get` yields an answer; it blocks until there is one -/
  | get {s : Sys W R E} {rest : List Op} {i : Nat} {r : R} (hp : s.prog = .get i :: rest) (ho : s.pool.owner = .next) (hr : s.ready i = some (.ok r)) :
      SStep c fn s .proper { s with prog := rest, got := s.got ++ [r] }
  /-- `get` throws, and the client leaves -/
  | rethrow {s : Sys W R E} {rest : List Op} {i : Nat} {e : E} (hp : s.prog = .get i :: rest) (ho : s.pool.owner = .next) (hr : s.ready i = some (.error e)) :
      SStep c fn s .proper { s with prog := [], thrown := some e }
  /-- the client leaves, and the pool is destroyed, ConcurrencyModels.hpp:218-221 -/
  | leave {s : Sys W R E} {l : Lbl} {p : St} (hp : s.prog = []) (ho : s.pool.owner = .next) (hs : Step c s.pool l p) (ho' : p.owner ≠ .next) : SStep c fn s l { s with pool := p }

/-- An execution and its labels. -/
inductive SExec (c : Cfg) (fn : Nat → W → W × Except E R) : Sys W R E → List Lbl → Sys W R E → Prop where
  | refl (s : Sys W R E) : SExec c fn s [] s
  | step {s s' s'' : Sys W R E} {ls : List Lbl} {l : Lbl} : SExec c fn s ls s' → SStep c fn s' l s'' → SExec c fn s (ls ++ [l]) s''

/-! ### `asynchronous` -/

/-- The client of `asynchronous`, ConcurrencyModels.hpp:166-193; `running` are the functions which have been given to a thread and have not been called yet, `deferred` those which wait for `get`. -/
structure Async (W R E : Type) where
  prog : List Op
  pushed : Nat
  item : Nat → W
  ready : Nat → Option (Except E R)
  running : List Nat
  deferred : List Nat
  got : List R
  thrown : Option E
  left : Bool

def Async.start (item : Nat → W) (prog : List Op) : Async W R E := ⟨prog, 0, item, fun _ => none, [], [], [], none, false⟩

/-- A function is called. -/
def Async.call (fn : Nat → W → W × Except E R) (s : Async W R E) (t : Nat) : Async W R E :=
  { s with item := upd s.item t (fn t (s.item t)).1, ready := upd s.ready t (some (fn t (s.item t)).2), running := s.running.erase t, deferred := s.deferred.erase t }

/-- One step.  `std::async` with both policies chooses one of them, ConcurrencyModels.hpp:184; a deferred function is called by `get`; the destructor of a future obtained from `std::async` waits for a function which
has been given to a thread, but does not call a deferred one. -/
inductive AStep (fn : Nat → W → W × Except E R) : Async W R E → Async W R E → Prop where
  | pushAsync {s : Async W R E} {rest : List Op} (hl : s.left = false) (hp : s.prog = .push :: rest) : AStep fn s { s with prog := rest, pushed := s.pushed + 1, running := s.running ++ [s.pushed] }
  | pushDeferred {s : Async W R E} {rest : List Op} (hl : s.left = false) (hp : s.prog = .push :: rest) : AStep fn s { s with prog := rest, pushed := s.pushed + 1, deferred := s.deferred ++ [s.pushed] }
  | run {s : Async W R E} {t : Nat} (ht : t ∈ s.running) : AStep fn s (s.call fn t)
  | runDeferred {s : Async W R E} {rest : List Op} {t : Nat} (hl : s.left = false) (hp : s.prog = .get t :: rest) (ht : t ∈ s.deferred) : AStep fn s (s.call fn t)
  | get {s : Async W R E} {rest : List Op} {i : Nat} {r : R} (hl : s.left = false) (hp : s.prog = .get i :: rest) (hr : s.ready i = some (.ok r)) : AStep fn s { s with prog := rest, got := s.got ++ [r] }
  | rethrow {s : Async W R E} {rest : List Op} {i : Nat} {e : E} (hl : s.left = false) (hp : s.prog = .get i :: rest) (hr : s.ready i = some (.error e)) :
      AStep fn s { s with prog := [], thrown := some e }
  | leave {s : Async W R E} (hl : s.left = false) (hp : s.prog = []) (hr : s.running = []) : AStep fn s { s with left := true }

inductive AExec (fn : Nat → W → W × Except E R) : Async W R E → Async W R E → Prop where
  | refl (s : Async W R E) : AExec fn s s
  | step {s s' s'' : Async W R E} : AExec fn s s' → AStep fn s' s'' → AExec fn s s''

end

/-! ### `accelerate` -/

/-- What `accelerate` does with its pool: everything is pushed, then there is a `get` for each of the futures, TestRunner.cpp:56-61. -/
def accelerateProg (n : Nat) : List Op := List.replicate n .push ++ (List.range n).map .get

/-- `accelerate` with the policy for thread pools, TestRunner.cpp:50-67, as a relation between the items and the possible results: the items afterwards and the exception which is thrown, if there is one.
`num` is the size of the pool which was asked for. -/
def Accelerate {W E : Type} (num : Nat) (fn : W → W × Except E Unit) (items : List W) (out : List W × Option E) : Prop :=
  match items with
  | [] => out = ([], none)
  | [w] => out = ([(fn w).1], match (fn w).2 with | .ok _ => none | .error e => some e)
  | w :: _ => ∃ ls s, SExec ⟨min items.length num, true, 46⟩ (fun _ => fn) (start (fun i => if h : i < items.length then items[i] else w) (accelerateProg items.length)) ls s ∧ s.pool.owner = .returned ∧
      out = ((List.range items.length).map s.item, s.thrown)

/-- `std::ranges::for_each`, with which tests which are not parallelizable are executed, TestRunner.cpp:840: one after the other, until one throws. -/
def inOrder {W E : Type} (fn : W → W × Except E Unit) : List W → List W × Option E
  | [] => ([], none)
  | w :: ws =>
    match (fn w).2 with
    | .ok _ => ((fn w).1 :: (inOrder fn ws).1, (inOrder fn ws).2)
    | .error e => ((fn w).1 :: ws, some e)

end Verif.Futures
