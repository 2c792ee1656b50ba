import Verif.Spec.Futures
import Verif.Props.ThreadPool
set_option linter.unusedSimpArgs false
namespace Verif.Futures
open Verif.Pool

/-! ### The pool -/

/-- A step before `join` is as possible if there is more to push later. -/
theorem step_more {c : Cfg} {s s' : St} {l : Lbl} (hs : Step c s l s') (he : ¬ Ending s'.owner) (b : List Nat) :
    Step c { s with todo := s.todo ++ b } l { s' with todo := s'.todo ++ b } := by
  cases hs with
  | tryLock hw hpc hi hf => exact .tryLock (s := { s with todo := s.todo ++ b }) hw hpc hi hf
  | tryFail hw hpc hi => exact .tryFail (s := { s with todo := s.todo ++ b }) hw hpc hi
  | scanTake hw hpc hq => exact .scanTake (s := { s with todo := s.todo ++ b }) hw hpc hq
  | scanEmpty hw hpc hq => exact .scanEmpty (s := { s with todo := s.todo ++ b }) hw hpc hq
  | scanEnd hw hpc hi => exact .scanEnd (s := { s with todo := s.todo ++ b }) hw hpc hi
  | lock hw hpc hf => exact .lock (s := { s with todo := s.todo ++ b }) hw hpc hf
  | take hw hpc hq => exact .take (s := { s with todo := s.todo ++ b }) hw hpc hq
  | leave hw hpc hq hf => exact .leave (s := { s with todo := s.todo ++ b }) hw hpc hq hf
  | sleep hw hpc hq hf => exact .sleep (s := { s with todo := s.todo ++ b }) hw hpc hq hf
  | spurious hw hpc => exact .spurious (s := { s with todo := s.todo ++ b }) hw hpc
  | run hw hpc => exact .run (s := { s with todo := s.todo ++ b }) hw hpc
  | push hpc ht => exact .push (s := { s with todo := s.todo ++ b }) hpc (by simp [ht])
  | pushTry hpc hi hf => exact .pushTry (s := { s with todo := s.todo ++ b }) hpc hi hf
  | pushFail hpc hi => exact .pushFail (s := { s with todo := s.todo ++ b }) hpc hi
  | pushEnd hpc hi hc => exact .pushEnd (s := { s with todo := s.todo ++ b }) hpc hi hc
  | pushLock hpc hf => exact .pushLock (s := { s with todo := s.todo ++ b }) hpc hf
  | pushDo hpc => exact .pushDo (s := { s with todo := s.todo ++ b }) hpc
  | notifyOne hpc hw hq hwait => exact .notifyOne (s := { s with todo := s.todo ++ b }) hpc hw hq hwait
  | notifyNone hpc hno => exact .notifyNone (s := { s with todo := s.todo ++ b }) hpc hno
  | join => exact absurd trivial he
  | finLock => exact absurd trivial he
  | finDo => exact absurd trivial he
  | notifyAll => exact absurd trivial he
  | finEnd => exact absurd trivial he
  | joinOne => exact absurd trivial he
  | joinEnd => exact absurd trivial he

theorem ending_step {c : Cfg} {s s' : St} {l : Lbl} (hs : Step c s l s') (he : Ending s.owner) : Ending s'.owner := by
  cases hs <;> first
    | exact he
    | trivial
    | (rename_i hpc; rw [hpc] at he; exact he.elim)
    | (rename_i hpc _; rw [hpc] at he; exact he.elim)
    | (rename_i hpc _ _; rw [hpc] at he; exact he.elim)
    | (rename_i hpc _ _ _; rw [hpc] at he; exact he.elim)

theorem exec_more {c : Cfg} {s₀ s : St} {ls : List Lbl} (h : Exec c s₀ ls s) (he : ¬ Ending s.owner) (b : List Nat) :
    Exec c { s₀ with todo := s₀.todo ++ b } ls { s with todo := s.todo ++ b } := by
  induction h with
  | refl => exact .refl _
  | step _ hs ih => exact .step (ih fun h => he (ending_step hs h)) (step_more hs he b)

/-- Executed tasks: at most one more in each step. -/
theorem executed_step {c : Cfg} {s s' : St} {l : Lbl} (hs : Step c s l s') : s'.executed = s.executed ∨ ∃ t, s'.executed = s.executed ++ [t] := by
  cases hs <;> first
    | exact .inl rfl
    | exact .inr ⟨_, rfl⟩

theorem todo_nil {c : Cfg} {s s' : St} {l : Lbl} (hs : Step c s l s') (ht : s.todo = []) : s'.todo = [] := by
  cases hs with
  | push hpc h => rw [ht] at h; cases h
  | _ => exact ht

theorem ending_back {c : Cfg} {s s' : St} {l : Lbl} (hs : Step c s l s') (he : Ending s'.owner) : Ending s.owner ∨ s.owner = .next := by
  cases hs with
  | join hpc => exact .inr hpc
  | finLock hpc => rw [hpc]; exact .inl trivial
  | finDo hpc => rw [hpc]; exact .inl trivial
  | notifyAll hpc => rw [hpc]; exact .inl trivial
  | finEnd hpc => rw [hpc]; exact .inl trivial
  | joinOne hpc => rw [hpc]; exact .inl trivial
  | joinEnd hpc => rw [hpc]; exact .inl trivial
  | push => exact absurd he (by show ¬ Ending (c.startPush _ _); unfold Cfg.startPush; split <;> (try split) <;> exact id)
  | _ => first | exact .inl he | exact he.elim

section
variable {W R E : Type} {c : Cfg} {fn : Nat → W → W × Except E R} {w : Nat → W} {prog : List Op}

/-- The invariant; `prog` is the whole program. -/
structure Inv (c : Cfg) (fn : Nat → W → W × Except E R) (w : Nat → W) (prog : List Op) (s : Sys W R E) : Prop where
  exec : ∃ ls, Exec c (init (List.range s.pushed)) ls s.pool
  todo : s.pool.todo = []
  item : ∀ t, s.item t = if t ∈ s.pool.executed then (fn t (w t)).1 else w t
  ready : ∀ t, s.ready t = if t ∈ s.pool.executed then some (fn t (w t)).2 else none
  answers : answers (fun t => (fn t (w t)).2) prog = (s.got ++ (answers (fun t => (fn t (w t)).2) s.prog).1, s.thrown.or (answers (fun t => (fn t (w t)).2) s.prog).2)
  pushes : pushes (fun t => (fn t (w t)).2) prog = s.pushed + pushes (fun t => (fn t (w t)).2) s.prog
  thrown : s.thrown ≠ none → s.prog = []
  ending : Ending s.pool.owner → s.prog = []

theorem inv_start (c : Cfg) (fn : Nat → W → W × Except E R) (w : Nat → W) (prog : List Op) : Inv c fn w prog (start w prog) :=
  ⟨⟨[], .refl _⟩, rfl, fun t => by simp [start, init], fun t => by simp [start, init], by simp [start], by simp [start], fun h => absurd rfl h, fun h => h.elim⟩

theorem inv_step (hc : 0 < c.threads) {s s' : Sys W R E} {l : Lbl} (h : Inv c fn w prog s) (hs : SStep c fn s l s') : Inv c fn w prog s' := by
  obtain ⟨ls, hex⟩ := h.exec
  cases hs with
  | @inside l p hs ho hr =>
    refine ⟨⟨_, .step hex hs⟩, todo_nil hs h.todo, ?_, ?_, h.answers, h.pushes, h.thrown, ?_⟩
    · show ∀ t, s.item t = if t ∈ p.executed then _ else _; rw [hr]; exact h.item
    · show ∀ t, s.ready t = if t ∈ p.executed then _ else _; rw [hr]; exact h.ready
    · intro he
      rcases ending_back hs he with he' | hn
      · exact h.ending he'
      · have : p.owner = .next := ho hn
        rw [show ({ s with pool := p } : Sys W R E).pool.owner = p.owner from rfl, this] at he
        exact he.elim
  | @task l p t hs hr =>
    have hnd : p.executed.Nodup := Props.C32_nodup hc List.nodup_range (.step hex hs)
    rw [hr] at hnd
    have hnt : t ∉ s.pool.executed := fun hm => by
      rw [List.nodup_append] at hnd
      exact hnd.2.2 t hm t (List.mem_singleton_self _) rfl
    have hit : s.item t = w t := by rw [h.item, if_neg hnt]
    refine ⟨⟨_, .step hex hs⟩, todo_nil hs h.todo, ?_, ?_, h.answers, h.pushes, h.thrown, ?_⟩
    · intro u
      show upd s.item t _ u = if u ∈ p.executed then _ else _
      rw [hr, upd_apply, hit]
      by_cases hu : u = t
      · subst hu; simp
      · rw [if_neg hu, h.item]; simp [hu]
    · intro u
      show upd s.ready t _ u = if u ∈ p.executed then _ else _
      rw [hr, upd_apply, hit]
      by_cases hu : u = t
      · subst hu; simp
      · rw [if_neg hu, h.ready]; simp [hu]
    · intro he
      rcases ending_back hs he with he' | hn
      · exact h.ending he'
      · cases hs with
        | run hw hpc => rw [show ({ s with pool := _ , item := _, ready := _ } : Sys W R E).pool.owner = s.pool.owner from rfl, hn] at he; exact he.elim
        | _ => first | (exfalso; simp at hr; done) | (exfalso; exact absurd hr (by simp))
  | @push rest p hp ho hs ht =>
    have hne : ¬ Ending s.pool.owner := by rw [ho]; exact id
    have hex' := exec_more hex hne [s.pushed]
    have he0 : ({ init (List.range s.pushed) with todo := (init (List.range s.pushed)).todo ++ [s.pushed] } : St) = init (List.range (s.pushed + 1)) := by
      rw [List.range_succ]; rfl
    rw [he0, h.todo, List.nil_append] at hex'
    have hexd : p.executed = s.pool.executed := by
      cases hs with
      | push => rfl
      | join _ ht' => cases ht'
      | _ => first | rfl | cases ht
    refine ⟨⟨_, .step hex' hs⟩, ht, ?_, ?_, ?_, ?_, ?_, ?_⟩
    · show ∀ t, s.item t = if t ∈ p.executed then _ else _; rw [hexd]; exact h.item
    · show ∀ t, s.ready t = if t ∈ p.executed then _ else _; rw [hexd]; exact h.ready
    · rw [h.answers, hp]; rfl
    · rw [h.pushes, hp]; simp only [Futures.pushes]; omega
    · intro hth
      have := h.thrown hth
      rw [hp] at this; cases this
    · intro he
      cases hs with
      | push => exact absurd he (by show ¬ Ending (c.startPush _ _); unfold Cfg.startPush; split <;> (try split) <;> exact id)
      | join _ ht' => cases ht'
      | _ => first | (cases ht; done) | (rw [show s.pool.owner = .next from ho] at *; contradiction)
  | @get rest i r hp ho hr =>
    have hi : (fn i (w i)).2 = .ok r := by
      have := h.ready i; rw [hr] at this; split at this
      · exact (Option.some.inj this).symm
      · cases this
    refine ⟨h.exec, h.todo, h.item, h.ready, ?_, ?_, ?_, ?_⟩
    · rw [h.answers, hp]
      simp only [Futures.answers, hi, List.append_assoc, List.cons_append, List.nil_append]
    · rw [h.pushes, hp]; simp only [Futures.pushes, hi]
    · intro hth; have := h.thrown hth; rw [hp] at this; cases this
    · intro he; have := h.ending he; rw [hp] at this; cases this
  | @rethrow rest i e hp ho hr =>
    have hi : (fn i (w i)).2 = .error e := by
      have := h.ready i; rw [hr] at this; split at this
      · exact (Option.some.inj this).symm
      · cases this
    have hth : s.thrown = none := by
      cases hth : s.thrown with
      | none => rfl
      | some e' => have := h.thrown (by rw [hth]; exact fun h => by cases h); rw [hp] at this; cases this
    refine ⟨h.exec, h.todo, h.item, h.ready, ?_, ?_, fun _ => rfl, fun _ => rfl⟩
    · rw [h.answers, hp, hth]
      simp only [Futures.answers, hi, Option.or]
    · rw [h.pushes, hp]; simp only [Futures.pushes, hi]
  | @leave l p hp ho hs ho' =>
    have hexd : p.executed = s.pool.executed := by
      rcases executed_step hs with h1 | ⟨t, h1⟩
      · exact h1
      · cases hs with
        | run => exact absurd ho ho'
        | _ => rfl
    refine ⟨⟨_, .step hex hs⟩, todo_nil hs h.todo, ?_, ?_, h.answers, h.pushes, h.thrown, fun _ => hp⟩
    · show ∀ t, s.item t = if t ∈ p.executed then _ else _; rw [hexd]; exact h.item
    · show ∀ t, s.ready t = if t ∈ p.executed then _ else _; rw [hexd]; exact h.ready

theorem inv_exec (hc : 0 < c.threads) {s₀ s : Sys W R E} {ls : List Lbl} (h0 : s₀ = start w prog) (h : SExec c fn s₀ ls s) : Inv c fn w prog s := by
  induction h with
  | refl => subst h0; exact inv_start c fn w prog
  | step _ hs ih => exact inv_step hc ih hs

/-- Only what has been pushed is asked for. -/
theorem usable_exec {s₀ s : Sys W R E} {ls : List Lbl} (h0 : s₀ = start w prog) (hu : Usable 0 [] prog) (h : SExec c fn s₀ ls s) :
    ∃ a, Usable s.pushed a s.prog := by
  induction h with
  | refl => subst h0; exact ⟨[], hu⟩
  | step _ hs ih =>
    obtain ⟨a, ih⟩ := ih
    cases hs with
    | inside => exact ⟨a, ih⟩
    | task => exact ⟨a, ih⟩
    | push hp => rw [hp] at ih; exact ⟨a, ih⟩
    | get hp => rw [hp] at ih; exact ⟨_, ih.2.2⟩
    | rethrow hp => exact ⟨a, trivial⟩
    | leave => exact ⟨a, ih⟩

/-! ### Termination -/

/-- How much the measure of the pool grows if there is one more to push. -/
def pushCost (c : Cfg) : Nat := 7 + tWeight c + c.threads * c.cycles

def progCost (c : Cfg) : List Op → Nat
  | [] => 0
  | .push :: ops => progCost c ops + pushCost c
  | .get _ :: ops => progCost c ops + 1

def sMeasure (c : Cfg) (s : Sys W R E) : Nat := Pool.measure c s.pool + progCost c s.prog

theorem measure_push {p : St} (ho : p.owner = .next) (ht : p.todo = []) (n : Nat) : Pool.measure c { p with todo := [n] } = Pool.measure c p + pushCost c := by
  unfold Pool.measure
  simp only [ho, ht, oWeight, pWeight, pushCost, List.length_nil, List.length_cons, Nat.zero_mul, Nat.zero_add, Nat.one_mul]
  omega

theorem ctl_of (hc : 0 < c.threads) {s : Sys W R E} (h : Inv c fn w prog s) : Ctl c s.pool := by
  obtain ⟨ls, hex⟩ := h.exec
  exact (exec_inv hc rfl hex).1

theorem sMeasure_step (hc : 0 < c.threads) {s s' : Sys W R E} {l : Lbl} (h : Inv c fn w prog s) (hs : SStep c fn s l s') :
    sMeasure c s' + (if l = .proper then 1 else 0) ≤ sMeasure c s + (if l = .spurious then 2 else 0) := by
  have hctl := ctl_of hc h
  unfold sMeasure
  cases hs with
  | @inside l p hs ho hr => have := measure_step hc hctl hs; simp only at this ⊢; omega
  | @task l p t hs hr => have := measure_step hc hctl hs; simp only at this ⊢; omega
  | @push rest p hp ho hs ht =>
    obtain ⟨ls, hex⟩ := h.exec
    have hne : ¬ Ending s.pool.owner := by rw [ho]; exact id
    have hex' := exec_more hex hne [s.pushed]
    have he0 : ({ init (List.range s.pushed) with todo := (init (List.range s.pushed)).todo ++ [s.pushed] } : St) = init (List.range (s.pushed + 1)) := by
      rw [List.range_succ]; rfl
    rw [he0, h.todo, List.nil_append] at hex'
    have h1 := measure_step hc (exec_inv hc rfl hex').1 hs
    rw [measure_push ho h.todo] at h1
    simp only [hp, progCost, if_true, reduceCtorEq, if_false] at h1 ⊢
    omega
  | @get rest i r hp => simp only [hp, progCost, if_true, reduceCtorEq, if_false]; omega
  | @rethrow rest i e hp => simp only [hp, progCost, if_true, reduceCtorEq, if_false]; omega
  | @leave l p hp ho hs ho' => have := measure_step hc hctl hs; simp only at this ⊢; omega

theorem sMeasure_exec (hc : 0 < c.threads) {s₀ s s' : Sys W R E} {ls ls' : List Lbl} (h0 : s₀ = start w prog) (h : SExec c fn s₀ ls s) (h' : SExec c fn s ls' s') :
    sMeasure c s' + ls'.count .proper ≤ sMeasure c s + 2 * ls'.count .spurious := by
  have hi := inv_exec hc h0 h
  have : Inv c fn w prog s' ∧ sMeasure c s' + ls'.count .proper ≤ sMeasure c s + 2 * ls'.count .spurious := by
    clear h
    induction h' with
    | refl => exact ⟨hi, by simp⟩
    | @step s₁ s₂ ls₁ l h1 hs ih =>
      obtain ⟨ih1, ih2⟩ := ih
      have h2 := sMeasure_step hc ih1 hs
      refine ⟨inv_step hc ih1 hs, ?_⟩
      rw [List.count_append, List.count_append]
      cases l <;> simp at h2 ⊢ <;> omega
  exact this.2

theorem SExec.trans {s s' s'' : Sys W R E} {ls ls' : List Lbl} (h : SExec c fn s ls s') (h' : SExec c fn s' ls' s'') : SExec c fn s (ls ++ ls') s'' := by
  induction h' with
  | refl => simpa using h
  | step _ hs ih => rw [← List.append_assoc]; exact .step ih hs

/-! ### Progress -/

theorem sProgress (hc : 0 < c.threads) {s : Sys W R E} (h : Inv c fn w prog s) {a : List Nat} (hu : Usable s.pushed a s.prog) (hr : s.pool.owner ≠ .returned) :
    ∃ s', SStep c fn s .proper s' := by
  have hctl := ctl_of hc h
  have mk : ∀ {p}, Step c s.pool .proper p → (s.pool.owner = .next → p.owner = .next) → ∃ s', SStep c fn s .proper s' := by
    intro p hs ho
    rcases executed_step hs with h1 | ⟨t, h1⟩
    · exact ⟨_, .inside hs ho h1⟩
    · exact ⟨_, .task hs h1⟩
  by_cases ho : s.pool.owner = .next
  · cases hp : s.prog with
    | nil =>
      exact ⟨_, .leave hp ho (.join ho h.todo) (by intro hh; cases hh)⟩
    | cons op rest =>
      cases op with
      | push => exact ⟨_, .push hp ho (.push (s := { s.pool with todo := [s.pushed] }) ho rfl) rfl⟩
      | get i =>
        by_cases hi : i ∈ s.pool.executed
        · have hready := h.ready i
          rw [if_pos hi] at hready
          cases hf : (fn i (w i)).2 with
          | ok r => rw [hf] at hready; exact ⟨_, .get hp ho hready⟩
          | error e => rw [hf] at hready; exact ⟨_, .rethrow hp ho hready⟩
        · by_cases hex : ∃ p, p.owner = s.pool.owner ∧ Step c s.pool .proper p
          · obtain ⟨p, h1, h2⟩ := hex
            exact mk h2 fun hn => h1.trans hn
          · obtain ⟨ls, hexec⟩ := h.exec
            have := Props.C33_no_lost_wake_up hc hexec ho fun p h1 h2 => hex ⟨p, h1, h2⟩
            rw [h.todo, List.append_nil] at this
            rw [hp] at hu
            exact absurd (this.mem_iff.mpr (List.mem_range.mpr hu.1)) hi
  · obtain ⟨p, hs⟩ := progress hc hctl hr
    exact mk hs fun hn => absurd hn ho

theorem reaches (hc : 0 < c.threads) (n : Nat) : ∀ {s : Sys W R E}, sMeasure c s ≤ n → Inv c fn w prog s → (∃ a, Usable s.pushed a s.prog) → ∃ ls s', SExec c fn s ls s' ∧ s'.pool.owner = .returned := by
  have usable_step : ∀ {s s' : Sys W R E} {l : Lbl}, (∃ a, Usable s.pushed a s.prog) → SStep c fn s l s' → ∃ a, Usable s'.pushed a s'.prog := by
    rintro s s' l ⟨a, ih⟩ hs
    cases hs with
    | inside => exact ⟨a, ih⟩
    | task => exact ⟨a, ih⟩
    | push hp => rw [hp] at ih; exact ⟨a, ih⟩
    | get hp => rw [hp] at ih; exact ⟨_, ih.2.2⟩
    | rethrow hp => exact ⟨a, trivial⟩
    | leave => exact ⟨a, ih⟩
  induction n with
  | zero =>
    intro s hm hi hu
    by_cases hr : s.pool.owner = .returned
    · exact ⟨[], s, .refl s, hr⟩
    · obtain ⟨a, ha⟩ := hu
      obtain ⟨s', hs⟩ := sProgress hc hi ha hr
      have := sMeasure_step hc hi hs
      simp at this
      omega
  | succ n ih =>
    intro s hm hi hu
    by_cases hr : s.pool.owner = .returned
    · exact ⟨[], s, .refl s, hr⟩
    · obtain ⟨a, ha⟩ := hu
      obtain ⟨s', hs⟩ := sProgress hc hi ha hr
      have := sMeasure_step hc hi hs
      simp at this
      obtain ⟨ls, s'', h1, h2⟩ := ih (by omega) (inv_step hc hi hs) (usable_step ⟨a, ha⟩ hs)
      exact ⟨_, s'', SExec.trans (.step (.refl s) hs) h1, h2⟩

/-! ### `asynchronous` -/

structure AInv (fn : Nat → W → W × Except E R) (w : Nat → W) (prog : List Op) (s : Async W R E) : Prop where
  nodup : (s.running ++ s.deferred).Nodup
  waiting : ∀ t, t ∈ s.running ++ s.deferred → t < s.pushed ∧ s.ready t = none
  known : ∀ t, t < s.pushed → t ∈ s.running ++ s.deferred ∨ s.ready t ≠ none
  unpushed : ∀ t, s.pushed ≤ t → s.ready t = none
  called : ∀ t x, s.ready t = some x → x = (fn t (w t)).2 ∧ s.item t = (fn t (w t)).1
  uncalled : ∀ t, s.ready t = none → s.item t = w t
  answers : answers (fun t => (fn t (w t)).2) prog = (s.got ++ (answers (fun t => (fn t (w t)).2) s.prog).1, s.thrown.or (answers (fun t => (fn t (w t)).2) s.prog).2)
  pushes : pushes (fun t => (fn t (w t)).2) prog = s.pushed + pushes (fun t => (fn t (w t)).2) s.prog
  asked : ∀ i, i ∈ asked (fun t => (fn t (w t)).2) prog → s.ready i ≠ none ∨ i ∈ asked (fun t => (fn t (w t)).2) s.prog
  thrown : s.thrown ≠ none → s.prog = []
  left : s.left = true → s.prog = [] ∧ s.running = []

theorem ainv_start (fn : Nat → W → W × Except E R) (w : Nat → W) (prog : List Op) : AInv fn w prog (Async.start w prog) := by
  constructor <;> simp [Async.start]

theorem ainv_call {s : Async W R E} (h : AInv fn w prog s) {t : Nat} (ht : t ∈ s.running ++ s.deferred) (hl : s.left = true → False) : AInv fn w prog (s.call fn t) := by
  have hit : s.item t = w t := h.uncalled t (h.waiting t ht).2
  have hnd := h.nodup
  rw [List.nodup_append] at hnd
  have hmem : ∀ u, u ∈ s.running.erase t ++ s.deferred.erase t ↔ u ≠ t ∧ u ∈ s.running ++ s.deferred := by
    intro u
    simp only [List.mem_append, hnd.1.mem_erase_iff, hnd.2.1.mem_erase_iff]
    constructor
    · rintro (⟨h1, h2⟩ | ⟨h1, h2⟩)
      · exact ⟨h1, .inl h2⟩
      · exact ⟨h1, .inr h2⟩
    · rintro ⟨h1, h2 | h2⟩
      · exact .inl ⟨h1, h2⟩
      · exact .inr ⟨h1, h2⟩
  have hready : ∀ u, (s.call fn t).ready u = if u = t then some (fn t (w t)).2 else s.ready u := fun u => by
    show upd s.ready t _ u = _; rw [upd_apply, hit]
  refine ⟨?_, ?_, ?_, ?_, ?_, ?_, h.answers, h.pushes, ?_, h.thrown, fun hh => (hl hh).elim⟩
  · show (s.running.erase t ++ s.deferred.erase t).Nodup
    rw [List.nodup_append]
    exact ⟨hnd.1.erase t, hnd.2.1.erase t, fun a ha b hb => hnd.2.2 a (List.mem_of_mem_erase ha) b (List.mem_of_mem_erase hb)⟩
  · intro u hu
    have hu' := (hmem u).mp hu
    rw [hready, if_neg hu'.1]
    exact h.waiting u hu'.2
  · intro u hu
    rw [hready]
    by_cases hut : u = t
    · right; rw [if_pos hut]; exact fun hh => by cases hh
    · rw [if_neg hut]
      rcases h.known u hu with h1 | h1
      · exact .inl ((hmem u).mpr ⟨hut, h1⟩)
      · exact .inr h1
  · intro u hu
    have : u ≠ t := fun he => by have := (h.waiting t ht).1; have : s.pushed ≤ u := hu; omega
    rw [hready, if_neg this]
    exact h.unpushed u hu
  · intro u x hx
    rw [hready] at hx
    by_cases hut : u = t
    · rw [if_pos hut] at hx
      subst hut
      refine ⟨(Option.some.inj hx).symm, ?_⟩
      show upd s.item u _ u = _
      rw [upd_same, hit]
    · rw [if_neg hut] at hx
      refine ⟨(h.called u x hx).1, ?_⟩
      show upd s.item t _ u = _
      rw [upd_of_ne _ _ hut]
      exact (h.called u x hx).2
  · intro u hu
    rw [hready] at hu
    by_cases hut : u = t
    · rw [if_pos hut] at hu; cases hu
    · rw [if_neg hut] at hu
      show upd s.item t _ u = _
      rw [upd_of_ne _ _ hut]
      exact h.uncalled u hu
  · intro i hi
    rcases h.asked i hi with h1 | h1
    · left
      rw [hready]
      split
      · exact fun hh => by cases hh
      · exact h1
    · exact .inr h1

theorem ainv_step {s s' : Async W R E} (h : AInv fn w prog s) (hs : AStep fn s s') : AInv fn w prog s' := by
  have hthr : ∀ {op rest}, s.prog = op :: rest → s.thrown = none := by
    intro op rest hp
    cases hth : s.thrown with
    | none => rfl
    | some e' => have := h.thrown (by rw [hth]; exact fun h => by cases h); rw [hp] at this; cases this
  cases hs with
  | @pushAsync rest hl hp =>
    refine ⟨?_, ?_, ?_, ?_, h.called, h.uncalled, ?_, ?_, ?_, ?_, ?_⟩
    · have := h.nodup
      rw [List.append_assoc]
      simp only [List.nodup_append, List.mem_append, List.mem_singleton, List.nodup_cons, List.not_mem_nil, not_false_eq_true, List.nodup_nil, and_self, true_and] at this ⊢
      refine ⟨this.1, ⟨this.2.1, ?_⟩, ?_⟩
      · intro a ha b hb hab
        have := (h.waiting b (List.mem_append_right _ hb)).1
        omega
      · intro a ha b hb hab
        rcases hb with hb | hb
        · have := (h.waiting a (List.mem_append_left _ ha)).1; omega
        · exact this.2.2 a ha b hb hab
    · intro t ht
      show t < s.pushed + 1 ∧ s.ready t = none
      by_cases he : t = s.pushed
      · exact ⟨by omega, h.unpushed t (by omega)⟩
      · have : t ∈ s.running ++ s.deferred := by
          simp only [List.mem_append, List.mem_singleton] at ht ⊢
          rcases ht with (h1 | h1) | h1
          · exact .inl h1
          · exact absurd h1 he
          · exact .inr h1
        have := h.waiting t this
        exact ⟨by omega, this.2⟩
    · intro t ht
      by_cases he : t = s.pushed
      · left; simp [he]
      · have ht' : t < s.pushed + 1 := ht
        rcases h.known t (by omega) with h1 | h1
        · left; simp only [List.mem_append, List.mem_singleton] at h1 ⊢
          rcases h1 with h1 | h1
          · exact .inl (.inl h1)
          · exact .inr h1
        · exact .inr h1
    · intro t ht
      have : s.pushed + 1 ≤ t := ht
      exact h.unpushed t (by omega)
    · rw [h.answers, hp]; rfl
    · rw [h.pushes, hp]; simp only [Futures.pushes]; omega
    · intro i hi; have := h.asked i hi; rw [hp] at this; exact this
    · intro hth; exact absurd (hthr hp) hth
    · intro hh; rw [show s.left = true from hh] at hl; cases hl
  | @pushDeferred rest hl hp =>
    refine ⟨?_, ?_, ?_, ?_, h.called, h.uncalled, ?_, ?_, ?_, ?_, ?_⟩
    · have := h.nodup
      rw [← List.append_assoc, List.nodup_append]
      refine ⟨this, by simp, ?_⟩
      intro a ha b hb hab
      rw [List.mem_singleton] at hb
      have := (h.waiting a ha).1
      omega
    · intro t ht
      show t < s.pushed + 1 ∧ s.ready t = none
      by_cases he : t = s.pushed
      · exact ⟨by omega, h.unpushed t (by omega)⟩
      · have : t ∈ s.running ++ s.deferred := by
          simp only [List.mem_append, List.mem_singleton] at ht ⊢
          rcases ht with h1 | h1 | h1
          · exact .inl h1
          · exact .inr h1
          · exact absurd h1 he
        have := h.waiting t this
        exact ⟨by omega, this.2⟩
    · intro t ht
      by_cases he : t = s.pushed
      · left; simp [he]
      · have ht' : t < s.pushed + 1 := ht
        rcases h.known t (by omega) with h1 | h1
        · left; simp only [List.mem_append, List.mem_singleton] at h1 ⊢
          rcases h1 with h1 | h1
          · exact .inl h1
          · exact .inr (.inl h1)
        · exact .inr h1
    · intro t ht
      have : s.pushed + 1 ≤ t := ht
      exact h.unpushed t (by omega)
    · rw [h.answers, hp]; rfl
    · rw [h.pushes, hp]; simp only [Futures.pushes]; omega
    · intro i hi; have := h.asked i hi; rw [hp] at this; exact this
    · intro hth; exact absurd (hthr hp) hth
    · intro hh; rw [show s.left = true from hh] at hl; cases hl
  | @run t ht => exact ainv_call h (List.mem_append_left _ ht) fun hl => by rw [(h.left hl).2] at ht; cases ht
  | @runDeferred rest t hl hp ht => exact ainv_call h (List.mem_append_right _ ht) fun hl' => by rw [hl] at hl'; cases hl'
  | @get rest i r hl hp hr =>
    have hi := (h.called i _ hr).1
    refine ⟨h.nodup, h.waiting, h.known, h.unpushed, h.called, h.uncalled, ?_, ?_, ?_, ?_, ?_⟩
    · rw [h.answers, hp]
      simp only [Futures.answers, ← hi, List.append_assoc, List.cons_append, List.nil_append]
    · rw [h.pushes, hp]; simp only [Futures.pushes, ← hi]
    · intro j hj
      have := h.asked j hj
      rw [hp] at this
      simp only [Futures.asked, ← hi, List.mem_cons] at this
      rcases this with h1 | h1 | h1
      · exact .inl h1
      · subst h1; left; show s.ready j ≠ none; rw [hr]; exact fun hh => by cases hh
      · exact .inr h1
    · intro hth; exact absurd (hthr hp) hth
    · intro hh; rw [show s.left = true from hh] at hl; cases hl
  | @rethrow rest i e hl hp hr =>
    have hi := (h.called i _ hr).1
    refine ⟨h.nodup, h.waiting, h.known, h.unpushed, h.called, h.uncalled, ?_, ?_, ?_, fun _ => rfl, ?_⟩
    · rw [h.answers, hp, hthr hp]
      simp only [Futures.answers, ← hi, Option.or]
    · rw [h.pushes, hp]; simp only [Futures.pushes, ← hi]
    · intro j hj
      have := h.asked j hj
      rw [hp] at this
      simp only [Futures.asked, ← hi, List.mem_singleton] at this
      rcases this with h1 | h1
      · exact .inl h1
      · subst h1; left; show s.ready j ≠ none; rw [hr]; exact fun hh => by cases hh
    · intro hh; rw [show s.left = true from hh] at hl; cases hl
  | leave hl hp hr => exact ⟨h.nodup, h.waiting, h.known, h.unpushed, h.called, h.uncalled, h.answers, h.pushes, h.asked, h.thrown, fun _ => ⟨hp, hr⟩⟩

theorem ainv_exec {s₀ s : Async W R E} (h0 : s₀ = Async.start w prog) (h : AExec fn s₀ s) : AInv fn w prog s := by
  induction h with
  | refl => subst h0; exact ainv_start fn w prog
  | step _ hs ih => exact ainv_step ih hs

theorem ausable_exec {s₀ s : Async W R E} (h0 : s₀ = Async.start w prog) (hu : Usable 0 [] prog) (h : AExec fn s₀ s) : ∃ a, Usable s.pushed a s.prog := by
  induction h with
  | refl => subst h0; exact ⟨[], hu⟩
  | step _ hs ih =>
    obtain ⟨a, ih⟩ := ih
    cases hs with
    | pushAsync _ hp => rw [hp] at ih; exact ⟨a, ih⟩
    | pushDeferred _ hp => rw [hp] at ih; exact ⟨a, ih⟩
    | run => exact ⟨a, ih⟩
    | runDeferred => exact ⟨a, ih⟩
    | get _ hp => rw [hp] at ih; exact ⟨_, ih.2.2⟩
    | rethrow => exact ⟨a, trivial⟩
    | leave => exact ⟨a, ih⟩

end
end Verif.Futures
