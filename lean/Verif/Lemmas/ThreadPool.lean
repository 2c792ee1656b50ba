import Verif.Model.ThreadPool

/-! Invariants of the thread pool. -/
namespace Verif.Pool

@[simp] theorem upd_same {α : Type} (f : Nat → α) (i : Nat) (v : α) : upd f i v i = v := by simp [upd]
theorem upd_of_ne {α : Type} (f : Nat → α) {i j : Nat} (v : α) (h : j ≠ i) : upd f i v j = f j := by simp [upd, h]
theorem upd_apply {α : Type} (f : Nat → α) (i j : Nat) (v : α) : upd f i v j = if j = i then v else f j := rfl

/-- The thread is within a critical section of queue `k`. -/
def Holds (c : Cfg) (s : St) (tid : Tid) (k : Nat) : Prop :=
  match tid with
  | .owner => (∃ t, s.owner = .holdPush t k) ∨ s.owner = .holdFin k
  | .worker w => w < c.threads ∧ ((s.worker w = .hold ∧ c.home w = k) ∨ ∃ i, s.worker w = .scanHold i ∧ (w + i) % c.threads = k)

/-- `finish` has been called for queue `k`. -/
def Closed (c : Cfg) : OPC → Nat → Prop
  | .notifyAll k', k => k ≤ k'
  | .wantFin k', k => k < k'
  | .holdFin k', k => k < k'
  | .joining _, k => k < c.queues
  | .returned, k => k < c.queues
  | _, _ => False

/-- `join` has been called. -/
def Ending : OPC → Prop
  | .notifyAll _ => True
  | .wantFin _ => True
  | .holdFin _ => True
  | .joining _ => True
  | .returned => True
  | _ => False

/-- The task which the owner is about to put into a queue. -/
def hand : OPC → List Nat
  | .trying t _ _ => [t]
  | .wantPush t _ => [t]
  | .holdPush t _ => [t]
  | _ => []

/-- The owner only uses queues which exist. -/
def Target (c : Cfg) : OPC → Prop
  | .trying _ _ _ => c.multi = true
  | .wantPush _ q => q < c.queues
  | .holdPush _ q => q < c.queues
  | .notifyOne q => q < c.queues
  | .wantFin k => k ≤ c.queues
  | .holdFin k => k < c.queues
  | .notifyAll k => k < c.queues
  | _ => True

/-- The invariant about control. -/
structure Ctl (c : Cfg) (s : St) : Prop where
  lock : ∀ k tid, (s.queue k).holder = some tid ↔ Holds c s tid k
  scan : ∀ w i, s.worker w = .scan i ∨ s.worker w = .scanHold i → c.multi = true
  scanLt : ∀ w i, s.worker w = .scanHold i → i < c.threads
  target : Target c s.owner
  closed : ∀ k, (s.queue k).finished = true ↔ Closed c s.owner k
  todo : Ending s.owner → s.todo = []
  done : ∀ w, w < c.threads → s.worker w = .done → (s.queue (c.home w)).finished = true ∧ (s.queue (c.home w)).tasks = []
  wait : ∀ w, w < c.threads → s.worker w = .waiting → (s.queue (c.home w)).finished = true → s.owner = .notifyAll (c.home w)
  awake : ∀ k, k < c.queues → (s.queue k).tasks ≠ [] → s.owner = .notifyOne k ∨
    ∃ w, w < c.threads ∧ c.home w = k ∧ s.worker w ≠ .waiting
  joined : ∀ w j, s.owner = .joining j → w < j → w < c.threads → s.worker w = .done
  returned : ∀ w, s.owner = .returned → w < c.threads → s.worker w = .done

theorem home_lt {c : Cfg} {w : Nat} (h : w < c.threads) : c.home w < c.queues := by
  unfold Cfg.home Cfg.queues; split <;> omega

theorem exists_home {c : Cfg} (hc : 0 < c.threads) {k : Nat} (h : k < c.queues) : ∃ w, w < c.threads ∧ c.home w = k := by
  unfold Cfg.home Cfg.queues at *
  split at h
  · exact ⟨k, h, by simp [*]⟩
  · exact ⟨0, hc, by simp [*]; omega⟩

theorem ctl_init (c : Cfg) (tasks : List Nat) : Ctl c (init tasks) := by
  constructor <;> simp [init, Closed, Ending, Target]
  intro k tid
  cases tid <;> simp [Holds]

theorem lock_step {c : Cfg} {s s' : St} {l : Lbl} (h : Ctl c s) (hs : Step c s l s') :
    ∀ k tid, (s'.queue k).holder = some tid ↔ Holds c s' tid k := by
  have ho : ∀ k, (s.queue k).holder = some .owner ↔ (∃ t, s.owner = .holdPush t k) ∨ s.owner = .holdFin k := fun k => h.lock k .owner
  have hw : ∀ k w, (s.queue k).holder = some (.worker w) ↔ w < c.threads ∧ ((s.worker w = .hold ∧ c.home w = k) ∨
      ∃ i, s.worker w = .scanHold i ∧ (w + i) % c.threads = k) := fun k w => h.lock k (.worker w)
  have ha : ∀ w, w < c.threads → s.worker w = .hold → (s.queue (c.home w)).holder = some (.worker w) :=
    fun w h1 h2 => (hw _ w).2 ⟨h1, .inl ⟨h2, rfl⟩⟩
  have hb : ∀ w i, w < c.threads → s.worker w = .scanHold i → (s.queue ((w + i) % c.threads)).holder = some (.worker w) :=
    fun w i h1 h2 => (hw _ w).2 ⟨h1, .inr ⟨i, h2, rfl⟩⟩
  clear h
  intro k tid
  cases tid with
  | owner =>
    show (s'.queue k).holder = some .owner ↔ (∃ t, s'.owner = .holdPush t k) ∨ s'.owner = .holdFin k
    have hk := ho k
    cases hs <;> simp only [upd_apply] <;> first
      | grind [Cfg.startPush, Cfg.afterRun]
      | (split <;> simp_all <;> exact fun h => absurd h.symm ‹_›)
  | worker w' =>
    show (s'.queue k).holder = some (.worker w') ↔ w' < c.threads ∧ ((s'.worker w' = .hold ∧ c.home w' = k) ∨
      ∃ i, s'.worker w' = .scanHold i ∧ (w' + i) % c.threads = k)
    cases hs <;> simp only [upd_apply] <;> grind [Cfg.startPush, Cfg.afterRun]

theorem scan_step {c : Cfg} {s s' : St} {l : Lbl} (h : Ctl c s) (hs : Step c s l s') : ∀ w i, s'.worker w = .scan i ∨ s'.worker w = .scanHold i → c.multi = true := by
  have h2 := h.scan
  clear h
  intro w' i'
  have h3 := h2 w'
  cases hs <;> simp only [upd_apply] <;> first
    | exact h3 i'
    | grind [Cfg.afterRun]

theorem scanLt_step {c : Cfg} {s s' : St} {l : Lbl} (h : Ctl c s) (hs : Step c s l s') :
    ∀ w i, s'.worker w = .scanHold i → i < c.threads := by
  have h2 := h.scanLt
  clear h
  intro w' i'
  have h3 := h2 w'
  cases hs <;> simp only [upd_apply] <;> first
    | exact h3 i'
    | grind [Cfg.afterRun]

theorem target_step {c : Cfg} (hc : 0 < c.threads) {s s' : St} {l : Lbl} (h : Ctl c s) (hs : Step c s l s') : Target c s'.owner := by
  have h3 := h.target
  clear h
  have hm : ∀ a, a % c.threads < c.threads := fun a => Nat.mod_lt _ hc
  cases hs <;> grind [Target, Cfg.startPush, Cfg.queues]

theorem closed_step {c : Cfg} {s s' : St} {l : Lbl} (h : Ctl c s) (hs : Step c s l s') : ∀ k, (s'.queue k).finished = true ↔ Closed c s'.owner k := by
  have h3 := h.target
  have h4 := h.closed
  clear h
  intro k
  have h5 := h4 k
  cases hs <;> simp only [upd_apply] <;> grind [Closed, Cfg.startPush, Cfg.queues, Target]

theorem todo_step {c : Cfg} {s s' : St} {l : Lbl} (h : Ctl c s) (hs : Step c s l s') : Ending s'.owner → s'.todo = [] := by
  have h5 := h.todo
  clear h
  cases hs <;> grind [Ending, Cfg.startPush]

theorem done_step {c : Cfg} {s s' : St} {l : Lbl} (h : Ctl c s) (hs : Step c s l s') : ∀ w, w < c.threads → s'.worker w = .done →
    (s'.queue (c.home w)).finished = true ∧ (s'.queue (c.home w)).tasks = [] := by
  have hcl : ∀ k, (s.queue k).finished = true → ∀ t q, s.owner ≠ .holdPush t q := by
    intro k hk t q ho
    rw [h.closed, ho] at hk
    exact hk
  have h6 := h.done
  clear h
  intro w' hw'
  have h7 := h6 w' hw'
  cases hs <;> simp only [upd_apply] <;> grind [Cfg.afterRun]

theorem wait_step {c : Cfg} {s s' : St} {l : Lbl} (h : Ctl c s) (hs : Step c s l s') : ∀ w, w < c.threads → s'.worker w = .waiting → (s'.queue (c.home w)).finished = true →
    s'.owner = .notifyAll (c.home w) := by
  have h4 := h.closed
  have h7 := h.wait
  clear h
  intro w' hw'
  have h8 := h7 w' hw'
  have h9 := h4 (c.home w')
  cases hs <;> simp only [upd_apply] <;> grind [Cfg.afterRun, Closed, Cfg.startPush]

theorem awake_step {c : Cfg} (hc : 0 < c.threads) {s s' : St} {l : Lbl} (h : Ctl c s) (hs : Step c s l s') : ∀ k, k < c.queues → (s'.queue k).tasks ≠ [] → s'.owner = .notifyOne k ∨
    ∃ w, w < c.threads ∧ c.home w = k ∧ s'.worker w ≠ .waiting := by
  have h8 := h.awake
  clear h
  intro k hk
  obtain ⟨w₀, hw₀, hk₀⟩ := exists_home hc hk
  have h9 := h8 k hk
  cases hs <;> simp only [upd_apply] <;> grind [Cfg.afterRun, Cfg.startPush]

theorem joined_step {c : Cfg} {s s' : St} {l : Lbl} (h : Ctl c s) (hs : Step c s l s') : ∀ w j, s'.owner = .joining j → w < j → w < c.threads → s'.worker w = .done := by
  have h9 := h.joined
  clear h
  intro w' j
  have h10 := h9 w'
  cases hs <;> simp only [upd_apply] <;> grind [Cfg.afterRun, Cfg.startPush]

theorem returned_step {c : Cfg} {s s' : St} {l : Lbl} (h : Ctl c s) (hs : Step c s l s') : ∀ w, s'.owner = .returned → w < c.threads → s'.worker w = .done := by
  have h9 := h.joined
  have h10 := h.returned
  clear h
  intro w'
  have h11 := h9 w'
  have h12 := h10 w'
  cases hs <;> simp only [upd_apply] <;> grind [Cfg.afterRun, Cfg.startPush]

theorem ctl_step {c : Cfg} (hc : 0 < c.threads) {s s' : St} {l : Lbl} (h : Ctl c s) (hs : Step c s l s') : Ctl c s' :=
  ⟨lock_step h hs, scan_step h hs, scanLt_step h hs, target_step hc h hs, closed_step h hs, todo_step h hs, done_step h hs, wait_step h hs,
    awake_step hc h hs, joined_step h hs, returned_step h hs⟩

end Verif.Pool
