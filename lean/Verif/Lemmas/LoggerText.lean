import Verif.Spec.LoggerText
set_option linter.unusedSimpArgs false
set_option linter.unusedVariables false
namespace Verif.LoggerText
open Verif.Text Verif.Logger Verif.Spec.LoggerText

@[simp] theorem bind_ok {α β : Type} (a : α) (f : α → Res β) : (Res.ok a).bind f = f a := rfl

theorem indentFrom_ne (ind : Str) (n : Nat) (s : Str) (h : s ≠ []) : indentFrom ind (n + 1) s ≠ [] := by
  cases s with
  | nil => exact absurd rfl h
  | cons c t =>
    simp only [indentFrom]
    intro hx
    have h1 := List.append_eq_nil_iff.1 hx
    have h2 := (List.append_eq_nil_iff.1 h1.1).2
    split at h2
    · simp at h2
    · cases h2

theorem indent_nil_iff (s ind : Str) : indent s ind = [] ↔ s = [] := by
  unfold indent
  by_cases h : s = []
  · simp [h]
  · simp only [h, if_false]
    split
    · simp [h]
    · simp only [iff_false]
      exact indentFrom_ne _ _ _ h

@[simp] theorem indent_empty (ind : Str) : indent [] ind = [] := (indent_nil_iff _ _).2 rfl

theorem indent_none (s : Str) : indent s [] = s := by
  unfold indent
  split
  · exact (‹s = []›).symm
  · simp

theorem build_eq (msg text ind : Str) : build msg text ind = join msg (indent text ind) := by
  unfold build join appendIndented
  by_cases hm : msg = []
  · simp [hm]
  · by_cases ht : text = []
    · simp [hm, ht]
    · have : indent text ind ≠ [] := fun h => ht ((indent_nil_iff _ _).1 h)
      simp [hm, ht, this]

theorem join_assoc (a b c : Str) : join (join a b) c = join a (join b c) := by
  unfold join
  by_cases ha : a = [] <;> by_cases hb : b = [] <;> by_cases hc : c = [] <;> simp [ha, hb, hc]

@[simp] theorem join_nil (a : Str) : join [] a = a := rfl
@[simp] theorem join_nil' (a : Str) : join a [] = a := by unfold join; by_cases h : a = [] <;> simp [h]

theorem above_above (a b : Str) (rs : List (Bool × Str)) : above a (above b rs) = above (join a b) rs := by
  cases rs with
  | nil => rfl
  | cons r rs => simp [above, join_assoc]

@[simp] theorem above_nil (rs : List (Bool × Str)) : above [] rs = rs := by
  cases rs with
  | nil => rfl
  | cons r rs => rfl

theorem above_eq_nil (a : Str) (rs : List (Bool × Str)) : above a rs = [] ↔ rs = [] := by
  cases rs <;> simp [above]

theorem above_append (a : Str) (p : Bool × Str) (ps rs : List (Bool × Str)) : above a (p :: ps ++ rs) = above a (p :: ps) ++ rs := by
  simp [above]

/-! ### the levels -/

/-- the number of descriptions -/
def count (ls : List Level) : Nat := ls.countP fun l => decide (l.message ≠ [])

/-- what remains to be written of the levels, the first of which has `k` descriptions around it -/
def pending : Nat → List Level → Str
  | _, [] => []
  | k, l :: ls =>
    if l.message = [] then pending k ls
    else if l.written then pending (k + 1) ls
    else join (indent l.message (spaces k)) (pending (k + 1) ls)

/-- everything has been written -/
def mark (ls : List Level) : List Level := ls.map fun l => if l.message = [] then l else { l with written := true }

theorem levelsLoop_eq (ls : List Level) : ∀ (k : Nat) (msg : Str), levelsLoop ls (spaces (k - 1)) k msg =
    (mark ls, spaces (k + count ls - 1), join msg (pending k ls)) := by
  induction ls with
  | nil => intro k msg; simp [levelsLoop, mark, count, pending]
  | cons l ls ih =>
    intro k msg
    simp only [levelsLoop]
    by_cases h : l.message = []
    · rw [if_pos h, ih]
      simp [mark, count, pending, h]
    · rw [if_neg h]
      have hi : (if k > 0 then spaces (k - 1) ++ [' ', ' '] else spaces (k - 1)) = spaces (k + 1 - 1) := by
        unfold spaces
        cases k with
        | zero => rfl
        | succ n =>
          rw [if_pos (by omega), show 2 * (n + 1 + 1 - 1) = 2 * (n + 1 - 1) + 2 by omega, ← List.replicate_append_replicate]
          rfl
      rw [hi]
      by_cases hw : l.written = true
      · rw [if_pos hw, ih]
        have e : ({ l with written := true } : Level) = l := by cases l; simp at hw; simp [hw]
        simp only [mark, count, pending, h, hw, List.map_cons, if_false, if_true, e]
        rw [List.countP_cons_of_pos (by simp [h])]
        rw [show k + 1 + List.countP (fun l => decide (l.message ≠ [])) ls - 1 = k + (List.countP (fun l => decide (l.message ≠ [])) ls + 1) - 1 by omega]
      · rw [if_neg hw, ih, build_eq]
        simp only [mark, count, pending, h, hw, List.map_cons, if_false]
        rw [List.countP_cons_of_pos (by simp [h])]
        rw [show k + 1 + List.countP (fun l => decide (l.message ≠ [])) ls - 1 = k + (List.countP (fun l => decide (l.message ≠ [])) ls + 1) - 1 by omega]
        simp only [Nat.add_sub_cancel, join_assoc]
        rfl

theorem pending_mark (ls : List Level) : ∀ k, pending k (mark ls) = [] := by
  induction ls with
  | nil => intro k; rfl
  | cons l ls ih =>
    intro k
    by_cases h : l.message = []
    · simp only [mark, List.map_cons, h, if_true, pending]; exact ih k
    · simp only [mark, List.map_cons, h, if_false, pending, if_true]; exact ih (k + 1)

theorem count_mark (ls : List Level) : count (mark ls) = count ls := by
  unfold count mark
  rw [List.countP_map]
  congr 1
  funext l
  simp only [Function.comp]
  split <;> rfl

theorem mark_mark (ls : List Level) : mark (mark ls) = mark ls := by
  unfold mark
  rw [List.map_map]
  congr 1
  funext l
  simp only [Function.comp]
  by_cases h : l.message = [] <;> simp [h]

theorem mark_append (a b : List Level) : mark (a ++ b) = mark a ++ mark b := by simp [mark]

theorem pending_append (m : Str) (ls : List Level) : ∀ k, pending k (ls ++ [⟨m, false⟩]) =
    join (pending k ls) (indent m (spaces (k + count ls))) := by
  induction ls with
  | nil =>
    intro k
    simp only [List.nil_append, pending, count, List.countP_nil, Nat.add_zero, join_nil]
    by_cases h : m = [] <;> simp [h]
  | cons l ls ih =>
    intro k
    simp only [List.cons_append, pending]
    by_cases h : l.message = []
    · simp only [h, if_true]
      rw [ih]
      simp [count, h]
    · have hc : count (l :: ls) = count ls + 1 := by unfold count; rw [List.countP_cons_of_pos (by simp [h])]
      simp only [h, if_false]
      rw [hc, show k + (count ls + 1) = k + 1 + count ls by omega]
      split
      · rw [ih]
      · rw [ih, join_assoc]

theorem count_append (m : Str) (ls : List Level) : count (ls ++ [⟨m, false⟩]) = if m = [] then count ls else count ls + 1 := by
  unfold count
  rw [List.countP_append]
  by_cases h : m = [] <;> simp [h]

/-! ### what happens within a check -/

theorem runT_append (mode : Mode) (es fs : List TEvent) : ∀ s, runT mode s (es ++ fs) = (runT mode s es).bind fun s' => runT mode s' fs := by
  induction es with
  | nil => intro s; rfl
  | cons e es ih =>
    intro s
    simp only [List.cons_append, runT]
    cases h : stepT mode s e with
    | ok s' => simp only [bind_ok]; exact ih s'
    | throws => rfl
    | ub => rfl

/-- the levels after reports -/
def after (rs : List (Bool × Str)) (ls : List Level) : List Level := if rs = [] then ls else mark ls

def infos (i : Nat) (ss : List Str) : List Info := ss.map (Info.mk i)

/-- What a body adds to the texts. -/
structure Adds (mode : Mode) (s s' : TState) (rs : List (Bool × Str)) (xs : List Str) : Prop where
  sentinels : s'.core.sentinels = s.core.sentinels
  topLevel : s'.core.results.topLevelChecks = s.core.results.topLevelChecks
  failures : s'.core.results.failures = s.core.results.failures + rs.countP (fun r => !r.1)
  critical : s'.core.results.criticalFailures = s.core.results.criticalFailures + rs.countP (fun r => r.1)
  levels : s'.levels = after rs s.levels
  messages : s'.failureMessages = s.failureMessages ++ infos s.core.results.topLevelChecks (unclosed (rs.filter fun r => toMessages mode r.1))
  diagnostics : s'.diagnostics = s.diagnostics ++ infos s.core.results.topLevelChecks (unclosed (rs.filter fun r => !toMessages mode r.1))
  caught : s'.caught = s.caught ++ infos s.core.results.topLevelChecks (xs.map fun x => endBlock (topLevelMessage s ++ ['\n'] ++ x) 2 footer)
  last : s'.lastMessage = s.lastMessage
  coreMessages : s'.core.results.failureMessages.length = s.core.results.failureMessages.length + rs.countP (fun r => toMessages mode r.1)
  coreDiagnostics : s'.core.results.diagnostics.length = s.core.results.diagnostics.length + rs.countP (fun r => !toMessages mode r.1)

theorem topLevel_after (rs : List (Bool × Str)) (s s' : TState) (h : s'.levels = after rs s.levels) : topLevelMessage s' = topLevelMessage s := by
  unfold topLevelMessage
  rw [h]
  unfold after
  by_cases hr : rs = []
  · rw [if_pos hr]
  · rw [if_neg hr]
    cases s.levels with
    | nil => rfl
    | cons l ls => simp only [mark, List.map_cons]; split <;> rfl

theorem after_after (rs rs' : List (Bool × Str)) (ls : List Level) : after rs' (after rs ls) = after (rs ++ rs') ls := by
  unfold after
  cases rs with
  | nil => simp
  | cons r rs =>
    simp only [List.cons_append, reduceCtorEq, if_false]
    split
    · rfl
    · exact mark_mark ls

theorem infos_append (i : Nat) (a b : List Str) : infos i (a ++ b) = infos i a ++ infos i b := by simp [infos]

theorem unclosed_append (a b : List (Bool × Str)) : unclosed (a ++ b) = unclosed a ++ unclosed b := by simp [unclosed]

theorem Adds.trans {mode : Mode} {s s' s'' : TState} {rs rs' : List (Bool × Str)} {xs xs' : List Str} (h : Adds mode s s' rs xs) (h' : Adds mode s' s'' rs' xs') :
    Adds mode s s'' (rs ++ rs') (xs ++ xs') where
  sentinels := by rw [h'.sentinels, h.sentinels]
  topLevel := by rw [h'.topLevel, h.topLevel]
  failures := by rw [h'.failures, h.failures, List.countP_append, Nat.add_assoc]
  critical := by rw [h'.critical, h.critical, List.countP_append, Nat.add_assoc]
  levels := by rw [h'.levels, h.levels, after_after]
  messages := by rw [h'.messages, h.messages, h.topLevel, List.filter_append, unclosed_append, infos_append, List.append_assoc]
  diagnostics := by rw [h'.diagnostics, h.diagnostics, h.topLevel, List.filter_append, unclosed_append, infos_append, List.append_assoc]
  caught := by
    rw [h'.caught, h.caught, h.topLevel, topLevel_after _ _ _ h.levels, List.map_append, infos_append, List.append_assoc]
  last := by rw [h'.last, h.last]
  coreMessages := by rw [h'.coreMessages, h.coreMessages, List.countP_append, Nat.add_assoc]
  coreDiagnostics := by rw [h'.coreDiagnostics, h.coreDiagnostics, List.countP_append, Nat.add_assoc]

theorem failureMessage_adds (mode : Mode) (m : Str) (c : Bool) (s : TState) (r : Results)
    (h1 : r.topLevelChecks = s.core.results.topLevelChecks)
    (h2 : r.failures = s.core.results.failures + if c then 0 else 1)
    (h3 : r.criticalFailures = s.core.results.criticalFailures + if c then 1 else 0)
    (h4 : r.failureMessages.length = s.core.results.failureMessages.length + if toMessages mode c then 1 else 0)
    (h5 : r.diagnostics.length = s.core.results.diagnostics.length + if toMessages mode c then 0 else 1) :
    Adds mode s { failureMessage mode m c s with core := { s.core with results := r } }
      (above (pending 0 s.levels) [(c, indent m (spaces (count s.levels - 1)))]) [] := by
  have hl := levelsLoop_eq s.levels 0 []
  simp only [Nat.zero_sub, Nat.zero_add, join_nil] at hl
  have hsp : spaces 0 = [] := rfl
  rw [hsp] at hl
  have hmsg : build (pending 0 s.levels) m (spaces (count s.levels - 1)) = join (pending 0 s.levels) (indent m (spaces (count s.levels - 1))) := build_eq _ _ _
  unfold failureMessage
  simp only [hl, hmsg]
  cases ht : toMessages mode c <;> cases c
  all_goals
    constructor
    all_goals first
      | rfl
      | simp [h1, h2, h3, h4, h5, ht, above, after, infos, unclosed]

theorem body_run (mode : Mode) (b : Body) : ∀ s : TState, s.core.sentinels ≠ [] → s.levels.length = s.core.sentinels.length →
    ∃ s', runT mode s b.events = .ok s' ∧ Adds mode s s' (above (pending 0 s.levels) (reports (count s.levels) b)) (exceptions b) := by
  induction b with
  | done =>
    intro s _ _
    exact ⟨s, rfl, by constructor <;> simp [reports, above, after, infos, unclosed, exceptions]⟩
  | item i r ih =>
    intro s hs hl
    -- what one item does
    have one : ∃ s₁ xs, ∃ rs : List (Bool × Str), stepT mode s (.item i) = .ok s₁ ∧ Adds mode s s₁ (above (pending 0 s.levels) rs) xs ∧
        reports (count s.levels) (.item i r) = rs ++ reports (count s.levels) r ∧ exceptions (.item i r) = xs ++ exceptions r ∧ rs.length ≤ 1 := by
      cases i with
      | check => exact ⟨_, [], [], rfl, by constructor <;> simp [logCheck, above, after, infos, unclosed], rfl, rfl, by simp⟩
      | performanceCheck => exact ⟨_, [], [], rfl, by constructor <;> simp [logPerformanceCheck, logCheck, above, after, infos, unclosed], rfl, rfl, by simp⟩
      | failure m =>
        refine ⟨_, [], [(false, indent m (spaces (count s.levels - 1)))], rfl, ?_, rfl, rfl, by simp⟩
        apply failureMessage_adds mode m false s (logFailure mode s.core.results) <;>
          cases mode <;> simp [logFailure, addMessage, toMessages]
      | performanceFailure m =>
        refine ⟨_, [], [(false, indent m (spaces (count s.levels - 1)))], rfl, ?_, rfl, rfl, by simp⟩
        apply failureMessage_adds mode m false s (logPerformanceFailure mode s.core.results) <;>
          cases mode <;> simp [logPerformanceFailure, logFailure, addMessage, toMessages]
      | critical m =>
        refine ⟨_, [], [(true, indent m (spaces (count s.levels - 1)))], rfl, ?_, rfl, rfl, by simp⟩
        apply failureMessage_adds mode m true s (logCriticalFailure mode s.core.results) <;>
          cases mode <;> simp [logCriticalFailure, addMessage, toMessages]
      | caught m => exact ⟨_, [m], [], rfl, by constructor <;> simp [logCaught, above, after, infos, unclosed], rfl, rfl, by simp⟩
    obtain ⟨s₁, xs, rs, e1, a1, hr, hx, hlen⟩ := one
    have hlev : s₁.levels.length = s.levels.length := by rw [a1.levels]; unfold after; split <;> simp [mark]
    obtain ⟨s₂, e2, a2⟩ := ih s₁ (by rw [a1.sentinels]; exact hs) (by rw [hlev, a1.sentinels]; exact hl)
    refine ⟨s₂, by simp only [Body.events, runT, e1, bind_ok, e2], ?_⟩
    rw [hr, hx]
    have := a1.trans a2
    have e : above (pending 0 s.levels) rs ++ above (pending 0 s₁.levels) (reports (count s₁.levels) r) =
        above (pending 0 s.levels) (rs ++ reports (count s.levels) r) := by
      rw [a1.levels]
      unfold after
      cases rs with
      | nil => simp [above]
      | cons p ps => rw [above_append, if_neg (by simp [above]), pending_mark, count_mark, above_nil]
    rwa [e] at this
  | nested m i r ih₁ ih₂ =>
    intro s hs hl
    let s₀ : TState := { s with core := Logger.enter s.core, levels := s.levels ++ [⟨m, false⟩] }
    have e0 : stepT mode s (.enter m) = .ok s₀ := rfl
    have hemp : s.core.sentinels.isEmpty = false := by cases h : s.core.sentinels with | nil => exact absurd h hs | cons => rfl
    have hres : s₀.core.results = s.core.results := by simp [s₀, Logger.enter, hemp]
    have hsent : s₀.core.sentinels = ⟨s.core.results.failures, s.core.results.criticalFailures, s.core.results.deepChecks⟩ :: s.core.sentinels := rfl
    obtain ⟨s₁, e1, a1⟩ := ih₁ s₀ (by rw [hsent]; simp) (by simp [s₀, hsent, hl, Logger.enter])
    -- leaving
    have hl0 : s₀.levels = s.levels ++ [⟨m, false⟩] := rfl
    obtain ⟨t, ts, hts⟩ : ∃ t ts, s.core.sentinels = t :: ts := by cases h : s.core.sentinels with | nil => exact absurd h hs | cons t ts => exact ⟨t, ts, rfl⟩
    have hs1 : s₁.core.sentinels = ⟨s.core.results.failures, s.core.results.criticalFailures, s.core.results.deepChecks⟩ :: t :: ts := by
      rw [a1.sentinels, hsent, hts]
    let rs₁ := reports (count s₀.levels) i
    have hlev1 : s₁.levels = after rs₁ (s.levels ++ [⟨m, false⟩]) := by
      rw [a1.levels]; unfold after; simp only [above_eq_nil]; rfl
    have hne : s₁.levels ≠ [] := by
      rw [hlev1]; unfold after; split <;> simp [mark]
    have hdrop : s₁.levels.dropLast = after rs₁ s.levels := by
      rw [hlev1]; unfold after; split
      · simp
      · rw [mark_append]; simp [mark]
    let s₂ : TState := { s₁ with levels := s₁.levels.dropLast, core := ⟨s₁.core.results, t :: ts⟩ }
    have e2 : stepT mode s₁ .leave = .ok s₂ := by
      simp only [stepT, stepText, leaveText, hs1, hne, if_false, bind_ok, TEvent.forget, step, Logger.leave]
      rfl
    have hpend : pending 0 s₀.levels = join (pending 0 s.levels) (indent m (spaces (count s.levels))) := by
      rw [hl0, pending_append]; simp
    have hcount : count s₀.levels = if m = [] then count s.levels else count s.levels + 1 := count_append _ _
    have a2 : Adds mode s s₂ (above (pending 0 s.levels) (above (indent m (spaces (count s.levels))) rs₁)) (exceptions i) := by
      have hab : above (pending 0 s₀.levels) rs₁ = above (pending 0 s.levels) (above (indent m (spaces (count s.levels))) rs₁) := by
        rw [hpend, above_above]
      have a1' := a1
      simp only [show reports (count s₀.levels) i = rs₁ from rfl, hab] at a1'
      have htop : topLevelMessage s₀ = topLevelMessage s := by
        unfold topLevelMessage
        rw [hl0]
        cases h : s.levels with
        | nil => rw [h, hts] at hl; simp at hl
        | cons l ls => rfl
      exact {
        sentinels := hts.symm
        topLevel := by rw [show s₂.core.results = s₁.core.results from rfl, a1'.topLevel, hres]
        failures := by rw [show s₂.core.results = s₁.core.results from rfl, a1'.failures, hres]
        critical := by rw [show s₂.core.results = s₁.core.results from rfl, a1'.critical, hres]
        levels := by
          show s₁.levels.dropLast = _
          rw [hdrop]; unfold after; simp only [above_eq_nil]
        messages := by rw [show s₂.failureMessages = s₁.failureMessages from rfl, a1'.messages, hres]
        diagnostics := by rw [show s₂.diagnostics = s₁.diagnostics from rfl, a1'.diagnostics, hres]
        caught := by rw [show s₂.caught = s₁.caught from rfl, a1'.caught, hres, htop]
        last := by rw [show s₂.lastMessage = s₁.lastMessage from rfl, a1'.last]
        coreMessages := by rw [show s₂.core.results = s₁.core.results from rfl, a1'.coreMessages, hres]
        coreDiagnostics := by rw [show s₂.core.results = s₁.core.results from rfl, a1'.coreDiagnostics, hres] }
    have hlev2 : s₂.levels.length = s.levels.length := by rw [a2.levels]; unfold after; split <;> simp [mark]
    obtain ⟨s₃, e3, a3⟩ := ih₂ s₂ (by show t :: ts ≠ []; simp) (by rw [hlev2, a2.sentinels]; exact hl)
    refine ⟨s₃, ?_, ?_⟩
    · simp only [Body.events, runT, e0, bind_ok, runT_append, e1, e2, e3]
    · have := a2.trans a3
      have e : above (pending 0 s.levels) (above (indent m (spaces (count s.levels))) rs₁) ++
          above (pending 0 s₂.levels) (reports (count s₂.levels) r) =
          above (pending 0 s.levels) (reports (count s.levels) (.nested m i r)) := by
        rw [a2.levels, reports]
        simp only [rs₁, hcount]
        unfold after
        cases hr : reports (if m = [] then count s.levels else count s.levels + 1) i with
        | nil => simp [above]
        | cons p ps => rw [if_neg (by simp [above]), pending_mark, count_mark, above_nil]; simp [above]
      rw [e] at this
      exact this

theorem modifyLast_append (f : Str → Str) (a : List Info) (i : Info) : modifyLast f (a ++ [i]) = .ok (a ++ [{ i with message := f i.message }]) := by
  induction a with
  | nil => rfl
  | cons x xs ih =>
    cases xs with
    | nil => rfl
    | cons y ys => simp only [List.cons_append, modifyLast] at *; rw [ih]; rfl

theorem closed_append (rs : List (Bool × Str)) (r : Bool × Str) : closed (rs ++ [r]) = unclosed rs ++ [endBlock (endBlock r.2 1 []) 2 footer] := by
  induction rs with
  | nil => rfl
  | cons x xs ih =>
    cases xs with
    | nil => rfl
    | cons y ys => simp only [List.cons_append, closed, unclosed, List.map_cons] at *; rw [ih]

theorem close (a : List Info) (i : Nat) (rs : List (Bool × Str)) (h : rs ≠ []) :
    modifyLast (fun m => endBlock m 2 footer) (a ++ infos i (unclosed rs)) = .ok (a ++ infos i (closed rs)) := by
  obtain ⟨init, r, rfl⟩ : ∃ init r, rs = init ++ [r] := ⟨rs.dropLast, rs.getLast h, (List.dropLast_concat_getLast h).symm⟩
  rw [unclosed_append, infos_append, ← List.append_assoc, closed_append, infos_append, ← List.append_assoc]
  exact modifyLast_append _ _ _

/-- The reports of a check with description `m`. -/
def topReports (m : Str) (b : Body) : List (Bool × Str) := reports 0 (.nested m b .done)

theorem nil_of_counts (rs : List (Bool × Str)) (h : rs.countP (fun r => !r.1) = 0) (h' : rs.countP (fun r => r.1) = 0) : rs = [] := by
  cases rs with
  | nil => rfl
  | cons r rs => obtain ⟨c, t⟩ := r; cases c <;> simp at h h'

theorem isEmpty_of_pos {α : Type} {l : List α} (h : 0 < l.length) : l.isEmpty = false := by cases l with | nil => simp at h | cons => rfl

theorem leave_eq (mode : Mode) (s s₂ : TState) (t : Sentinel) (r : Results) (m : Str) (w : Bool) (h : s.core.sentinels = [t])
    (hc : concludeText mode t s = .ok s₂) (hl : s₂.levels = [⟨m, w⟩]) (hr : conclude mode t s.core.results = .ok r) :
    stepT mode s .leave = .ok { s₂ with levels := [], lastMessage := m, core := ⟨r, []⟩ } := by
  simp only [stepT, stepText, leaveText, h, hc, hl, bind_ok, TEvent.forget, step, Logger.leave, hr]

theorem check_run (mode : Mode) (s : TState) (m : Str) (b : Body) (h : Idle s) :
    ∃ s', runT mode s (checkEvents m b) = .ok s' ∧ Idle s' ∧ s'.core.results.topLevelChecks = s.core.results.topLevelChecks + 1 ∧
      s'.failureMessages = s.failureMessages ++ infos (s.core.results.topLevelChecks + 1) (newMessages mode m (topReports m b)) ∧
      s'.diagnostics = s.diagnostics ++ infos (s.core.results.topLevelChecks + 1) (newDiagnostics mode m (topReports m b)) ∧
      s'.caught = s.caught ++ infos (s.core.results.topLevelChecks + 1) ((exceptions b).map fun x => endBlock (m ++ ['\n'] ++ x) 2 footer) ∧
      s'.lastMessage = (if mode = .falseNegative ∧ topReports m b = [] then m ++ verdict m else m) := by
  obtain ⟨h1, h2⟩ := h
  let s₀ : TState := { s with core := Logger.enter s.core, levels := [⟨m, false⟩] }
  have e0 : stepT mode s (.enter m) = .ok s₀ := by simp only [stepT, stepText, h2, List.nil_append, bind_ok]; rfl
  have hsent : s₀.core.sentinels = [⟨s.core.results.failures, s.core.results.criticalFailures, s.core.results.deepChecks⟩] := by
    show (Logger.enter s.core).sentinels = _
    unfold Logger.enter; rw [h1]
  have hres : s₀.core.results = { s.core.results with topLevelChecks := s.core.results.topLevelChecks + 1 } := by
    show (Logger.enter s.core).results = _
    unfold Logger.enter; rw [h1]; rfl
  obtain ⟨s₁, e1, a⟩ := body_run mode b s₀ (by rw [hsent]; simp) (by rw [hsent]; rfl)
  have hrs : above (pending 0 s₀.levels) (reports (count s₀.levels) b) = topReports m b := by
    show above (pending 0 [⟨m, false⟩]) (reports (count [⟨m, false⟩]) b) = _
    have := count_append m []
    have h3 := pending_append m [] 0
    simp only [List.nil_append] at this h3
    rw [this, h3]
    simp only [topReports, reports, List.append_nil]
    simp [pending, count, spaces]
  rw [hrs] at a
  have hlev : ∃ w, s₁.levels = [⟨m, w⟩] := by
    rw [a.levels]
    unfold after
    split
    · exact ⟨false, rfl⟩
    · show ∃ w, mark [⟨m, false⟩] = _
      unfold mark
      simp only [List.map_cons, List.map_nil]
      split
      · exact ⟨_, rfl⟩
      · exact ⟨_, rfl⟩
  obtain ⟨w, hlev⟩ := hlev
  have htop : topLevelMessage s₁ = m := by unfold topLevelMessage; rw [hlev]
  have hs1 : s₁.core.sentinels = [⟨s.core.results.failures, s.core.results.criticalFailures, s.core.results.deepChecks⟩] := by rw [a.sentinels, hsent]
  have hf := a.failures
  have hc := a.critical
  have ht := a.topLevel
  have hm := a.messages
  have hd := a.diagnostics
  have hx := a.caught
  have hcm := a.coreMessages
  have hcd := a.coreDiagnostics
  rw [hres] at hf hc ht hm hd hx hcm hcd
  simp only at hf hc ht hm hd hx hcm hcd
  generalize hR : topReports m b = rs at *
  clear hrs
  suffices hfin : ∃ s₂, stepT mode s₁ .leave = .ok s₂ ∧ Idle s₂ ∧ s₂.core.results.topLevelChecks = s.core.results.topLevelChecks + 1 ∧
      s₂.failureMessages = s.failureMessages ++ infos (s.core.results.topLevelChecks + 1) (newMessages mode m rs) ∧
      s₂.diagnostics = s.diagnostics ++ infos (s.core.results.topLevelChecks + 1) (newDiagnostics mode m rs) ∧ s₂.caught = s₁.caught ∧
      s₂.lastMessage = (if mode = .falseNegative ∧ rs = [] then m ++ verdict m else m) by
    obtain ⟨s₂, e2, i2, p1, p2, p3, p4, p5⟩ := hfin
    refine ⟨s₂, ?_, i2, p1, p2, p3, ?_, p5⟩
    · simp only [checkEvents, runT, e0, bind_ok, runT_append, e1, e2]
    · rw [p4, hx]; rfl
  have hnone : rs.filter (fun _ => false) = [] := by rw [List.filter_eq_nil_iff]; simp
  have hany : rs.any (·.1) = true ↔ rs.countP (fun r => r.1) ≠ 0 := by
    rw [Ne, List.countP_eq_zero]; simp
  by_cases hcrit : rs.countP (fun r => r.1) = 0
  · have hany' : rs.any (·.1) = false := by rw [← Bool.not_eq_true, hany]; simp [hcrit]
    have hallc : ∀ r ∈ rs, r.1 = false := by intro r hr; simpa using List.countP_eq_zero.1 hcrit r hr
    have hfilt : rs.filter (fun r => r.1) = [] := by rw [List.filter_eq_nil_iff]; intro r hr; simp [hallc r hr]
    have hfilt' : rs.filter (fun r => !r.1) = rs := by rw [List.filter_eq_self]; intro r hr; simp [hallc r hr]
    have hnc : ¬ s₁.core.results.criticalFailures ≠ s.core.results.criticalFailures := by rw [hc, hcrit]; simp
    by_cases hfail : rs.countP (fun r => !r.1) = 0
    · have hn := nil_of_counts rs hfail hcrit
      subst hn
      have hnf : s₁.core.results.failures = s.core.results.failures := by rw [hf]; simp
      cases mode with
      | standard =>
        refine ⟨_, leave_eq _ s₁ s₁ _ s₁.core.results m w hs1 ?_ hlev ?_, ⟨rfl, rfl⟩, ht, ?_, ?_, rfl, by simp⟩
        · simp [concludeText, hnc, hnf]
        · simp [conclude, hnc, hnf]
        · simpa [newMessages, infos, closed, unclosed] using hm
        · simpa [newDiagnostics, infos, closed, unclosed] using hd
      | falseNegative =>
        refine ⟨_, leave_eq _ s₁ { s₁ with levels := [⟨m ++ verdict m, w⟩], failureMessages := s₁.failureMessages ++ [⟨s₁.core.results.topLevelChecks, verdict m⟩] }
          _ (Logger.logTopLevelFailure .falseNegative s₁.core.results) (m ++ verdict m) w hs1 ?_ rfl ?_, ⟨rfl, rfl⟩, ?_, ?_, ?_, rfl, by simp⟩
        · simp [concludeText, hnc, hnf, logTopLevelFailure, htop, hlev, appendBack]
        · simp [conclude, hnc, hnf]
        · simpa [Logger.logTopLevelFailure] using ht
        · simp [newMessages, infos, closed, unclosed, hm, ht, s₀]
        · simpa [newDiagnostics, infos, closed, unclosed] using hd
      | falsePositive =>
        refine ⟨_, leave_eq _ s₁ { s₁ with diagnostics := s₁.diagnostics ++ [⟨s₁.core.results.topLevelChecks, verdict m⟩] }
          _ { s₁.core.results with diagnostics := s₁.core.results.diagnostics ++ [s₁.core.results.topLevelChecks] } m w hs1 ?_ hlev ?_,
          ⟨rfl, rfl⟩, ht, ?_, ?_, rfl, by simp⟩
        · simp [concludeText, hnc, hnf, htop]
        · simp [conclude, hnc, hnf]
        · simpa [newMessages, infos, closed, unclosed] using hm
        · simp [newDiagnostics, infos, closed, unclosed, hd, ht, s₀]
    · have hne : rs ≠ [] := by rintro rfl; simp at hfail
      have hff : ¬ s₁.core.results.failures = s.core.results.failures := by rw [hf]; omega
      have hclose := fun a => close a (s.core.results.topLevelChecks + 1) rs hne
      have hcnt : 0 < rs.length := List.length_pos_iff.2 hne
      cases mode with
      | standard =>
        have hm' : s₁.failureMessages = s.failureMessages ++ infos (s.core.results.topLevelChecks + 1) (unclosed rs) := by
          rw [hm]; simp [toMessages, s₀, List.filter_eq_self.2]
        have hemp : s₁.core.results.failureMessages.isEmpty = false := isEmpty_of_pos (by rw [hcm]; simp [toMessages]; omega)
        refine ⟨_, leave_eq _ s₁ { s₁ with failureMessages := s.failureMessages ++ infos (s.core.results.topLevelChecks + 1) (closed rs) }
          _ (Logger.logTopLevelFailure .standard s₁.core.results) m w hs1 ?_ hlev ?_, ⟨rfl, rfl⟩, ?_, ?_, ?_, rfl, by simp⟩
        · simp [concludeText, hnc, hff, endMessage, toMessages, hm', hclose, logTopLevelFailure, hlev, appendBack]
        · simp [conclude, hnc, hff, Logger.endMessage, hemp]
        · simpa [Logger.logTopLevelFailure] using ht
        · simp [newMessages]
        · simpa [newDiagnostics, toMessages, infos, unclosed, s₀, hnone] using hd
      | falseNegative =>
        have hd' : s₁.diagnostics = s.diagnostics ++ infos (s.core.results.topLevelChecks + 1) (unclosed rs) := by
          rw [hd]; simp [toMessages, s₀, hfilt']
        have hemp : s₁.core.results.diagnostics.isEmpty = false := isEmpty_of_pos (by rw [hcd]; simp [toMessages] at *; omega)
        refine ⟨_, leave_eq _ s₁ { s₁ with diagnostics := s.diagnostics ++ infos (s.core.results.topLevelChecks + 1) (closed rs) }
          _ s₁.core.results m w hs1 ?_ hlev ?_, ⟨rfl, rfl⟩, ht, ?_, ?_, rfl, by simp [hne]⟩
        · simp [concludeText, hnc, hff, endMessage, toMessages, hd', hclose]
        · simp [conclude, hnc, hff, Logger.endMessage, hemp]
        · simp [newMessages, hne, hm, toMessages, hfilt, closed, unclosed, s₀]
        · simp only [newDiagnostics, hany', Bool.false_eq_true, if_false]
      | falsePositive =>
        have hm' : s₁.failureMessages = s.failureMessages ++ infos (s.core.results.topLevelChecks + 1) (unclosed rs) := by
          rw [hm]; simp [toMessages, s₀, List.filter_eq_self.2]
        have hemp : s₁.core.results.failureMessages.isEmpty = false := isEmpty_of_pos (by rw [hcm]; simp [toMessages]; omega)
        refine ⟨_, leave_eq _ s₁ { s₁ with failureMessages := s.failureMessages ++ infos (s.core.results.topLevelChecks + 1) (closed rs) }
          _ (Logger.logTopLevelFailure .falsePositive s₁.core.results) m w hs1 ?_ hlev ?_, ⟨rfl, rfl⟩, ?_, ?_, ?_, rfl, by simp⟩
        · simp [concludeText, hnc, hff, endMessage, toMessages, hm', hclose, logTopLevelFailure, hlev, appendBack]
        · simp [conclude, hnc, hff, Logger.endMessage, hemp]
        · simpa [Logger.logTopLevelFailure] using ht
        · simp [newMessages]
        · simpa [newDiagnostics, hne, toMessages, infos, unclosed, s₀, hnone] using hd
  · have hany' : rs.any (·.1) = true := hany.2 hcrit
    have hne : rs ≠ [] := by rintro rfl; simp at hcrit
    have hcc : s₁.core.results.criticalFailures ≠ s.core.results.criticalFailures := by rw [hc]; omega
    have hfne : (rs.filter fun r => toMessages mode r.1) ≠ [] := by
      intro h0
      rw [List.filter_eq_nil_iff] at h0
      obtain ⟨r, hr, hr'⟩ := List.any_eq_true.1 hany'
      exact h0 r hr (by simp [toMessages, hr'])
    have hclose := close s.failureMessages (s.core.results.topLevelChecks + 1) _ hfne
    have hm' : s₁.failureMessages = s.failureMessages ++ infos (s.core.results.topLevelChecks + 1) (unclosed (rs.filter fun r => toMessages mode r.1)) := hm
    have hpos : 0 < rs.countP (fun r => toMessages mode r.1) := by
      rw [List.countP_pos_iff]
      obtain ⟨r, hr, hr'⟩ := List.any_eq_true.1 hany'
      exact ⟨r, hr, by simp [toMessages, hr']⟩
    have hemp : s₁.core.results.failureMessages.isEmpty = false := isEmpty_of_pos (by rw [hcm]; omega)
    refine ⟨_, leave_eq _ s₁ { s₁ with failureMessages := s.failureMessages ++ infos (s.core.results.topLevelChecks + 1) (closed (rs.filter fun r => toMessages mode r.1)) }
      _ s₁.core.results m w hs1 ?_ hlev ?_, ⟨rfl, rfl⟩, ht, ?_, ?_, rfl, by simp [hne]⟩
    · have : toMessages mode true = true := by simp [toMessages]
      simp only [concludeText, hcc, ne_eq, not_false_eq_true, if_true, endMessage, this, hm', hclose, bind_ok]
    · simp [conclude, hcc, Logger.endMessage, hemp]
    · cases mode <;> simp [newMessages, hne, toMessages, List.filter_eq_self.2]
    · cases mode
      · simpa [newDiagnostics, toMessages, infos, unclosed, s₀, hnone] using hd
      · simpa [newDiagnostics, hany', toMessages, s₀] using hd
      · simpa [newDiagnostics, hne, toMessages, infos, unclosed, s₀, hnone] using hd

end Verif.LoggerText
