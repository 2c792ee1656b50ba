import Verif.Spec.Recovery
import Verif.Lemmas.LoggerText

namespace Verif.Recovery
open Verif.Text Verif.Logger Verif.LoggerText Verif.Spec.LoggerText Verif.Spec.Recovery

theorem writes_nil (d : Disk) : d.writes [] = d := rfl

theorem writes_append (d : Disk) (a b : List Write) : d.writes (a ++ b) = (d.writes a).writes b := by simp [Disk.writes]

theorem writes_puts (f : File) (t : Str) : ∀ (d : Disk) (x : Str), d.get f = some x → d.writes (t.map (.put f)) = d.set f (some (x ++ t)) := by
  induction t with
  | nil => intro d x h; cases f <;> (simp only [Disk.get] at h; simp [Disk.writes, Disk.set, ← h])
  | cons c t ih =>
    intro d x h
    show (d.write (.put f c)).writes (t.map (.put f)) = _
    rw [ih (d.write (.put f c)) (x ++ [c]) (by cases f <;> (simp only [Disk.get] at h; simp [Disk.write, Disk.set, Disk.get, h]))]
    cases f <;> simp [Disk.write, Disk.set]

theorem writes_record (active : Bool) (f : File) (append : Bool) (t : Str) (d : Disk) :
    d.writes (record active f append t) = if active then d.set f (some ((if append then (d.get f).getD [] else []) ++ t)) else d := by
  unfold record
  cases active with
  | false => rfl
  | true =>
    simp only [if_true]
    show (d.write (.opened f append)).writes (t.map (.put f)) = _
    rw [writes_puts f t _ (if append then (d.get f).getD [] else []) (by cases f <;> rfl)]
    cases f <;> rfl

/-- The part of a text which has been written. -/
theorem writes_take (f : File) (append : Bool) (t : Str) (k : Nat) (d : Disk) :
    d.writes ((record true f append t).take k) = if k = 0 then d else d.set f (some ((if append then (d.get f).getD [] else []) ++ t.take (k - 1))) := by
  cases k with
  | zero => rfl
  | succ k =>
    have : (record true f append t).take (k + 1) = record true f append (t.take k) := by simp [record, List.map_take]
    rw [this, writes_record]
    simp

theorem runR_append (a : Active) (mode : Mode) (es fs : List TEvent) : ∀ s, runR a mode s (es ++ fs) = (runR a mode s es).bind fun s' => runR a mode s' fs := by
  induction es with
  | nil => intro s; rfl
  | cons e es ih =>
    intro s
    simp only [List.cons_append, runR]
    cases stepR a mode s e with
    | ok s' => exact ih s'
    | throws => rfl
    | ub => rfl

/-- The files make no difference to the logger. -/
theorem runR_ok (a : Active) (mode : Mode) (es : List TEvent) : ∀ (s : RState) (t : TState), runT mode s.logger es = .ok t → ∃ d, runR a mode s es = .ok ⟨t, d⟩ := by
  induction es with
  | nil => intro s t h; cases h; exact ⟨s.disk, rfl⟩
  | cons e es ih =>
    intro s t h
    simp only [runT] at h
    cases hs : stepT mode s.logger e with
    | ok t' =>
      rw [hs] at h
      obtain ⟨d, hd⟩ := ih ⟨t', s.disk.writes (writesOf a s.logger e)⟩ t h
      refine ⟨d, ?_⟩
      simp only [runR, stepR, hs, bind_ok]
      exact hd
    | throws => rw [hs] at h; cases h
    | ub => rw [hs] at h; cases h

theorem bind_eq_ok {α β : Type} {x : Res α} {f : α → Res β} {b : β} (h : x.bind f = .ok b) : ∃ y, x = .ok y ∧ f y = .ok b := by
  cases x with
  | ok y => exact ⟨y, rfl, h⟩
  | throws => cases h
  | ub => cases h

/-- The depth after some events, if it never becomes negative. -/
def depthAfter : Nat → List TEvent → Option Nat
  | n, [] => some n
  | n, .enter _ :: es => depthAfter (n + 1) es
  | 0, .leave :: _ => none
  | n + 1, .leave :: es => depthAfter n es
  | n, .item _ :: es => depthAfter n es

theorem depthAfter_body (b : Body) : ∀ n es, depthAfter n (b.events ++ es) = depthAfter n es := by
  induction b with
  | done => intro n es; rfl
  | item i r ih => intro n es; cases n <;> exact ih _ es
  | nested m i r ihi ihr =>
    intro n es
    show depthAfter (n + 1) ((i.events ++ .leave :: r.events) ++ es) = _
    rw [List.append_assoc, ihi, List.cons_append]
    exact ihr n es

theorem depthAfter_prefix (q r : List TEvent) : ∀ n k, depthAfter n (q ++ r) = some k → ∃ j, depthAfter n q = some j := by
  induction q with
  | nil => intro n k _; exact ⟨n, by cases n <;> rfl⟩
  | cons e q ih =>
    intro n k h
    cases e with
    | enter m => cases n <;> exact ih _ k h
    | leave =>
      cases n with
      | zero => cases h
      | succ n => exact ih n k h
    | item i => cases n <;> exact ih _ k h

/-- What one event does to the sentinels and to the counter of critical failures. -/
theorem core_step {mode : Mode} {s t : TState} {e : TEvent} (h : stepT mode s e = .ok t) :
    match e with
    | .enter _ => t.core.sentinels = ⟨s.core.results.failures, s.core.results.criticalFailures, s.core.results.deepChecks⟩ :: s.core.sentinels ∧ t.core.results.criticalFailures = s.core.results.criticalFailures
    | .leave => t.core.sentinels = s.core.sentinels.tail ∧ t.core.results.criticalFailures = s.core.results.criticalFailures
    | .item (.critical _) => t.core.sentinels = s.core.sentinels ∧ t.core.results.criticalFailures = s.core.results.criticalFailures + 1
    | .item _ => t.core.sentinels = s.core.sentinels ∧ t.core.results.criticalFailures = s.core.results.criticalFailures := by
  unfold stepT at h
  obtain ⟨s', _, h⟩ := bind_eq_ok h
  obtain ⟨c, hc, h⟩ := bind_eq_ok h
  cases h
  cases e with
  | enter m =>
    cases hc
    refine ⟨rfl, ?_⟩
    simp only [enter]
    try (split <;> rfl)
  | leave =>
    simp only [TEvent.forget, step, leave] at hc
    cases hs : s.core.sentinels with
    | nil => rw [hs] at hc; cases hc
    | cons x l =>
      rw [hs] at hc
      cases l with
      | nil =>
        simp only at hc
        obtain ⟨r, hr, hc⟩ := bind_eq_ok hc
        cases hc
        refine ⟨rfl, ?_⟩
        unfold conclude at hr
        dsimp only at hr
        split at hr
        · obtain ⟨_, _, hr⟩ := bind_eq_ok hr
          cases hr; rfl
        · obtain ⟨_, _, hr⟩ := bind_eq_ok hr
          split at hr
          · cases hr
            simp only [Logger.logTopLevelFailure]
            split <;> rfl
          · split at hr <;> cases hr <;> rfl
      | cons y l => cases hc; exact ⟨rfl, rfl⟩
  | item i =>
    cases i with
    | check => cases hc; exact ⟨rfl, rfl⟩
    | performanceCheck => cases hc; exact ⟨rfl, rfl⟩
    | failure m =>
      cases hc
      refine ⟨rfl, ?_⟩
      simp only [logFailure, addMessage]
      split <;> rfl
    | performanceFailure m =>
      cases hc
      refine ⟨rfl, ?_⟩
      simp only [logPerformanceFailure, logFailure, addMessage]
      split <;> rfl
    | critical m =>
      cases hc
      refine ⟨rfl, ?_⟩
      simp only [logCriticalFailure, addMessage]
      split <;> rfl
    | caught m => cases hc; exact ⟨rfl, rfl⟩

/-- The line about a critical failure, and the first lines. -/
@[irreducible] def critText (c : Str) : Str := "\nCritical Failure:\n".toList ++ c ++ ['\n']

@[irreducible] def headText (m : Str) : Str := "Check started:\n".toList ++ m ++ ['\n']

theorem ongoing_eq (m : Str) (cs : List Str) : ongoing m cs = headText m ++ cs.flatMap critText := by
  have : critText = fun c => "\nCritical Failure:\n".toList ++ c ++ ['\n'] := by funext c; unfold critText; rfl
  rw [this]
  unfold headText ongoing
  rfl

theorem criticalFailure_eq (a : Active) (m : Str) : criticalFailure a m = record a.recovery .recovery true (critText m) := by unfold critText criticalFailure; rfl

theorem checkStarted_eq (a : Active) (m : Str) : checkStarted a m = record a.recovery .recovery false (headText m) := by unfold headText checkStarted; rfl

/-- The last line. -/
@[irreducible] def endText : Str := "Check ended\n".toList

theorem checkEnded_eq (a : Active) : checkEnded a = record a.recovery .recovery true endText := by unfold endText checkEnded; rfl

theorem over_eq (m : Str) (cs : List Str) : over m cs = if cs = [] then ongoing m cs ++ endText else ongoing m cs := by unfold endText over; rfl

/-- Within a check. -/
theorem run_within (a : Active) (mode : Mode) (t : Sentinel) : ∀ (q : List TEvent) (l : List Sentinel) (s s' : RState) (k : Nat),
    s.logger.core.sentinels = l ++ [t] → depthAfter l.length q = some k → runR a mode s q = .ok s' → (a.recovery = true → ∃ x, s.disk.recovery = some x) → (a.dump = true → ∃ x, s.disk.dump = some x) →
    (∃ l', l'.length = k ∧ s'.logger.core.sentinels = l' ++ [t]) ∧
    s'.logger.core.results.criticalFailures = s.logger.core.results.criticalFailures + (criticals q).length ∧
    s'.disk.recovery = (if a.recovery then s.disk.recovery.map (· ++ (criticals q).flatMap critText) else s.disk.recovery) ∧
    s'.disk.dump = (if a.dump then s.disk.dump.map (· ++ linesOf (begun q)) else s.disk.dump) := by
  intro q
  induction q with
  | nil =>
    intro l s s' k hs hk hr _ _
    cases hr
    have : k = l.length := by cases hl : l.length <;> (rw [hl] at hk; simp only [depthAfter, Option.some.injEq] at hk; exact hk.symm)
    refine ⟨⟨l, this.symm, hs⟩, by simp [criticals], ?_, ?_⟩
    · simp [criticals]
    · simp [begun, linesOf]
  | cons e q ih =>
    intro l s s' k hs hk hr hrec hdump
    simp only [runR] at hr
    obtain ⟨s1, h1, h2⟩ := bind_eq_ok hr
    unfold stepR at h1
    obtain ⟨t1, h3, h4⟩ := bind_eq_ok h1
    cases h4
    have hc := core_step h3
    cases e with
    | enter m =>
      obtain ⟨hc1, hc2⟩ := hc
      have hk' : depthAfter (l.length + 1) q = some k := by cases hl : l.length <;> (rw [hl] at hk; exact hk)
      have hd : s.disk.writes (writesOf a s.logger (.enter m)) = if a.dump then s.disk.set .dump (some (s.disk.dump.getD [] ++ (m ++ ['\n']))) else s.disk := by
        have hne : s.logger.core.sentinels ≠ [] := by rw [hs]; simp
        simp only [writesOf, hne, if_false, List.nil_append, dumpStarted]
        rw [writes_record]; rfl
      rw [hd] at h2
      obtain ⟨i1, i2, i3, i4⟩ := ih (⟨s.logger.core.results.failures, s.logger.core.results.criticalFailures, s.logger.core.results.deepChecks⟩ :: l) _ s' k
        (by show t1.core.sentinels = _; rw [hc1, hs]; rfl) hk' h2
        (by intro h; obtain ⟨x, hx⟩ := hrec h; refine ⟨x, ?_⟩; show (if a.dump then _ else _ : Disk).recovery = _; split <;> exact hx)
        (by intro h; refine ⟨s.disk.dump.getD [] ++ (m ++ ['\n']), ?_⟩; show (if a.dump then _ else _ : Disk).dump = _; rw [if_pos h]; rfl)
      refine ⟨i1, ?_, ?_, ?_⟩
      · rw [i2]; show t1.core.results.criticalFailures + _ = _; rw [hc2]; rfl
      · rw [i3]
        show (if a.recovery then ((if a.dump then _ else _ : Disk).recovery).map _ else (if a.dump then _ else _ : Disk).recovery) = _
        have hx : (if a.dump then s.disk.set .dump (some (s.disk.dump.getD [] ++ (m ++ ['\n']))) else s.disk).recovery = s.disk.recovery := by split <;> rfl
        rw [hx]; rfl
      · rw [i4]
        cases hda : a.dump with
        | false => simp
        | true =>
          obtain ⟨x, hx⟩ := hdump hda
          simp [Disk.set, hx, begun, linesOf]
    | leave =>
      obtain ⟨hc1, hc2⟩ := hc
      cases l with
      | nil => cases hk
      | cons x l =>
        have hd : writesOf a s.logger .leave = [] := by
          simp only [writesOf]
          rw [hs]
          cases l <;> rfl
        rw [hd, writes_nil] at h2
        obtain ⟨i1, i2, i3, i4⟩ := ih l _ s' k (by show t1.core.sentinels = _; rw [hc1, hs]; rfl) hk h2 hrec hdump
        refine ⟨i1, ?_, i3, i4⟩
        rw [i2]; show t1.core.results.criticalFailures + _ = _; rw [hc2]; rfl
    | item i =>
      have hk' : depthAfter l.length q = some k := by cases hl : l.length <;> (rw [hl] at hk; exact hk)
      have plain : t1.core.sentinels = s.logger.core.sentinels ∧ t1.core.results.criticalFailures = s.logger.core.results.criticalFailures → writesOf a s.logger (.item i) = [] →
          criticals (.item i :: q) = criticals q → ((∃ l', l'.length = k ∧ s'.logger.core.sentinels = l' ++ [t]) ∧
          s'.logger.core.results.criticalFailures = s.logger.core.results.criticalFailures + (criticals (.item i :: q)).length ∧
          s'.disk.recovery = (if a.recovery then s.disk.recovery.map (· ++ (criticals (.item i :: q)).flatMap critText) else s.disk.recovery) ∧
          s'.disk.dump = (if a.dump then s.disk.dump.map (· ++ linesOf (begun (.item i :: q))) else s.disk.dump)) := by
        intro ⟨hc1, hc2⟩ hw hcr
        rw [hw, writes_nil] at h2
        obtain ⟨i1, i2, i3, i4⟩ := ih l _ s' k (by show t1.core.sentinels = _; rw [hc1, hs]) hk' h2 hrec hdump
        rw [hcr]
        refine ⟨i1, ?_, i3, i4⟩
        rw [i2]; show t1.core.results.criticalFailures + _ = _; rw [hc2]
      cases i with
      | check => exact plain hc rfl rfl
      | performanceCheck => exact plain hc rfl rfl
      | failure m => exact plain hc rfl rfl
      | performanceFailure m => exact plain hc rfl rfl
      | caught m => exact plain hc rfl rfl
      | critical m =>
        obtain ⟨hc1, hc2⟩ := hc
        have hd : s.disk.writes (writesOf a s.logger (.item (.critical m))) = if a.recovery then s.disk.set .recovery (some (s.disk.recovery.getD [] ++ critText m)) else s.disk := by
          simp only [writesOf, criticalFailure_eq]
          rw [writes_record]; rfl
        rw [hd] at h2
        obtain ⟨i1, i2, i3, i4⟩ := ih l _ s' k (by show t1.core.sentinels = _; rw [hc1, hs]) hk' h2
          (by intro h; refine ⟨s.disk.recovery.getD [] ++ critText m, ?_⟩; show (if a.recovery then _ else _ : Disk).recovery = _; rw [if_pos h]; rfl)
          (by intro h; obtain ⟨x, hx⟩ := hdump h; refine ⟨x, ?_⟩; show (if a.recovery then _ else _ : Disk).dump = _; split <;> exact hx)
        refine ⟨i1, ?_, ?_, ?_⟩
        · rw [i2]; show t1.core.results.criticalFailures + _ = _; rw [hc2]
          have : criticals (.item (.critical m) :: q) = m :: criticals q := rfl
          rw [this, List.length_cons]; omega
        · rw [i3]
          cases hra : a.recovery with
          | false => simp
          | true =>
            obtain ⟨x, hx⟩ := hrec hra
            have : criticals (.item (.critical m) :: q) = m :: criticals q := rfl
            rw [this]
            simp [Disk.set, hx]
        · rw [i4]
          show (if a.dump then ((if a.recovery then _ else _ : Disk).dump).map _ else (if a.recovery then _ else _ : Disk).dump) = _
          have hx : (if a.recovery then s.disk.set .recovery (some (s.disk.recovery.getD [] ++ critText m)) else s.disk).dump = s.disk.dump := by split <;> rfl
          rw [hx]; rfl

theorem criticals_append (a b : List TEvent) : criticals (a ++ b) = criticals a ++ criticals b := by simp [criticals, List.filterMap_append]

theorem begun_append (a b : List TEvent) : begun (a ++ b) = begun a ++ begun b := by simp [begun, List.filterMap_append]

theorem begun_check (m : Str) (b : Body) : begun (checkEvents m b) = m :: begun b.events := by
  show m :: begun (b.events ++ [.leave]) = _
  rw [begun_append]
  show m :: (begun b.events ++ []) = _
  rw [List.append_nil]

theorem linesOf_append (a b : List Str) : linesOf (a ++ b) = linesOf a ++ linesOf b := by simp [linesOf]

/-- The state just after a check has begun. -/
theorem enter_run (a : Active) (mode : Mode) (s : RState) (m : Str) (h : Idle s.logger) :
    ∃ s1, runR a mode s [.enter m] = .ok s1 ∧
      s1.logger.core.sentinels = [⟨s.logger.core.results.failures, s.logger.core.results.criticalFailures, s.logger.core.results.deepChecks⟩] ∧
      s1.logger.core.results.criticalFailures = s.logger.core.results.criticalFailures ∧
      s1.disk.recovery = (if a.recovery then some (ongoing m []) else s.disk.recovery) ∧
      s1.disk.dump = (if a.dump then some (s.disk.dump.getD [] ++ linesOf [m]) else s.disk.dump) := by
  obtain ⟨h1, h2⟩ := h
  have h3 : stepT mode s.logger (.enter m) = .ok { s.logger with core := Logger.enter s.logger.core, levels := s.logger.levels ++ [⟨m, false⟩] } := rfl
  have hc := core_step h3
  simp only at hc
  refine ⟨⟨{ s.logger with core := Logger.enter s.logger.core, levels := s.logger.levels ++ [⟨m, false⟩] }, s.disk.writes (writesOf a s.logger (.enter m))⟩, by simp only [runR, stepR, h3, bind_ok], ?_, hc.2, ?_, ?_⟩
  · show (Logger.enter s.logger.core).sentinels = _
    rw [hc.1, h1]
  · simp only [writesOf, h1, if_true, checkStarted_eq, dumpStarted, writes_append, writes_record, ongoing_eq]
    cases a.recovery <;> cases a.dump <;> simp [Disk.set, Disk.get]
  · simp only [writesOf, h1, if_true, checkStarted_eq, dumpStarted, writes_append, writes_record]
    cases a.recovery <;> cases a.dump <;> simp [Disk.set, Disk.get, linesOf]

/-- Within a check. -/
theorem inside_run (a : Active) (mode : Mode) (s : RState) (m : Str) (b : Body) (q r : List TEvent) (h : Idle s.logger) (hq : b.events = q ++ r) :
    ∃ s', runR a mode s (.enter m :: q) = .ok s' ∧
      (∃ l, s'.logger.core.sentinels = l ++ [⟨s.logger.core.results.failures, s.logger.core.results.criticalFailures, s.logger.core.results.deepChecks⟩] ∧ depthAfter 0 q = some l.length) ∧
      s'.logger.core.results.criticalFailures = s.logger.core.results.criticalFailures + (criticals q).length ∧
      s'.disk.recovery = (if a.recovery then some (ongoing m (criticals q)) else s.disk.recovery) ∧
      s'.disk.dump = (if a.dump then some (s.disk.dump.getD [] ++ linesOf (m :: begun q)) else s.disk.dump) := by
  obtain ⟨t, ht, _⟩ := check_run mode s.logger m b h
  have hsplit : checkEvents m b = (.enter m :: q) ++ (r ++ [.leave]) := by simp [checkEvents, hq]
  rw [hsplit, runT_append] at ht
  obtain ⟨t1, ht1, _⟩ := bind_eq_ok ht
  obtain ⟨d, hd⟩ := runR_ok a mode _ s t1 ht1
  obtain ⟨s1, e1, e2, e3, e4, e5⟩ := enter_run a mode s m h
  have hd' := hd
  rw [show (TEvent.enter m :: q) = [.enter m] ++ q from rfl, runR_append, e1, bind_ok] at hd'
  have hdep : ∃ j, depthAfter 0 q = some j := by
    apply depthAfter_prefix q r 0 0
    rw [← hq]
    have := depthAfter_body b 0 []
    rw [List.append_nil] at this
    rw [this]; rfl
  obtain ⟨j, hj⟩ := hdep
  obtain ⟨⟨l, w1, w2⟩, w3, w4, w5⟩ := run_within a mode _ q [] s1 ⟨t1, d⟩ j e2 hj hd'
    (by intro hr; rw [e4, if_pos hr]; exact ⟨_, rfl⟩) (by intro hr; rw [e5, if_pos hr]; exact ⟨_, rfl⟩)
  refine ⟨⟨t1, d⟩, hd, ⟨l, w2, by rw [w1]; exact hj⟩, by rw [w3, e3], ?_, ?_⟩
  · rw [w4, e4]
    cases a.recovery with
    | false => rfl
    | true => simp only [if_true, Option.map_some, ongoing_eq, List.flatMap_nil, List.append_nil]
  · rw [w5, e5]
    cases a.dump <;> simp [linesOf]

/-- When it is over. -/
theorem over_run (a : Active) (mode : Mode) (s : RState) (m : Str) (b : Body) (h : Idle s.logger) :
    ∃ s', runR a mode s (checkEvents m b) = .ok s' ∧ runT mode s.logger (checkEvents m b) = .ok s'.logger ∧ Idle s'.logger ∧
      s'.logger.lastMessage = (if mode = .falseNegative ∧ topReports m b = [] then m ++ verdict m else m) ∧
      s'.disk.recovery = (if a.recovery then some (over m (criticals b.events)) else s.disk.recovery) ∧
      s'.disk.dump = (if a.dump then some (s.disk.dump.getD [] ++ linesOf (begun (checkEvents m b)) ++ ['\n', '\n']) else s.disk.dump) := by
  obtain ⟨t, ht, hidle, _, _, _, _, hlast⟩ := check_run mode s.logger m b h
  obtain ⟨d, hd⟩ := runR_ok a mode _ s t ht
  refine ⟨⟨t, d⟩, hd, ht, hidle, hlast, ?_⟩
  obtain ⟨s1, e1, ⟨l, e2, e2'⟩, e3, e4, e5⟩ := inside_run a mode s m b b.events [] h (List.append_nil _).symm
  rw [show checkEvents m b = (.enter m :: b.events) ++ [.leave] from rfl, runR_append, e1, bind_ok] at hd
  have hl : l = [] := by
    have := depthAfter_body b 0 []
    rw [List.append_nil, e2'] at this
    simp only [depthAfter, Option.some.injEq] at this
    exact List.eq_nil_of_length_eq_zero this
  subst hl
  simp only [runR, stepR] at hd
  obtain ⟨s2, h2, h2'⟩ := bind_eq_ok hd
  obtain ⟨t2, h3, h4⟩ := bind_eq_ok h2
  cases h4
  cases h2'
  simp only [writesOf, e2, List.nil_append, e3, writes_append, checkEnded_eq, dumpEnded, writes_record]
  rw [begun_check]
  have hcount : (s.logger.core.results.criticalFailures + (criticals b.events).length ≠ s.logger.core.results.criticalFailures) ↔ criticals b.events ≠ [] := by
    rw [ne_eq, ne_eq, ← List.length_eq_zero_iff]; omega
  simp only [hcount]
  rw [over_eq]
  by_cases hcr : criticals b.events = []
  · simp only [hcr, ne_eq, not_true_eq_false, if_false, if_true, writes_record]
    rw [hcr] at e4
    cases hr : a.recovery <;> cases hdm : a.dump <;> simp [hr, hdm] at e4 e5 <;> simp [Disk.set, Disk.get, e4, e5]
  · simp only [hcr, ne_eq, not_false_eq_true, if_false, if_true, writes_nil]
    cases hr : a.recovery <;> cases hdm : a.dump <;> simp [hr, hdm] at e4 e5 <;> simp [Disk.set, Disk.get, e4, e5]

/-- Many checks. -/
theorem checks_run (a : Active) (mode : Mode) (cs : List (Str × Body)) : ∀ s : RState, Idle s.logger →
    ∃ s', runR a mode s (eventsOf cs) = .ok s' ∧ Idle s'.logger ∧
      s'.disk.dump = (if a.dump then (if cs = [] then s.disk.dump else some (s.disk.dump.getD [] ++ dumped cs)) else s.disk.dump) ∧
      (a.recovery = false → s'.disk.recovery = s.disk.recovery) := by
  induction cs with
  | nil => intro s h; exact ⟨s, rfl, h, by simp, fun _ => rfl⟩
  | cons c cs ih =>
    intro s h
    obtain ⟨s1, e1, _, e2, _, e3, e4⟩ := over_run a mode s c.1 c.2 h
    obtain ⟨s2, f1, f2, f3, f4⟩ := ih s1 e2
    refine ⟨s2, ?_, f2, ?_, ?_⟩
    · show runR a mode s (checkEvents c.1 c.2 ++ eventsOf cs) = _
      rw [runR_append, e1, bind_ok, f1]
    · rw [f3, e4]
      cases a.dump with
      | false => simp
      | true =>
        by_cases hcs : cs = []
        · simp [hcs, dumped]
        · simp [hcs, dumped]
    · intro hr
      rw [f4 hr, e3, hr]; rfl

theorem getD_dump (a : Active) (d d' : Option Str) (x : Str) (p : Prop) [Decidable p] (hp : p → x = [])
    (h : d' = if a.dump then (if p then d else some (d.getD [] ++ x)) else d) (ha : a.dump = true) : d'.getD [] = d.getD [] ++ x := by
  rw [h, ha]
  simp only [if_true]
  split
  · rename_i h'; rw [hp h', List.append_nil]
  · rfl

/-- Many tests. -/
theorem tests_run (a : Active) (ts : List (Mode × List (Str × Body))) : ∀ d : Disk,
    ∃ d', runTests a d (ts.map fun t => (t.1, eventsOf t.2)) = .ok d' ∧
      (a.dump = true → d'.dump.getD [] = d.dump.getD [] ++ dumpedTests ts) ∧ (a.dump = false → d'.dump = d.dump) ∧
      (a.recovery = false → d'.recovery = d.recovery) := by
  induction ts with
  | nil => intro d; exact ⟨d, rfl, by simp [dumpedTests], fun _ => rfl, fun _ => rfl⟩
  | cons t ts ih =>
    intro d
    obtain ⟨s1, e1, e2, e3, e4⟩ := checks_run a t.1 t.2 ⟨{}, d⟩ ⟨rfl, rfl⟩
    obtain ⟨d', f1, f2, f3, f4⟩ := ih s1.disk
    refine ⟨d', ?_, ?_, ?_, ?_⟩
    · simp only [List.map_cons, runTests, e1, bind_ok, f1]
    · intro ha
      rw [f2 ha, getD_dump a _ _ _ _ (by intro h; rw [h]; rfl) e3 ha]
      simp [dumpedTests]
    · intro ha
      rw [f3 ha, e3, ha]; rfl
    · intro ha
      rw [f4 ha, e4 ha]

/-- A text without line breaks at the end of a text is at the end of its last line. -/
theorem suffix_line (p A m : Str) (hp : '\n' ∉ p) (h : p <:+ A ++ '\n' :: m) : p <:+ m := by
  have hm : m <:+ A ++ '\n' :: m := ⟨A ++ ['\n'], by simp⟩
  by_cases hl : p.length ≤ m.length
  · exact List.suffix_of_suffix_length_le h hm hl
  · have hm' : ('\n' :: m) <:+ A ++ '\n' :: m := ⟨A, rfl⟩
    have := List.suffix_of_suffix_length_le hm' h (by simp only [List.length_cons]; omega)
    exact absurd (this.subset (List.mem_cons_self ..)) hp

theorem ended_suffix (p x : Str) (h : p ++ ['\n'] <:+ x ++ ['\n']) : p <:+ x := by
  obtain ⟨r, hr⟩ := h
  rw [← List.append_assoc] at hr
  exact ⟨r, List.append_cancel_right hr⟩

end Verif.Recovery
