import Verif.Spec.Logger
/-
C49, C50: what the logger counts, and the summaries of loggers.
-/
namespace Verif.Props
open Verif.Logger Verif.LoggerSpec

namespace Logger

/-- The effect on the results of an event within a sentinel. -/
def leaf1 (mode : Mode) (r : Results) : Event → Results
  | .enter => r
  | .leave => r
  | .check => logCheck r
  | .performanceCheck => logPerformanceCheck r
  | .failure => logFailure mode r
  | .performanceFailure => logPerformanceFailure mode r
  | .critical => logCriticalFailure mode r
  | .caught => { r with caught := r.caught ++ [r.topLevelChecks] }

/-- The effect on the results of the events within a sentinel. -/
def leafs (mode : Mode) (r : Results) (b : List Event) : Results := b.foldl (leaf1 mode) r

theorem run_body (mode : Mode) {b : List Event} (h : Balanced b) : ∀ (r : Results) (t : Sentinel) (ts : List Sentinel) (rest : List Event),
    runEvents mode ⟨r, t :: ts⟩ (b ++ rest) = runEvents mode ⟨leafs mode r b, t :: ts⟩ rest := by
  induction h with
  | nil => intros; rfl
  | @leaf e l h1 h2 _ ih =>
    intro r t ts rest
    cases e <;> first | exact absurd rfl h1 | exact absurd rfl h2 | exact ih _ _ _ _
  | @nest b l _ _ ih1 ih2 =>
    intro r t ts rest
    have e1 : runEvents mode ⟨r, t :: ts⟩ (.enter :: (b ++ .leave :: l) ++ rest) =
        runEvents mode ⟨r, ⟨r.failures, r.criticalFailures, r.deepChecks⟩ :: t :: ts⟩ (b ++ (.leave :: (l ++ rest))) := by
      simp only [List.cons_append, List.append_assoc, runEvents, step, enter, List.isEmpty_cons, Res.bind]
      rfl
    have e2 : leafs mode r (.enter :: (b ++ .leave :: l)) = leafs mode (leafs mode r b) l := by
      simp only [leafs, List.foldl_cons, List.foldl_append]
      rfl
    rw [e1, ih1, e2]
    show runEvents mode ⟨leafs mode r b, t :: ts⟩ (l ++ rest) = _
    rw [ih2]

/-- The counters after the events within a sentinel. -/
structure Counts (mode : Mode) (r r' : Results) (b : List Event) : Prop where
  failures : r'.failures = r.failures + failureCount b
  topLevelFailures : r'.topLevelFailures = r.topLevelFailures
  performanceFailures : r'.performanceFailures = r.performanceFailures + b.count .performanceFailure
  criticalFailures : r'.criticalFailures = r.criticalFailures + b.count .critical
  topLevelChecks : r'.topLevelChecks = r.topLevelChecks
  deepChecks : r'.deepChecks = r.deepChecks + b.countP fun e => e = .check ∨ e = .performanceCheck
  performanceChecks : r'.performanceChecks = r.performanceChecks + b.count .performanceCheck
  failureMessages : r'.failureMessages = r.failureMessages ++
    List.replicate (if mode = .falseNegative then b.count .critical else failureCount b + b.count .critical) r.topLevelChecks
  diagnostics : r'.diagnostics = r.diagnostics ++ List.replicate (if mode = .falseNegative then failureCount b else 0) r.topLevelChecks
  caught : r'.caught = r.caught ++ List.replicate (b.count .caught) r.topLevelChecks

theorem Counts.trans {mode : Mode} {r r' r'' : Results} {b c : List Event} (h : Counts mode r r' b) (g : Counts mode r' r'' c) : Counts mode r r'' (b ++ c) := by
  have hf : failureCount (b ++ c) = failureCount b + failureCount c := List.countP_append
  constructor
  · rw [g.failures, h.failures, hf, Nat.add_assoc]
  · rw [g.topLevelFailures, h.topLevelFailures]
  · rw [g.performanceFailures, h.performanceFailures, List.count_append, Nat.add_assoc]
  · rw [g.criticalFailures, h.criticalFailures, List.count_append, Nat.add_assoc]
  · rw [g.topLevelChecks, h.topLevelChecks]
  · rw [g.deepChecks, h.deepChecks, List.countP_append, Nat.add_assoc]
  · rw [g.performanceChecks, h.performanceChecks, List.count_append, Nat.add_assoc]
  · rw [g.failureMessages, h.failureMessages, h.topLevelChecks, List.append_assoc, List.replicate_append_replicate, hf, List.count_append]
    congr 2
    split <;> omega
  · rw [g.diagnostics, h.diagnostics, h.topLevelChecks, List.append_assoc, List.replicate_append_replicate, hf]
    congr 2
    split <;> omega
  · rw [g.caught, h.caught, h.topLevelChecks, List.append_assoc, List.replicate_append_replicate, List.count_append]

theorem leaf1_counts (mode : Mode) (r : Results) (e : Event) : Counts mode r (leaf1 mode r e) [e] := by
  cases e <;> cases mode <;> constructor <;>
    simp [leaf1, failureCount, logCheck, logPerformanceCheck, logFailure, logPerformanceFailure, logCriticalFailure, addMessage]

theorem leafs_counts (mode : Mode) (b : List Event) : ∀ r, Counts mode r (leafs mode r b) b := by
  induction b with
  | nil => intro r; constructor <;> simp [leafs, failureCount]
  | cons e b ih => exact fun r => (leaf1_counts mode r e).trans (ih _)

/-- The results after a top-level check. -/
structure BlockCounts (mode : Mode) (r r' : Results) (b : List Event) : Prop where
  failures : r'.failures = r.failures + failureCount b
  topLevelFailures : r'.topLevelFailures = r.topLevelFailures + (if Failed mode b then 1 else 0)
  performanceFailures : r'.performanceFailures = r.performanceFailures + b.count .performanceFailure
  criticalFailures : r'.criticalFailures = r.criticalFailures + b.count .critical
  topLevelChecks : r'.topLevelChecks = r.topLevelChecks + 1
  deepChecks : r'.deepChecks = r.deepChecks + b.countP fun e => e = .check ∨ e = .performanceCheck
  performanceChecks : r'.performanceChecks = r.performanceChecks + b.count .performanceCheck
  failureMessages : r'.failureMessages = r.failureMessages ++ List.replicate (failureMessageCount mode b) (r.topLevelChecks + 1)
  diagnostics : r'.diagnostics = r.diagnostics ++ List.replicate (diagnosticsCount mode b) (r.topLevelChecks + 1)
  caught : r'.caught = r.caught ++ List.replicate (b.count .caught) (r.topLevelChecks + 1)

theorem failureCount_pos {b : List Event} : 0 < failureCount b ↔ SomethingFailed b := by
  unfold failureCount
  rw [List.countP_pos_iff]
  constructor
  · rintro ⟨e, he, h⟩
    rcases of_decide_eq_true h with rfl | rfl
    · exact .inl he
    · exact .inr he
  · rintro (h | h)
    · exact ⟨_, h, by decide⟩
    · exact ⟨_, h, by decide⟩

theorem conclude_counts (mode : Mode) (r r1 r2 : Results) (b : List Event) (h1 : r1 = { r with topLevelChecks := r.topLevelChecks + 1 })
    (h2 : Counts mode r1 r2 b) :
    ∃ r', conclude mode ⟨r.failures, r.criticalFailures, r.deepChecks⟩ r2 = .ok r' ∧ BlockCounts mode r r' b := by
  subst h1
  have hc : r2.criticalFailures ≠ r.criticalFailures ↔ Critical b := by
    rw [h2.criticalFailures]
    show r.criticalFailures + _ ≠ r.criticalFailures ↔ _
    have := List.count_pos_iff (a := Event.critical) (l := b)
    unfold Critical
    rw [← this]
    omega
  have hf : r2.failures ≠ r.failures ↔ SomethingFailed b := by
    rw [h2.failures, ← failureCount_pos]
    show r.failures + _ ≠ r.failures ↔ _
    omega
  unfold conclude
  by_cases hb : Critical b
  · rw [if_pos (hc.mpr hb)]
    have hnf : ¬ Failed mode b := fun h => h.1 hb
    have hcp : 0 < b.count .critical := List.count_pos_iff.mpr hb
    have hmsg : r2.failureMessages.isEmpty = false := by
      rw [h2.failureMessages, List.isEmpty_eq_false_iff]
      intro h
      have := congrArg List.length h
      simp only [List.length_append, List.length_replicate, List.length_nil] at this
      split at this <;> omega
    refine ⟨r2, by simp [endMessage, hmsg, Res.bind], h2.failures, ?_, h2.performanceFailures, h2.criticalFailures, h2.topLevelChecks, h2.deepChecks,
      h2.performanceChecks, ?_, ?_, h2.caught⟩
    · rw [if_neg hnf]; exact h2.topLevelFailures
    · rw [h2.failureMessages]
      simp only [failureMessageCount, if_neg hnf, Nat.add_zero]
    · rw [h2.diagnostics]
      cases mode <;> simp [diagnosticsCount, hb]
  · rw [if_neg (fun h => hb (hc.mp h))]
    have hc0 : b.count .critical = 0 := List.count_eq_zero.mpr hb
    by_cases hs : SomethingFailed b
    · have hfp := failureCount_pos.mpr hs
      have hend : endMessage mode false r2 = .ok () := by
        cases mode
        case falseNegative =>
          have : r2.diagnostics.isEmpty = false := by
            rw [h2.diagnostics, List.isEmpty_eq_false_iff]
            intro h
            have := congrArg List.length h
            simp only [List.length_append, List.length_replicate, List.length_nil, if_true] at this
            omega
          simp [endMessage, this]
        all_goals
          have : r2.failureMessages.isEmpty = false := by
            rw [h2.failureMessages, List.isEmpty_eq_false_iff]
            intro h
            have := congrArg List.length h
            simp only [List.length_append, List.length_replicate, List.length_nil, reduceCtorEq, if_false] at this
            omega
          simp [endMessage, this]
      simp only [if_pos (hf.mpr hs), hend, Res.bind]
      cases mode
      case falseNegative =>
        have hnf : ¬ Failed .falseNegative b := fun h => h.2 hs
        rw [if_neg (by simp [hf.mpr hs]), if_neg (by decide)]
        exact ⟨r2, rfl, h2.failures, by rw [if_neg hnf]; exact h2.topLevelFailures, h2.performanceFailures, h2.criticalFailures, h2.topLevelChecks, h2.deepChecks,
          h2.performanceChecks, by rw [h2.failureMessages]; simp [failureMessageCount, hnf], by rw [h2.diagnostics]; simp [diagnosticsCount], h2.caught⟩
      case standard =>
        have hnf : Failed .standard b := ⟨hb, hs⟩
        rw [if_pos (by simp [hf.mpr hs])]
        exact ⟨_, rfl, h2.failures, by rw [if_pos hnf]; simp [logTopLevelFailure, h2.topLevelFailures], h2.performanceFailures, h2.criticalFailures, h2.topLevelChecks,
          h2.deepChecks, h2.performanceChecks, by simp [logTopLevelFailure, h2.failureMessages, failureMessageCount],
          by simp [logTopLevelFailure, h2.diagnostics, diagnosticsCount], h2.caught⟩
      case falsePositive =>
        have hnf : Failed .falsePositive b := ⟨hb, hs⟩
        rw [if_pos (by simp [hf.mpr hs])]
        exact ⟨_, rfl, h2.failures, by rw [if_pos hnf]; simp [logTopLevelFailure, h2.topLevelFailures], h2.performanceFailures, h2.criticalFailures, h2.topLevelChecks,
          h2.deepChecks, h2.performanceChecks, by simp [logTopLevelFailure, h2.failureMessages, failureMessageCount],
          by simp [logTopLevelFailure, h2.diagnostics, diagnosticsCount, hnf], h2.caught⟩
    · have hf0 : failureCount b = 0 := by
        have := mt failureCount_pos.mp hs
        omega
      have hff : ¬ r2.failures ≠ r.failures := fun h => hs (hf.mp h)
      simp only [if_neg hff, Res.bind]
      cases mode
      case falseNegative =>
        have hnf : Failed .falseNegative b := ⟨hb, hs⟩
        rw [if_pos (by simpa using hff)]
        refine ⟨_, rfl, h2.failures, by rw [if_pos hnf]; simp [logTopLevelFailure, h2.topLevelFailures], h2.performanceFailures, h2.criticalFailures, h2.topLevelChecks,
          h2.deepChecks, h2.performanceChecks, ?_, by simp [logTopLevelFailure, h2.diagnostics, diagnosticsCount], h2.caught⟩
        simp [logTopLevelFailure, h2.failureMessages, failureMessageCount, hnf, hc0, h2.topLevelChecks]
      case standard =>
        have hnf : ¬ Failed .standard b := fun h => hs h.2
        rw [if_neg (by simpa using hff), if_neg (by decide)]
        exact ⟨r2, rfl, h2.failures, by rw [if_neg hnf]; exact h2.topLevelFailures, h2.performanceFailures, h2.criticalFailures, h2.topLevelChecks, h2.deepChecks,
          h2.performanceChecks, by rw [h2.failureMessages]; simp [failureMessageCount], by rw [h2.diagnostics]; simp [diagnosticsCount], h2.caught⟩
      case falsePositive =>
        have hnf : ¬ Failed .falsePositive b := fun h => hs h.2
        rw [if_neg (by simpa using hff), if_pos rfl]
        exact ⟨_, rfl, h2.failures, by rw [if_neg hnf]; exact h2.topLevelFailures, h2.performanceFailures, h2.criticalFailures, h2.topLevelChecks, h2.deepChecks,
          h2.performanceChecks, by simp [h2.failureMessages, failureMessageCount], by simp [h2.diagnostics, diagnosticsCount, hnf, hb, h2.topLevelChecks], h2.caught⟩

theorem run_block (mode : Mode) (r : Results) {b : List Event} (hb : Balanced b) (rest : List Event) :
    ∃ r', runEvents mode ⟨r, []⟩ ((.enter :: (b ++ [.leave])) ++ rest) = runEvents mode ⟨r', []⟩ rest ∧ BlockCounts mode r r' b := by
  obtain ⟨r', h, hc⟩ := conclude_counts mode r _ _ b rfl (leafs_counts mode b { r with topLevelChecks := r.topLevelChecks + 1 })
  refine ⟨r', ?_, hc⟩
  have e1 : runEvents mode ⟨r, []⟩ ((.enter :: (b ++ [.leave])) ++ rest) =
      runEvents mode ⟨{ r with topLevelChecks := r.topLevelChecks + 1 }, [⟨r.failures, r.criticalFailures, r.deepChecks⟩]⟩ (b ++ (.leave :: rest)) := by
    simp only [List.cons_append, List.append_assoc, runEvents, step, enter, List.isEmpty_nil, Res.bind]
    rfl
  rw [e1, run_body mode hb]
  show ((conclude mode _ _).bind fun r => Res.ok (State.mk r [])).bind _ = _
  rw [h]
  rfl

/-- The results after several top-level checks. -/
structure AllCounts (mode : Mode) (r r' : Results) (checks : List (List Event)) : Prop where
  failures : r'.failures = r.failures + (checks.map failureCount).sum
  topLevelFailures : r'.topLevelFailures = r.topLevelFailures + checks.countP (Failed mode)
  performanceFailures : r'.performanceFailures = r.performanceFailures + (checks.map (List.count .performanceFailure)).sum
  criticalFailures : r'.criticalFailures = r.criticalFailures + (checks.map (List.count .critical)).sum
  topLevelChecks : r'.topLevelChecks = r.topLevelChecks + checks.length
  deepChecks : r'.deepChecks = r.deepChecks + (checks.map (List.countP fun e => e = .check ∨ e = .performanceCheck)).sum
  performanceChecks : r'.performanceChecks = r.performanceChecks + (checks.map (List.count .performanceCheck)).sum
  failureMessages : r'.failureMessages = r.failureMessages ++
    (checks.zipIdx (r.topLevelChecks + 1)).flatMap fun p => List.replicate (failureMessageCount mode p.1) p.2
  diagnostics : r'.diagnostics = r.diagnostics ++ (checks.zipIdx (r.topLevelChecks + 1)).flatMap fun p => List.replicate (diagnosticsCount mode p.1) p.2
  caught : r'.caught = r.caught ++ (checks.zipIdx (r.topLevelChecks + 1)).flatMap fun p => List.replicate (p.1.count .caught) p.2

theorem run_history (mode : Mode) : ∀ (checks : List (List Event)) (r : Results), (∀ b ∈ checks, Balanced b) →
    ∃ r', runEvents mode ⟨r, []⟩ (history checks) = .ok ⟨r', []⟩ ∧ AllCounts mode r r' checks := by
  intro checks
  induction checks with
  | nil => intro r _; exact ⟨r, rfl, by constructor <;> simp⟩
  | cons b checks ih =>
    intro r hb
    obtain ⟨r1, h1, c1⟩ := run_block mode r (hb b (by simp)) (history checks)
    obtain ⟨r', h2, c2⟩ := ih r1 (fun b' h' => hb b' (by simp [h']))
    refine ⟨r', ?_, ?_⟩
    · show runEvents mode ⟨r, []⟩ (List.flatMap _ (b :: checks)) = _
      rw [List.flatMap_cons]
      exact h1.trans h2
    · constructor
      · rw [c2.failures, c1.failures, List.map_cons, List.sum_cons, Nat.add_assoc]
      · rw [c2.topLevelFailures, c1.topLevelFailures, List.countP_cons]
        by_cases h : Failed mode b <;> simp [h] <;> omega
      · rw [c2.performanceFailures, c1.performanceFailures, List.map_cons, List.sum_cons, Nat.add_assoc]
      · rw [c2.criticalFailures, c1.criticalFailures, List.map_cons, List.sum_cons, Nat.add_assoc]
      · rw [c2.topLevelChecks, c1.topLevelChecks, List.length_cons]; omega
      · rw [c2.deepChecks, c1.deepChecks, List.map_cons, List.sum_cons, Nat.add_assoc]
      · rw [c2.performanceChecks, c1.performanceChecks, List.map_cons, List.sum_cons, Nat.add_assoc]
      · rw [c2.failureMessages, c1.failureMessages, c1.topLevelChecks, List.zipIdx_cons, List.flatMap_cons, List.append_assoc]
      · rw [c2.diagnostics, c1.diagnostics, c1.topLevelChecks, List.zipIdx_cons, List.flatMap_cons, List.append_assoc]
      · rw [c2.caught, c1.caught, c1.topLevelChecks, List.zipIdx_cons, List.flatMap_cons, List.append_assoc]

end Logger

/-- C49: after any sequence of top-level checks, with further checks nested within them in any way, nothing was undefined; each top-level check was counted once, those
count as failures within which something failed (for false-negative checks: within which nothing failed) unless the failure was critical; the other counters count every
check and every failure; and every message in the output is attributed to the top-level check in which it arose, in the right number. -/
theorem C49_accounting (mode : Mode) (checks : List (List Event)) (hb : ∀ b ∈ checks, Balanced b) :
    ∃ r, runEvents mode {} (history checks) = .ok ⟨r, []⟩ ∧
      r.topLevelChecks = checks.length ∧
      r.topLevelFailures = checks.countP (Failed mode) ∧
      r.criticalFailures = checks.flatten.count .critical ∧
      r.failures = checks.flatten.countP (fun e => e = .failure ∨ e = .performanceFailure) ∧
      r.deepChecks = checks.flatten.countP (fun e => e = .check ∨ e = .performanceCheck) ∧
      r.performanceChecks = checks.flatten.count .performanceCheck ∧
      r.performanceFailures = checks.flatten.count .performanceFailure ∧
      r.failureMessages = attributed (failureMessageCount mode) checks ∧
      r.diagnostics = attributed (diagnosticsCount mode) checks ∧
      r.caught = attributed (List.count .caught) checks := by
  obtain ⟨r, h, c⟩ := Logger.run_history mode checks {} hb
  refine ⟨r, h, ?_, ?_, ?_, ?_, ?_, ?_, ?_, ?_, ?_, ?_⟩
  · simpa using c.topLevelChecks
  · simpa using c.topLevelFailures
  · rw [c.criticalFailures, List.count_flatten]; simp
  · rw [c.failures, List.countP_flatten]; exact Nat.zero_add _
  · rw [c.deepChecks, List.countP_flatten]; simp
  · rw [c.performanceChecks, List.count_flatten]; simp
  · rw [c.performanceFailures, List.count_flatten]; simp
  · exact c.failureMessages
  · exact c.diagnostics
  · exact c.caught

/-- C49: at every moment of every history, even one in which sentinels are still alive, there are at least as many top-level checks as top-level failures. -/
theorem C49_bounded (mode : Mode) (events : List Event) (s : State) (h : runEvents mode {} events = .ok s) : s.results.topLevelFailures ≤ s.results.topLevelChecks := by
  have key : ∀ (events : List Event) (s s' : State), s.results.topLevelFailures + (if s.sentinels = [] then 0 else 1) ≤ s.results.topLevelChecks →
      runEvents mode s events = .ok s' → s'.results.topLevelFailures + (if s'.sentinels = [] then 0 else 1) ≤ s'.results.topLevelChecks := by
    intro events
    induction events with
    | nil => intro s s' hs h; cases h; exact hs
    | cons e es ih =>
      intro s s' hs h
      simp only [runEvents] at h
      cases hstep : step mode s e with
      | throws => rw [hstep] at h; simp [Res.bind] at h
      | ub => rw [hstep] at h; simp [Res.bind] at h
      | ok s1 =>
        rw [hstep] at h
        refine ih s1 s' ?_ h
        cases e
        case enter =>
          simp only [step, Res.ok.injEq] at hstep
          subst hstep
          cases hs' : s.sentinels with
          | nil => simp [enter, hs'] at hs ⊢; omega
          | cons t ts => simp [enter, hs'] at hs ⊢; omega
        case leave =>
          simp only [step, leave] at hstep
          split at hstep
          · simp at hstep
          · rename_i t ht
            rw [ht] at hs
            simp only [List.cons_ne_self, if_false] at hs
            cases hc : conclude mode t s.results with
            | throws => rw [hc] at hstep; simp [Res.bind] at hstep
            | ub => rw [hc] at hstep; simp [Res.bind] at hstep
            | ok r =>
              rw [hc] at hstep
              simp only [Res.bind, Res.ok.injEq] at hstep
              subst hstep
              have hr : r = s.results ∨ r = logTopLevelFailure mode s.results ∨ r = { s.results with diagnostics := s.results.diagnostics ++ [s.results.topLevelChecks] } := by
                simp only [conclude, endMessage] at hc
                repeat' split at hc
                all_goals simp [Res.bind] at hc
                all_goals simp [hc]
              simp only [if_true]
              rcases hr with rfl | rfl | rfl
              · omega
              · simp only [logTopLevelFailure]
                split <;> simp <;> omega
              · simp; omega
          · rename_i t ts hne ht
            simp only [Res.ok.injEq] at hstep
            subst hstep
            simp only [ht, reduceCtorEq, if_false] at hs
            simp only
            split <;> omega
        all_goals
          simp only [step, Res.ok.injEq] at hstep
          subst hstep
          cases mode <;> simpa [logCheck, logPerformanceCheck, logFailure, logPerformanceFailure, logCriticalFailure, addMessage] using hs
  have := key events {} s (by simp) h
  omega

/-- Checks with nested failures, a critical failure and none, in the three modes. -/
example :
    let checks : List (List Event) := [[.check, .enter, .check, .failure, .leave], [.check], [.check, .failure, .critical], [.performanceCheck, .performanceFailure]]
    (∀ b ∈ checks, Balanced b) ∧
      (runEvents .standard {} (history checks)).bind (fun s => .ok (s.results.topLevelFailures, s.results.failureMessages)) = .ok (2, [1, 3, 3, 4]) ∧
      (runEvents .falseNegative {} (history checks)).bind (fun s => .ok (s.results.topLevelFailures, s.results.failureMessages)) = .ok (1, [2, 3]) := by
  refine ⟨?_, by decide +kernel, by decide +kernel⟩
  intro b hb
  simp only [List.mem_cons, List.not_mem_nil, or_false] at hb
  rcases hb with rfl | rfl | rfl | rfl
  · exact .leaf (by decide) (by decide) (.nest (b := [.check, .failure]) (.leaf (by decide) (by decide) (.leaf (by decide) (by decide) .nil)) .nil)
  · exact .leaf (by decide) (by decide) .nil
  · exact .leaf (by decide) (by decide) (.leaf (by decide) (by decide) (.leaf (by decide) (by decide) .nil))
  · exact .leaf (by decide) (by decide) (.leaf (by decide) (by decide) .nil)

/-- C50: combining summaries is associative, and the empty summary on the right changes nothing. -/
theorem C50_associative (s t u : Summary) : (s.add t).add u = s.add (t.add u) ∧ s.add {} = s := by
  refine ⟨?_, by simp [Summary.add]⟩
  simp only [Summary.add, List.append_assoc, Nat.add_assoc, Int.add_assoc]

/-- All the counters of a summary. -/
def counters : List (Summary → Nat) :=
  [Summary.standardTopLevelChecks, Summary.standardDeepChecks, Summary.standardPerformanceChecks, Summary.falsePositiveChecks, Summary.falseNegativeChecks,
    Summary.falsePositivePerformanceChecks, Summary.falseNegativePerformanceChecks, Summary.standardTopLevelFailures, Summary.standardDeepFailures,
    Summary.standardPerformanceFailures, Summary.falsePositiveFailures, Summary.falseNegativeFailures, Summary.falsePositivePerformanceFailures,
    Summary.falseNegativePerformanceFailures, Summary.criticalFailures, Summary.exceptionsInFlight, Summary.softFailures]

/-- C50: in the combination of a list of summaries with an empty one, each counter is the sum of those of the summaries, and so is the duration; the reports of failures
and the diagnostics are put one after the other. -/
theorem C50_sums (l : List Summary) :
    (∀ f ∈ counters, f (l.foldl Summary.add {}) = (l.map f).sum) ∧
      (l.foldl Summary.add {}).duration = (l.map Summary.duration).sum ∧
      (l.foldl Summary.add {}).failureMessages = l.flatMap Summary.failureMessages ∧
      (l.foldl Summary.add {}).diagnostics = l.flatMap Summary.diagnostics := by
  have hadd : ∀ f ∈ counters, f {} = 0 ∧ ∀ s t : Summary, f (s.add t) = f s + f t := by
    intro f hf
    simp only [counters, List.mem_cons, List.not_mem_nil, or_false] at hf
    rcases hf with rfl | rfl | rfl | rfl | rfl | rfl | rfl | rfl | rfl | rfl | rfl | rfl | rfl | rfl | rfl | rfl | rfl <;>
      first
        | exact ⟨rfl, fun _ _ => rfl⟩
        | exact ⟨rfl, fun s t => by simp only [Summary.softFailures, Summary.add]; omega⟩
  have key : ∀ (l : List Summary) (s : Summary),
      (∀ f ∈ counters, f (l.foldl Summary.add s) = f s + (l.map f).sum) ∧
      (l.foldl Summary.add s).duration = s.duration + (l.map Summary.duration).sum ∧
      (l.foldl Summary.add s).failureMessages = s.failureMessages ++ l.flatMap Summary.failureMessages ∧
      (l.foldl Summary.add s).diagnostics = s.diagnostics ++ l.flatMap Summary.diagnostics := by
    intro l
    induction l with
    | nil => intro s; simp
    | cons t l ih =>
      intro s
      obtain ⟨h1, h2, h3, h4⟩ := ih (s.add t)
      refine ⟨fun f hf => ?_, ?_, ?_, ?_⟩
      · rw [List.foldl_cons, h1 f hf, (hadd f hf).2, List.map_cons, List.sum_cons, Nat.add_assoc]
      · rw [List.foldl_cons, h2, List.map_cons, List.sum_cons, ← Int.add_assoc]; rfl
      · rw [List.foldl_cons, h3, List.flatMap_cons, ← List.append_assoc]; rfl
      · rw [List.foldl_cons, h4, List.flatMap_cons, ← List.append_assoc]; rfl
  obtain ⟨h1, h2, h3, h4⟩ := key l {}
  refine ⟨fun f hf => ?_, ?_, h3, h4⟩
  · rw [h1 f hf, (hadd f hf).1, Nat.zero_add]
  · rw [h2]; exact Int.zero_add _

/-- C50: the empty summary on the left is neutral, except that the name and the messages of caught exceptions are lost. -/
theorem C50_left_neutral_partial (s : Summary) : Summary.add {} s = { s with name := "", caught := [] } := by
  simp [Summary.add]

/-- C50, violation: combining summaries loses the messages of caught exceptions of all but the first. -/
theorem C50_caught_violated (l : List Summary) (s : Summary) : (l.foldl Summary.add s).caught = s.caught := by
  induction l generalizing s with
  | nil => rfl
  | cons t l ih => rw [List.foldl_cons, ih]; rfl

namespace Logger

theorem perf_or_ordinary {mode : Mode} {b : List Event} (h : PerformanceCheck b ∨ OrdinaryCheck b) :
    b.count .performanceCheck = (if PerformanceCheck b then 1 else 0) ∧
    (if OrdinaryCheck b then 1 else 0) + (if PerformanceCheck b then 1 else 0) = 1 ∧
    (if OrdinaryCheck b ∧ Failed mode b then 1 else 0) + (if PerformanceCheck b ∧ Failed mode b then 1 else 0) = (if Failed mode b then 1 else 0) ∧
    (if mode = .falseNegative then b.count .performanceCheck = b.count .performanceFailure + (if PerformanceCheck b ∧ Failed mode b then 1 else 0)
     else b.count .performanceFailure = (if PerformanceCheck b ∧ Failed mode b then 1 else 0)) := by
  by_cases hp : PerformanceCheck b
  · have ho : ¬ OrdinaryCheck b := fun ho => by
      have := List.count_eq_zero.mpr ho.1
      have := hp.1
      omega
    have h1 := hp.1
    have h2 := hp.2.1
    have hpos := List.count_pos_iff (a := Event.performanceFailure) (l := b)
    have hs : SomethingFailed b ↔ 0 < b.count .performanceFailure := by
      rw [hpos]
      exact ⟨fun h => h.resolve_left hp.2.2.1, .inr⟩
    refine ⟨by simp [hp, h1], by simp [hp, ho], by simp [hp, ho], ?_⟩
    by_cases hc : 0 < b.count .performanceFailure
    · have hf : Failed mode b ↔ mode ≠ .falseNegative := by
        simp only [Failed, Critical, hp.2.2.2, not_false_eq_true, true_and, hs, hc, not_true_eq_false, ne_eq]
        split <;> simp [*]
      by_cases hm : mode = .falseNegative
      · rw [if_pos hm, if_neg (fun h => (hf.mp h.2) hm)]; omega
      · rw [if_neg hm, if_pos ⟨hp, hf.mpr hm⟩]; omega
    · have hf : Failed mode b ↔ mode = .falseNegative := by
        simp only [Failed, Critical, hp.2.2.2, not_false_eq_true, true_and, hs, hc]
        split <;> simp [*]
      by_cases hm : mode = .falseNegative
      · rw [if_pos hm, if_pos ⟨hp, hf.mpr hm⟩]; omega
      · rw [if_neg hm, if_neg (fun h => hm (hf.mp h.2))]; omega
  · have ho := h.resolve_left hp
    have h1 := List.count_eq_zero.mpr ho.1
    have h2 := List.count_eq_zero.mpr ho.2
    refine ⟨by simp [hp, h1], by simp [hp, ho], by simp [hp, ho], ?_⟩
    simp [hp, h1, h2]

theorem countP_flatten_sum (p : Event → Bool) (checks : List (List Event)) : checks.flatten.countP p = (checks.map (List.countP p)).sum := List.countP_flatten

theorem totals {mode : Mode} {checks : List (List Event)} (h : ∀ b ∈ checks, PerformanceCheck b ∨ OrdinaryCheck b) :
    checks.flatten.count .performanceCheck = checks.countP (fun b => PerformanceCheck b) ∧
    checks.countP (fun b => OrdinaryCheck b) + checks.countP (fun b => PerformanceCheck b) = checks.length ∧
    checks.countP (fun b => OrdinaryCheck b ∧ Failed mode b) + checks.countP (fun b => PerformanceCheck b ∧ Failed mode b) = checks.countP (Failed mode) ∧
    (if mode = .falseNegative then checks.flatten.count .performanceCheck =
      checks.flatten.count .performanceFailure + checks.countP (fun b => PerformanceCheck b ∧ Failed mode b)
     else checks.flatten.count .performanceFailure = checks.countP (fun b => PerformanceCheck b ∧ Failed mode b)) := by
  induction checks with
  | nil => simp
  | cons b checks ih =>
    obtain ⟨i1, i2, i3, i4⟩ := ih (fun b' hb' => h b' (by simp [hb']))
    obtain ⟨j1, j2, j3, j4⟩ := perf_or_ordinary (mode := mode) (h b (by simp))
    simp only [List.flatten_cons, List.count_append, List.countP_cons, List.length_cons, decide_eq_true_eq]
    refine ⟨by omega, by omega, by omega, ?_⟩
    by_cases hm : mode = .falseNegative
    · rw [if_pos hm] at i4 j4 ⊢; omega
    · rw [if_neg hm] at i4 j4 ⊢; omega

theorem wsub_eq {a b c : Nat} (h : c + b = a) : wsub a b = c := by
  unfold wsub
  rw [if_pos (by omega)]
  omega

end Logger

/-- What the summary of a logger should contain: the counters of one mode. -/
structure Expected (s : Summary) (mode : Mode) (checks : List (List Event)) : Prop where
  standard : mode = .standard →
    s.standardTopLevelChecks = checks.countP (fun b => OrdinaryCheck b) ∧
    s.standardPerformanceChecks = checks.countP (fun b => PerformanceCheck b) ∧
    s.standardTopLevelFailures = checks.countP (fun b => OrdinaryCheck b ∧ Failed mode b) ∧
    s.standardPerformanceFailures = checks.countP (fun b => PerformanceCheck b ∧ Failed mode b) ∧
    s.standardDeepChecks = checks.flatten.count .check ∧
    s.standardDeepFailures = checks.flatten.count .failure
  falsePositive : mode = .falsePositive →
    s.falsePositiveChecks = checks.countP (fun b => OrdinaryCheck b) ∧
    s.falsePositivePerformanceChecks = checks.countP (fun b => PerformanceCheck b) ∧
    s.falsePositiveFailures = checks.countP (fun b => OrdinaryCheck b ∧ Failed mode b) ∧
    s.falsePositivePerformanceFailures = checks.countP (fun b => PerformanceCheck b ∧ Failed mode b)
  falseNegative : mode = .falseNegative →
    s.falseNegativeChecks = checks.countP (fun b => OrdinaryCheck b) ∧
    s.falseNegativePerformanceChecks = checks.countP (fun b => PerformanceCheck b) ∧
    s.falseNegativeFailures = checks.countP (fun b => OrdinaryCheck b ∧ Failed mode b) ∧
    s.falseNegativePerformanceFailures = checks.countP (fun b => PerformanceCheck b ∧ Failed mode b)
  soft : s.softFailures = checks.countP (Failed mode)
  critical : s.criticalFailures = checks.flatten.count .critical

/-- C50: if every top-level check is either a single check of performance or unrelated to performance, no counter of the summary of a logger wraps around: each is the
number of top-level checks, or failures of these, of the respective kind.

Partial: checks of performance nested in one top-level check are excluded, see below. -/
theorem C50_no_wrap_partial (name : String) (mode : Mode) (delta : Int) (checks : List (List Event)) (hb : ∀ b ∈ checks, Balanced b)
    (hk : ∀ b ∈ checks, PerformanceCheck b ∨ OrdinaryCheck b) (s : State) (h : runEvents mode {} (history checks) = .ok s) :
    Expected (summarize name mode delta s.results) mode checks := by
  obtain ⟨r, hr, c1, c2, c3, c4, c5, c6, c7, _⟩ := C49_accounting mode checks hb
  rw [hr] at h
  cases h
  obtain ⟨t1, t2, t3, t4⟩ := Logger.totals (mode := mode) hk
  have hdeep : checks.flatten.countP (fun e => e = .check ∨ e = .performanceCheck) = checks.flatten.count .check + checks.flatten.count .performanceCheck := by
    generalize checks.flatten = l
    induction l with
    | nil => rfl
    | cons e l ih => rw [List.countP_cons, List.count_cons, List.count_cons, ih]; cases e <;> simp <;> omega
  have hfail : checks.flatten.countP (fun e => e = .failure ∨ e = .performanceFailure) = checks.flatten.count .failure + checks.flatten.count .performanceFailure := by
    generalize checks.flatten = l
    induction l with
    | nil => rfl
    | cons e l ih => rw [List.countP_cons, List.count_cons, List.count_cons, ih]; cases e <;> simp <;> omega
  have w1 : wsub r.topLevelChecks r.performanceChecks = checks.countP (fun b => OrdinaryCheck b) := Logger.wsub_eq (by rw [c1, c6, t1, t2])
  have w2 : wsub r.deepChecks r.performanceChecks = checks.flatten.count .check := Logger.wsub_eq (by rw [c5, c6, hdeep])
  have w3 : wsub r.failures r.performanceFailures = checks.flatten.count .failure := Logger.wsub_eq (by rw [c4, c7, hfail])
  by_cases hm : mode = .falseNegative
  · subst hm
    rw [if_pos rfl] at t4
    have w4 : wsub r.performanceChecks r.performanceFailures = checks.countP (fun b => PerformanceCheck b ∧ Failed .falseNegative b) :=
      Logger.wsub_eq (by rw [c6, c7, t4, Nat.add_comm])
    have w5 : wsub r.topLevelFailures (checks.countP (fun b => PerformanceCheck b ∧ Failed .falseNegative b)) =
        checks.countP (fun b => OrdinaryCheck b ∧ Failed .falseNegative b) := Logger.wsub_eq (by rw [c2, t3])
    refine ⟨by simp, by simp, fun _ => ⟨w1, by rw [← t1, ← c6]; rfl, ?_, w4⟩, ?_, c3⟩
    · simp only [summarize]; rw [w4, w5]
    · simp only [summarize, Summary.softFailures]; rw [w4, w5, ← t3]; omega
  · rw [if_neg hm] at t4
    have w5 : wsub r.topLevelFailures r.performanceFailures = checks.countP (fun b => OrdinaryCheck b ∧ Failed mode b) := Logger.wsub_eq (by rw [c2, c7, t4, t3])
    cases mode
    case falseNegative => exact absurd rfl hm
    case standard =>
      refine ⟨fun _ => ⟨w1, by rw [← t1, ← c6]; rfl, w5, by rw [← t4, ← c7]; rfl, w2, w3⟩, by simp, by simp, ?_, c3⟩
      simp only [summarize, Summary.softFailures]; rw [w5, c7, t4, ← t3]; omega
    case falsePositive =>
      refine ⟨by simp, fun _ => ⟨w1, by rw [← t1, ← c6]; rfl, w5, by rw [← t4, ← c7]; rfl⟩, by simp, ?_, c3⟩
      simp only [summarize, Summary.softFailures]; rw [w5, c7, t4, ← t3]; omega

/-- The hypotheses are met by a failing check of performance and a failing nested check. -/
example :
    let checks : List (List Event) := [[.performanceCheck, .performanceFailure], [.check, .enter, .check, .failure, .leave]]
    (∀ b ∈ checks, PerformanceCheck b ∨ OrdinaryCheck b) ∧
      (runEvents .standard {} (history checks)).bind (fun s => let m := summarize "" .standard 0 s.results
        .ok (m.standardTopLevelFailures, m.standardPerformanceFailures, m.standardDeepChecks, m.standardTopLevelChecks)) = .ok (1, 1, 2, 1) := by decide +kernel

/-- C50, violation: if two checks of performance are nested in one top-level check, the number of top-level checks wraps around; if both fail, so does the number of
failures. -/
theorem C50_nested_performance_violated :
    let checks : List (List Event) := [[.enter, .performanceCheck, .performanceFailure, .leave, .enter, .performanceCheck, .performanceFailure, .leave]]
    (∀ b ∈ checks, Balanced b) ∧
      (runEvents .standard {} (history checks)).bind (fun s => let m := summarize "" .standard 0 s.results
        .ok (m.standardTopLevelChecks, m.standardTopLevelFailures)) = .ok (2 ^ 64 - 1, 2 ^ 64 - 1) := by
  refine ⟨?_, by decide +kernel⟩
  intro b hb
  simp only [List.mem_cons, List.not_mem_nil, or_false] at hb
  subst hb
  have h : Balanced [.performanceCheck, .performanceFailure] := .leaf (by decide) (by decide) (.leaf (by decide) (by decide) .nil)
  exact .nest h (.nest h .nil)

end Verif.Props
