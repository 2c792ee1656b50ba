import Verif.Lemmas.LoggerText
/-
C92: the texts of the messages of a logger.
-/
namespace Verif.Props
open Verif.Text Verif.Logger Verif.LoggerText Verif.Spec.LoggerText

/-- **C92** Whatever happens within a check with description `m`, in every mode: the logger does not throw and nothing is undefined; the
messages which were there stay as they are; the reports of the failures, each at its indentation and with the descriptions of the checks
around it above the first of their reports, are added to the right channel, and the last one is closed; so is one message for each
exception.  Everything is attributed to this check. -/
theorem C92_report (mode : Mode) (s : TState) (m : Str) (b : Body) (h : Idle s) :
    ∃ s', runT mode s (checkEvents m b) = .ok s' ∧ Idle s' ∧ s'.core.results.topLevelChecks = s.core.results.topLevelChecks + 1 ∧
      s'.failureMessages = s.failureMessages ++
        (newMessages mode m (reports 0 (.nested m b .done))).map (Info.mk (s.core.results.topLevelChecks + 1)) ∧
      s'.diagnostics = s.diagnostics ++
        (newDiagnostics mode m (reports 0 (.nested m b .done))).map (Info.mk (s.core.results.topLevelChecks + 1)) ∧
      s'.caught = s.caught ++
        ((exceptions b).map fun x => endBlock (m ++ ['\n'] ++ x) 2 footer).map (Info.mk (s.core.results.topLevelChecks + 1)) ∧
      s'.lastMessage = (if mode = .falseNegative ∧ reports 0 (.nested m b .done) = [] then m ++ verdict m else m) :=
  check_run mode s m b h

/-- a check in which two things fail, one of them in a check nested within -/
example : Idle {} ∧ reports 0 (.nested "a".toList (.nested "b".toList (.item (.failure "x\ny".toList) .done) (.item (.failure "z".toList) .done)) .done) =
    [(false, "a\n  b\n  x\n  y".toList), (false, "z".toList)] := ⟨⟨rfl, rfl⟩, by decide⟩

/-- **C92** The same over the whole history of a logger, check by check. -/
theorem C92_history (mode : Mode) (cs : List (Str × Body)) :
    ∃ s', runT mode {} (cs.flatMap fun c => checkEvents c.1 c.2) = .ok s' ∧ Idle s' ∧ s'.core.results.topLevelChecks = cs.length ∧
      s'.failureMessages = (cs.zipIdx 1).flatMap (fun p => (newMessages mode p.1.1 (reports 0 (.nested p.1.1 p.1.2 .done))).map (Info.mk p.2)) ∧
      s'.diagnostics = (cs.zipIdx 1).flatMap (fun p => (newDiagnostics mode p.1.1 (reports 0 (.nested p.1.1 p.1.2 .done))).map (Info.mk p.2)) ∧
      s'.caught = (cs.zipIdx 1).flatMap
        (fun p => (exceptions p.1.2).map fun x => Info.mk p.2 (endBlock (p.1.1 ++ ['\n'] ++ x) 2 footer)) := by
  suffices key : ∀ (s : TState), Idle s → ∃ s', runT mode s (cs.flatMap fun c => checkEvents c.1 c.2) = .ok s' ∧ Idle s' ∧
      s'.core.results.topLevelChecks = s.core.results.topLevelChecks + cs.length ∧
      s'.failureMessages = s.failureMessages ++ (cs.zipIdx (s.core.results.topLevelChecks + 1)).flatMap
        (fun p => (newMessages mode p.1.1 (reports 0 (.nested p.1.1 p.1.2 .done))).map (Info.mk p.2)) ∧
      s'.diagnostics = s.diagnostics ++ (cs.zipIdx (s.core.results.topLevelChecks + 1)).flatMap
        (fun p => (newDiagnostics mode p.1.1 (reports 0 (.nested p.1.1 p.1.2 .done))).map (Info.mk p.2)) ∧
      s'.caught = s.caught ++ (cs.zipIdx (s.core.results.topLevelChecks + 1)).flatMap
        (fun p => (exceptions p.1.2).map fun x => Info.mk p.2 (endBlock (p.1.1 ++ ['\n'] ++ x) 2 footer)) by
    obtain ⟨s', h⟩ := key {} ⟨rfl, rfl⟩
    refine ⟨s', ?_⟩
    simpa using h
  induction cs with
  | nil => intro s h; exact ⟨s, rfl, h, by simp⟩
  | cons c cs ih =>
    intro s h
    obtain ⟨s₁, e1, i1, t1, m1, d1, x1, _⟩ := C92_report mode s c.1 c.2 h
    obtain ⟨s₂, e2, i2, t2, m2, d2, x2⟩ := ih s₁ i1
    refine ⟨s₂, ?_, i2, ?_, ?_, ?_, ?_⟩
    · rw [List.flatMap_cons, runT_append, e1]; exact e2
    · rw [t2, t1, List.length_cons]; omega
    · rw [m2, m1, t1, List.zipIdx_cons, List.flatMap_cons, List.append_assoc]
    · rw [d2, d1, t1, List.zipIdx_cons, List.flatMap_cons, List.append_assoc]
    · rw [x2, x1, t1, List.zipIdx_cons, List.flatMap_cons, List.append_assoc, List.map_map]; rfl

/-- **C92** Unless failures are expected, the first message from a check in which something failed starts with its description, and the last
ends with a footer, if it has a text at all. -/
theorem C92_description (mode : Mode) (m : Str) (b : Body) (hmode : mode ≠ .falseNegative) (hm : m ≠ [])
    (hf : reports 0 (.nested m b .done) ≠ []) :
    (∃ t ts, newMessages mode m (reports 0 (.nested m b .done)) = t :: ts ∧ m <+: t) ∧
    ∀ rs r, reports 0 (.nested m b .done) = rs ++ [r] → r.2 ≠ [] →
      ∃ ts t, newMessages mode m (reports 0 (.nested m b .done)) = ts ++ [t] ∧ footer <:+ t := by
  have pre : ∀ (x : Str) n f, x <+: endBlock x n f := by
    intro x n f
    unfold endBlock
    split
    · exact List.prefix_rfl
    · exact ⟨List.replicate (n - trailing (min x.length n) x.reverse) '\n' ++ f, by rw [List.append_assoc]⟩
  have suf : ∀ (x : Str) n f, x ≠ [] → f <:+ endBlock x n f := by
    intro x n f hx
    unfold endBlock
    rw [if_neg hx]
    exact ⟨_, rfl⟩
  have hr : newMessages mode m (reports 0 (.nested m b .done)) = closed (reports 0 (.nested m b .done)) := by simp [newMessages, hmode]
  rw [hr]
  constructor
  · have ha : reports 0 (.nested m b .done) = above (indent m (spaces 0)) (reports (if m = [] then 0 else 0 + 1) b) := by simp [reports]
    rw [ha] at hf ⊢
    cases hb : reports (if m = [] then 0 else 0 + 1) b with
    | nil => rw [hb] at hf; exact absurd rfl hf
    | cons p ps =>
      obtain ⟨c, t⟩ := p
      have hpm : m <+: join (indent m (spaces 0)) t := by
        have : indent m (spaces 0) = m := indent_none m
        rw [this]
        unfold join
        rw [if_neg hm]
        split
        · exact List.prefix_rfl
        · exact ⟨['\n'] ++ t, by rw [List.append_assoc]⟩
      cases ps with
      | nil => exact ⟨_, [], rfl, hpm.trans ((pre _ _ _).trans (pre _ _ _))⟩
      | cons q qs => exact ⟨_, _, rfl, hpm.trans (pre _ _ _)⟩
  · intro rs r hrs hr
    rw [hrs, closed_append]
    refine ⟨_, _, rfl, suf _ _ _ ?_⟩
    intro h0
    have := pre r.2 1 []
    rw [h0] at this
    exact hr (List.prefix_nil.1 this)

example : reports 0 (.nested "a".toList (.item (.critical "x".toList) .done) .done) = [] ++ [(true, "a\nx".toList)] ∧ "a\nx".toList ≠ [] := by decide

/-- **C92** How a message is closed: an empty one stays empty; to another, line breaks are added until it ends with at least `n`, but no
more than are needed, and then the footer. -/
theorem C92_end_block (s : Str) (n : Nat) (f : Str) :
    endBlock [] n f = [] ∧ (s ≠ [] → ∃ k, endBlock s n f = s ++ List.replicate k '\n' ++ f ∧
      List.replicate n '\n' <:+ s ++ List.replicate k '\n' ∧ (k ≠ 0 → ¬ List.replicate n '\n' <:+ s ++ List.replicate (k - 1) '\n')) := by
  refine ⟨rfl, fun hs => ?_⟩
  have key : ∀ (n : Nat) (r : Str), List.replicate (trailing n r) '\n' <+: r ∧ trailing n r ≤ n ∧
      (trailing n r = n ∨ ¬ List.replicate (trailing n r + 1) '\n' <+: r) := by
    intro n
    induction n with
    | zero => intro r; simp [trailing]
    | succ n ih =>
      intro r
      cases r with
      | nil => simp [trailing, List.replicate_succ]
      | cons c t =>
        by_cases hc : c = '\n'
        · obtain ⟨h1, h2, h3⟩ := ih t
          simp only [trailing, hc, ne_eq, not_true_eq_false, if_false, List.replicate_succ, List.cons_prefix_cons, true_and]
          refine ⟨h1, by omega, ?_⟩
          rcases h3 with h3 | h3
          · left; omega
          · right; simpa [List.replicate_succ] using h3
        · have hc' : ¬ '\n' = c := fun h => hc h.symm
          simp [trailing, hc, hc', List.replicate_succ]
  obtain ⟨h1, h2, h3⟩ := key (min s.length n) s.reverse
  generalize ht : trailing (min s.length n) s.reverse = t at h1 h2 h3
  have conv : ∀ k, k ≤ n → (List.replicate n '\n' <:+ s ++ List.replicate k '\n' ↔ List.replicate (n - k) '\n' <+: s.reverse) := by
    intro k hk
    rw [← List.reverse_prefix, List.reverse_append, List.reverse_replicate, List.reverse_replicate]
    have : List.replicate n '\n' = List.replicate k '\n' ++ List.replicate (n - k) '\n' := by
      rw [List.replicate_append_replicate]; congr 1; omega
    rw [this, List.prefix_append_right_inj]
  refine ⟨n - t, by unfold endBlock; rw [if_neg hs, ht], ?_, ?_⟩
  · rw [conv _ (by omega)]
    have : n - (n - t) = t := by omega
    rw [this]; exact h1
  · intro hk
    rw [conv _ (by omega)]
    have : n - (n - t - 1) = t + 1 := by omega
    rw [this]
    rcases h3 with h3 | h3
    · intro hp
      have := hp.length_le
      simp at this
      omega
    · exact h3

example : endBlock "a\n".toList 2 "=".toList = "a\n\n=".toList := by decide

/-- **C92** The message about a check which should have failed: a label, the description, an empty line and a rule. -/
theorem C92_verdict (m : Str) :
    verdict m = endBlock ("False Negative Failure:".toList ++ (if m = [] then [] else '\n' :: m)) 2 "=======================================\n".toList := by
  have hf : footer = "=======================================\n".toList := by decide
  unfold verdict appendIndented
  rw [hf]
  by_cases hm : m = []
  · simp [hm]
  · have : "False Negative Failure:".toList ≠ [] := by decide
    rw [if_neg hm, if_neg this, indent_none, if_neg hm, List.append_assoc]; rfl

/-- **C92** The texts and the counters belong together: forgetting the texts gives the history of the counters, and the indices of the
messages are those the counters say. -/
theorem C92_counters (mode : Mode) (s s' : TState) (es : List TEvent) (h : runT mode s es = .ok s')
    (hm : s.core.results.failureMessages = s.failureMessages.map (·.index)) (hd : s.core.results.diagnostics = s.diagnostics.map (·.index))
    (hc : s.core.results.caught = s.caught.map (·.index)) :
    runEvents mode s.core (es.map TEvent.forget) = .ok s'.core ∧ s'.core.results.failureMessages = s'.failureMessages.map (·.index) ∧
      s'.core.results.diagnostics = s'.diagnostics.map (·.index) ∧ s'.core.results.caught = s'.caught.map (·.index) := by
  have ml : ∀ (f : Str → Str) (l l' : List Info), modifyLast f l = .ok l' → l'.map (·.index) = l.map (·.index) ∧ l ≠ [] := by
    intro f l
    induction l with
    | nil => intro l' h; cases h
    | cons x xs ih =>
      intro l' h
      cases xs with
      | nil => cases h; simp
      | cons y ys =>
        simp only [modifyLast] at h
        cases hr : modifyLast f (y :: ys) with
        | ok r => rw [hr] at h; cases h; simp [(ih r hr).1]
        | throws => rw [hr] at h; cases h
        | ub => rw [hr] at h; cases h
  have em : ∀ (c : Bool) (s s₃ : TState), LoggerText.endMessage mode c s = .ok s₃ → s₃.failureMessages.map (·.index) = s.failureMessages.map (·.index) ∧
      s₃.diagnostics.map (·.index) = s.diagnostics.map (·.index) ∧ s₃.caught = s.caught ∧ s₃.core = s.core := by
    intro c s s₃ h
    unfold LoggerText.endMessage at h
    split at h
    · cases hr : modifyLast (fun m => endBlock m 2 footer) s.failureMessages with
      | ok r => rw [hr] at h; cases h; exact ⟨(ml _ _ _ hr).1, rfl, rfl, rfl⟩
      | throws => rw [hr] at h; cases h
      | ub => rw [hr] at h; cases h
    · cases hr : modifyLast (fun m => endBlock m 2 footer) s.diagnostics with
      | ok r => rw [hr] at h; cases h; exact ⟨rfl, (ml _ _ _ hr).1, rfl, rfl⟩
      | throws => rw [hr] at h; cases h
      | ub => rw [hr] at h; cases h
  have concl : ∀ (t : Sentinel) (r : Results) (s₃ s : TState), conclude mode t s.core.results = .ok r → concludeText mode t s = .ok s₃ →
      s.core.results.failureMessages = s.failureMessages.map (·.index) → s.core.results.diagnostics = s.diagnostics.map (·.index) →
      s.core.results.caught = s.caught.map (·.index) →
      r.failureMessages = s₃.failureMessages.map (·.index) ∧ r.diagnostics = s₃.diagnostics.map (·.index) ∧ r.caught = s₃.caught.map (·.index) := by
    intro t r s₃ s h1 h2 hm hd hc
    unfold conclude at h1
    unfold concludeText at h2
    dsimp only at h1 h2
    split at h1
    · rename_i hcr
      rw [if_pos hcr] at h2
      obtain ⟨a1, a2, a3, a4⟩ := em _ _ _ h2
      cases he : Logger.endMessage mode true s.core.results with
      | throws => rw [he] at h1; cases h1
      | ub => rw [he] at h1; cases h1
      | ok u => rw [he] at h1; cases h1; rw [a1, a2, a3]; exact ⟨hm, hd, hc⟩
    · rename_i hcr
      rw [if_neg hcr] at h2
      obtain ⟨s₄, h4, a1, a2, a3, a4, h5⟩ : ∃ s₄, (if s.core.results.failures ≠ t.priorFailures then LoggerText.endMessage mode false s else .ok s) = .ok s₄ ∧
          s₄.failureMessages.map (·.index) = s.failureMessages.map (·.index) ∧
          s₄.diagnostics.map (·.index) = s.diagnostics.map (·.index) ∧ s₄.caught = s.caught ∧ s₄.core = s.core ∧ True := by
        by_cases hf : s.core.results.failures ≠ t.priorFailures
        · rw [if_pos hf] at h2 ⊢
          cases he : LoggerText.endMessage mode false s with
          | throws => rw [he] at h2; cases h2
          | ub => rw [he] at h2; cases h2
          | ok s₄ => obtain ⟨a1, a2, a3, a4⟩ := em _ _ _ he; exact ⟨s₄, rfl, a1, a2, a3, a4, trivial⟩
        · rw [if_neg hf]; exact ⟨s, rfl, rfl, rfl, rfl, rfl, trivial⟩
      rw [h4] at h2
      simp only [bind_ok] at h2
      have h1' : (if mode = .falseNegative ∧ ¬ s.core.results.failures ≠ t.priorFailures ∨ mode ≠ .falseNegative ∧ s.core.results.failures ≠ t.priorFailures then
          Res.ok (Logger.logTopLevelFailure mode s.core.results)
          else if mode = .falsePositive then .ok { s.core.results with diagnostics := s.core.results.diagnostics ++ [s.core.results.topLevelChecks] }
          else .ok s.core.results) = .ok r := by
        cases he : (if s.core.results.failures ≠ t.priorFailures then Logger.endMessage mode false s.core.results else Res.ok ()) with
        | throws => rw [he] at h1; cases h1
        | ub => rw [he] at h1; cases h1
        | ok u => rw [he] at h1; exact h1
      by_cases hq : mode = .falseNegative ∧ ¬ s.core.results.failures ≠ t.priorFailures ∨ mode ≠ .falseNegative ∧ s.core.results.failures ≠ t.priorFailures
      · rw [if_pos hq] at h1' h2
        cases h1'; cases h2
        unfold Logger.logTopLevelFailure LoggerText.logTopLevelFailure
        by_cases hmode : mode = .falseNegative <;> simp [hmode, a1, a2, a3, a4, hm, hd, hc]
      · rw [if_neg hq] at h1' h2
        by_cases hmode : mode = .falsePositive
        · rw [if_pos hmode] at h1' h2
          cases h1'; cases h2
          simp [a1, a2, a3, a4, hm, hd, hc]
        · rw [if_neg hmode] at h1' h2
          cases h1'; cases h2
          rw [a1, a2, a3]; exact ⟨hm, hd, hc⟩
  induction es generalizing s with
  | nil => cases h; exact ⟨rfl, hm, hd, hc⟩
  | cons e es ih =>
    simp only [runT] at h
    cases h1 : stepT mode s e with
    | throws => rw [h1] at h; cases h
    | ub => rw [h1] at h; cases h
    | ok s₁ =>
      rw [h1] at h
      simp only [stepT] at h1
      cases ht : stepText mode s e with
      | throws => rw [ht] at h1; cases h1
      | ub => rw [ht] at h1; cases h1
      | ok s₂ =>
        rw [ht] at h1
        simp only [bind_ok] at h1
        cases hs : step mode s.core e.forget with
        | throws => rw [hs] at h1; cases h1
        | ub => rw [hs] at h1; cases h1
        | ok c =>
          rw [hs] at h1
          simp only [bind_ok] at h1
          cases h1
          suffices hi : c.results.failureMessages = s₂.failureMessages.map (·.index) ∧ c.results.diagnostics = s₂.diagnostics.map (·.index) ∧
              c.results.caught = s₂.caught.map (·.index) by
            obtain ⟨g1, g2⟩ := ih _ h hi.1 hi.2.1 hi.2.2
            refine ⟨?_, g2⟩
            simp only [List.map_cons, runEvents, hs, bind_ok]
            exact g1
          cases e with
          | enter m =>
            cases ht; cases hs
            simp only [Logger.enter]
            split <;> exact ⟨hm, hd, hc⟩
          | item i =>
            cases i <;> cases ht <;> cases hs
            · exact ⟨hm, hd, hc⟩
            · exact ⟨hm, hd, hc⟩
            · cases mode <;> simp [failureMessage, logFailure, addMessage, toMessages, hm, hd, hc]
            · cases mode <;> simp [failureMessage, logPerformanceFailure, logFailure, addMessage, toMessages, hm, hd, hc]
            · cases mode <;> simp [failureMessage, logCriticalFailure, addMessage, toMessages, hm, hd, hc]
            · simp [logCaught, hm, hd, hc]
          | leave =>
            simp only [stepText, leaveText, TEvent.forget, step, Logger.leave] at ht hs
            split at ht
            · cases ht
            · rename_i t hsent
              rw [hsent] at hs
              simp only at hs
              cases hcc : conclude mode t s.core.results with
              | throws => rw [hcc] at hs; cases hs
              | ub => rw [hcc] at hs; cases hs
              | ok r =>
                rw [hcc] at hs
                cases hs
                cases hct : concludeText mode t s with
                | throws => rw [hct] at ht; cases ht
                | ub => rw [hct] at ht; cases ht
                | ok s₃ =>
                  rw [hct] at ht
                  have h2 : s₂.failureMessages = s₃.failureMessages ∧ s₂.diagnostics = s₃.diagnostics ∧ s₂.caught = s₃.caught := by
                    simp only [bind_ok] at ht
                    split at ht <;> cases ht <;> exact ⟨rfl, rfl, rfl⟩
                  rw [h2.1, h2.2.1, h2.2.2]
                  exact concl t r s₃ s hcc hct hm hd hc
            · split at hs
              · rename_i h0; simp_all
              · rename_i h0; simp_all
              · cases hs
                split at ht <;> cases ht
                exact ⟨hm, hd, hc⟩

/-- **C92 (violated)** The description is put above the first report, whichever channel it goes to: if failures are expected and one of them
is followed by a critical failure, then the message about the latter, the only one in the report of failures, does not say to which check it
belongs. -/
theorem C92_critical_violated : ∃ (m : Str) (b : Body) (s' : TState), m ≠ [] ∧ runT .falseNegative {} (checkEvents m b) = .ok s' ∧
    s'.failureMessages ≠ [] ∧ ∀ i ∈ s'.failureMessages, ¬ m <:+: i.message := by
  refine ⟨"case".toList, .item (.failure "as expected".toList) (.item (.critical "bad".toList) .done), _, by decide, rfl, ?_, ?_⟩
  · decide
  · decide +kernel

/-- **C92 (violated)** A false-positive check which passes is recorded among the diagnostics as a false-negative failure. -/
theorem C92_label_violated (m : Str) : ∃ s', runT .falsePositive {} (checkEvents m (.item .check .done)) = .ok s' ∧
    s'.core.results.failures = 0 ∧ s'.failureMessages = [] ∧ ∃ i, s'.diagnostics = [i] ∧ "False Negative Failure:".toList <+: i.message := by
  obtain ⟨s', h1, _, _, h4, h5, _⟩ := C92_report .falsePositive {} m (.item .check .done) ⟨rfl, rfl⟩
  have hc := C92_counters .falsePositive {} s' _ h1 rfl rfl rfl
  refine ⟨s', h1, ?_, ?_, ⟨1, verdict m⟩, ?_, ?_⟩
  · have h6 := hc.1
    simp only [checkEvents, Body.events, List.cons_append, List.nil_append, List.map_cons, List.map_nil, TEvent.forget] at h6
    have : s'.core = ⟨_, _⟩ := (by injection h6 with h7; exact h7.symm)
    rw [this]
    rfl
  · simpa [newMessages, reports, above, closed] using h4
  · simpa [newDiagnostics, reports, above] using h5
  · show _ <+: verdict m
    rw [C92_verdict]
    unfold endBlock
    rw [if_neg (by simp)]
    exact ⟨_, by rw [List.append_assoc, List.append_assoc]⟩

end Verif.Props
