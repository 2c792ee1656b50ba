import Verif.Lemmas.Recovery
import Verif.Props.Messages
/- What is known after the process has died (C119). -/
namespace Verif.Props
open Verif.Text Verif.Logger Verif.LoggerText Verif.Recovery Verif.Spec.LoggerText Verif.Spec.Recovery

/-- **C119** Wherever the process dies within a check, at any depth, the recovery file holds the description of that check and its critical failures so far, and nothing else, whatever was there before and whatever tests and
checks have been run.  The dump file holds what was there, then the descriptions of all checks that have ever begun, nested ones included, one per line, in order, and an empty line and another after each check that is over.
Files which are not active are untouched. -/
theorem C119_crash (a : Active) (mode : Mode) (d : Disk) (ts : List (Mode × List (Str × Body))) (cs : List (Str × Body)) (m : Str) (b : Body) (q r : List TEvent) (hq : b.events = q ++ r) :
    ∃ d₁ s', runTests a d (ts.map fun t => (t.1, eventsOf t.2)) = .ok d₁ ∧ runR a mode ⟨{}, d₁⟩ (eventsOf cs ++ .enter m :: q) = .ok s' ∧
      s'.disk.recovery = (if a.recovery then some (ongoing m (criticals q)) else d.recovery) ∧
      s'.disk.dump = (if a.dump then some (d.dump.getD [] ++ dumpedTests ts ++ dumped cs ++ linesOf (m :: begun q)) else d.dump) := by
  obtain ⟨d₁, h1, h2, h3, h4⟩ := tests_run a ts d
  obtain ⟨s1, e1, e2, e3, e4⟩ := checks_run a mode cs ⟨{}, d₁⟩ ⟨rfl, rfl⟩
  obtain ⟨s2, f1, _, _, f2, f3⟩ := inside_run a mode s1 m b q r e2 hq
  refine ⟨d₁, s2, h1, by rw [runR_append, e1, bind_ok, f1], ?_, ?_⟩
  · rw [f2]
    cases hr : a.recovery with
    | true => rfl
    | false => simp only [Bool.false_eq_true, if_false]; rw [e4 hr]; exact h4 hr
  · rw [f3]
    cases hr : a.dump with
    | true =>
      simp only [if_true]
      rw [getD_dump a _ _ _ _ (by intro h; rw [h]; rfl) e3 hr, h2 hr]
    | false =>
      simp only [Bool.false_eq_true, if_false]
      rw [e3, hr]; exact h3 hr

example : (Body.nested "inner".toList (.item (.critical "bad".toList) .done) .done).events = [.enter "inner".toList, .item (.critical "bad".toList)] ++ [.leave] := rfl

/-- **C119** When a check is over, the recovery file also says so, unless there were critical failures; and the dump file is as above. -/
theorem C119_over (a : Active) (mode : Mode) (d : Disk) (ts : List (Mode × List (Str × Body))) (cs : List (Str × Body)) (m : Str) (b : Body) :
    ∃ d₁ s', runTests a d (ts.map fun t => (t.1, eventsOf t.2)) = .ok d₁ ∧ runR a mode ⟨{}, d₁⟩ (eventsOf (cs ++ [(m, b)])) = .ok s' ∧
      s'.disk.recovery = (if a.recovery then some (over m (criticals b.events)) else d.recovery) ∧
      s'.disk.dump = (if a.dump then some (d.dump.getD [] ++ dumpedTests ts ++ dumped (cs ++ [(m, b)])) else d.dump) := by
  obtain ⟨d₁, h1, h2, h3, h4⟩ := tests_run a ts d
  obtain ⟨s1, e1, e2, e3, e4⟩ := checks_run a mode cs ⟨{}, d₁⟩ ⟨rfl, rfl⟩
  obtain ⟨s2, f1, _, _, _, f2, f3⟩ := over_run a mode s1 m b e2
  have hev : eventsOf (cs ++ [(m, b)]) = eventsOf cs ++ checkEvents m b := by simp [eventsOf]
  refine ⟨d₁, s2, h1, by rw [hev, runR_append, e1, bind_ok, f1], ?_, ?_⟩
  · rw [f2]
    cases hr : a.recovery with
    | true => rfl
    | false => simp only [Bool.false_eq_true, if_false]; rw [e4 hr]; exact h4 hr
  · rw [f3]
    cases hr : a.dump with
    | true =>
      simp only [if_true]
      rw [getD_dump a _ _ _ _ (by intro h; rw [h]; rfl) e3 hr, h2 hr]
      simp [dumped]
    | false =>
      simp only [Bool.false_eq_true, if_false]
      rw [e3, hr]; exact h3 hr

example : over "a check".toList [] = "Check started:\na check\nCheck ended\n".toList ∧
    over "a check".toList ["bad".toList] = "Check started:\na check\n\nCritical Failure:\nbad\n".toList := by decide +kernel

/-- **C119** The process may also die while something is being written.  Then too the recovery file is never a mixture of different checks: it holds at least what it held before the event, and at most what it would hold in the
end; any number of characters may have been written. -/
theorem C119_torn (a : Active) (mode : Mode) (s : RState) (h : Idle s.logger) (ha : a.recovery = true) (m : Str) (b : Body) (q r : List TEvent) (e : TEvent) (hq : b.events ++ [.leave] = q ++ e :: r) (k : Nat) :
    ∃ d f, crash a mode s (.enter m :: q) e k = .ok d ∧ d.recovery = some f ∧ ongoing m (criticals q) <+: f ∧ f <+: over m (criticals b.events) := by
  have hq' : ∃ r', b.events = q ++ r' ∧ e :: r = r' ++ [.leave] := by
    rw [List.append_eq_append_iff] at hq
    rcases hq with ⟨x, h1, h2⟩ | ⟨x, h1, h2⟩
    · cases x with
      | nil => exact ⟨[], by simpa using h1.symm, by simpa using h2.symm⟩
      | cons y x => simp at h2
    · exact ⟨x, h1, h2⟩
  obtain ⟨r', hb, hr'⟩ := hq'
  obtain ⟨s', e1, ⟨l, e2, e2'⟩, e3, e4, e5⟩ := inside_run a mode s m b q r' h hb
  rw [ha, if_pos rfl] at e4
  have honp : ∀ x y, ongoing m x <+: ongoing m (x ++ y) := fun x y => ⟨y.flatMap critText, by rw [ongoing_eq, ongoing_eq, List.flatMap_append, List.append_assoc]⟩
  have hover : ∀ cs, ongoing m cs <+: over m cs := by
    intro cs
    rw [over_eq]
    split
    · exact List.prefix_append _ _
    · exact List.prefix_refl _
  have hle : ongoing m (criticals q) <+: over m (criticals b.events) := by
    rw [hb, criticals_append]
    exact (honp _ _).trans (hover _)
  refine ⟨s'.disk.writes ((writesOf a s'.logger e).take k), ?_⟩
  have hcrash : crash a mode s (.enter m :: q) e k = .ok (s'.disk.writes ((writesOf a s'.logger e).take k)) := by unfold crash; rw [e1]; rfl
  suffices key : ∃ f, (s'.disk.writes ((writesOf a s'.logger e).take k)).recovery = some f ∧ ongoing m (criticals q) <+: f ∧ f <+: over m (criticals b.events) from by
    obtain ⟨f, h1, h2, h3⟩ := key
    exact ⟨f, hcrash, h1, h2, h3⟩
  have hdump : ∀ t j, (s'.disk.writes ((record a.dump .dump true t).take j)).recovery = some (ongoing m (criticals q)) := by
    intro t j
    cases hd : a.dump with
    | false =>
      show (s'.disk.writes (([] : List Write).take j)).recovery = _
      rw [List.take_nil]; exact e4
    | true =>
      rw [writes_take]
      split
      · exact e4
      · exact e4
  cases e with
  | enter m' =>
    refine ⟨_, ?_, List.prefix_refl _, hle⟩
    have hne : s'.logger.core.sentinels ≠ [] := by rw [e2]; simp
    simp only [writesOf, hne, if_false, List.nil_append, dumpStarted]
    exact hdump _ k
  | leave =>
    have nothing : writesOf a s'.logger .leave = [] → ∃ f, (s'.disk.writes ((writesOf a s'.logger .leave).take k)).recovery = some f ∧ ongoing m (criticals q) <+: f ∧ f <+: over m (criticals b.events) := by
      intro hw
      refine ⟨_, ?_, List.prefix_refl _, hle⟩
      rw [hw, List.take_nil]; exact e4
    cases l with
    | cons x l =>
      apply nothing
      simp only [writesOf]
      rw [e2]
      cases l <;> rfl
    | nil =>
      -- the check is over
      have hend : r' = [] := by
        cases r' with
        | nil => rfl
        | cons y r' =>
          exfalso
          have hy : y = .leave := by simp only [List.cons_append, List.cons.injEq] at hr'; exact hr'.1.symm
          subst hy
          have h0 := depthAfter_body b 0 []
          rw [List.append_nil, hb] at h0
          have : ∀ (q : List TEvent) (n j : Nat) (t : List TEvent), depthAfter n q = some j → depthAfter n (q ++ t) = depthAfter j t := by
            intro q
            induction q with
            | nil => intro n j t hj; cases n <;> (simp only [depthAfter, Option.some.injEq] at hj; rw [← hj]; rfl)
            | cons z q ih =>
              intro n j t hj
              cases z with
              | enter m => cases n <;> exact ih _ j t hj
              | leave =>
                cases n with
                | zero => cases hj
                | succ n => exact ih n j t hj
              | item i => cases n <;> exact ih _ j t hj
          rw [this q 0 0 _ e2'] at h0
          simp only [depthAfter] at h0
          cases h0
      have hbq : criticals b.events = criticals q := by rw [hb, hend, List.append_nil]
      rw [hbq]
      have hcount : (s.logger.core.results.criticalFailures + (criticals q).length ≠ s.logger.core.results.criticalFailures) ↔ criticals q ≠ [] := by
        rw [ne_eq, ne_eq, ← List.length_eq_zero_iff]; omega
      have hw : writesOf a s'.logger .leave = (if criticals q ≠ [] then [] else record true .recovery true endText) ++ record a.dump .dump true ['\n', '\n'] := by
        simp only [writesOf, e2, List.nil_append, e3, hcount, checkEnded_eq, dumpEnded, ha]
      rw [hw, over_eq]
      by_cases hc : criticals q = []
      · simp only [hc, ne_eq, not_true_eq_false, if_false, if_true]
        rw [hc] at e4
        rw [List.take_append, writes_append, writes_take]
        have hfin : ∀ (d : Disk) (f : Str), d.recovery = some f → ∀ j, (d.writes ((record a.dump .dump true ['\n', '\n']).take j)).recovery = some f := by
          intro d f hf j
          cases hd : a.dump with
          | false =>
            show (d.writes (([] : List Write).take j)).recovery = _
            rw [List.take_nil]; exact hf
          | true =>
            rw [writes_take]
            split
            · exact hf
            · exact hf
        split
        · exact ⟨_, hfin _ _ e4 _, List.prefix_refl _, List.prefix_append _ _⟩
        · refine ⟨_, hfin _ (ongoing m [] ++ endText.take (k - 1)) ?_ _, List.prefix_append _ _, ?_⟩
          · simp only [Disk.set, Disk.get, if_true, e4, Option.getD_some]
          · exact List.prefix_append_right_inj _ |>.mpr (List.take_prefix _ _)
      · simp only [hc, ne_eq, not_false_eq_true, if_true, if_false, List.nil_append]
        exact ⟨_, hdump _ k, List.prefix_refl _, List.prefix_refl _⟩
  | item i =>
    have nothing : writesOf a s'.logger (.item i) = [] → ∃ f, (s'.disk.writes ((writesOf a s'.logger (.item i)).take k)).recovery = some f ∧ ongoing m (criticals q) <+: f ∧ f <+: over m (criticals b.events) := by
      intro hw
      refine ⟨_, ?_, List.prefix_refl _, hle⟩
      rw [hw, List.take_nil]; exact e4
    cases i with
    | check => exact nothing rfl
    | performanceCheck => exact nothing rfl
    | failure _ => exact nothing rfl
    | performanceFailure _ => exact nothing rfl
    | caught _ => exact nothing rfl
    | critical c =>
      have hw : writesOf a s'.logger (.item (.critical c)) = record true .recovery true (critText c) := by simp only [writesOf, criticalFailure_eq, ha]
      rw [hw, writes_take]
      split
      · exact ⟨_, e4, List.prefix_refl _, hle⟩
      · refine ⟨ongoing m (criticals q) ++ (critText c).take (k - 1), ?_, List.prefix_append _ _, ?_⟩
        · simp only [Disk.set, Disk.get, if_true, e4, Option.getD_some]
        · have hr2 : ∃ r2, r' = .item (.critical c) :: r2 := by
            cases r' with
            | nil => simp at hr'
            | cons y r2 =>
              simp only [List.cons_append, List.cons.injEq] at hr'
              exact ⟨r2, by rw [hr'.1]⟩
          obtain ⟨r2, hr2⟩ := hr2
          have hcb : criticals b.events = (criticals q ++ [c]) ++ criticals r2 := by
            rw [hb, hr2, criticals_append, List.append_assoc]; rfl
          have h1 : ongoing m (criticals q) ++ critText c = ongoing m (criticals q ++ [c]) := by
            rw [ongoing_eq, ongoing_eq, List.flatMap_append, List.append_assoc]; simp
          refine ((List.prefix_append_right_inj _).mpr (List.take_prefix _ _)).trans ?_
          rw [h1, hcb]
          exact (honp _ _).trans (hover _)

/-- **C119** While a check is being announced, the file is as before, or holds the first characters of the announcement. -/
theorem C119_torn_start (a : Active) (mode : Mode) (s : RState) (h : Idle s.logger) (ha : a.recovery = true) (m : Str) (k : Nat) :
    ∃ d, crash a mode s [] (.enter m) k = .ok d ∧ d.recovery = if k = 0 then s.disk.recovery else some ((ongoing m []).take (k - 1)) := by
  refine ⟨_, rfl, ?_⟩
  show (s.disk.writes ((writesOf a s.logger (.enter m)).take k)).recovery = _
  have hong : ongoing m [] = headText m := by rw [ongoing_eq]; simp
  simp only [writesOf, h.1, if_true, checkStarted_eq, ha, dumpStarted]
  rw [List.take_append, writes_append, writes_take, hong]
  have hfin : ∀ (d : Disk) (j : Nat), (d.writes ((record a.dump .dump true (m ++ ['\n'])).take j)).recovery = d.recovery := by
    intro d j
    cases hd : a.dump with
    | false =>
      show (d.writes (([] : List Write).take j)).recovery = _
      rw [List.take_nil]; rfl
    | true =>
      rw [writes_take]
      split <;> rfl
  rw [hfin]
  split <;> rfl

example : Idle {} := ⟨rfl, rfl⟩

/-- **C119 (violated)** So the process may die when the previous record is gone and the new one is not yet there: the recovery file is empty and names no check. -/
theorem C119_torn_violated : ∃ (a : Active) (s : RState) (m : Str) (k : Nat) (d : Disk), Idle s.logger ∧ s.disk.recovery = some (over "the last one".toList []) ∧
    crash a .standard s [] (.enter m) k = .ok d ∧ d.recovery = some [] :=
  ⟨⟨true, false⟩, ⟨{}, ⟨some (over "the last one".toList []), none⟩⟩, "the next one".toList, 1, _, ⟨rfl, rfl⟩, rfl, rfl, rfl⟩

/-- **C119 (part)** The last line of the recovery file tells whether the process died within a check: it is "Check ended" precisely if the check is over, without critical failures.  What is missing: descriptions and critical
failures whose last line ends with these words. -/
theorem C119_verdict_partial (a : Active) (mode : Mode) (s : RState) (h : Idle s.logger) (ha : a.recovery = true) (m : Str) (b : Body)
    (hm : ∀ x ∈ m :: criticals b.events, ¬ EndsWith "Check ended".toList x) :
    (∀ q r, b.events = q ++ r → ∃ s' f, runR a mode s (.enter m :: q) = .ok s' ∧ s'.disk.recovery = some f ∧ ¬ EndsWith "Check ended\n".toList f) ∧
    ∃ s' f, runR a mode s (checkEvents m b) = .ok s' ∧ s'.disk.recovery = some f ∧ (EndsWith "Check ended\n".toList f ↔ criticals b.events = []) := by
  have hnl : '\n' ∉ "Check ended".toList := by decide
  have hsp : "Check ended\n".toList = "Check ended".toList ++ ['\n'] := by decide
  have hpre : "Check started:\n".toList = "Check started:".toList ++ ['\n'] := by decide
  have hcri : "\nCritical Failure:\n".toList = "\nCritical Failure:".toList ++ ['\n'] := by decide
  have endsWith_iff : ∀ (t x : Str), EndsWith t x ↔ t <:+ x := fun t x => ⟨fun ⟨r, hr⟩ => ⟨r, hr.symm⟩, fun ⟨r, hr⟩ => ⟨r, hr.symm⟩⟩
  have main : ∀ cs : List Str, (∀ x ∈ m :: cs, ¬ EndsWith "Check ended".toList x) → ¬ EndsWith "Check ended\n".toList (ongoing m cs) := by
    intro cs hcs hE
    rw [endsWith_iff, hsp] at hE
    rcases List.eq_nil_or_concat cs with hnil | ⟨cs', c, hc⟩
    · subst hnil
      unfold ongoing at hE
      rw [hpre, List.flatMap_nil, List.append_nil] at hE
      have h1 := ended_suffix _ _ hE
      rw [List.append_assoc, List.singleton_append] at h1
      exact hcs m (List.mem_cons_self ..) ((endsWith_iff _ _).mpr (suffix_line _ _ _ hnl h1))
    · subst hc
      have h2 : ongoing m (cs' ++ [c]) = (ongoing m cs' ++ "\nCritical Failure:".toList ++ '\n' :: c) ++ ['\n'] := by
        unfold ongoing
        rw [hcri, List.flatMap_append]
        simp only [List.flatMap_cons, List.flatMap_nil, List.append_assoc, List.append_nil, List.cons_append, List.nil_append]
      rw [List.concat_eq_append] at hE hcs
      rw [h2] at hE
      have h1 := ended_suffix _ _ hE
      exact hcs c (by simp) ((endsWith_iff _ _).mpr (suffix_line _ _ _ hnl h1))
  constructor
  · intro q r hq
    obtain ⟨s', e1, _, _, e4, _⟩ := inside_run a mode s m b q r h hq
    rw [ha, if_pos rfl] at e4
    refine ⟨s', _, e1, e4, main _ ?_⟩
    intro x hx
    apply hm
    rw [hq, criticals_append]
    rcases List.mem_cons.mp hx with hx | hx
    · rw [hx]; exact List.mem_cons_self ..
    · exact List.mem_cons_of_mem _ (List.mem_append_left _ hx)
  · obtain ⟨s', e1, _, _, _, e4, _⟩ := over_run a mode s m b h
    rw [ha, if_pos rfl] at e4
    refine ⟨s', _, e1, e4, ?_⟩
    unfold over
    by_cases hc : criticals b.events = []
    · simp only [hc, if_true]
      exact ⟨fun _ => trivial, fun _ => ⟨ongoing m [], rfl⟩⟩
    · simp only [hc, if_false, iff_false]
      exact main _ hm

example : ∀ x ∈ "a check".toList :: criticals (Body.item (.critical "bad".toList) .done).events, ¬ EndsWith "Check ended".toList x := by
  intro x hx ⟨r, hr⟩
  have : "Check ended".toList <:+ x := ⟨r, hr.symm⟩
  revert this
  have hx' : x = "a check".toList ∨ x = "bad".toList := by simpa [criticals, Body.events] using hx
  rcases hx' with hx' | hx' <;> subst hx' <;> decide

/-- **C119 (violated)** With such a description the file says that the check has ended when it has not. -/
theorem C119_verdict_violated : ∃ (m : Str) (s' : RState) (f : Str), runR ⟨true, false⟩ .standard {} [.enter m] = .ok s' ∧ s'.disk.recovery = some f ∧ EndsWith "Check ended\n".toList f := by
  obtain ⟨s', e1, _, _, e4, _⟩ := inside_run ⟨true, false⟩ .standard {} "Check ended".toList .done [] [] ⟨rfl, rfl⟩ rfl
  refine ⟨"Check ended".toList, s', _, e1, e4, ongoing [] [] |>.dropLast, ?_⟩
  decide +kernel

/-- **C119** If a test throws, the recovery file says so afterwards, and the report contains the exception and the description of the last check, that which was going on, if it has one.  The check itself is then over, since its
sentinel has been destroyed. -/
theorem C119_exception (a : Active) (mode : Mode) (s : RState) (h : Idle s.logger) (ha : a.recovery = true) (m : Str) (b : Body) (tag : Str) (file : Messages.Path) (num : Int) (what : Str) (hm : m ≠ []) :
    ∃ s₁ s₂ c, runR a mode s (checkEvents m b) = .ok s₁ ∧ runR a mode s₁ (unexpected tag file num what s₁.logger) = .ok s₂ ∧ s₂.disk.recovery = some (ongoing [] [c]) ∧
      m <:+: c ∧ what <:+: c ∧ ("Exception thrown during last check".toList <:+: c ∨ num = 0) := by
  obtain ⟨s₁, e1, _, e2, e3, _, _⟩ := over_run a mode s m b h
  obtain ⟨s₂, f1, _, _, _, f4, _⟩ := over_run a mode s₁ [] (.item (.critical (Messages.exceptionMessage tag file num s₁.logger.lastMessage what)) .done) e2
  refine ⟨s₁, s₂, Messages.exceptionMessage tag file num s₁.logger.lastMessage what, e1, f1, ?_, ?_⟩
  · rw [f4, ha, if_pos rfl]; rfl
  · have hlast : m <+: s₁.logger.lastMessage := by
      rw [e3]
      split
      · exact List.prefix_append _ _
      · exact List.prefix_refl _
    have hne : s₁.logger.lastMessage ≠ [] := by
      intro h0
      rw [h0] at hlast
      exact hm (List.prefix_nil.mp hlast)
    generalize s₁.logger.lastMessage = last at hlast hne
    obtain ⟨z, hz⟩ := hlast
    rw [Verif.Props.Messages.exception_some tag what last file num hne]
    generalize hlast' : "Last Recorded Message:\n".toList = lastText
    refine ⟨?_, ?_, ?_⟩
    · rw [← hz, ← List.append_assoc]
      exact List.infix_append _ m z
    · have hw : what <:+: Spec.Messages.heading tag what := by
        unfold Spec.Messages.heading
        by_cases hw : what = []
        · rw [hw]; exact List.nil_infix
        · refine ⟨"Error -- ".toList ++ tag ++ " Exception:".toList ++ ['\n'], ['\n'], ?_⟩
          rw [if_neg hw]
          simp only [List.append_assoc, List.singleton_append, List.cons_append, List.nil_append]
      simp only [List.append_assoc]
      exact hw.trans (List.infix_append_left ..)
    · by_cases hn : num = 0
      · exact .inr hn
      · left
        rw [if_neg hn]
        have : "Exception thrown during last check".toList = "Exception thrown ".toList ++ "during last check".toList := by decide
        rw [this]
        refine ⟨Spec.Messages.heading tag what ++ ['\n'], ['\n'] ++ lastText ++ ['\n'] ++ last, ?_⟩
        simp only [List.append_assoc]

/-- **C119** What the command line does: a file is written if and only if its option is given, however often and in whichever order; and if it is, what an earlier run has left there is gone, while the other file is untouched.  If
the directory does not exist, nor do the files. -/
theorem C119_options (s : Start) (hs : s.mode = 0) (hd : s.directory = false → s.disk = {}) (opts : List File) :
    (activeFiles (opts.foldl option s).mode = ⟨decide (.recovery ∈ opts), decide (.dump ∈ opts)⟩) ∧
    ∀ f, (opts.foldl option s).disk.get f = if f ∈ opts then none else s.disk.get f := by
  have step : ∀ (opts : List File) (s : Start), s.mode < 4 → (s.directory = false → s.disk = {}) →
      activeFiles (opts.foldl option s).mode = ⟨(activeFiles s.mode).recovery || decide (.recovery ∈ opts), (activeFiles s.mode).dump || decide (.dump ∈ opts)⟩ ∧
      ∀ f, (opts.foldl option s).disk.get f = if f ∈ opts then none else s.disk.get f := by
    intro opts
    induction opts with
    | nil => intro s _ _; exact ⟨by simp, by simp⟩
    | cons o opts ih =>
      intro s h4 hd
      have h4' : (option s o).mode < 4 ∧ (activeFiles (option s o).mode).recovery = ((activeFiles s.mode).recovery || decide (o = .recovery)) ∧
          (activeFiles (option s o).mode).dump = ((activeFiles s.mode).dump || decide (o = .dump)) := by
        simp only [option]
        have hm : s.mode = 0 ∨ s.mode = 1 ∨ s.mode = 2 ∨ s.mode = 3 := by omega
        rcases hm with hm | hm | hm | hm <;> rw [hm] <;> cases o <;> decide
      obtain ⟨i1, i2⟩ := ih (option s o) h4'.1 (by intro h; cases h)
      have hget : ∀ f, (option s o).disk.get f = if f = o then none else s.disk.get f := by
        intro f
        simp only [option]
        cases hdir : s.directory with
        | true => cases f <;> cases o <;> rfl
        | false => simp only [Bool.false_eq_true, if_false]; rw [hd hdir]; cases f <;> cases o <;> rfl
      refine ⟨?_, ?_⟩
      · rw [List.foldl_cons, i1, h4'.2.1, h4'.2.2]
        cases o <;> simp
      · intro f
        rw [List.foldl_cons, i2, hget]
        by_cases h1 : f ∈ opts <;> by_cases h2 : f = o <;> simp [h1, h2]
  obtain ⟨h1, h2⟩ := step opts s (by omega) hd
  refine ⟨?_, h2⟩
  rw [h1, hs]
  have h3 : (activeFiles 0).recovery = false := by decide
  have h4 : (activeFiles 0).dump = false := by decide
  rw [h3, h4, Bool.false_or, Bool.false_or]

example : (⟨true, ⟨some "stale".toList, some "old".toList⟩, 0⟩ : Start).directory = false → (⟨some "stale".toList, some "old".toList⟩ : Disk) = {} := by intro h; cases h

end Verif.Props
