import Verif.Lemmas.AddSuitesAll
import Verif.Lemmas.Missing
import Verif.Props.RunReport
import Verif.Props.RunnerArgs
/- C101: the tests which are run are those which have been added and selected, and what cannot be found is said. -/
namespace Verif.Props
open Verif.Graph Verif.Text Verif.Suites Verif.RunTests Verif.RunReport Verif.AddSuites Verif.RunnerArgs Verif.Spec Verif.Spec.Suites Verif.Spec.AddSuites Verif.Spec.RunReport Verif.Spec.RunnerArgs

section
variable {L T P : Type} [DecidableEq P]

open Classical in
theorem AddSuites.added (a : About L T P) (suites files : Option (List Str)) (adds : List (Addition L)) :
    (Distinct a adds → addTestSuites a adds ⟨⟨[], []⟩, ⟨makeSelection suites, makeSelection files⟩⟩ =
      .ok ⟨if adds = [] then ⟨[], []⟩ else grown () () (allInits a (fun l path => decide (Accepts a.selects String.toList suites files l path)) adds) 0 rootOnly,
        visited (filterOf a) ⟨makeSelection suites, makeSelection files⟩ (adds.flatMap given)⟩) ∧
    (¬ Distinct a adds → addTestSuites a adds ⟨⟨[], []⟩, ⟨makeSelection suites, makeSelection files⟩⟩ = .throws) := by
  have hk : ∀ ks : Option (List Str), keys (makeSelection ks) = ks := by
    intro ks; cases ks <;> simp [keys, makeSelection, Function.comp_def]
  exact addTestSuites_spec (C42_decides a.selects String.toList suites files) adds ⟨hk suites, hk files⟩

open Classical in
theorem AddSuites.wanted_eq (a : About L T P) (suites files : Option (List Str)) (adds : List (Addition L)) :
    testsIn (allInits a (fun l path => decide (Accepts a.selects String.toList suites files l path)) adds) [] = testsWanted a suites files adds :=
  (allInits_spec a _ adds).2

/-- **C101** Adding suites of tests throws exactly if there are two tests in one of them which have the same name and the same source; whatever is selected. -/
theorem C101_duplicates (a : About L T P) (suites files : Option (List Str)) (adds : List (Addition L)) :
    (addTestSuites a adds ⟨⟨[], []⟩, ⟨makeSelection suites, makeSelection files⟩⟩ = .throws ↔ ∃ name ts, .tests name ts ∈ adds ∧ Duplicates a ts) ∧
    addTestSuites a adds ⟨⟨[], []⟩, ⟨makeSelection suites, makeSelection files⟩⟩ ≠ .ub := by
  obtain ⟨h1, h2⟩ := AddSuites.added a suites files adds
  by_cases h : Distinct a adds
  · rw [h1 h]
    refine ⟨⟨fun e => by (cases e), fun ⟨name, ts, hm, hd⟩ => absurd hd (h name ts hm)⟩, by simp⟩
  · rw [h2 h]
    refine ⟨⟨fun _ => ?_, fun _ => rfl⟩, by simp⟩
    unfold Distinct at h
    obtain ⟨name, h⟩ := Classical.not_forall.mp h
    obtain ⟨ts, h⟩ := Classical.not_forall.mp h
    obtain ⟨hm, h⟩ := Classical.not_imp.mp h
    exact ⟨name, ts, hm, Classical.not_not.mp h⟩

/-- **C101** Otherwise, the tests which the runner has are exactly those which have been added and are selected, in the order in which they were added, each below the suites
which it was in; suites none of whose tests are selected are left out.  They form a tree as the execution requires. -/
theorem C101_tests (a : About L T P) (suites files : Option (List Str)) (adds : List (Addition L)) (hd : ∀ name ts, .tests name ts ∈ adds → ¬ Duplicates a ts) :
    ∃ st, addTestSuites a adds ⟨⟨[], []⟩, ⟨makeSelection suites, makeSelection files⟩⟩ = .ok st ∧ (adds = [] → st.suites = ⟨[], []⟩) ∧
      (adds ≠ [] → SuiteTree st.suites ∧ Fresh st.suites ∧ ∃ l, st.suites.edges[0]? = some l ∧ Holds st.suites [] l (testsWanted a suites files adds)) := by
  refine ⟨_, (AddSuites.added a suites files adds).1 hd, fun h => by rw [h]; rfl, fun h => ?_⟩
  obtain ⟨b1, b2, b3, _⟩ := final_spec (a := a) adds (fun l path => @decide (Accepts a.selects String.toList suites files l path) (Classical.propDecidable _))
  rw [AddSuites.wanted_eq] at b3
  simp only [if_neg h]
  exact ⟨b1, b2, b3⟩

/-- **C101** What `execute` prints: what has been selected but cannot be found, unless tests are pruned; then, if there are no tests, why; otherwise the reports on the tests
which are wanted. -/
theorem C101_execute (a : About L T P) (render : Int → Nat → Str) (c : Settings T) (hsch : ∀ i l, (c.schedule i l).Perm l) (suites files : Option (List Str)) (pruning : Bool) (reps : Nat)
    (adds : List (Addition L)) (hd : ∀ name ts, .tests name ts ∈ adds → ¬ Duplicates a ts) :
    ∃ st rest, addTestSuites a adds ⟨⟨[], []⟩, ⟨makeSelection suites, makeSelection files⟩⟩ = .ok st ∧
      AddSuites.execute render c true pruning reps st = .ok ((if pruning then [] else notFound a suites files adds) ++ rest) ∧
      (adds = [] → rest = "Nothing to do: try creating some tests!\nRun with --help to see options\n".toList) ∧
      (adds ≠ [] → testsWanted a suites files adds = [] →
        rest = if pruning then "Nothing to do: no changes since the last run, therefore 'prune' has pruned all tests\n".toList else []) ∧
      (testsWanted a suites files adds ≠ [] → ∃ (texts : List Str) (l : List (Edge Unit Unit)), rest = texts.flatten ∧ texts.length = reps ∧ SuiteTree st.suites ∧ st.suites.edges[0]? = some l ∧
        Holds st.suites [] l (testsWanted a suites files adds) ∧
        ∀ i text, texts[i]? = some text → Report render c.serial c.verbose (c.exec i) (c.asyncTime i) (c.totalTime i) st.suites text) := by
  have hadd := (AddSuites.added a suites files adds).1 hd
  obtain ⟨b1, b2, b3, b4, b5⟩ := final_spec (a := a) adds (fun l path => @decide (Accepts a.selects String.toList suites files l path) (Classical.propDecidable _))
  rw [AddSuites.wanted_eq] at b3 b4
  have hmiss : checkForMissingTests pruning (visited (filterOf a) ⟨makeSelection suites, makeSelection files⟩ (adds.flatMap given)) =
      if pruning then [] else notFound a suites files adds := by
    cases pruning with
    | true => rfl
    | false => exact missing_spec a suites files adds
  by_cases ha : adds = []
  · subst ha
    refine ⟨_, _, hadd, ?_, fun _ => rfl, fun h => absurd rfl h, fun h => absurd (by simp [testsWanted]) h⟩
    rw [← hmiss]
    rfl
  · rw [if_neg ha] at hadd
    generalize grown () () (allInits a (fun l path => @decide (Accepts a.selects String.toList suites files l path) (Classical.propDecidable _)) adds) 0 (rootOnly : Suites Found T) = g at *
    by_cases hw : testsWanted a suites files adds = []
    · refine ⟨_, _, hadd, ?_, fun h => absurd h ha, fun _ _ => rfl, fun h => absurd hw h⟩
      unfold AddSuites.execute
      simp only [Bool.not_true, Bool.false_eq_true, if_false]
      rw [hmiss]
      simp only [nothingToDo, b4.mp hw, if_neg (show ¬ 1 = 0 by omega), if_true]
    · obtain ⟨texts, c1, c2, c3⟩ := C100_report render c hsch g b1 b2 reps
      obtain ⟨l, d1, d2⟩ := b3
      refine ⟨_, texts.flatten, hadd, ?_, fun h => absurd h ha, fun _ h => absurd h hw, fun _ => ⟨texts, l, rfl, c2, b1, d1, d2, c3⟩⟩
      unfold AddSuites.execute
      simp only [Bool.not_true, Bool.false_eq_true, if_false]
      rw [hmiss]
      simp only [nothingToDo, if_neg b5, if_neg (fun h => hw (b4.mpr h)), c1, Res.bind]

/-- **C101** Which selections are said not to be found: all which match nothing; and no others but those which match nothing that an earlier selection does not match. -/
theorem C101_unmatched {X : Type} (hit : Str → X → Bool) (ks : List Str) (candidates : List X) :
    (∀ k ∈ ks, (∀ x ∈ candidates, hit k x = false) → k ∈ unmatched hit (some ks) candidates) ∧
    ∀ k ∈ unmatched hit (some ks) candidates, ∃ i : Nat, ks[i]? = some k ∧ ∀ x ∈ candidates, hit k x = true → ∃ (j : Nat) (k' : Str), j < i ∧ ks[j]? = some k' ∧ hit k' x = true := by
  unfold unmatched
  constructor
  · intro k hk hno
    obtain ⟨i, hi⟩ := List.mem_iff_getElem?.mp hk
    rw [List.mem_map]
    refine ⟨(k, i), ?_, rfl⟩
    rw [List.mem_filter]
    refine ⟨List.mem_zipIdx_iff_getElem?.mpr hi, ?_⟩
    simp only [Bool.not_eq_true', List.any_eq_false]
    intro x hx he
    simp only [beq_iff_eq] at he
    obtain ⟨hlt, h2, _⟩ := List.findIdx?_eq_some_iff_getElem.mp he
    rw [List.getElem?_eq_getElem hlt, Option.some.injEq] at hi
    rw [hi, hno x hx] at h2
    cases h2
  · intro k hk
    obtain ⟨⟨k', i⟩, hm, rfl⟩ := List.mem_map.mp hk
    rw [List.mem_filter] at hm
    obtain ⟨h1, h2⟩ := hm
    have hi := List.mem_zipIdx_iff_getElem?.mp h1
    refine ⟨i, hi, fun x hx hh => ?_⟩
    simp only [Bool.not_eq_true', List.any_eq_false] at h2
    have hne := h2 x hx
    simp only [beq_iff_eq] at hne
    obtain ⟨hlt, hget⟩ := List.getElem?_eq_some_iff.mp hi
    simp only at hget hh
    cases hf : ks.findIdx? (fun k => hit k x) with
    | none =>
      rw [List.findIdx?_eq_none_iff] at hf
      have := hf k' (List.mem_of_getElem? hi)
      rw [this] at hh
      cases hh
    | some j =>
      obtain ⟨hj, h3, h4⟩ := List.findIdx?_eq_some_iff_getElem.mp hf
      rw [hf, Option.some.injEq] at hne
      refine ⟨j, ks[j], ?_, List.getElem?_eq_getElem hj, h3⟩
      by_cases hlt' : j < i
      · exact hlt'
      · have := h4 i (by omega)
        rw [hget] at this
        exact absurd hh this

omit [DecidableEq P] in
theorem AddSuites.suiteNotFound_ne (k : Str) : suiteNotFound k ≠ [] := by
  intro h
  unfold suiteNotFound at h
  obtain ⟨h, -⟩ := List.append_eq_nil_iff.mp h
  obtain ⟨h, -⟩ := List.append_eq_nil_iff.mp h
  obtain ⟨h, -⟩ := List.append_eq_nil_iff.mp h
  revert h
  decide

omit [DecidableEq P] in
theorem AddSuites.fileNotFound_ne (k : Str) : fileNotFound k ≠ [] := by
  intro h
  unfold fileNotFound at h
  obtain ⟨h, -⟩ := List.append_eq_nil_iff.mp h
  obtain ⟨h, -⟩ := List.append_eq_nil_iff.mp h
  obtain ⟨h, -⟩ := List.append_eq_nil_iff.mp h
  revert h
  decide

omit [DecidableEq P] in
theorem AddSuites.selection_make (ks : List Str) : selection ks = makeSelection (if ks = [] then none else some ks) := by
  unfold selection makeSelection
  by_cases h : ks = [] <;> simp [h]

/-- What is selected after a command line has been accepted and tests have been pruned. -/
theorem AddSuites.accepted {w : World} {d : Bool} {args : List Str} {r0 : Runner} (h : processArgs w (start d) args = .ret r0 false) (toRun : Option (List Str)) :
    ∃ suites files, (doPrune w toRun r0).filter = ⟨makeSelection suites, makeSelection files⟩ ∧ (doPrune w toRun r0).test = r0.test ∧
      ((doPrune w toRun r0).pruning = false → suites ≠ some [] ∧ files ≠ some []) := by
  have hpi : ∃ invs, Cmd.parseInvoke forest args = .ok (none, invs) := by
    unfold processArgs at h
    cases hpi : Cmd.parseInvoke forest args with
    | throws => rw [hpi] at h; cases h
    | ub => rw [hpi] at h; cases h
    | ok p =>
      obtain ⟨x, invs⟩ := p
      cases x with
      | some x => rw [hpi] at h; cases h
      | none => exact ⟨invs, rfl⟩
  obtain ⟨invs, hpi⟩ := hpi
  obtain ⟨-, -, -, -, -, -, m6, m7, -⟩ := C73_meaning hpi h
  rw [AddSuites.selection_make, AddSuites.selection_make] at m7
  generalize firsts invs .test = ts at m7
  generalize (firsts invs .select).map w.normal = fs at m7
  have hne : ∀ ks : List Str, (if ks = [] then none else some ks) ≠ some [] := by
    intro ks; by_cases h : ks = [] <;> simp [h]
  unfold doPrune
  by_cases hp : r0.pruning = false
  · rw [if_pos hp]
    exact ⟨_, _, m7, rfl, fun _ => ⟨hne ts, hne fs⟩⟩
  · rw [if_neg hp]
    cases toRun with
    | none => exact ⟨_, _, m7, rfl, fun _ => ⟨hne ts, hne fs⟩⟩
    | some l =>
      have hfold : ∀ (l : List Str) (s f : Option (List Str)), ∃ f', l.foldl (fun f src => (⟨f.suites, addSelection f.items (w.normal src)⟩ : Granular Str Str)) ⟨makeSelection s, makeSelection f⟩ =
          ⟨makeSelection s, makeSelection f'⟩ := by
        intro l
        induction l with
        | nil => exact fun s f => ⟨f, rfl⟩
        | cons x l ih =>
          intro s f
          obtain ⟨f', h⟩ := ih s (some (match f with | none => [w.normal x] | some ks => ks ++ [w.normal x]))
          refine ⟨f', ?_⟩
          rw [List.foldl_cons, ← h]
          congr 2
          cases f <;> simp [addSelection, makeSelection]
      have hp' : r0.pruning = true := by simpa using hp
      dsimp only
      rw [m7]
      generalize (if ts = [] then none else some ts) = os
      generalize (if fs = [] then none else some fs) = of
      obtain ⟨f', hf'⟩ := hfold l os of
      split
      · exact ⟨_, f', hf', rfl, fun h => by rw [hp'] at h; cases h⟩
      · exact ⟨some [], some [], rfl, rfl, fun h => by rw [hp'] at h; cases h⟩

/-- **C101** The runner is never silent: whatever the command line, if it asks for tests to be run, and whatever the suites which have been added, as long as each contains a test, something is printed,
be it only why nothing is done. -/
theorem C101_never_silent (a : About L T P) (render : Int → Nat → Str) (c : Settings T) (hsch : ∀ i l, (c.schedule i l).Perm l) {w : World} {d : Bool} {args : List Str} {r0 : Runner}
    (h : processArgs w (start d) args = .ret r0 false) (ht : r0.test = true) (toRun : Option (List Str)) (reps : Nat) (hr : 1 ≤ reps) (adds : List (Addition L))
    (hd : ∀ name ts, .tests name ts ∈ adds → ¬ Duplicates a ts) (hne : ∀ s ∈ adds, given s ≠ []) :
    ∃ st text, addTestSuites a adds ⟨⟨[], []⟩, (doPrune w toRun r0).filter⟩ = .ok st ∧
      AddSuites.execute render c (doPrune w toRun r0).test (doPrune w toRun r0).pruning reps st = .ok text ∧ text ≠ [] := by
  obtain ⟨suites, files, h1, h2, h3⟩ := AddSuites.accepted h toRun
  obtain ⟨st, rest, b1, b2, b3, b4, b5⟩ := C101_execute a render c hsch suites files (doPrune w toRun r0).pruning reps adds hd
  rw [h1, h2, ht]
  refine ⟨st, _, b1, b2, fun he => ?_⟩
  obtain ⟨e1, e2⟩ := List.append_eq_nil_iff.mp he
  by_cases ha : adds = []
  · rw [b3 ha] at e2; cases e2
  · by_cases hw : testsWanted a suites files adds = []
    · rw [b4 ha hw] at e2
      cases hp : (doPrune w toRun r0).pruning with
      | true => rw [hp] at e2; cases e2
      | false =>
        obtain ⟨n1, n2⟩ := h3 hp
        rw [hp] at e1
        simp only [Bool.false_eq_true, if_false] at e1
        have hnone : ∀ x ∈ adds.flatMap given, ¬ Accepts a.selects String.toList suites files x.1 x.2 := by
          intro x hx hacc
          obtain ⟨s, hs, hx⟩ := List.mem_flatMap.mp hx
          unfold testsWanted at hw
          rw [List.flatMap_eq_nil_iff] at hw
          have := hw s hs
          rw [List.map_eq_nil_iff, List.filter_eq_nil_iff] at this
          exact this x hx (by simpa using hacc)
        unfold notFound at e1
        obtain ⟨u1, u2⟩ := List.append_eq_nil_iff.mp e1
        rw [List.flatMap_eq_nil_iff] at u1 u2
        cases suites with
        | some ks =>
          cases ks with
          | nil => exact n1 rfl
          | cons k ks =>
            have := (C101_unmatched (fun name (s : String) => decide (name = s.toList)) (k :: ks) ((adds.flatMap given).flatMap Prod.snd)).1 k (by simp) (by
              intro s hs
              obtain ⟨x, hx, hs⟩ := List.mem_flatMap.mp hs
              simp only [decide_eq_false_iff_not]
              rintro rfl
              exact hnone x hx (.inr (.inr ⟨_, rfl, s, hs, by simp⟩)))
            exact AddSuites.suiteNotFound_ne k (u1 k this)
        | none =>
          cases files with
          | some ks =>
            cases ks with
            | nil => exact n2 rfl
            | cons k ks =>
              have := (C101_unmatched a.selects (k :: ks) ((adds.flatMap given).map Prod.fst)).1 k (by simp) (by
                intro l hl
                obtain ⟨x, hx, rfl⟩ := List.mem_map.mp hl
                cases hh : a.selects k x.1 with
                | false => rfl
                | true => exact absurd (.inr (.inl ⟨_, rfl, k, by simp, hh⟩)) (hnone x hx))
              exact AddSuites.fileNotFound_ne k (u2 k this)
          | none =>
            obtain ⟨s, hs⟩ := List.exists_mem_of_ne_nil _ ha
            obtain ⟨x, hx⟩ := List.exists_mem_of_ne_nil _ (hne s hs)
            exact hnone x (List.mem_flatMap.mpr ⟨s, hs, hx⟩) (.inl ⟨rfl, rfl⟩)
    · obtain ⟨texts, l, c1, c2, -, -, -, c3⟩ := b5 hw
      rw [c1, List.flatten_eq_nil_iff] at e2
      have hl : 0 < texts.length := by omega
      have hempty := e2 texts[0] (List.getElem_mem hl)
      obtain ⟨sum, l', body, totals, -, -, -, -, d⟩ := c3 0 texts[0] (List.getElem?_eq_getElem hl)
      rw [hempty] at d
      obtain ⟨d, -⟩ := List.append_eq_nil_iff.mp d.symm
      obtain ⟨d, -⟩ := List.append_eq_nil_iff.mp d
      obtain ⟨d, -⟩ := List.append_eq_nil_iff.mp d
      cases hser : c.serial <;> rw [hser] at d <;> revert d <;> decide

end

/-! ### Examples -/

/-- Tests are numbers; their sources are the same for even and for odd ones, and they are selected by their number of characters. -/
def numbered : About Nat (String × Nat) Nat where
  name n := if n < 4 then "first" else "second"
  source n := n % 2
  prepare s n := (s, n)
  selects p n := p.length == n

def numberedAdds : List (Addition Nat) := [.tests "A" [1, 2, 5], .suites "B" [.flat "C" [3, 4], .deep "D" [.flat "A" [6]], .flat "E" [7]]]

/-- The hypotheses are met. -/
example : (∀ name ts, .tests name ts ∈ numberedAdds → ¬ Duplicates numbered ts) ∧ ∀ s ∈ numberedAdds, given s ≠ [] := by
  constructor
  · intro name ts h
    simp only [numberedAdds, List.mem_cons, Addition.tests.injEq, reduceCtorEq, List.not_mem_nil, or_false] at h
    obtain ⟨-, rfl⟩ := h
    unfold Duplicates
    decide
  · decide

/-- The suites with name A and the test of length seven; there is no suite X. -/
example : (match addTestSuites numbered numberedAdds ⟨⟨[], []⟩, ⟨makeSelection (some ["A".toList, "X".toList]), makeSelection (some ["1234567".toList])⟩⟩ with
    | .ok st => (st.suites.nodes.map fun n => (n.summary.1.name, n.test), st.suites.edges.map fun l => l.map Edge.target, checkForMissingTests false st.filter)
    | _ => ([], [], [])) =
  ([("", none), ("A", none), ("first", some ("A", 1)), ("first", some ("A", 2)), ("second", some ("A", 5)), ("B", none), ("D", none), ("A", none), ("second", some ("B", 6)), ("E", none),
    ("second", some ("B", 7))], [[1, 5], [2, 3, 4], [], [], [], [6, 9], [7], [8], [], [10], []], "  Warning: Test Suite 'X' not found\n".toList) := by decide +kernel

/-- **C101 (violated)** Two tests with the same name and the same source in one suite are accepted, if this suite is within another one. -/
theorem C101_nested_duplicates_violated : ∃ (inner : List Nat), Duplicates numbered inner ∧
    addTestSuites numbered [.suites "outer" [.flat "inner" inner]] ⟨⟨[], []⟩, ⟨none, none⟩⟩ ≠ .throws ∧
    addTestSuites numbered [.tests "inner" inner] ⟨⟨[], []⟩, ⟨none, none⟩⟩ = .throws := by
  refine ⟨[1, 3], by unfold Duplicates; decide, ?_, rfl⟩
  have : (match addTestSuites numbered [.suites "outer" [.flat "inner" [1, 3]]] ⟨⟨[], []⟩, ⟨none, none⟩⟩ with | .throws => true | _ => false) = false := by decide +kernel
  intro h
  rw [h] at this
  cases this

end Verif.Props
