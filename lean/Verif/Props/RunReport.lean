import Verif.Lemmas.RunReportAll
/- C100: what the test runner prints about the tests it has run. -/
namespace Verif.Props
open Verif.Graph Verif.Text Verif.Logger Verif.Spec Verif.RunTests Verif.RunReport Verif.Spec.RunReport

section
variable {T : Type}

/-- **C100** However often the tests of a tree of suites are repeated, serially or concurrently, whatever each test does in each repetition and however the threads take them,
there is a report for each repetition, in order.  Each is about what was found in this repetition and nothing else, and arranged like the tree to which the suites were added,
though its nodes may have been reordered. -/
theorem C100_report (render : Int → Nat → Str) (c : Settings T) (hsch : ∀ i l, (c.schedule i l).Perm l) (g : Suites Found T) (hg : SuiteTree g) (hf : Fresh g) (reps : Nat) :
    ∃ texts : List Str, executeReports render c reps g = .ok texts.flatten ∧ texts.length = reps ∧
      ∀ i text, texts[i]? = some text → Report render c.serial c.verbose (c.exec i) (c.asyncTime i) (c.totalTime i) g text :=
  execute_reports hsch hg hf reps

/-- **C100** What is listed in the verbose report: an entry for each suite and each test but the root, exactly once, whose depth is one less than the distance from the root. -/
theorem C100_listed (g : Suites Found T) (hg : SuiteTree g) (own : Nat → Nat → Str → Prop) (l : List (Edge Unit Unit)) (hl : g.edges[0]? = some l) (text : Str)
    (h : Listed own g.edges 0 l text) :
    ∃ entries : List (Nat × Nat × Str), text = entries.flatMap (fun (_, _, t) => t) ∧ (0 :: entries.map fun (x, _, _) => x).Perm (List.range g.nodes.length) ∧
      ∀ x depth t, (x, depth, t) ∈ entries → own depth x t ∧ Walk g.edges 0 x (depth + 1) := by
  obtain ⟨par, ht⟩ := hg.tree
  obtain ⟨f, l', a1, a2, a3, a4, a5, a6⟩ := root_forest ht
  rw [hl, Option.some.injEq] at a4
  subst a4
  obtain ⟨entries, b1, b2, b3⟩ := listed_entries ht f 0 0 0 text l a1 a2 a3 hl a5 .refl (by rw [List.drop_zero]; exact h)
  refine ⟨entries, b1, ?_, fun x depth t hx => b3 _ hx⟩
  rw [show (entries.map fun (x, _, _) => x) = f.nodes from b2, hg.weights]
  exact a6

/-- **C100** What is found in a suite: its name is kept, its messages are those of the tests in it, in order, none of them missing, and every kind of count is the sum of
those of its tests. -/
theorem C100_found (exec : T → Found) (g : Suites Found T) (hg : SuiteTree g) (sum : Nat → Found) (hs : Totals exec g sum) (x : Nat) (f : Found)
    (hx : g.nodes[x]? = some ⟨f, none⟩) :
    (sum x).1.name = f.1.name ∧ ∃ l ts, g.edges[x]? = some l ∧ Contains g l ts ∧ (sum x).2 = (ts.flatMap fun t => (exec t).2) ∧
      ∀ count : Summary → Nat, (∀ a b, count (a.add b) = count a + count b) → (∀ name, count { name := name } = 0) →
        count (sum x).1 = (ts.map fun t => count (exec t).1).sum := by
  obtain ⟨par, ht⟩ := hg.tree
  obtain ⟨fo, l', a1, a2, a3, a4, a5, a6⟩ := root_forest ht
  obtain ⟨b1, b2⟩ := contains_forest hg ht fo 0 0 l' a1 a2 a3 a4 a5
  have hxl : x < g.edges.length := by rw [← hg.weights]; exact (List.getElem?_eq_some_iff.mp hx).1
  have hex : ∃ l ts, g.edges[x]? = some l ∧ Contains g l ts := by
    rcases List.mem_cons.mp (a6.mem_iff.mpr (List.mem_range.mpr hxl)) with rfl | h
    · rw [List.drop_zero] at b1
      exact ⟨l', _, a4, b1⟩
    · exact b2 x h (by unfold testAt; rw [hx]; rfl)
  obtain ⟨l, ts, c1, c2⟩ := hex
  have hsum := hs _ _ _ hx c1
  simp only at hsum
  obtain ⟨d1, d2⟩ := contains_total hg hs c2
  refine ⟨by rw [hsum, plus_name]; rfl, l, ts, c1, c2, ?_, fun count hc h0 => ?_⟩
  · rw [hsum, plus_messages, List.flatMap_map, d1]
    simp [Found.nothing]
  · rw [hsum, plus_count hc, List.map_map, ← d2 count hc h0]
    simp only [Found.nothing, h0, Nat.zero_add]
    rfl

/-- **C100** The tests at the root are all the tests. -/
theorem C100_all (g : Suites Found T) (hg : SuiteTree g) : ∃ l ts, g.edges[0]? = some l ∧ Contains g l ts ∧ ts.Perm (testsOf g) := by
  obtain ⟨par, ht⟩ := hg.tree
  obtain ⟨fo, l', a1, a2, a3, a4, a5, a6⟩ := root_forest ht
  obtain ⟨b1, _⟩ := contains_forest hg ht fo 0 0 l' a1 a2 a3 a4 a5
  rw [List.drop_zero] at b1
  refine ⟨l', _, a4, b1, ?_⟩
  unfold testsOf
  rw [← RunTests.filterMap_range, hg.weights]
  have h0 : testAt g.nodes 0 = none := by
    unfold testAt
    have : 0 < g.nodes.length := by rw [hg.weights]; exact ht.root_lt
    rw [List.getElem?_eq_getElem this, Option.bind_some]
    exact hg.root _ (List.getElem?_eq_getElem this)
  have := a6.filterMap (testAt g.nodes)
  rwa [List.filterMap_cons, h0] at this

end

/-- A suite with a test and another suite, which has two tests. -/
def reportedSuites : Suites Found Nat :=
  ⟨[⟨Found.nothing "", none⟩, ⟨Found.nothing "t", some 4⟩, ⟨Found.nothing "Inner", none⟩, ⟨Found.nothing "u", some 7⟩, ⟨Found.nothing "v", some 2⟩, ⟨Found.nothing "Outer", none⟩],
    [[⟨5, (), ()⟩], [], [⟨3, (), ()⟩, ⟨4, (), ()⟩], [], [], [⟨1, (), ()⟩, ⟨2, (), ()⟩]]⟩

/-- A test passes as many checks as its number says; the last one fails in the second repetition. -/
def reportSettings (serial verbose : Bool) : Settings Nat where
  parallelizable t := t % 2 == 0
  serial := serial
  verbose := verbose
  schedule _ l := l.reverse
  exec i t := ({ name := if t = 4 then "t" else if t = 7 then "u" else "v", standardTopLevelChecks := t, standardDeepChecks := t, duration := t,
                 standardTopLevelFailures := if t = 2 then i else 0 }, if t = 2 ∧ i = 1 then "oops".toList else [])
  asyncTime _ := 9
  totalTime _ := 20

theorem reported_tree : SuiteTree reportedSuites := by
  refine ⟨rfl, ⟨fun x => if x = 3 ∨ x = 4 then 2 else if x = 1 ∨ x = 2 then 5 else 0, by decide, by decide, ?_, by unfold InRange; decide, by decide⟩, by simp [reportedSuites], ?_⟩
  · intro x hx
    match x, hx with
    | 0, _ => exact .self
    | 1, _ => exact .up (by omega) (.up (by simp) .self)
    | 2, _ => exact .up (by omega) (.up (by simp) .self)
    | 3, _ => exact .up (by omega) (.up (by simp) (.up (by simp) .self))
    | 4, _ => exact .up (by omega) (.up (by simp) (.up (by simp) .self))
    | 5, _ => exact .up (by omega) .self
  · intro x wt hx hne
    match x with
    | 0 => cases hx; exact absurd rfl hne
    | 1 => rfl
    | 2 => cases hx; exact absurd rfl hne
    | 3 => rfl
    | 4 => rfl
    | 5 => cases hx; exact absurd rfl hne
    | n + 6 => simp [reportedSuites] at hx

/-- The hypotheses are met. -/
example : SuiteTree reportedSuites ∧ Fresh reportedSuites ∧ ∀ i l, ((reportSettings false true).schedule i l).Perm l :=
  ⟨reported_tree, by unfold Fresh; decide, fun _ l => List.reverse_perm l⟩

/-- What is printed at the beginning, with several threads. -/
example : (match executeReports (fun _ _ => []) (reportSettings false true) 1 reportedSuites with
    | .ok t => "\nRunning tests...\n\nOuter:\n\tt\n\t[Execution Time: 4ns]\n\t\tStandard".toList.isPrefixOf t
    | _ => false) = true := by decide +kernel

end Verif.Props
