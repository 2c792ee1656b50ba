import Verif.Lemmas.RunTestsTree
import Verif.Props.SortNodes

/-! Property C55: the tests are sorted, executed and reported. -/
namespace Verif.Props
open Verif.Spec Verif.Graph Verif.SortNodes Verif.RunTests

section
variable {S T : Type}

/-- The tests of a tree of suites. -/
def testsOf (g : Suites S T) : List T := g.nodes.filterMap (·.test)

/-- The trees which are built by adding suites: there is a node for every weight, the root is a suite, and tests contain nothing. -/
structure SuiteTree (g : Suites S T) : Prop where
  weights : g.nodes.length = g.edges.length
  tree : ∃ par, TreeOf .forward g.edges 0 par
  root : ∀ wt : SuiteNode S T, g.nodes[0]? = some wt → wt.test = none
  leaves : ∀ (x : Nat) (wt : SuiteNode S T), g.nodes[x]? = some wt → wt.test ≠ none → g.edges[x]? = some []

/-- Suites come first, then the tests which are not parallelizable, then those which are. -/
def InOrder (parallelizable : T → Bool) (g : Suites S T) : Prop :=
  ∀ (i j : Nat) (a b : SuiteNode S T) (t : T), i < j → g.nodes[i]? = some a → g.nodes[j]? = some b → a.test = some t →
    ∃ u, b.test = some u ∧ (parallelizable t = true → parallelizable u = true)

/-- The summary of every node is what it had itself (for a test, what its execution gave) to which the summaries of what it contains have been added, in order. -/
def AddedUp (exec : T → S) (add : S → S → S) (g : Suites S T) (nodes : List (SuiteNode S T)) : Prop :=
  ∀ (x : Nat) (wt : SuiteNode S T), g.nodes[x]? = some wt → ∃ (l : List (Edge Unit Unit)) (children : List (SuiteNode S T)), g.edges[x]? = some l ∧ (l.map fun e => nodes[e.target]?) = children.map some ∧
    nodes[x]? = some ⟨children.foldl (fun s child => add s child.summary) (match wt.test with | some t => exec t | none => wt.summary), wt.test⟩

namespace RunTests
variable {exec : T → S} {add : S → S → S} {parallelizable : T → Bool}

theorem respects : Respects (testsComp (S := S) parallelizable) (rankLt parallelizable) := by
  rintro w i j ⟨sa, ta⟩ ⟨sb, tb⟩ ha hb
  simp only [testsComp, ha, hb, rankLt, Verif.RunTests.rank]
  cases ta with
  | none =>
    cases tb with
    | none => simp
    | some u => simp
  | some t =>
    cases tb with
    | none => simp
    | some u => cases h1 : parallelizable t <;> cases h2 : parallelizable u <;> simp [h1, h2]

theorem filterMap_range (nodes : List (SuiteNode S T)) : (List.range nodes.length).filterMap (testAt nodes) = nodes.filterMap (·.test) := by
  have := filterMap_testAt [] nodes []
  simpa [List.range_eq_range'] using this

theorem renumbered_old {g g' : Suites S T} {old new : Nat → Nat} (h : Renumbered g g' old new) : ((List.range g'.nodes.length).map old).Perm (List.range g.nodes.length) := by
  have hlt : ∀ k, k < g'.nodes.length ↔ old k < g.nodes.length := by
    intro k
    have := h.nodes k
    constructor
    · intro hk
      rw [List.getElem?_eq_getElem hk] at this
      exact (List.getElem?_eq_some_iff.mp this.symm).1
    · intro hk
      rw [List.getElem?_eq_getElem hk] at this
      exact (List.getElem?_eq_some_iff.mp this).1
  rw [List.perm_ext_iff_of_nodup _ List.nodup_range]
  · intro x
    simp only [List.mem_map, List.mem_range]
    constructor
    · rintro ⟨k, hk, rfl⟩; exact (hlt k).mp hk
    · intro hx; exact ⟨new x, (hlt _).mpr (by rw [(h.inverse x).2]; exact hx), (h.inverse x).2⟩
  · unfold List.Nodup
    rw [List.pairwise_map]
    refine List.Pairwise.imp (fun {a b} hab hc => hab ?_) List.nodup_range
    rw [← (h.inverse a).1, hc, (h.inverse b).1]

theorem renumbered_perm {g g' : Suites S T} {old new : Nat → Nat} (h : Renumbered g g' old new) : (testsOf g').Perm (testsOf g) := by
  unfold testsOf
  rw [← filterMap_range, ← filterMap_range]
  have := (renumbered_old h).filterMap (testAt g.nodes)
  rw [List.filterMap_map] at this
  refine List.Perm.trans (List.Perm.of_eq ?_) this
  refine List.filterMap_congr fun x _ => ?_
  simp only [Function.comp, testAt, h.nodes x]

theorem sorted {g : Suites S T} (hg : SuiteTree g) :
    ∃ g', sortTests parallelizable g = .ok g' ∧ SuiteTree g' ∧ Sorted (rankLt parallelizable) g'.nodes ∧
      ∃ old new, Renumbered g g' old new ∧ old 0 = 0 := by
  obtain ⟨par, ht⟩ := hg.tree
  obtain ⟨g', h1, h2, ⟨old, new, h3, h4⟩, h5⟩ :=
    C61_sort_nodes_tree (rankLt_strict (S := S) parallelizable) respects g hg.weights ht (first := 1) (last := g.edges.length) (by omega) ht.root_lt (Nat.le_refl _)
  have h0 : old 0 = 0 := h4 0 (by omega)
  have hw : g'.nodes.length = g'.edges.length := by rw [h3.order.1, h3.order.2, hg.weights]
  refine ⟨g', h1, ⟨hw, h2, ?_, ?_⟩, ?_, old, new, h3, h0⟩
  · intro wt hwt
    rw [h3.nodes, h0] at hwt
    exact hg.root wt hwt
  · intro x wt hx hne
    rw [h3.nodes] at hx
    rw [h3.edges, hg.leaves _ _ hx hne]
    rfl
  · have hlen : (g'.nodes.drop 1).length ≤ g.edges.length - 1 := by rw [List.length_drop, h3.order.1, hg.weights]; exact Nat.le_refl _
    rw [List.take_of_length_le hlen] at h5
    cases hn : g'.nodes with
    | nil => exact List.Pairwise.nil
    | cons r l =>
      rw [hn, List.drop_one, List.tail_cons] at h5
      refine List.Pairwise.cons ?_ h5
      intro b _
      have hr : r.test = none := hg.root r (by rw [← h0, ← h3.nodes, hn]; rfl)
      have : Verif.RunTests.rank parallelizable r = 0 := rank_test.1.mpr hr
      simp [rankLt, this]

theorem in_order {g : Suites S T} (h : Sorted (rankLt parallelizable) g.nodes) : InOrder parallelizable g := by
  intro i j a b t hij hi hj ha
  have hs := List.pairwise_iff_getElem.mp h
  obtain ⟨h1, rfl⟩ := List.getElem?_eq_some_iff.mp hi
  obtain ⟨h2, rfl⟩ := List.getElem?_eq_some_iff.mp hj
  have := hs i j h1 h2 hij
  simp only [rankLt, decide_eq_false_iff_not, Nat.not_lt, Verif.RunTests.rank, ha] at this
  cases hb : (g.nodes[j]).test with
  | none =>
    rw [hb] at this
    cases hp : parallelizable t <;> simp [hp] at this
  | some u =>
    rw [hb] at this
    refine ⟨u, rfl, fun hp => ?_⟩
    cases hu : parallelizable u
    · simp [hp, hu] at this
    · rfl

/-- Running the tests of a tree, which is sorted if execution is concurrent. -/
theorem run_ok {g : Suites S T} {serial : Bool} {schedule : List Nat → List Nat} (hs : ∀ l, (schedule l).Perm l) (hg : SuiteTree g)
    (hsort : serial = false → Sorted (rankLt parallelizable) g.nodes) :
    ∃ (st : RunState S T) (order : List Nat), runTests parallelizable exec add serial schedule g = .ok st ∧ st.executed.Perm (testsOf g) ∧
      (serial = false → ∃ a b, st.executed = a ++ b ∧ (∀ t ∈ a, parallelizable t = false) ∧ (∀ t ∈ b, parallelizable t = true)) ∧
      st.nodes.length = g.nodes.length ∧
      (∀ x < g.nodes.length, ∃ wt l sum, g.nodes[x]? = some wt ∧ g.edges[x]? = some l ∧ addUp add st.nodes l (ran exec wt).summary = .ok sum ∧
        st.nodes[x]? = some ⟨sum, wt.test⟩) ∧
      order.Perm (List.range g.nodes.length) ∧ st.processed = order.filterMap (result st.nodes) ∧ st.recorded = [st.processed] := by
  obtain ⟨par, ht⟩ := hg.tree
  cases serial with
  | true =>
    obtain ⟨events, st, visited, order, h1, h2, h3, h4, h5, h6, h7, h8, h9⟩ :=
      events_ok (exec := exec) (add := add) (serial := true) ht (executed := []) hg.weights
    refine ⟨st, order, ?_, ?_, by simp, h5, ?_, ?_, h8, h9⟩
    · simp only [runTests, if_true, Res.bind, h1, h2]
    · rw [h7]
      simp only [if_true, List.nil_append, testsOf]
      rw [← filterMap_range, hg.weights]
      exact h3.filterMap _
    · rw [hg.weights]; exact h6
    · rw [hg.weights]; exact h4
  | false =>
    obtain ⟨st0, a, b, c1, c2, c3, c4, c5, c6, c7, c8, c9⟩ :=
      execConcurrent_ok (exec := exec) hs (st := ⟨g.nodes, [], -1, [], []⟩) (hsort rfl)
    have hst0 : st0 = ⟨g.nodes.map (ran exec), a ++ b, -1, [], []⟩ := by
      cases st0
      simp only [List.nil_append] at c2 c6 c7 c8 c9
      simp [c2, c6, c7, c8, c9]
    obtain ⟨events, st, visited, order, h1, h2, h3, h4, h5, h6, h7, h8, h9⟩ :=
      events_ok (exec := exec) (add := add) (serial := false) ht (nodes := g.nodes.map (ran exec)) (executed := a ++ b) (by simpa using hg.weights)
    simp only [Bool.false_eq_true, if_false, List.append_nil] at h7
    refine ⟨st, order, ?_, ?_, ?_, by simpa using h5, ?_, ?_, h8, h9⟩
    · simp only [runTests, Bool.false_eq_true, if_false, c1, Res.bind, h1]
      rw [hst0]; exact h2
    · rw [h7]; exact c5
    · intro _; exact ⟨a, b, h7, c3, c4⟩
    · intro x hx
      rw [hg.weights] at hx
      obtain ⟨wt, l, sum, b1, b2, b3, b4⟩ := h6 x hx
      rw [List.getElem?_map] at b1
      cases hgx : g.nodes[x]? with
      | none => rw [hgx] at b1; cases b1
      | some wt0 =>
        rw [hgx, Option.map_some] at b1
        cases b1
        refine ⟨wt0, l, sum, rfl, b2, by simpa [own] using b3, ?_⟩
        rw [b4, ran_test]
    · rw [hg.weights]; exact h4

theorem execute_ok {g : Suites S T} {serial : Bool} {schedule : List Nat → List Nat} (hs : ∀ l, (schedule l).Perm l) (hg : SuiteTree g) :
    ∃ (g' : Suites S T) (old new : Nat → Nat) (st : RunState S T) (order : List Nat), execute parallelizable exec add serial schedule g = .ok st ∧
      Renumbered g g' old new ∧ old 0 = 0 ∧ SuiteTree g' ∧ (serial = true → g' = g) ∧ st.executed.Perm (testsOf g) ∧
      (serial = false → ∃ a b, st.executed = a ++ b ∧ (∀ t ∈ a, parallelizable t = false) ∧ (∀ t ∈ b, parallelizable t = true)) ∧
      st.nodes.length = g'.nodes.length ∧
      (∀ x < g'.nodes.length, ∃ wt l sum, g'.nodes[x]? = some wt ∧ g'.edges[x]? = some l ∧ addUp add st.nodes l (ran exec wt).summary = .ok sum ∧
        st.nodes[x]? = some ⟨sum, wt.test⟩) ∧
      order.Perm (List.range g'.nodes.length) ∧ st.processed = order.filterMap (result st.nodes) ∧ st.recorded = [st.processed] := by
  cases serial with
  | true =>
    obtain ⟨st, order, h1, h2, h3, h4, h5, h6⟩ := run_ok (exec := exec) (add := add) (parallelizable := parallelizable) (serial := true) hs hg (by simp)
    exact ⟨g, id, id, st, order, by simpa [execute, Res.bind] using h1, SortNodes.Renumbered.refl g, rfl, hg, fun _ => rfl, h2, by simp, h4, h5, h6⟩
  | false =>
    obtain ⟨g', e1, hg', hsort, old, new, hr, h0⟩ := sorted (parallelizable := parallelizable) hg
    obtain ⟨st, order, h1, h2, h3, h4, h5, h6⟩ := run_ok (exec := exec) (add := add) (parallelizable := parallelizable) (serial := false) hs hg' (fun _ => hsort)
    exact ⟨g', old, new, st, order, by simpa [execute, Res.bind, e1] using h1, hr, h0, hg', by simp, h2.trans (renumbered_perm hr), h3, h4, h5, h6⟩

theorem addUp_foldl {nodes : List (SuiteNode S T)} {l : List (Edge Unit Unit)} {a sum : S} (h : addUp add nodes l a = .ok sum) :
    ∃ children : List (SuiteNode S T), (l.map fun e => nodes[e.target]?) = children.map some ∧ sum = children.foldl (fun s child => add s child.summary) a := by
  induction l generalizing a with
  | nil => cases h; exact ⟨[], rfl, rfl⟩
  | cons e l ih =>
    rw [addUp] at h
    cases hn : nodes[e.target]? with
    | none => rw [hn] at h; cases h
    | some wt =>
      rw [hn] at h
      obtain ⟨children, h1, h2⟩ := ih h
      exact ⟨wt :: children, by simp [hn, h1], h2⟩

theorem ran_summary (wt : SuiteNode S T) : (ran exec wt).summary = match wt.test with | some t => exec t | none => wt.summary := by
  unfold ran; cases wt.test <;> rfl

theorem count_foldl {c : S → Nat} (hc : ∀ a b, c (add a b) = c a + c b) (children : List (SuiteNode S T)) (a : S) :
    c (children.foldl (fun s child => add s child.summary) a) = c a + (children.map fun child => c child.summary).sum := by
  induction children generalizing a with
  | nil => simp
  | cons wt l ih => rw [List.foldl_cons, ih, hc, List.map_cons, List.sum_cons, Nat.add_assoc]

theorem root_count {g : Suites S T} {nodes : List (SuiteNode S T)} (hg : SuiteTree g) {c : S → Nat} (hc : ∀ a b, c (add a b) = c a + c b) (hadd : AddedUp exec add g nodes)
    (hlen : nodes.length = g.nodes.length) :
    ∃ wt, nodes[0]? = some wt ∧ c wt.summary = (g.nodes.map fun wt => match wt.test with | some t => c (exec t) | none => c wt.summary).sum := by
  obtain ⟨par, ht⟩ := hg.tree
  have hpos : 0 < nodes.length := by rw [hlen, hg.weights]; exact ht.root_lt
  let F : Nat → Nat := fun x => match nodes[x]? with | some wt => c wt.summary | none => 0
  let O : Nat → Nat := fun x => match g.nodes[x]? with | some wt => (match wt.test with | some t => c (exec t) | none => c wt.summary) | none => 0
  let C : Nat → Nat := fun x => match g.edges[x]? with | some l => (l.map fun e => F e.target).sum | none => 0
  refine ⟨nodes[0], List.getElem?_eq_getElem hpos, ?_⟩
  have hF : ∀ x < g.nodes.length, F x = O x + C x := by
    intro x hx
    obtain ⟨l, children, h1, h2, h3⟩ := hadd x _ (List.getElem?_eq_getElem hx)
    have hsum : (children.map fun child => c child.summary).sum = (l.map fun e => F e.target).sum := by
      congr 1
      have : (l.map fun e => F e.target) = (l.map fun e => nodes[e.target]?).map fun o => match o with | some wt => c wt.summary | none => 0 := by
        rw [List.map_map]; rfl
      rw [this, h2, List.map_map]
      rfl
    simp only [F, O, C, h1, h3, List.getElem?_eq_getElem hx, count_foldl hc, hsum]
    cases (g.nodes[x]).test <;> rfl
  have hmap : ∀ n, n ≤ g.nodes.length → ((List.range n).map F).sum = ((List.range n).map O).sum + ((List.range n).map C).sum := by
    intro n hn
    induction n with
    | zero => rfl
    | succ n ih =>
      rw [List.range_succ, List.map_append, List.map_append, List.map_append, List.sum_append, List.sum_append, List.sum_append, ih (by omega)]
      simp only [List.map_cons, List.map_nil, List.sum_cons, List.sum_nil, hF n (by omega)]
      omega
  have hC : ((List.range g.nodes.length).map C).sum = ((g.edges.flatMap fun l => l.map EdgeLike.target).map F).sum := by
    have hr : ∀ (s : Links), ((List.range s.length).map fun x => match s[x]? with | some l => (l.map fun e => F e.target).sum | none => 0).sum =
        ((s.flatMap fun l => l.map EdgeLike.target).map F).sum := by
      intro s
      have : ((List.range s.length).map fun x => match s[x]? with | some l => (l.map fun e => F e.target).sum | none => 0) = s.map fun l => (l.map fun e => F e.target).sum := by
        apply List.ext_getElem
        · simp
        · intro i h1 h2
          simp only [List.getElem_map, List.getElem_range]
          rw [List.getElem?_eq_getElem (by simpa using h1)]
      rw [this]
      induction s with
      | nil => rfl
      | cons l s ih =>
        rw [List.flatMap_cons, List.map_append, List.sum_append, List.map_cons, List.sum_cons, List.map_map]
        congr 1
        refine ih ?_
        apply List.ext_getElem
        · simp
        · intro i h1 h2
          simp only [List.getElem_map, List.getElem_range]
          rw [List.getElem?_eq_getElem (by simpa using h1)]
    rw [hg.weights]
    exact hr g.edges
  have hperm := ((targets_perm ht).map F).sum_nat
  have hall := hmap _ (Nat.le_refl _)
  rw [hC] at hall
  rw [List.map_cons, List.sum_cons, ← hg.weights] at hperm
  have hF0 : F 0 = c nodes[0].summary := by simp only [F, List.getElem?_eq_getElem hpos]
  have hO : (List.range g.nodes.length).map O = g.nodes.map fun wt => match wt.test with | some t => c (exec t) | none => c wt.summary := by
    apply List.ext_getElem
    · simp
    · intro i h1 h2
      simp only [List.getElem_map, List.getElem_range, O]
      rw [List.getElem?_eq_getElem (by simpa using h1)]
  rw [hO] at hall
  omega

end RunTests

/-- C55, sorting: the tree is only renumbered, its root stays, and suites come first, then the tests which are not parallelizable, then those which are. -/
theorem C55_sort_tests (parallelizable : T → Bool) (g : Suites S T) (hg : SuiteTree g) :
    ∃ g', sortTests parallelizable g = .ok g' ∧ SuiteTree g' ∧ InOrder parallelizable g' ∧ ∃ old new, Renumbered g g' old new ∧ old 0 = 0 := by
  obtain ⟨g', h1, h2, h3, h4⟩ := RunTests.sorted (parallelizable := parallelizable) hg
  exact ⟨g', h1, h2, RunTests.in_order h3, h4⟩

/-- C55, execution: every test is executed exactly once, serially or concurrently and however the threads take the tests; in concurrent mode the tests which are not
parallelizable are executed before any which is. -/
theorem C55_executed (parallelizable : T → Bool) (exec : T → S) (add : S → S → S) (serial : Bool) (schedule : List Nat → List Nat) (hs : ∀ l, (schedule l).Perm l)
    (g : Suites S T) (hg : SuiteTree g) :
    ∃ st, execute parallelizable exec add serial schedule g = .ok st ∧ st.executed.Perm (testsOf g) ∧
      (serial = false → ∃ a b, st.executed = a ++ b ∧ (∀ t ∈ a, parallelizable t = false) ∧ (∀ t ∈ b, parallelizable t = true)) := by
  obtain ⟨g', old, new, st, order, h1, _, _, _, _, h2, h3, _⟩ := RunTests.execute_ok (exec := exec) (add := add) (parallelizable := parallelizable) (serial := serial) hs hg
  exact ⟨st, h1, h2, h3⟩

/-- C55, reports: what has been found is recorded exactly once, when all tests have been processed; and for every test what is recorded is what its execution gave. -/
theorem C55_recorded (parallelizable : T → Bool) (exec : T → S) (add : S → S → S) (serial : Bool) (schedule : List Nat → List Nat) (hs : ∀ l, (schedule l).Perm l)
    (g : Suites S T) (hg : SuiteTree g) :
    ∃ st processed, execute parallelizable exec add serial schedule g = .ok st ∧ st.recorded = [processed] ∧ processed.Perm ((testsOf g).map fun t => (t, exec t)) := by
  obtain ⟨g', old, new, st, order, h1, hr, h0, hg', _, h2, h3, hlen, hsum, hord, hpr, hrec⟩ :=
    RunTests.execute_ok (exec := exec) (add := add) (parallelizable := parallelizable) (serial := serial) hs hg
  refine ⟨st, st.processed, h1, hrec, ?_⟩
  rw [hpr]
  refine (hord.filterMap _).trans ?_
  refine List.Perm.trans (List.Perm.of_eq ?_) ((RunTests.renumbered_perm hr).map fun t => (t, exec t))
  unfold testsOf
  rw [← RunTests.filterMap_range, List.map_filterMap]
  refine List.filterMap_congr fun x hx => ?_
  obtain ⟨wt, l, sum, b1, b2, b3, b4⟩ := hsum x (List.mem_range.mp hx)
  simp only [result, testAt, b1, b4, Option.bind_some]
  cases ht : wt.test with
  | none => rfl
  | some t =>
    have := hg'.leaves x wt b1 (by simp [ht])
    rw [this] at b2
    cases b2
    simp only [addUp, RunTests.ran_summary, ht] at b3
    cases b3
    rfl

/-- C55, summaries of suites: in the end, the summary of every node is that of the node itself with those of what it contains added to it. -/
theorem C55_suites (parallelizable : T → Bool) (exec : T → S) (add : S → S → S) (serial : Bool) (schedule : List Nat → List Nat) (hs : ∀ l, (schedule l).Perm l)
    (g : Suites S T) (hg : SuiteTree g) :
    ∃ st g' old new, execute parallelizable exec add serial schedule g = .ok st ∧ Renumbered g g' old new ∧ old 0 = 0 ∧ (serial = true → g' = g) ∧
      AddedUp exec add g' st.nodes := by
  obtain ⟨g', old, new, st, order, h1, hr, h0, hg', hser, h2, h3, hlen, hsum, hord, hpr, hrec⟩ :=
    RunTests.execute_ok (exec := exec) (add := add) (parallelizable := parallelizable) (serial := serial) hs hg
  refine ⟨st, g', old, new, h1, hr, h0, hser, ?_⟩
  intro x wt hx
  obtain ⟨wt', l, sum, b1, b2, b3, b4⟩ := hsum x (List.getElem?_eq_some_iff.mp hx).1
  rw [hx] at b1
  cases b1
  obtain ⟨children, c1, c2⟩ := RunTests.addUp_foldl b3
  refine ⟨l, children, b2, c1, ?_⟩
  rw [b4, c2, RunTests.ran_summary]

/-- C55, grand total: whatever is counted, the number at the root is the sum of the numbers of all tests, provided suites start from nothing. -/
theorem C55_total (parallelizable : T → Bool) (exec : T → S) (add : S → S → S) (serial : Bool) (schedule : List Nat → List Nat) (hs : ∀ l, (schedule l).Perm l)
    (g : Suites S T) (hg : SuiteTree g) (count : S → Nat) (hc : ∀ a b, count (add a b) = count a + count b)
    (hz : ∀ wt ∈ g.nodes, wt.test = none → count wt.summary = 0) :
    ∃ st root, execute parallelizable exec add serial schedule g = .ok st ∧ st.nodes[0]? = some root ∧
      count root.summary = ((testsOf g).map fun t => count (exec t)).sum := by
  obtain ⟨g', old, new, st, order, h1, hr, h0, hg', hser, h2, h3, hlen, hsum, hord, hpr, hrec⟩ :=
    RunTests.execute_ok (exec := exec) (add := add) (parallelizable := parallelizable) (serial := serial) hs hg
  have hadd : AddedUp exec add g' st.nodes := by
    intro x wt hx
    obtain ⟨wt', l, sum, b1, b2, b3, b4⟩ := hsum x (List.getElem?_eq_some_iff.mp hx).1
    rw [hx] at b1
    cases b1
    obtain ⟨children, c1, c2⟩ := RunTests.addUp_foldl b3
    exact ⟨l, children, b2, c1, by rw [b4, c2, RunTests.ran_summary]⟩
  obtain ⟨root, r1, r2⟩ := RunTests.root_count hg' hc hadd hlen
  refine ⟨st, root, h1, r1, ?_⟩
  rw [r2, ← ((RunTests.renumbered_perm hr).map fun t => count (exec t)).sum_nat]
  have hz' : ∀ wt ∈ g'.nodes, wt.test = none → count wt.summary = 0 := by
    intro wt hwt
    obtain ⟨k, hk, rfl⟩ := List.getElem_of_mem hwt
    have := hr.nodes k
    rw [List.getElem?_eq_getElem hk] at this
    exact hz _ (List.mem_of_getElem? this.symm)
  unfold testsOf
  generalize g'.nodes = l at hz'
  induction l with
  | nil => rfl
  | cons wt l ih =>
    rw [List.map_cons, List.sum_cons, ih (fun w h => hz' w (by simp [h]))]
    cases ht : wt.test with
    | none => simp [ht, hz' wt (by simp) ht]
    | some t => simp [ht]

end

/-- The hypotheses are met: a suite of a suite, with one test which is parallelizable and one which is not, and another test. -/
def someSuites : Suites Nat Nat :=
  ⟨[⟨0, none⟩, ⟨0, some 4⟩, ⟨0, none⟩, ⟨0, some 7⟩, ⟨0, some 2⟩], [[⟨1, (), ()⟩, ⟨2, (), ()⟩], [], [⟨3, (), ()⟩, ⟨4, (), ()⟩], [], []]⟩

example : SuiteTree someSuites := by
  refine ⟨rfl, ⟨fun x => if x = 3 ∨ x = 4 then 2 else 0, by decide, by decide, ?_, by unfold InRange; decide, by decide⟩, by simp [someSuites], ?_⟩
  · intro x hx
    match x, hx with
    | 0, _ => exact .self
    | 1, _ => exact .up (by omega) .self
    | 2, _ => exact .up (by omega) .self
    | 3, _ => exact .up (by omega) (.up (by simp) .self)
    | 4, _ => exact .up (by omega) (.up (by simp) .self)
  · intro x wt hx hne
    match x with
    | 0 => cases hx; exact absurd rfl hne
    | 1 => rfl
    | 2 => cases hx; exact absurd rfl hne
    | 3 => rfl
    | 4 => rfl
    | n + 5 => simp [someSuites] at hx

example : (execute (fun t => t % 2 == 0) (fun t => 10 * t) (· + ·) false List.reverse someSuites) =
    .ok ⟨[⟨130, none⟩, ⟨90, none⟩, ⟨70, some 7⟩, ⟨40, some 4⟩, ⟨20, some 2⟩], [7, 2, 4], -1, [(4, 40), (7, 70), (2, 20)],
      [[(4, 40), (7, 70), (2, 20)]]⟩ := by decide +kernel

end Verif.Props
