import Verif.Model.RunTests
import Verif.Lemmas.Tree
import Verif.Props.Traversal
import Mathlib.Data.List.Perm.Basic
import Mathlib.Data.List.Count
/- Execution of tests. -/
namespace Verif.RunTests
open Verif.Graph Verif.Spec EdgeLike

section
variable {S T : Type} {exec : T → S}

/-- The test at an index. -/
def testAt (nodes : List (SuiteNode S T)) (n : Nat) : Option T := nodes[n]?.bind (·.test)

/-- A node whose test, if any, has been executed. -/
def ran (exec : T → S) (wt : SuiteNode S T) : SuiteNode S T := match wt.test with | some t => ⟨exec t, some t⟩ | none => wt

theorem ran_test (wt : SuiteNode S T) : (ran exec wt).test = wt.test := by
  unfold ran; cases h : wt.test <;> simp [h]

theorem ran_ran (wt : SuiteNode S T) : ran exec (ran exec wt) = ran exec wt := by
  unfold ran
  cases h : wt.test <;> simp [h]

theorem execNode_ok {st : RunState S T} {n : Nat} {t : T} (h : testAt st.nodes n = some t) :
    ∃ wt, st.nodes[n]? = some wt ∧ wt.test = some t ∧
      execNode exec st n = .ok { st with nodes := st.nodes.set n (ran exec wt), executed := st.executed ++ [t] } := by
  unfold testAt at h
  cases hn : st.nodes[n]? with
  | none => rw [hn] at h; simp at h
  | some wt =>
    rw [hn] at h
    simp only [Option.bind_some] at h
    obtain ⟨s, o⟩ := wt
    simp only at h
    subst h
    exact ⟨_, rfl, rfl, by simp [execNode, hn, ran]⟩

theorem testAt_set {nodes : List (SuiteNode S T)} {n : Nat} {wt wt' : SuiteNode S T} (h : nodes[n]? = some wt) (ht : wt'.test = wt.test) (k : Nat) :
    testAt (nodes.set n wt') k = testAt nodes k := by
  unfold testAt
  rw [List.getElem?_set]
  by_cases hk : n = k
  · subst hk
    have hl : n < nodes.length := (List.getElem?_eq_some_iff.mp h).1
    rw [if_pos rfl, if_pos hl, h, Option.bind_some, Option.bind_some, ht]
  · rw [if_neg hk]

theorem execNodes_ok (ns : List Nat) : ∀ {st : RunState S T}, (∀ n ∈ ns, (testAt st.nodes n).isSome = true) →
    ∃ st', execNodes exec ns st = .ok st' ∧ st'.executed = st.executed ++ ns.filterMap (testAt st.nodes) ∧ st'.nodes.length = st.nodes.length ∧
      (∀ k, k ∉ ns → st'.nodes[k]? = st.nodes[k]?) ∧ (∀ k ∈ ns, st'.nodes[k]? = st.nodes[k]?.map (ran exec)) ∧
      st'.depth = st.depth ∧ st'.processed = st.processed ∧ st'.recorded = st.recorded := by
  induction ns with
  | nil => intro st _; exact ⟨st, rfl, by simp, rfl, by simp, by simp, rfl, rfl, rfl⟩
  | cons n ns ih =>
    intro st h
    obtain ⟨t, ht⟩ := Option.isSome_iff_exists.mp (h n (by simp))
    obtain ⟨wt, h1, h2, h3⟩ := execNode_ok (exec := exec) ht
    have hset : ∀ k, testAt (st.nodes.set n (ran exec wt)) k = testAt st.nodes k := testAt_set h1 (ran_test wt)
    obtain ⟨st', e1, e2, e3, e4, e5, e6, e7, e8⟩ := ih (st := { st with nodes := st.nodes.set n (ran exec wt), executed := st.executed ++ [t] }) (by
      intro k hk
      simp only [hset]
      exact h k (by simp [hk]))
    have hl : n < st.nodes.length := (List.getElem?_eq_some_iff.mp h1).1
    refine ⟨st', by rw [execNodes, h3]; exact e1, ?_, by rw [e3, List.length_set], ?_, ?_, e6, e7, e8⟩
    · rw [e2]
      simp only [List.append_assoc, List.filterMap_cons, ht, List.singleton_append]
      congr 2
      exact List.filterMap_congr fun k _ => hset k
    · intro k hk
      rw [e4 k (fun h => hk (by simp [h])), List.getElem?_set, if_neg (fun h => hk (by simp [h]))]
    · intro k hk
      by_cases hkn : k ∈ ns
      · rw [e5 k hkn, List.getElem?_set]
        by_cases hnk : n = k
        · subst hnk
          rw [if_pos rfl, if_pos hl, h1, Option.map_some, Option.map_some, ran_ran]
        · rw [if_neg hnk]
      · have : k = n := by simpa [hkn] using hk
        subst this
        rw [e4 k hkn, List.getElem?_set, if_pos rfl, if_pos hl, h1, Option.map_some]

/-! ### The order of the nodes -/

/-- Suites come first, then tests which are not parallelizable, then the others. -/
def rank (parallelizable : T → Bool) (wt : SuiteNode S T) : Nat :=
  match wt.test with
  | none => 0
  | some t => if parallelizable t then 2 else 1

def rankLt (parallelizable : T → Bool) (a b : SuiteNode S T) : Bool := decide (rank parallelizable a < rank parallelizable b)

theorem rankLt_strict (parallelizable : T → Bool) : StrictWeak (rankLt (S := S) parallelizable) :=
  ⟨by intro a b; simp only [rankLt, decide_eq_true_eq, decide_eq_false_iff_not]; omega,
   by intro a b c; simp only [rankLt, decide_eq_false_iff_not]; omega⟩

theorem rank_le (parallelizable : T → Bool) (wt : SuiteNode S T) : rank parallelizable wt ≤ 2 := by
  unfold rank; split <;> [omega; split <;> omega]

theorem sorted_split (parallelizable : T → Bool) (l : List (SuiteNode S T)) (h : Sorted (rankLt parallelizable) l) :
    ∃ a b c, l = a ++ (b ++ c) ∧ (∀ wt ∈ a, rank parallelizable wt = 0) ∧ (∀ wt ∈ b, rank parallelizable wt = 1) ∧ ∀ wt ∈ c, rank parallelizable wt = 2 := by
  induction l with
  | nil => exact ⟨[], [], [], rfl, by simp, by simp, by simp⟩
  | cons x l ih =>
    unfold Sorted at h ih
    obtain ⟨h1, h2⟩ := List.pairwise_cons.mp h
    obtain ⟨a, b, c, rfl, ha, hb, hc⟩ := ih h2
    have hx : ∀ y ∈ a ++ (b ++ c), rank parallelizable x ≤ rank parallelizable y := by
      intro y hy
      have := h1 y hy
      simp only [rankLt, decide_eq_false_iff_not] at this
      omega
    have hle := rank_le parallelizable x
    by_cases h0 : rank parallelizable x = 0
    · exact ⟨x :: a, b, c, rfl, by simpa [h0] using ha, hb, hc⟩
    · have hae : a = [] := by
        cases a with
        | nil => rfl
        | cons y a => have := hx y (by simp); have := ha y (by simp); omega
      subst hae
      by_cases h3 : rank parallelizable x = 1
      · exact ⟨[], x :: b, c, rfl, by simp, by simpa [h3] using hb, hc⟩
      · have hbe : b = [] := by
          cases b with
          | nil => rfl
          | cons y b => have := hx y (by simp); have := hb y (by simp); omega
        subst hbe
        exact ⟨[], [], x :: c, rfl, by simp, by simp, by intro y hy; rcases List.mem_cons.mp hy with rfl | hy; omega; exact hc y hy⟩

theorem rank_test {parallelizable : T → Bool} {wt : SuiteNode S T} : (rank parallelizable wt = 0 ↔ wt.test = none) ∧
    (rank parallelizable wt = 1 ↔ ∃ t, wt.test = some t ∧ parallelizable t = false) ∧ (rank parallelizable wt = 2 ↔ ∃ t, wt.test = some t ∧ parallelizable t = true) := by
  unfold rank
  cases wt.test with
  | none => simp
  | some t => cases h : parallelizable t <;> simp [h]

theorem findParallelizable_split {parallelizable : T → Bool} (b c : List (SuiteNode S T)) (hb : ∀ wt ∈ b, rank parallelizable wt = 1)
    (hc : ∀ wt ∈ c, rank parallelizable wt = 2) (n : Nat) : findParallelizable parallelizable (b ++ c) n = .ok (n + b.length) := by
  induction b generalizing n with
  | nil =>
    cases c with
    | nil => rfl
    | cons x c =>
      obtain ⟨t, h1, h2⟩ := rank_test.2.2.mp (hc x (by simp))
      obtain ⟨s, o⟩ := x
      simp only at h1
      subst h1
      simp [findParallelizable, h2]
  | cons x b ih =>
    obtain ⟨t, h1, h2⟩ := rank_test.2.1.mp (hb x (by simp))
    obtain ⟨s, o⟩ := x
    simp only at h1
    subst h1
    rw [List.cons_append, findParallelizable, h2]
    simp only [Bool.false_eq_true, if_false]
    rw [ih (fun wt h => hb wt (by simp [h]))]
    simp only [List.length_cons]
    congr 1; omega

theorem findIdx_split (a d : List (SuiteNode S T)) (ha : ∀ wt ∈ a, wt.test = none) (hd : ∀ wt ∈ d, wt.test.isSome = true) :
    (a ++ d).findIdx (fun wt => wt.test.isSome) = a.length := by
  induction a with
  | nil =>
    cases d with
    | nil => rfl
    | cons x d => simp [List.findIdx_cons, hd x (by simp)]
  | cons x a ih =>
    rw [List.cons_append, List.findIdx_cons, ha x (by simp)]
    simp [ih (fun wt h => ha wt (by simp [h]))]

theorem filterMap_testAt (pre l post : List (SuiteNode S T)) :
    (List.range' pre.length l.length).filterMap (testAt (pre ++ (l ++ post))) = l.filterMap (·.test) := by
  induction l generalizing pre with
  | nil => rfl
  | cons x l ih =>
    have h1 : testAt (pre ++ (x :: l ++ post)) pre.length = x.test := by simp [testAt]
    have h2 := ih (pre ++ [x])
    simp only [List.length_append, List.length_cons, List.length_nil, Nat.zero_add, List.append_assoc, List.singleton_append] at h2
    rw [List.length_cons, List.range'_succ, List.filterMap_cons, List.filterMap_cons, h1]
    simp only [List.cons_append] at h2 ⊢
    rw [h2]

/-- Concurrent execution of the nodes of a sorted tree. -/
theorem execConcurrent_ok {parallelizable : T → Bool} {schedule : List Nat → List Nat} (hs : ∀ l, (schedule l).Perm l) {st : RunState S T}
    (h : Sorted (rankLt parallelizable) st.nodes) :
    ∃ st' a b, execConcurrent parallelizable exec schedule st = .ok st' ∧ st'.executed = st.executed ++ (a ++ b) ∧
      (∀ t ∈ a, parallelizable t = false) ∧ (∀ t ∈ b, parallelizable t = true) ∧ (a ++ b).Perm (st.nodes.filterMap (·.test)) ∧
      st'.nodes = st.nodes.map (ran exec) ∧ st'.depth = st.depth ∧ st'.processed = st.processed ∧ st'.recorded = st.recorded := by
  obtain ⟨a, b, c, hn, ha, hb, hc⟩ := sorted_split parallelizable st.nodes h
  have hat : ∀ wt ∈ a, wt.test = none := fun wt hwt => rank_test.1.mp (ha wt hwt)
  have hbt : ∀ wt ∈ b, wt.test.isSome = true := fun wt hwt => by obtain ⟨t, e, _⟩ := rank_test.2.1.mp (hb wt hwt); simp [e]
  have hct : ∀ wt ∈ c, wt.test.isSome = true := fun wt hwt => by obtain ⟨t, e, _⟩ := rank_test.2.2.mp (hc wt hwt); simp [e]
  have hidx : st.nodes.findIdx (fun wt => wt.test.isSome) = a.length := by
    rw [hn]; exact findIdx_split a (b ++ c) hat (by intro wt hwt; rcases List.mem_append.mp hwt with h | h; exact hbt wt h; exact hct wt h)
  have hdrop : st.nodes.drop a.length = b ++ c := by rw [hn]; exact List.drop_left
  have hlen : st.nodes.length = a.length + b.length + c.length := by rw [hn]; simp [Nat.add_assoc]
  have hget : ∀ k, a.length ≤ k → k < st.nodes.length → (testAt st.nodes k).isSome = true := by
    intro k h1 h2
    obtain ⟨i, rfl⟩ : ∃ i, k = a.length + i := ⟨k - a.length, by omega⟩
    have : st.nodes[a.length + i]? = (b ++ c)[i]? := by rw [← hdrop, List.getElem?_drop]
    unfold testAt
    rw [this]
    have hi : i < (b ++ c).length := by rw [List.length_append]; omega
    rw [List.getElem?_eq_getElem hi, Option.bind_some]
    rcases List.mem_append.mp (List.getElem_mem hi) with h | h
    · exact hbt _ h
    · exact hct _ h
  obtain ⟨s1, e1, e2, e3, e4, e5, e6, e7, e8⟩ := execNodes_ok (exec := exec) (List.range' a.length b.length) (st := st) (by
    intro k hk
    rw [List.mem_range'_1] at hk
    exact hget k hk.1 (by omega))
  have htest : ∀ k, testAt s1.nodes k = testAt st.nodes k := by
    intro k
    unfold testAt
    by_cases hk : k ∈ List.range' a.length b.length
    · rw [e5 k hk]
      cases st.nodes[k]? with
      | none => rfl
      | some wt => simp [ran_test]
    · rw [e4 k hk]
  have hsched : ∀ k, k ∈ schedule (List.range' (a.length + b.length) c.length) ↔ a.length + b.length ≤ k ∧ k < st.nodes.length := by
    intro k
    rw [(hs _).mem_iff, List.mem_range'_1]
    omega
  obtain ⟨s2, f1, f2, f3, f4, f5, f6, f7, f8⟩ := execNodes_ok (exec := exec) (schedule (List.range' (a.length + b.length) c.length)) (st := s1) (by
    intro k hk
    rw [hsched] at hk
    rw [htest]
    exact hget k (by omega) hk.2)
  have hserial : (List.range' a.length b.length).filterMap (testAt st.nodes) = b.filterMap (·.test) := by
    rw [hn]; exact filterMap_testAt a b c
  have hpar : ((schedule (List.range' (a.length + b.length) c.length)).filterMap (testAt s1.nodes)).Perm (c.filterMap (·.test)) := by
    have h1 := (hs (List.range' (a.length + b.length) c.length)).filterMap (testAt s1.nodes)
    have h2 : (List.range' (a.length + b.length) c.length).filterMap (testAt s1.nodes) = c.filterMap (·.test) := by
      rw [List.filterMap_congr (g := testAt st.nodes) (fun k _ => htest k), hn]
      have := filterMap_testAt (a ++ b) c []
      simpa using this
    rwa [h2] at h1
  refine ⟨s2, b.filterMap (·.test), (schedule (List.range' (a.length + b.length) c.length)).filterMap (testAt s1.nodes), ?_, ?_, ?_, ?_, ?_, ?_, ?_, ?_, ?_⟩
  · unfold execConcurrent
    simp only [hidx, hdrop, findParallelizable_split b c hb hc, Res.bind]
    rw [Nat.add_sub_cancel_left, e1]
    simp only
    rw [show st.nodes.length - (a.length + b.length) = c.length by omega]
    exact f1
  · rw [f2, e2, hserial, List.append_assoc]
  · intro t ht
    obtain ⟨wt, h1, h2⟩ := List.mem_filterMap.mp ht
    obtain ⟨t', h3, h4⟩ := rank_test.2.1.mp (hb wt h1)
    rw [h3] at h2
    cases h2
    exact h4
  · intro t ht
    rw [hpar.mem_iff] at ht
    obtain ⟨wt, h1, h2⟩ := List.mem_filterMap.mp ht
    obtain ⟨t', h3, h4⟩ := rank_test.2.2.mp (hc wt h1)
    rw [h3] at h2
    cases h2
    exact h4
  · rw [hn, List.filterMap_append, List.filterMap_append, show a.filterMap (·.test) = [] from List.filterMap_eq_nil_iff.mpr hat, List.nil_append]
    exact List.Perm.append_left _ hpar
  · apply List.ext_getElem?
    intro k
    rw [List.getElem?_map]
    by_cases h1 : a.length + b.length ≤ k ∧ k < st.nodes.length
    · rw [f5 k ((hsched k).mpr h1), e4 k (by rw [List.mem_range'_1]; omega)]
    · rw [f4 k (fun h => h1 ((hsched k).mp h))]
      by_cases h2 : k ∈ List.range' a.length b.length
      · rw [e5 k h2]
      · rw [e4 k h2]
        rw [List.mem_range'_1] at h2
        by_cases h3 : k < a.length
        · have hk : st.nodes[k]? = a[k]? := by rw [hn, List.getElem?_append_left h3]
          rw [hk, List.getElem?_eq_getElem h3, Option.map_some]
          unfold ran
          rw [hat _ (List.getElem_mem h3)]
        · rw [List.getElem?_eq_none (by omega)]
          rfl
  · rw [f6, e6]
  · rw [f7, e7]
  · rw [f8, e8]

end
end Verif.RunTests
