import Verif.Props.Help
import Verif.Props.RunnerArgs
import Verif.Spec.RunnerHelp
/-
C103. The help of the runner of tests.
-/
namespace Verif.Props
open Verif.Graph Verif.Text Verif.Help Verif.Spec Verif.Spec.Help
open Verif.Cmd (Opt OptTree parseInvoke)
open Verif.RunnerArgs (forest)

mutual
/-- The options of a tree, in order. -/
def entriesOf (depth : Nat) : OptTree → List (Nat × Opt)
  | .node o cs => (depth, o) :: entriesIn (depth + 1) cs
/-- The options of several trees, in order. -/
def entriesIn (depth : Nat) : List OptTree → List (Nat × Opt)
  | [] => []
  | t :: ts => entriesOf depth t ++ entriesIn depth ts
end

theorem entries_eq {depth : Nat} {ts : List OptTree} {es : List (Nat × Opt)} (h : Entries depth ts es) : es = entriesIn depth ts := by
  induction h with
  | nil => rfl
  | cons _ _ h1 h2 => rw [entriesIn, entriesOf, h1, h2]

/-- **C103** The runner of tests: however its options are stored, the help is as documented, with all options, their aliases and their parameters; asking for it on the command line yields these options, and invokes nothing. -/
theorem C103_runner {gs : List (OptGraph × Nat)} (hg : ∀ p ∈ gs, Tree p) (h : List.Forall₂ (fun p t => Holds p.1 p.2 t) gs forest) :
    generateHelp gs = .ok (runnerHelp.map fun l => l.toList ++ ['\n']).flatten ∧ parseInvoke forest ["--help".toList] = .ok (some forest, []) := by
  obtain ⟨es, h1, h2⟩ := C103_help hg h
  rw [h2, entries_eq h1]
  refine ⟨?_, rfl⟩
  have : text (entriesIn 0 forest) = (runnerHelp.map fun l => l.toList ++ ['\n']).flatten := by decide +kernel
  rw [this]

/-! ### The hypotheses are met by a tree which has all options -/

/-- The children of each node. -/
def runnerChildren : List (List Nat) := [[1, 2, 3, 5, 27, 32, 33, 36, 37, 38, 39, 40], [], [], [4], [], [6, 10, 14, 17, 20, 25], [7, 8, 9], [], [], [], [11, 12, 13], [], [], [], [15, 16], [], [], [18, 19], [], [], [21, 22, 23, 24], [], [], [], [], [26], [], [28, 29, 30, 31], [], [], [], [], [], [34, 35], [], [], [], [], [], [], []]

/-- The parents. -/
def runnerParents : List Nat := [0, 0, 0, 0, 3, 0, 5, 6, 6, 6, 5, 10, 10, 10, 5, 14, 14, 5, 17, 17, 5, 20, 20, 20, 20, 5, 25, 0, 27, 27, 27, 27, 0, 0, 33, 33, 0, 0, 0, 0, 0]

/-- All options in a tree. -/
def runnerGraph : OptGraph := ⟨⟨"options".toList, [], [], none, none⟩ :: (entriesIn 0 forest).map Prod.snd, runnerChildren.map fun l => l.map fun n => ⟨n, (), ()⟩⟩

mutual
/-- Whether the graph has the tree. -/
def holdsB (g : OptGraph) (n : Nat) : OptTree → Bool
  | .node o cs => decide (g.nodes[n]? = some o) && match g.edges[n]? with
    | some l => holdsAll g (l.map fun e => e.target) cs
    | none => false
/-- Whether the graph has the trees. -/
def holdsAll (g : OptGraph) : List Nat → List OptTree → Bool
  | [], [] => true
  | n :: ns, t :: ts => holdsB g n t && holdsAll g ns ts
  | _, _ => false
end

mutual
theorem holds_of (g : OptGraph) : ∀ (t : OptTree) (n : Nat), holdsB g n t = true → Holds g n t
  | .node o cs, n, h => by
    rw [holdsB] at h
    simp only [Bool.and_eq_true, decide_eq_true_eq] at h
    cases he : g.edges[n]? with
    | none => simp [he] at h
    | some l =>
      simp only [he] at h
      have h2 := holdsAll_of g cs _ h.2
      refine .node h.1 he (by simpa using h2.1) ?_
      intro i e c hi hc
      exact h2.2 i e.target c (by simp [hi]) hc
theorem holdsAll_of (g : OptGraph) : ∀ (ts : List OptTree) (ns : List Nat), holdsAll g ns ts = true → ns.length = ts.length ∧ ∀ (i n : Nat) (t : OptTree), ns[i]? = some n → ts[i]? = some t → Holds g n t
  | [], [], _ => ⟨rfl, by simp⟩
  | [], _ :: _, h => by simp [holdsAll] at h
  | _ :: _, [], h => by simp [holdsAll] at h
  | t :: ts, n :: ns, h => by
    rw [holdsAll, Bool.and_eq_true] at h
    have h2 := holdsAll_of g ts ns h.2
    have h1 := holds_of g t n h.1
    refine ⟨by simp [h2.1], ?_⟩
    intro i m u hi hu
    cases i with
    | zero => simp at hi hu; subst hi; subst hu; exact h1
    | succ i => exact h2.2 i m u (by simpa using hi) (by simpa using hu)
end

theorem runnerGraph_tree {n : Nat} (h : n < 41) : Tree (runnerGraph, n) := by
  have hlen : runnerGraph.edges.length = 41 := by decide +kernel
  show runnerGraph.nodes.length = runnerGraph.edges.length ∧ (∀ o ∈ runnerGraph.nodes, Printable o) ∧ (∃ par, TreeOf .forward runnerGraph.edges 0 par) ∧ n < runnerGraph.edges.length
  refine ⟨by decide +kernel, ?_, ⟨fun x => runnerParents.getD x 0, ?_, ?_, ?_, ?_, ?_⟩, by rw [hlen]; exact h⟩
  · unfold Printable; decide +kernel
  · rw [hlen]; decide
  · rw [hlen]; decide +kernel
  · rw [hlen]
    intro x hx
    have hb : ∀ x < 41, x ≠ 0 → runnerParents.getD x 0 < x := by decide +kernel
    induction x using Nat.strongRecOn with
    | _ x ih =>
      by_cases h0 : x = 0
      · subst h0; exact .self
      · have := hb x hx h0
        exact .up h0 (ih _ this (by omega))
  · unfold InRange; decide +kernel
  · rw [hlen]; decide +kernel

example : (∀ p ∈ (runnerChildren.headD []).map fun n => (runnerGraph, n), Tree p) ∧
    List.Forall₂ (fun p t => Holds p.1 p.2 t) ((runnerChildren.headD []).map fun n => (runnerGraph, n)) forest := by
  constructor
  · intro p hp
    obtain ⟨n, hn, rfl⟩ := List.mem_map.1 hp
    exact runnerGraph_tree ((by decide : ∀ n ∈ runnerChildren.headD [], n < 41) n hn)
  · have h : holdsAll runnerGraph (runnerChildren.headD []) forest = true := by decide +kernel
    have h2 := holdsAll_of _ _ _ h
    rw [List.forall₂_iff_get]
    refine ⟨by simpa using h2.1, ?_⟩
    intro i hi hj
    simp only [List.get_eq_getElem, List.getElem_map]
    exact h2.2 i _ _ (List.getElem?_eq_getElem (by simpa using hi)) (List.getElem?_eq_getElem hj)

end Verif.Props
