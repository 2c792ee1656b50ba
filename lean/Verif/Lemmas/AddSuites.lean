import Verif.Spec.AddSuites
import Verif.Lemmas.Suite
import Verif.Lemmas.Tree
import Verif.Props.Suite
import Verif.Props.RunTests
set_option linter.unusedSimpArgs false
set_option linter.unusedVariables false
set_option linter.unusedSectionVars false
/- Lemmas about the suites of the test runner. -/
namespace Verif.Suites
open Verif.Graph Verif.Spec Verif.Spec.Suites EdgeLike

section
variable {N W M : Type} [DecidableEq W] [DecidableEq M] (dw : W) (dm : M)

/-- Some edges lead to trees as given by initializers, the nodes being numbered from `lo` to `hi` in the order of the initializers. -/
inductive Shape (g : G N (Edge W M)) : List (Edge W M) → TreeInits N → Nat → Nat → Prop
  | nil {lo : Nat} : Shape g [] .nil lo lo
  | cons {e : Edge W M} {es l : List (Edge W M)} {w : N} {cs rest : TreeInits N} {lo mid hi : Nat} : e.target = lo → g.nodes[lo]? = some w → g.edges[lo]? = some l →
      Shape g l cs (lo + 1) mid → Shape g es rest mid hi → Shape g (e :: es) (.cons w cs rest) lo hi

theorem Shape.le {g : G N (Edge W M)} {l : List (Edge W M)} {t : TreeInits N} {lo hi : Nat} (h : Shape g l t lo hi) : lo ≤ hi := by
  induction h with
  | nil => exact Nat.le_refl _
  | cons _ _ _ _ _ ih1 ih2 => omega

theorem Shape.mono {g g' : G N (Edge W M)} {l : List (Edge W M)} {t : TreeInits N} {lo hi : Nat} (h : Shape g l t lo hi)
    (hs : ∀ i, lo ≤ i → i < hi → g'.nodes[i]? = g.nodes[i]? ∧ g'.edges[i]? = g.edges[i]?) : Shape g' l t lo hi := by
  induction h with
  | nil => exact .nil
  | cons h1 h2 h3 h4 h5 ih1 ih2 =>
    have := h4.le
    have := h5.le
    refine .cons h1 ?_ ?_ (ih1 fun i a b => hs i (by omega) (by omega)) (ih2 fun i a b => hs i (by omega) (by omega))
    · rw [(hs _ (by omega) (by omega)).1, h2]
    · rw [(hs _ (by omega) (by omega)).2, h3]

theorem added_node {g : G N (Edge W M)} (hg : Ready g) {p : Nat} (hp : p < g.edges.length) (w : N) :
    (added dw dm p w g).nodes = g.nodes ++ [w] := by
  rw [added_cons dw dm (by intro h; rw [h] at hp; simp at hp)]

theorem grown_shape : ∀ (t : TreeInits N) {p : Nat} {g : G N (Edge W M)} {l : List (Edge W M)}, Ready g → p < g.edges.length → g.edges[p]? = some l →
    ∃ new, (grown dw dm t p g).edges[p]? = some (l ++ new) ∧ Shape (grown dw dm t p g) new t g.edges.length (grown dw dm t p g).edges.length ∧
      ∀ i, i < g.edges.length → (grown dw dm t p g).nodes[i]? = g.nodes[i]?
  | .nil, p, g, l, hg, hp, hl => ⟨[], by simpa [grown] using hl, .nil, fun _ _ => rfl⟩
  | .cons w cs rest, p, g, l, hg, hp, hl => by
    obtain ⟨h1, h2⟩ := added_ready dw dm hg (p := p) w
    obtain ⟨c1, c2, c3, _⟩ := grown_ready dw dm cs h1 (p := g.edges.length) (by omega)
    obtain ⟨r1, r2, r3, _⟩ := grown_ready dw dm rest c1 (p := p) (by omega)
    obtain ⟨new1, a1, a2, a3⟩ := grown_shape cs (p := g.edges.length) h1 (by omega) (added_last dw dm (.inr hp) w)
    have hp2 : (grown dw dm cs g.edges.length (added dw dm p w g)).edges[p]? = some (l ++ [⟨g.edges.length, dw, dm⟩]) := by
      rw [c3 p (by omega) (by omega), added_other dw dm hp, hl]
      simp
    obtain ⟨new2, b1, b2, b3⟩ := grown_shape rest (p := p) c1 (by omega) hp2
    refine ⟨⟨g.edges.length, dw, dm⟩ :: new2, ?_, ?_, ?_⟩
    · rw [grown, b1]; simp
    · rw [h2] at a2 a3
      have hnl : g.nodes.length = g.edges.length := hg.1
      refine .cons (l := new1) rfl ?_ ?_ (a2.mono fun i hi1 hi2 => ⟨b3 i hi2, r3 i hi2 (by omega)⟩) b2
      · rw [grown, b3 _ (by omega), a3 _ (by omega), added_node dw dm hg hp, ← hnl]
        simp
      · rw [grown, r3 _ (by omega) (by omega), a1]
        simp
    · intro i hi
      rw [grown, b3 i (by omega), a3 i (by omega), added_node dw dm hg hp, List.getElem?_append_left (by rw [hg.1]; exact hi)]

theorem added_tree {g : G N (Edge W M)} (hg : Ready g) {par : Nat → Nat} (ht : TreeOf .forward g.edges 0 par) {p : Nat} (hp : p < g.edges.length) (w : N) :
    ∃ par', TreeOf .forward (added dw dm p w g).edges 0 par' := by
  have h0 := ht.root_lt
  have h := addTo_forward dw dm hg (.inr hp) w
  obtain ⟨s', h1, h2, h3, _, _⟩ := insert_tree .forward dw dm hg.1 ht (pos := g.edges.length) (p := p) w (by omega) (by omega)
  unfold addTo addNodeToTree at h
  rw [h1] at h
  simp only [Res.ok.injEq, Prod.mk.injEq] at h
  rw [← h.1]
  have : raise (min g.edges.length g.edges.length) 0 = 0 := by unfold raise; rw [if_neg (by omega)]
  rw [this] at h3
  exact ⟨_, h3⟩

theorem grown_tree : ∀ (t : TreeInits N) {p : Nat} {g : G N (Edge W M)} {par : Nat → Nat}, Ready g → TreeOf .forward g.edges 0 par → p < g.edges.length →
    ∃ par', TreeOf .forward (grown dw dm t p g).edges 0 par'
  | .nil, p, g, par, hg, ht, hp => ⟨par, ht⟩
  | .cons w cs rest, p, g, par, hg, ht, hp => by
    obtain ⟨h1, h2⟩ := added_ready dw dm hg (p := p) w
    obtain ⟨p1, t1⟩ := added_tree dw dm hg ht hp w
    obtain ⟨c1, c2, c3, _⟩ := grown_ready dw dm cs h1 (p := g.edges.length) (by omega)
    obtain ⟨p2, t2⟩ := grown_tree cs (p := g.edges.length) h1 t1 (by omega)
    exact grown_tree rest c1 t2 (by omega)
end
end Verif.Suites

namespace Verif.AddSuites
open Verif.Graph Verif.Text Verif.Suites Verif.RunTests Verif.RunReport Verif.Spec Verif.Spec.Suites Verif.Spec.AddSuites Verif.Spec.RunReport

section
variable {L T P : Type}

/-- Tests have no children, suites have and start with nothing but their names. -/
def Proper : TreeInits (SuiteNode Found T) → Prop
  | .nil => True
  | .cons w cs rest => (match w.test with | some _ => cs = .nil | none => cs ≠ .nil ∧ w.summary = Found.nothing w.summary.1.name) ∧ Proper cs ∧ Proper rest

/-- The tests in trees, each with the names above it. -/
def testsIn : TreeInits (SuiteNode Found T) → List String → List (T × List String)
  | .nil, _ => []
  | .cons w cs rest, path => (match w.test with | some t => [(t, path)] | none => testsIn cs (path ++ [w.summary.1.name])) ++ testsIn rest path

theorem testsIn_ne_nil : ∀ (t : TreeInits (SuiteNode Found T)) (path : List String), Proper t → t ≠ .nil → testsIn t path ≠ []
  | .nil, _, _, h => absurd rfl h
  | .cons ⟨f, some u⟩ cs rest, path, h, _ => by simp [testsIn]
  | .cons ⟨f, none⟩ cs rest, path, h, _ => by
    have := testsIn_ne_nil cs (path ++ [f.1.name]) h.2.1 h.1.1
    simp [testsIn, this]

theorem shape_holds {g : Suites Found T} {l : List (Edge Unit Unit)} {t : TreeInits (SuiteNode Found T)} {lo hi : Nat} (h : Shape g l t lo hi) (hp : Proper t) :
    ∀ path, Holds g path l (testsIn t path) := by
  induction h with
  | nil => intro path; exact .nil
  | @cons e es l w cs rest lo mid hi h1 h2 h3 h4 h5 ih1 ih2 =>
    intro path
    subst h1
    obtain ⟨f, _ | u⟩ := w
    · exact .suite h2 h3 (testsIn_ne_nil cs _ hp.2.1 hp.1.1) (ih1 hp.2.1 _) (ih2 hp.2.2 path)
    · exact .test h2 (ih2 hp.2.2 path)

theorem shape_nodes {g : Suites Found T} {l : List (Edge Unit Unit)} {t : TreeInits (SuiteNode Found T)} {lo hi : Nat} (h : Shape g l t lo hi) (hp : Proper t) :
    ∀ i wt, lo ≤ i → i < hi → g.nodes[i]? = some wt → (wt.test ≠ none → g.edges[i]? = some []) ∧ (wt.test = none → wt.summary = Found.nothing wt.summary.1.name) := by
  induction h with
  | nil => intro i wt h1 h2; omega
  | @cons e es l w cs rest lo mid hi h1 h2 h3 h4 h5 ih1 ih2 =>
    intro i wt a b hi'
    have := h4.le
    by_cases hi1 : i = lo
    · subst hi1
      rw [h2, Option.some.injEq] at hi'
      subst hi'
      have hp1 := hp.1
      constructor
      · intro ht
        cases hw : w.test with
        | none => exact absurd hw ht
        | some u =>
          rw [hw] at hp1
          simp only at hp1
          subst hp1
          cases h4
          exact h3
      · intro ht
        rw [ht] at hp1
        exact hp1.2
    · by_cases hi2 : i < mid
      · exact ih1 hp.2.1 i wt (by omega) hi2 hi'
      · exact ih2 hp.2.2 i wt (by omega) b hi'

/-! ### What is left of a suite -/

variable (acc : L → List String → Bool) (nameL : L → String) (prep : L → T)

def suiteNode (name : String) : SuiteNode Found T := ⟨Found.nothing name, none⟩
def testNode (l : L) : SuiteNode Found T := ⟨Found.nothing (nameL l), some (prep l)⟩

theorem childless_proper : ∀ ls : List L, Proper (childless (ls.map (testNode nameL prep)))
  | [] => trivial
  | l :: ls => ⟨rfl, trivial, childless_proper ls⟩

theorem childless_tests (path : List String) : ∀ ls : List L, testsIn (childless (ls.map (testNode nameL prep))) path = ls.map fun l => (prep l, path)
  | [] => rfl
  | l :: ls => by
    simp only [List.map_cons, childless, testsIn, testNode, List.singleton_append, List.cons.injEq, true_and]
    exact childless_tests path ls

/-- A single tree, if there is one. -/
def one (t : Option (SuiteNode Found T × TreeInits (SuiteNode Found T))) : TreeInits (SuiteNode Found T) := match t with | none => .nil | some t => .cons t.1 t.2 .nil

/-- A suite with what is left in it. -/
def close (name : String) : TreeInits (SuiteNode Found T) → Option (SuiteNode Found T × TreeInits (SuiteNode Found T))
  | .nil => none
  | .cons w cs rest => some (suiteNode name, .cons w cs rest)

theorem close_spec (name : String) (t : TreeInits (SuiteNode Found T)) (hp : Proper t) (path : List String) :
    Proper (one (close name t)) ∧ testsIn (one (close name t)) path = testsIn t (path ++ [name]) := by
  cases t with
  | nil => exact ⟨trivial, rfl⟩
  | cons w cs rest =>
    refine ⟨⟨⟨by simp, rfl⟩, hp, trivial⟩, ?_⟩
    simp only [close, one, testsIn, suiteNode, Found.nothing, List.append_nil]

mutual
theorem pruned_spec : ∀ (s : Suite String L) (path : List String), Proper (one (pruned acc (suiteNode (T := T)) (testNode nameL prep) path s)) ∧
    testsIn (one (pruned acc (suiteNode (T := T)) (testNode nameL prep) path s)) path = ((located path s).filter fun x => acc x.1 x.2).map fun x => (prep x.1, x.2)
  | .flat s items, path => by
    have hp := childless_proper nameL prep (items.filter fun l => acc l (path ++ [s]))
    have ht := childless_tests nameL prep (path ++ [s]) (items.filter fun l => acc l (path ++ [s]))
    obtain ⟨h1, h2⟩ := close_spec s _ hp path
    rw [ht] at h2
    have hc : pruned acc (suiteNode (T := T)) (testNode nameL prep) path (.flat s items) =
        close s (childless ((items.filter fun l => acc l (path ++ [s])).map (testNode nameL prep))) := by
      rw [pruned]
      cases childless ((items.filter fun l => acc l (path ++ [s])).map (testNode nameL prep)) <;> rfl
    rw [hc]
    refine ⟨h1, ?_⟩
    rw [h2, located]
    simp [List.filter_map, Function.comp_def]
  | .deep s subs, path => by
    obtain ⟨hp, ht⟩ := prunedList_spec subs (path ++ [s])
    obtain ⟨h1, h2⟩ := close_spec s _ hp path
    rw [ht] at h2
    have hc : pruned acc (suiteNode (T := T)) (testNode nameL prep) path (.deep s subs) = close s (prunedList acc suiteNode (testNode nameL prep) (path ++ [s]) subs) := by
      rw [pruned]
      cases prunedList acc (suiteNode (T := T)) (testNode nameL prep) (path ++ [s]) subs <;> rfl
    rw [hc]
    exact ⟨h1, h2⟩

theorem prunedList_spec : ∀ (ss : List (Suite String L)) (path : List String), Proper (prunedList acc (suiteNode (T := T)) (testNode nameL prep) path ss) ∧
    testsIn (prunedList acc (suiteNode (T := T)) (testNode nameL prep) path ss) path = ((locatedList path ss).filter fun x => acc x.1 x.2).map fun x => (prep x.1, x.2)
  | [], path => ⟨trivial, rfl⟩
  | s :: ss, path => by
    obtain ⟨a1, a2⟩ := pruned_spec s path
    obtain ⟨b1, b2⟩ := prunedList_spec ss path
    rw [prunedList, locatedList, List.filter_append, List.map_append, ← a2, ← b2]
    cases h : pruned acc (suiteNode (T := T)) (testNode nameL prep) path s with
    | none => exact ⟨b1, rfl⟩
    | some t =>
      rw [h] at a1
      refine ⟨⟨a1.1, a1.2.1, b1⟩, ?_⟩
      simp only [one, testsIn, List.append_nil]
end

end
end Verif.AddSuites
