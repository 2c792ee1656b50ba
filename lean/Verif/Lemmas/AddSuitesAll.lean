import Verif.Lemmas.AddSuites
set_option linter.unusedSimpArgs false
set_option linter.unusedVariables false
set_option linter.unusedSectionVars false
/- Lemmas about adding several suites to the test runner. -/
namespace Verif.AddSuites
open Verif.Graph Verif.Text Verif.Suites Verif.RunTests Verif.RunReport Verif.Spec Verif.Spec.Suites Verif.Spec.AddSuites Verif.Spec.RunReport

section
variable {L T P : Type} [DecidableEq P] (a : About L T P)

theorem checkForDuplicates_spec : ∀ (ts : List L) (seen : List (String × P)),
    (((ts.map fun t => (a.name t, a.source t)).Nodup ∧ ∀ t ∈ ts, (a.name t, a.source t) ∉ seen) → checkForDuplicates a ts seen = .ok ()) ∧
    (¬ ((ts.map fun t => (a.name t, a.source t)).Nodup ∧ ∀ t ∈ ts, (a.name t, a.source t) ∉ seen) → checkForDuplicates a ts seen = .throws)
  | [], seen => by simp [checkForDuplicates]
  | t :: ts, seen => by
    obtain ⟨h1, h2⟩ := checkForDuplicates_spec ts ((a.name t, a.source t) :: seen)
    rw [checkForDuplicates]
    by_cases ht : (a.name t, a.source t) ∈ seen
    · rw [if_pos ht]
      refine ⟨fun h => absurd ht (h.2 t (by simp)), fun _ => rfl⟩
    · rw [if_neg ht]
      have key : (((t :: ts).map fun t => (a.name t, a.source t)).Nodup ∧ ∀ u ∈ t :: ts, (a.name u, a.source u) ∉ seen) ↔
          ((ts.map fun t => (a.name t, a.source t)).Nodup ∧ ∀ u ∈ ts, (a.name u, a.source u) ∉ (a.name t, a.source t) :: seen) := by
        rw [List.map_cons, List.nodup_cons]
        constructor
        · rintro ⟨⟨b1, b2⟩, b3⟩
          refine ⟨b2, fun u hu => ?_⟩
          rw [List.mem_cons, not_or]
          exact ⟨fun h => b1 (List.mem_map.mpr ⟨u, hu, h⟩), b3 u (by simp [hu])⟩
        · rintro ⟨b1, b2⟩
          refine ⟨⟨fun h => ?_, b1⟩, fun u hu => ?_⟩
          · obtain ⟨u, hu, h⟩ := List.mem_map.mp h
            exact b2 u hu (by rw [h]; simp)
          · rcases List.mem_cons.mp hu with rfl | hu
            · exact ht
            · exact fun h => b2 u hu (by simp [h])
      rw [key]
      exact ⟨h1, h2⟩

/-- The suite which is added. -/
def suiteOf : Addition L → Suite String L
  | .tests name ts => .flat name ts
  | .suites name subs => .deep name subs

omit [DecidableEq P] in
theorem given_located (s : Addition L) : given s = located [] (suiteOf s) ∧ nameOf (suiteOf s) = title s := by
  cases s <;> exact ⟨rfl, rfl⟩

variable (acc : L → List String → Bool)

/-- What is left of all suites which are added. -/
def allInits : List (Addition L) → TreeInits (SuiteNode Found T)
  | [] => .nil
  | s :: ss => match pruned acc suiteNode (testNode a.name (a.prepare (title s))) [] (suiteOf s) with
    | none => allInits ss
    | some t => .cons t.1 t.2 (allInits ss)

theorem allInits_spec : ∀ ss : List (Addition L), Proper (allInits a acc ss) ∧
    testsIn (allInits a acc ss) [] = ss.flatMap fun s => ((given s).filter fun x => acc x.1 x.2).map fun x => (a.prepare (title s) x.1, x.2)
  | [] => ⟨trivial, rfl⟩
  | s :: ss => by
    obtain ⟨h1, h2⟩ := allInits_spec ss
    obtain ⟨a1, a2⟩ := pruned_spec acc a.name (a.prepare (title s)) (suiteOf s) []
    rw [← (given_located s).1] at a2
    rw [List.flatMap_cons, ← a2, ← h2, allInits]
    cases h : pruned acc (suiteNode (T := T)) (testNode a.name (a.prepare (title s))) [] (suiteOf s) with
    | none => exact ⟨h1, rfl⟩
    | some t =>
      rw [h] at a1
      refine ⟨⟨a1.1, a1.2.1, h1⟩, ?_⟩
      simp only [one, testsIn, List.append_nil]

/-- The filter as a function. -/
abbrev filterOf : Granular Str Str → L → List String → Bool × Granular Str Str := fun f l path => f.apply a.selects String.toList l path

variable {acc} {a} {Inv : Granular Str Str → Prop}

theorem extract_spec (hd : Decides (filterOf a) acc Inv) (s : Addition L) {g : Suites Found T} (hg : Ready g) (h0 : 0 < g.edges.length) {f : Granular Str Str} (hf : Inv f) :
    extractSuiteTree a (suiteOf s) ⟨g, f⟩ = .ok ⟨grown () () (one (pruned acc suiteNode (testNode a.name (a.prepare (title s))) [] (suiteOf s))) 0 g, visited (filterOf a) f (given s)⟩ := by
  unfold extractSuiteTree addRoot
  simp only
  rw [if_neg (by omega)]
  simp only [Res.bind]
  have := extractTree_spec () () hd (suiteNode (T := T)) (testNode a.name (a.prepare (title s))) (fuel := 1) (by omega) (suiteOf s) [] hg (.inr h0) hf
  rw [(given_located s).2, (given_located s).1]
  show (extractTree (filterOf a) .forward () () 1 (suiteNode (T := T)) (testNode a.name (a.prepare (title s))) [] 0 (suiteOf s) (g, f)).bind _ = _
  rw [this]
  simp only [Res.bind]
  cases pruned acc (suiteNode (T := T)) (testNode a.name (a.prepare (title s))) [] (suiteOf s) <;> rfl

/-- The tests which are added are distinct. -/
def Ok (a : About L T P) : Addition L → Prop
  | .tests _ ts => (ts.map fun t => (a.name t, a.source t)).Nodup
  | .suites _ _ => True

open Classical in
theorem addTestSuite_eq (s : Addition L) (st : State T) :
    addTestSuite a s st = if Ok a s then extractSuiteTree a (suiteOf s) st else .throws := by
  cases s with
  | suites name subs => rw [addTestSuite, if_pos (show Ok a (.suites name subs) from trivial)]; rfl
  | tests name ts =>
    obtain ⟨h1, h2⟩ := checkForDuplicates_spec a ts []
    rw [addTestSuite]
    by_cases h : (ts.map fun t => (a.name t, a.source t)).Nodup
    · rw [if_pos (show Ok a (.tests name ts) from h), h1 ⟨h, by simp⟩]; rfl
    · rw [if_neg (show ¬ Ok a (.tests name ts) from h), h2 (fun h' => h h'.1)]; rfl

theorem grown_one (t : Option (SuiteNode Found T × TreeInits (SuiteNode Found T))) (rest : TreeInits (SuiteNode Found T)) (p : Nat) (g : Suites Found T) :
    grown () () rest p (grown () () (one t) p g) = grown () () (match t with | none => rest | some t => .cons t.1 t.2 rest) p g := by
  cases t <;> rfl

/-- None of the additions has duplicates. -/
def Distinct (a : About L T P) (ss : List (Addition L)) : Prop := ∀ name ts, .tests name ts ∈ ss → ¬ Duplicates a ts

theorem addTestSuites_ready (hd : Decides (filterOf a) acc Inv) : ∀ (ss : List (Addition L)) {g : Suites Found T}, Ready g → 0 < g.edges.length → ∀ {f : Granular Str Str}, Inv f →
    (Distinct a ss → addTestSuites a ss ⟨g, f⟩ = .ok ⟨grown () () (allInits a acc ss) 0 g, visited (filterOf a) f (ss.flatMap given)⟩) ∧
    (¬ Distinct a ss → addTestSuites a ss ⟨g, f⟩ = .throws)
  | [], g, hg, h0, f, hf => ⟨fun _ => rfl, fun h => absurd (fun name ts hm => by simp at hm) h⟩
  | s :: ss, g, hg, h0, f, hf => by
    have hx := extract_spec hd s hg h0 hf
    have hg' : Ready (grown () () (one (pruned acc (suiteNode (T := T)) (testNode a.name (a.prepare (title s))) [] (suiteOf s))) 0 g) ∧
        g.edges.length ≤ (grown () () (one (pruned acc (suiteNode (T := T)) (testNode a.name (a.prepare (title s))) [] (suiteOf s))) 0 g).edges.length := by
      obtain ⟨b1, b2, _⟩ := grown_ready () () (one (pruned acc (suiteNode (T := T)) (testNode a.name (a.prepare (title s))) [] (suiteOf s))) hg h0
      exact ⟨b1, b2⟩
    obtain ⟨i1, i2⟩ := addTestSuites_ready hd ss hg'.1 (by omega) (f := visited (filterOf a) f (given s)) (visited_inv hd _ hf)
    have hsplit : Distinct a (s :: ss) ↔ Ok a s ∧ Distinct a ss := by
      unfold Distinct Duplicates
      cases s with
      | suites name subs => simp [Ok]
      | tests name ts =>
        simp only [Classical.not_not, List.mem_cons, Addition.tests.injEq, Ok]
        constructor
        · exact fun h => ⟨h name ts (.inl ⟨rfl, rfl⟩), fun n t ht => h n t (.inr ht)⟩
        · rintro ⟨h1, h2⟩ n t (⟨rfl, rfl⟩ | ht)
          · exact h1
          · exact h2 n t ht
    rw [addTestSuites, addTestSuite_eq, hsplit]
    by_cases h1 : Ok a s
    · rw [if_pos h1, hx]
      simp only [Res.bind, h1, true_and]
      refine ⟨fun h => ?_, fun h => i2 h⟩
      rw [i1 h, grown_one, List.flatMap_cons, visited_append]
      rfl
    · rw [if_neg h1]
      exact ⟨fun h => absurd h.1 h1, fun _ => rfl⟩

/-- The tree with only a root. -/
def rootOnly : Suites Found T := ⟨[⟨Found.nothing "", none⟩], [[]]⟩

theorem addRoot_nil (f : Granular Str Str) (s : Addition L) : addTestSuite a s (⟨⟨[], []⟩, f⟩ : State T) = addTestSuite a s ⟨rootOnly, f⟩ := by
  rw [addTestSuite_eq, addTestSuite_eq]
  by_cases h : Ok a s
  · rw [if_pos h, if_pos h]; rfl
  · rw [if_neg h, if_neg h]

theorem addTestSuites_spec (hd : Decides (filterOf a) acc Inv) (ss : List (Addition L)) {f : Granular Str Str} (hf : Inv f) :
    (Distinct a ss → addTestSuites a ss (⟨⟨[], []⟩, f⟩ : State T) =
      .ok ⟨if ss = [] then ⟨[], []⟩ else grown () () (allInits a acc ss) 0 rootOnly, visited (filterOf a) f (ss.flatMap given)⟩) ∧
    (¬ Distinct a ss → addTestSuites a ss (⟨⟨[], []⟩, f⟩ : State T) = .throws) := by
  cases ss with
  | nil => exact ⟨fun _ => rfl, fun h => absurd (fun name ts hm => by simp at hm) h⟩
  | cons s ss =>
    have : addTestSuites a (s :: ss) (⟨⟨[], []⟩, f⟩ : State T) = addTestSuites a (s :: ss) ⟨rootOnly, f⟩ := by
      rw [addTestSuites, addTestSuites, addRoot_nil]
    rw [this, if_neg (by simp)]
    have hr : Ready (rootOnly : Suites Found T) := ⟨rfl, by intro l hl e he; simp [rootOnly] at hl; subst hl; simp at he⟩
    exact addTestSuites_ready hd (s :: ss) hr (by simp [rootOnly]) hf

theorem final_spec (ss : List (Addition L)) (acc : L → List String → Bool) :
    Props.SuiteTree (grown () () (allInits a acc ss) 0 (rootOnly : Suites Found T)) ∧ Fresh (grown () () (allInits a acc ss) 0 (rootOnly : Suites Found T)) ∧
    (∃ l, (grown () () (allInits a acc ss) 0 (rootOnly : Suites Found T)).edges[0]? = some l ∧
      Holds (grown () () (allInits a acc ss) 0 (rootOnly : Suites Found T)) [] l (testsIn (allInits a acc ss) [])) ∧
    (testsIn (allInits a acc ss) [] = [] ↔ (grown () () (allInits a acc ss) 0 (rootOnly : Suites Found T)).edges.length = 1) ∧
    (grown () () (allInits a acc ss) 0 (rootOnly : Suites Found T)).edges.length ≠ 0 := by
  obtain ⟨hp, _⟩ := allInits_spec a acc ss
  generalize allInits a acc ss = t at *
  have hr : Ready (rootOnly : Suites Found T) := ⟨rfl, by intro l hl e he; simp [rootOnly] at hl; subst hl; simp at he⟩
  have h0 : 0 < (rootOnly : Suites Found T).edges.length := by simp [rootOnly]
  obtain ⟨r1, r2, _⟩ := grown_ready () () t hr h0
  obtain ⟨par, ht⟩ := grown_tree () () t hr (tree_single .forward) h0
  obtain ⟨l, b1, b2, b3⟩ := grown_shape () () t hr h0 (show (rootOnly : Suites Found T).edges[0]? = some [] from rfl)
  rw [List.nil_append] at b1
  have hroot := b3 0 h0
  have hlen : (rootOnly : Suites Found T).edges.length = 1 := rfl
  have hn0 : (rootOnly : Suites Found T).nodes[0]? = some ⟨Found.nothing "", none⟩ := rfl
  rw [hlen] at b2 r2
  rw [hn0] at hroot
  refine ⟨⟨r1.1, ⟨par, ht⟩, ?_, ?_⟩, ?_, ⟨l, b1, shape_holds b2 hp []⟩, ?_, by omega⟩
  · intro wt hwt
    rw [hroot, Option.some.injEq] at hwt
    rw [← hwt]
  · intro x wt hx hne
    by_cases hx0 : x = 0
    · subst hx0
      rw [hroot, Option.some.injEq] at hx
      rw [← hx] at hne
      exact absurd rfl hne
    · have := (List.getElem?_eq_some_iff.mp hx).1
      rw [r1.1] at this
      exact (shape_nodes b2 hp x wt (by omega) this hx).1 hne
  · intro wt hwt hnone
    obtain ⟨x, hx⟩ := List.mem_iff_getElem?.mp hwt
    by_cases hx0 : x = 0
    · subst hx0
      rw [hroot, Option.some.injEq] at hx
      rw [← hx]
      rfl
    · have := (List.getElem?_eq_some_iff.mp hx).1
      rw [r1.1] at this
      exact (shape_nodes b2 hp x wt (by omega) this hx).2 hnone
  · constructor
    · intro h
      cases t with
      | nil => rfl
      | cons w cs rest => exact absurd h (testsIn_ne_nil _ _ hp (by simp))
    · intro h
      rw [h] at b2
      cases t with
      | nil => rfl
      | cons w cs rest =>
        cases b2 with
        | cons _ _ _ c1 c2 =>
          have := c1.le
          have := c2.le
          omega

end
end Verif.AddSuites
