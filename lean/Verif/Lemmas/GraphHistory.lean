import Verif.Lemmas.EmbeddedOps
import Verif.Lemmas.StableSort
/-
Each operation on a graph with node weights: it maintains the invariants of its flavour and stays defined.
-/
set_option linter.unusedSectionVars false
namespace Verif.Graph
open Spec EdgeLike

variable {N W M E : Type}

/-- The invariant of a flavour together with the number of node weights. -/
def Inv (P : Edges E → Prop) (g : G N E) : Prop := g.nodes.length = g.edges.length ∧ P g.edges

/-- The outcome is defined and the state left satisfies the invariant. -/
def Good (P : Edges E → Prop) (o : Outcome (G N E) Val) : Prop :=
  (∃ g' b, o = .ret g' b ∧ Inv P g') ∨ ∃ g', o = .threw g' ∧ Inv P g'

variable {P : Edges E → Prop} {g : G N E}

theorem good_onEdges {r : Res (Edges E)} (hg : Inv P g) (hub : r ≠ .ub)
    (h : ∀ s, r = .ok s → P s ∧ s.length = g.edges.length) : Good P (onEdges g r) := by
  unfold onEdges
  cases r with
  | ok s => exact .inl ⟨_, _, rfl, by simp only; rw [(h s rfl).2]; exact hg.1, (h s rfl).1⟩
  | throws => exact .inr ⟨_, rfl, hg⟩
  | ub => exact absurd rfl hub

theorem good_onEdges2 {r : Res (Edges E × Nat × Nat)} {n m : Nat} (hg : Inv P g) (hub : r ≠ .ub)
    (h : ∀ s p q, r = .ok (s, p, q) → P s ∧ s.length = g.edges.length) : Good P (onEdges2 g n m r) := by
  unfold onEdges2
  match r with
  | .ok (s, p, q) => exact .inl ⟨_, _, rfl, by simp only; rw [(h s p q rfl).2]; exact hg.1, (h s p q rfl).1⟩
  | .throws => exact .inr ⟨_, rfl, hg⟩
  | .ub => exact absurd rfl hub

variable [EdgeLike E] [LawfulEdge E]

theorem insertNode_eq (hg : g.nodes.length = g.edges.length) (pos : Nat) (w : N) :
    g.insertNode pos w = .ret ⟨g.nodes.take (min pos g.edges.length) ++ w :: g.nodes.drop (min pos g.edges.length),
      withNode g.edges (min pos g.edges.length)⟩ (.index (min pos g.edges.length)) := by
  unfold G.insertNode
  simp only
  rw [if_pos (by omega), insertNode_spec, Monotonic.insertIdx_split _ _ _ (by omega)]

theorem good_insertNode (hg : Inv P g) (hP : ∀ n, n ≤ g.edges.length → P (withNode g.edges n)) (pos : Nat) (w : N) :
    Good P (g.insertNode pos w) := by
  rw [insertNode_eq hg.1]
  refine .inl ⟨_, _, rfl, ?_, hP _ (by omega)⟩
  simp only
  rw [length_withNode _ _ (by omega)]
  have := hg.1
  simp only [List.length_append, List.length_take, List.length_cons, List.length_drop]
  omega

theorem good_eraseNode {r : Res (Edges E)} {n : Nat} {s' : Edges E} (hg : Inv P g) (ho : n < g.edges.length → r = .ok s')
    (ht : ¬ n < g.edges.length → r = .throws) (hP : n < g.edges.length → P s' ∧ s'.length = g.edges.length - 1) :
    Good P (g.eraseNode n r) := by
  unfold G.eraseNode
  by_cases hn : n < g.edges.length
  · rw [ho hn]
    simp only
    rw [if_pos (by rw [hg.1]; exact hn)]
    refine .inl ⟨_, _, rfl, ?_, (hP hn).1⟩
    simp only
    rw [(hP hn).2, List.length_eraseIdx_of_lt (by rw [hg.1]; exact hn), hg.1]
  · rw [ht hn]; exact .inr ⟨_, rfl, hg⟩

theorem good_swapNodes {r : Res (Edges E)} {i j : Nat} (hg : Inv P g)
    (ho : i < g.edges.length → j < g.edges.length → ∃ s', r = .ok s' ∧ P s' ∧ s'.length = g.edges.length) :
    Good P (g.swapNodes i j r) := by
  unfold G.swapNodes
  by_cases hi : i < g.edges.length
  · by_cases hj : j < g.edges.length
    · obtain ⟨s', h1, h2, h3⟩ := ho hi hj
      rw [List.getElem?_eq_getElem (by rw [hg.1]; exact hi), List.getElem?_eq_getElem (by rw [hg.1]; exact hj), h1]
      refine .inl ⟨_, _, rfl, ?_, h2⟩
      simp [h3, hg.1]
    · rw [List.getElem?_eq_none (l := g.nodes) (i := j) (by rw [hg.1]; omega)]
      split
      · rename_i h; cases h
      · exact .inr ⟨_, rfl, hg⟩
  · rw [List.getElem?_eq_none (l := g.nodes) (i := i) (by rw [hg.1]; omega)]
    exact .inr ⟨_, rfl, hg⟩

theorem swapNodes_eq {r : Res (Edges E)} {i j : Nat} {s' : Edges E} (hg : g.nodes.length = g.edges.length)
    (hi : i < g.edges.length) (hj : j < g.edges.length) (hr : r = .ok s') :
    g.swapNodes i j r = .ret ⟨(g.nodes.set i (g.nodes[j]'(by omega))).set j (g.nodes[i]'(by omega)), s'⟩ .unit := by
  unfold G.swapNodes
  rw [List.getElem?_eq_getElem (by omega), List.getElem?_eq_getElem (l := g.nodes) (i := j) (by omega), hr]

theorem eraseNode_eq {r : Res (Edges E)} {n : Nat} {s' : Edges E} (hg : g.nodes.length = g.edges.length)
    (hn : n < g.edges.length) (hr : r = .ok s') :
    g.eraseNode n r = .ret ⟨g.nodes.take n ++ g.nodes.drop (n + 1), s'⟩ .unit := by
  unfold G.eraseNode
  rw [hr]
  simp only
  rw [if_pos (by omega), List.eraseIdx_eq_take_drop_succ]

theorem swapEdges_ne_ub (s : Edges E) (n i j : Nat) : swapEdges s n i j ≠ .ub := by
  unfold swapEdges
  split
  · split <;> simp
  · simp

theorem sortEdges_ne_ub {srt : List E → List E} {s : Edges E} {n p m q : Nat} (h1 : ValidIter s n p) (h2 : ValidIter s m q)
    (h3 : n = m → p ≤ q) : sortEdges srt s n p m q ≠ .ub := by
  obtain ⟨l, hl, hp⟩ := h1
  obtain ⟨k, hk, hq⟩ := h2
  unfold sortEdges
  rw [hl, hk]
  simp only
  rw [if_pos ⟨hp, hq⟩]
  by_cases hnm : n = m
  · rw [if_neg (by simpa using hnm), if_pos (h3 hnm)]; simp
  · rw [if_pos hnm]; simp

/-! ### Directed graphs -/

theorem eraseEdgeDirected_cases {E : Type} {s : Edges E} {n k : Nat} (h : s = [] ∨ ValidIter s n k) :
    eraseEdgeDirected s n k = .ok (onNode s n (·.eraseIdx k)) := by
  unfold eraseEdgeDirected
  rcases h with rfl | ⟨l, hl, hk⟩
  · simp [onNode]
  · have hne : s.isEmpty = false := by
      cases s with
      | nil => simp at hl
      | cons _ _ => rfl
    rw [hne, hl]
    simp only [Bool.false_eq_true, if_false]
    by_cases h : k < l.length
    · rw [if_pos h]
    · rw [if_neg h, if_pos (by omega)]
      congr 1
      apply List.ext_getElem?
      intro i
      rw [getElem?_onNode]
      split
      · rename_i hi
        rw [hi, hl, Option.map_some, List.eraseIdx_of_length_le (by omega)]
      · rfl

theorem edgeAt_mem {s : Edges E} {n k : Nat} {e : E} (h : edgeAt s n k = some e) : ∃ l, s[n]? = some l ∧ e ∈ l := by
  obtain ⟨l, hl, hk⟩ := Option.bind_eq_some_iff.1 h
  exact ⟨l, hl, List.mem_of_getElem? hk⟩

theorem onEdge_inRange {s : Edges E} (n k : Nat) (f : E → E) (hf : ∀ e, target (f e) = target e) (hr : InRange s) :
    InRange (onEdge s n k f) := by
  have : onEdge s n k f = changeAt s (fun i x => decide ((i, x) = (n, k))) f := by
    apply edges_ext
    · rw [length_onEdge, length_changeAt]
    · intro i x
      rw [edgeAt_onEdge, edgeAt_changeAt]
      by_cases h : (i, x) = (n, k)
      · rw [if_pos h]; simp [h]
      · rw [if_neg h]; cases edgeAt s i x <;> simp [h]
  rw [this]
  exact changeAt_inRange _ _ hf hr

variable {stdSort : {α : Type} → (α → α → Bool) → List α → List α}

theorem directed_good (hsort : Permutes stdSort) (g : G N (Edge W M)) (hg : Inv InRange g) (o : Op N W M (Edge W M))
    (hc : InContract .directed g o) : Good InRange (directedStep stdSort g o) := by
  cases o with
  | addNode w => exact good_insertNode hg (fun n hn => withNode_inRange hn hg.2) _ w
  | insertNode pos w => exact good_insertNode hg (fun n hn => withNode_inRange hn hg.2) pos w
  | eraseNode n =>
    refine good_eraseNode (s' := withoutNode g.edges n) hg (fun hn => eraseNodeDirected_spec _ _ hn) ?_
      (fun hn => ⟨withoutNode_inRange hn hg.2, length_withoutNode _ _ hn⟩)
    intro hn; unfold eraseNodeDirected; rw [if_neg hn]
  | swapNodes i j =>
    refine good_swapNodes hg ?_
    intro hi hj
    obtain ⟨s', h1, h2⟩ := swapNodesDirected_spec g.edges i j hi hj
    exact ⟨s', h1, transposed_inRange h2 hi hj hg.2, h2.1⟩
  | clear => exact .inl ⟨_, _, rfl, rfl, by intro l hl; simp at hl⟩
  | join i j w m m' =>
    refine good_onEdges hg ?_ ?_
    · unfold joinDirected; split <;> simp
    · intro s hs
      unfold joinDirected at hs
      split at hs
      · rename_i h
        cases hs
        refine ⟨onNode_perm_inRange ?_ hg.2, length_onNode _ _ _⟩
        intro l hl e he
        rw [List.mem_append] at he
        rcases he with he | he
        · exact (inRange_iff _).1 hg.2 i l hl e he
        · rw [List.mem_singleton.1 he]; exact h.2
      · cases hs
  | insertJoin => exact absurd hc.1 (by simp)
  | insertJoinPos => exact absurd hc.1 (by simp)
  | eraseEdge n k =>
    have hr := eraseEdgeDirected_cases (s := g.edges) (n := n) (k := k) hc
    refine good_onEdges hg (by rw [hr]; simp) ?_
    intro s hs
    rw [hr] at hs; cases hs
    refine ⟨onNode_perm_inRange ?_ hg.2, length_onNode _ _ _⟩
    intro l hl e he
    exact (inRange_iff _).1 hg.2 n l hl e (List.mem_of_mem_eraseIdx he)
  | setWeight n k w =>
    obtain ⟨e, he⟩ := hc
    have he' : g.edges[n]?.bind (·[k]?) = some e := he
    have hr : setWeightDirected g.edges n k w = .ok (onEdge g.edges n k fun e => e.setWeight w) := by
      unfold setWeightDirected; rw [he']
    refine good_onEdges hg (by rw [hr]; simp) ?_
    intro s hs
    rw [hr] at hs; cases hs
    exact ⟨onEdge_inRange _ _ _ (fun _ => rfl) hg.2, length_onEdge _ _ _ _⟩
  | mutateWeight n k f =>
    obtain ⟨e, he⟩ := hc
    have he' : g.edges[n]?.bind (·[k]?) = some e := he
    unfold directedStep
    simp only
    rw [he']
    refine good_onEdges hg (by simp) ?_
    intro s hs
    cases hs
    exact ⟨onEdge_inRange _ _ _ (fun _ => rfl) hg.2, length_onEdge _ _ _ _⟩
  | swapEdges n i j =>
    refine good_onEdges hg (swapEdges_ne_ub _ _ _ _) ?_
    intro s hs
    obtain ⟨f, rfl, hf⟩ := swapEdges_spec hs
    exact ⟨onNode_perm_inRange (fun l hl e he => (inRange_iff _).1 hg.2 n l hl e ((hf l hl).mem_iff.1 he)) hg.2,
      length_onNode _ _ _⟩
  | sortEdges lt n p m q =>
    obtain ⟨_, hlt, h1, h2, h3⟩ := hc
    refine good_onEdges hg (sortEdges_ne_ub h1 h2 h3) ?_
    intro s hs
    obtain ⟨f, rfl, hf⟩ := sortEdges_spec (hsort _ _ hlt) hs
    exact ⟨onNode_perm_inRange (fun l hl e he => (inRange_iff _).1 hg.2 n l hl e ((hf l hl).mem_iff.1 he)) hg.2,
      length_onNode _ _ _⟩
  | stableSortEdges lt n p m q =>
    obtain ⟨_, hlt, h1, h2, h3⟩ := hc
    refine good_onEdges hg (sortEdges_ne_ub h1 h2 h3) ?_
    intro s hs
    obtain ⟨f, rfl, hf⟩ := sortEdges_spec (fun l => StableSort.stableSort_perm l) hs
    exact ⟨onNode_perm_inRange (fun l hl e he => (inRange_iff _).1 hg.2 n l hl e ((hf l hl).mem_iff.1 he)) hg.2,
      length_onNode _ _ _⟩

/-! ### Undirected graphs -/

section
variable [DecidableEq W] [DecidableEq M]

/-- The iterator is to the end, or there are no nodes. -/
theorem eraseEdgeUndirected_end {s : Edges (Edge W M)} {n k : Nat} (hc : s = [] ∨ ValidIter s n k)
    (he : edgeAt s n k = none) : eraseEdgeUndirected s n k = .ok s := by
  unfold eraseEdgeUndirected
  rcases hc with rfl | ⟨l, hl, hk⟩
  · rfl
  · have hne : s.isEmpty = false := by
      cases s with
      | nil => simp at hl
      | cons _ _ => rfl
    unfold edgeAt at he
    rw [hl] at he
    have he' : l[k]? = none := he
    rw [hne, hl]
    simp only [Bool.false_eq_true, if_false]
    rw [he']
    simp only
    rw [if_pos]
    rw [List.getElem?_eq_none_iff] at he'
    omega

theorem undirected_good (hsort : Permutes stdSort) (g : G N (Edge W M)) (hg : Inv Reciprocal g) (o : Op N W M (Edge W M))
    (hc : InContract .undirected g o) : Good Reciprocal (undirectedStep stdSort g o) := by
  have hsym := Reciprocal.targetSym hg.2
  cases o with
  | addNode w => exact good_insertNode hg (fun n hn => withNode_reciprocal hn hg.2) _ w
  | insertNode pos w => exact good_insertNode hg (fun n hn => withNode_reciprocal hn hg.2) pos w
  | eraseNode n =>
    refine good_eraseNode (s' := withoutNode g.edges n) hg (fun hn => eraseNodeUndirected_spec _ hsym _ hn) ?_
      (fun hn => ⟨withoutNode_reciprocal hn hg.2, length_withoutNode _ _ hn⟩)
    intro hn; unfold eraseNodeUndirected; rw [List.getElem?_eq_none (by omega)]
  | swapNodes i j =>
    refine good_swapNodes hg ?_
    intro hi hj
    obtain ⟨s', h1, h2⟩ := swapNodesUndirected_spec g.edges hsym i j hi hj
    exact ⟨s', h1, transposed_reciprocal h2 hi hj hg.2, h2.1⟩
  | clear =>
    refine .inl ⟨_, _, rfl, rfl, ?_⟩
    exact ⟨by intro l hl; simp at hl, fun i j _ w => rfl, fun i w => ⟨0, rfl⟩⟩
  | join i j w m m' =>
    refine good_onEdges hg ?_ ?_
    · unfold joinUndirected; split <;> simp
    · intro s hs
      exact ⟨joinUndirected_reciprocal hs hg.2, (joinUndirected_spec hs).2.2.1⟩
  | insertJoin => exact absurd hc.1 (by simp)
  | insertJoinPos => exact absurd hc.1 (by simp)
  | eraseEdge n k =>
    cases he : edgeAt g.edges n k with
    | none =>
      have hr := eraseEdgeUndirected_end hc he
      refine good_onEdges hg (by rw [hr]; simp) ?_
      intro s hs
      rw [hr] at hs; cases hs
      exact ⟨hg.2, rfl⟩
    | some e =>
      obtain ⟨s', p, e', h1, h2, h3, h4⟩ := eraseEdgeUndirected_spec he (Reciprocal.exists_partner hg.2 he)
      refine good_onEdges hg (by rw [h1]; simp) ?_
      intro s hs
      refine ⟨eraseEdgeUndirected_reciprocal hs hg.2, ?_⟩
      rw [h1] at hs; cases hs
      rw [h3, length_removeAt]
  | setWeight n k w =>
    obtain ⟨e, he⟩ := hc
    have he' : g.edges[n]?.bind (·[k]?) = some e := he
    cases hp : partnerPos g.edges n k e with
    | ub => exact absurd hp (partnerPos_ne_ub hg.2.inRange he)
    | throws =>
      have hr : setWeightUndirected g.edges n k w = .throws := by
        unfold setWeightUndirected; rw [he']; simp only; rw [hp]; rfl
      refine good_onEdges hg (by rw [hr]; simp) ?_
      intro s hs; rw [hr] at hs; cases hs
    | ok p =>
      have hr := setWeightUndirected_spec he hp w
      refine good_onEdges hg (by rw [hr]; simp) ?_
      intro s hs
      refine ⟨setWeightUndirected_reciprocal hs hg.2, ?_⟩
      rw [hr] at hs; cases hs
      exact length_changeAt _ _ _
  | mutateWeight n k f =>
    obtain ⟨e, he⟩ := hc
    have he' : g.edges[n]?.bind (·[k]?) = some e := he
    cases hp : partnerPos g.edges n k e with
    | ub => exact absurd hp (partnerPos_ne_ub hg.2.inRange he)
    | throws =>
      have hr : mutateWeightUndirected g.edges n k f = .throws := by
        unfold mutateWeightUndirected; rw [he']; simp only; rw [hp]; rfl
      refine good_onEdges hg (by rw [hr]; simp) ?_
      intro s hs; rw [hr] at hs; cases hs
    | ok p =>
      have hr := mutateWeightUndirected_spec he hp f
      refine good_onEdges hg (by rw [hr]; simp) ?_
      intro s hs
      refine ⟨mutateWeightUndirected_reciprocal hs hg.2, ?_⟩
      rw [hr] at hs; cases hs
      exact length_changeAt _ _ _
  | swapEdges n i j =>
    refine good_onEdges hg (swapEdges_ne_ub _ _ _ _) ?_
    intro s hs
    obtain ⟨f, rfl, hf⟩ := swapEdges_spec hs
    exact ⟨onNode_perm_reciprocal hf hg.2, length_onNode _ _ _⟩
  | sortEdges lt n p m q =>
    obtain ⟨_, hlt, h1, h2, h3⟩ := hc
    refine good_onEdges hg (sortEdges_ne_ub h1 h2 h3) ?_
    intro s hs
    obtain ⟨f, rfl, hf⟩ := sortEdges_spec (hsort _ _ hlt) hs
    exact ⟨onNode_perm_reciprocal hf hg.2, length_onNode _ _ _⟩
  | stableSortEdges lt n p m q =>
    obtain ⟨_, hlt, h1, h2, h3⟩ := hc
    refine good_onEdges hg (sortEdges_ne_ub h1 h2 h3) ?_
    intro s hs
    obtain ⟨f, rfl, hf⟩ := sortEdges_spec (fun l => StableSort.stableSort_perm l) hs
    exact ⟨onNode_perm_reciprocal hf hg.2, length_onNode _ _ _⟩

end

/-! ### Embedded graphs -/

theorem eraseEdgeEmbedded_end {s : Edges (EEdge W M)} {n k : Nat} (hc : s = [] ∨ ValidIter s n k)
    (he : edgeAt s n k = none) : eraseEdgeEmbedded s n k = .ok s := by
  unfold eraseEdgeEmbedded
  rcases hc with rfl | ⟨l, hl, hk⟩
  · rfl
  · have hne : s.isEmpty = false := by
      cases s with
      | nil => simp at hl
      | cons _ _ => rfl
    unfold edgeAt at he
    rw [hl] at he
    have he' : l[k]? = none := he
    rw [hne, hl]
    simp only [Bool.false_eq_true, if_false]
    rw [he']
    simp only
    rw [if_pos]
    rw [List.getElem?_eq_none_iff] at he'
    omega

theorem ValidIter.lt {E : Type} {s : Edges E} {n k : Nat} (h : ValidIter s n k) : n < s.length ∧ k ≤ degree s n := by
  obtain ⟨l, hl, hk⟩ := h
  exact ⟨(List.getElem?_eq_some_iff.1 hl).1, by rw [degree_of_getElem? hl]; exact hk⟩

theorem JoinedE.length {s s' : Edges (EEdge W M)} {n p m q : Nat} {w : W} {m₁ m₂ : M}
    (h : JoinedE s s' n p m q w m₁ m₂) : s'.length = s.length := by
  rw [← h.rest, length_removeAtE]

theorem length_withoutNodeE (s : Edges (EEdge W M)) (n : Nat) (h : n < s.length) :
    (withoutNodeE s n).length = s.length - 1 := by
  unfold withoutNodeE; simp; omega

theorem embedded_good (g : G N (EEdge W M)) (hg : Inv Embedded g) (o : Op N W M (EEdge W M))
    (hc : InContract .embedded g o) : Good Embedded (embeddedStep g o) := by
  have hsym := Embedded.targetSym hg.2
  cases o with
  | addNode w => exact good_insertNode hg (fun n hn => withNode_embedded hn hg.2) _ w
  | insertNode pos w => exact good_insertNode hg (fun n hn => withNode_embedded hn hg.2) pos w
  | eraseNode n =>
    refine good_eraseNode (s' := withoutNodeE g.edges n) hg (fun hn => (eraseNodeEmbedded_spec hg.2 hn).1) ?_
      (fun hn => ⟨(eraseNodeEmbedded_spec hg.2 hn).2, length_withoutNodeE _ _ hn⟩)
    intro hn; unfold eraseNodeEmbedded; rw [List.getElem?_eq_none (by omega)]
  | swapNodes i j =>
    refine good_swapNodes hg ?_
    intro hi hj
    obtain ⟨s', h1, h2⟩ := swapNodesUndirected_spec g.edges hsym i j hi hj
    exact ⟨s', h1, transposed_embedded h2 hg.2, h2.1⟩
  | clear => exact .inl ⟨_, _, rfl, rfl, by intro n k e he; simp [edgeAt] at he⟩
  | join i j w m m' =>
    by_cases h : i < g.edges.length ∧ j < g.edges.length
    · obtain ⟨s', h1, h2, h3⟩ := joinEmbedded_spec hg.2 (w := w) (m₁ := m) (m₂ := m') h.1 h.2
      refine good_onEdges hg (by rw [h1]; simp) ?_
      intro s hs
      rw [h1] at hs; cases hs
      exact ⟨h2, JoinedE.length h3⟩
    · have hr : joinEmbedded g.edges i j w m m' = .throws := by unfold joinEmbedded; rw [if_neg h]
      refine good_onEdges hg (by rw [hr]; simp) ?_
      intro s hs; rw [hr] at hs; cases hs
  | insertJoin n p m q w m₁ m₂ =>
    obtain ⟨_, hi1, hi2⟩ := hc
    obtain ⟨s', h1, h2, h3⟩ := insertJoin_spec hg.2 (w := w) (m₁ := m₁) (m₂ := m₂) (ValidIter.lt hi1).1 (ValidIter.lt hi2).1 (ValidIter.lt hi1).2 (ValidIter.lt hi2).2
    refine good_onEdges2 hg (by rw [h1]; simp) ?_
    intro s p' q' hs
    rw [h1] at hs; cases hs
    exact ⟨h2, JoinedE.length h3⟩
  | insertJoinPos n p q w m₁ m₂ =>
    obtain ⟨_, hi1⟩ := hc
    obtain ⟨hn, hp⟩ := ValidIter.lt hi1
    have hl := degree_of_getElem? (List.getElem?_eq_getElem hn)
    by_cases hq : q ≤ degree g.edges n + 1
    · obtain ⟨s', h1, h2, h3⟩ := insertJoinPos_spec hg.2 (w := w) (m₁ := m₁) (m₂ := m₂) hn hp hq
      refine good_onEdges2 hg (by rw [h1]; simp) ?_
      intro s p' q' hs
      rw [h1] at hs; cases hs
      exact ⟨h2, JoinedE.length h3⟩
    · have hr : insertJoinPos g.edges n p q w m₁ m₂ = .throws := by
        unfold insertJoinPos
        rw [List.getElem?_eq_getElem hn]
        simp only
        rw [if_neg (by omega), if_pos (by omega)]
      refine good_onEdges2 hg (by rw [hr]; simp) ?_
      intro s p' q' hs; rw [hr] at hs; cases hs
  | eraseEdge n k =>
    cases he : edgeAt g.edges n k with
    | none =>
      have hr := eraseEdgeEmbedded_end hc he
      refine good_onEdges hg (by rw [hr]; simp) ?_
      intro s hs
      rw [hr] at hs; cases hs
      exact ⟨hg.2, rfl⟩
    | some e =>
      obtain ⟨h1, h2⟩ := eraseEdgeEmbedded_spec hg.2 he
      refine good_onEdges hg (by rw [h1]; simp) ?_
      intro s hs
      rw [h1] at hs; cases hs
      exact ⟨h2, length_removeAtE _ _⟩
  | setWeight n k w =>
    obtain ⟨e, he⟩ := hc
    have hr := setWeightEmbedded_spec hg.2 he w
    refine good_onEdges hg (by rw [hr]; simp) ?_
    intro s hs
    rw [hr] at hs; cases hs
    exact ⟨changeAt_embedded hg.2 he w, length_changeAt _ _ _⟩
  | mutateWeight n k f =>
    obtain ⟨e, he⟩ := hc
    have hr := mutateWeightEmbedded_spec hg.2 he f
    refine good_onEdges hg (by rw [hr]; simp) ?_
    intro s hs
    rw [hr] at hs; cases hs
    exact ⟨changeAt_embedded hg.2 he _, length_changeAt _ _ _⟩
  | swapEdges => exact absurd hc (by simp [InContract])
  | sortEdges => exact absurd hc.1 (by simp)
  | stableSortEdges => exact absurd hc.1 (by simp)

/-! ### Counting half edges -/

theorem numHalves_eq {E : Type} (s : Edges E) : numHalves s = total s := by
  unfold numHalves total
  induction s with
  | nil => rfl
  | cons l s ih => simp [ih]

theorem total_onNode {E : Type} (s : Edges E) (n : Nat) (f : List E → List E) (l : List E) (hl : s[n]? = some l) :
    total (onNode s n f) + l.length = total s + (f l).length := by
  unfold total onNode
  induction s generalizing n with
  | nil => simp at hl
  | cons a s ih =>
    cases n with
    | zero =>
      have : a = l := by simpa using hl
      subst this
      simp; omega
    | succ n =>
      have := ih n (by simpa using hl)
      simp at this ⊢
      omega

theorem total_erase_one {E : Type} {s : Edges E} {n k : Nat} {e : E} (h : edgeAt s n k = some e) :
    total (onNode s n (·.eraseIdx k)) + 1 = total s := by
  obtain ⟨l, hl, hk⟩ := Option.bind_eq_some_iff.1 h
  have h1 := total_onNode s n (·.eraseIdx k) l hl
  have hk' := (List.getElem?_eq_some_iff.1 hk).1
  simp only [List.length_eraseIdx_of_lt hk'] at h1
  omega

theorem total_removeAt_two {E : Type} {s : Edges E} {n k t p : Nat} {e e' : E} (h : edgeAt s n k = some e)
    (h' : edgeAt s t p = some e') (hne : (t, p) ≠ (n, k)) :
    total (removeAt s fun i x => decide ((i, x) = (n, k) ∨ (i, x) = (t, p))) + 2 = total s := by
  by_cases hnt : n = t
  · subst hnt
    have hkp : p ≠ k := fun h => hne (by rw [h])
    obtain ⟨l, hl, hk⟩ := Option.bind_eq_some_iff.1 h
    obtain ⟨l', hl', hp⟩ := Option.bind_eq_some_iff.1 h'
    rw [hl] at hl'; cases hl'
    have hk' := (List.getElem?_eq_some_iff.1 hk).1
    have hp' := (List.getElem?_eq_some_iff.1 hp).1
    have main : ∀ f : List E → List E, (∀ l, f l = keepIdx (fun x => decide (x ≠ k ∧ x ≠ p)) l) →
        (f l).length + 2 = l.length →
        total (removeAt s fun i x => decide ((i, x) = (n, k) ∨ (i, x) = (n, p))) + 2 = total s := by
      intro f hf hlen
      rw [← erase_one_node s n k p f (fun l _ => hf l)]
      have := total_onNode s n f l hl
      omega
    by_cases hlt : k < p
    · refine main (fun l => (l.eraseIdx p).eraseIdx k) (fun l => (keepIdx_erase_lt _ l k p hlt (fun _ => rfl)).symm) ?_
      rw [List.length_eraseIdx_of_lt, List.length_eraseIdx_of_lt hp']
      · omega
      · rw [List.length_eraseIdx_of_lt hp']; omega
    · refine main (fun l => (l.eraseIdx k).eraseIdx p)
        (fun l => (keepIdx_erase_lt _ l p k (by omega) (fun _ => by rw [decide_eq_decide]; exact and_comm)).symm) ?_
      rw [List.length_eraseIdx_of_lt, List.length_eraseIdx_of_lt hk']
      · omega
      · rw [List.length_eraseIdx_of_lt hk']; omega
  · rw [← erase_two_nodes _ _ _ _ _ hnt]
    have h1 := total_erase_one h
    have h2 : edgeAt (onNode s n (·.eraseIdx k)) t p = some e' := by
      unfold edgeAt
      rw [getElem?_onNode, if_neg (Ne.symm hnt)]
      exact h'
    have h3 := total_erase_one h2
    omega

theorem total_removeAtE (s : Edges (EEdge W M)) (P : Nat → Nat → Bool) : total (removeAtE s P) = total (removeAt s P) := by
  unfold total removeAtE
  rw [List.map_map]
  congr 1
  apply List.map_congr_left
  intro l _
  simp

theorem total_zero_or {E : Type} (s : Edges E) : total s = 0 ∨ ∃ n k e, edgeAt s n k = some e := by
  by_cases h : ∃ (n : Nat) (l : List E), s[n]? = some l ∧ l ≠ []
  · obtain ⟨n, l, hl, hne⟩ := h
    right
    cases l with
    | nil => exact absurd rfl hne
    | cons e l => exact ⟨n, 0, e, by unfold edgeAt; rw [hl]; rfl⟩
  · left
    unfold total
    rw [List.sum_eq_zero_iff_forall_eq_nat]
    intro x hx
    obtain ⟨l, hl, rfl⟩ := List.mem_map.1 hx
    obtain ⟨n, hn⟩ := List.mem_iff_getElem?.1 hl
    by_cases hl0 : l = []
    · rw [hl0]; rfl
    · exact absurd ⟨n, l, hn, hl0⟩ h

theorem Embedded.even {s : Edges (EEdge W M)} (hs : Embedded s) : 2 ∣ total s := by
  generalize hn : total s = n
  induction n using Nat.strongRecOn generalizing s with
  | _ n ih =>
    rcases total_zero_or s with h0 | ⟨i, k, e, he⟩
    · rw [← hn, h0]; exact ⟨0, rfl⟩
    · obtain ⟨hne, e', he', _⟩ := hs i k e he
      have h1 := total_removeAt_two he he' hne
      have h2 := (eraseEdgeEmbedded_spec hs he).2
      have h3 := ih _ (by rw [← total_removeAtE] at h1; omega) h2 rfl
      rw [total_removeAtE] at h3
      omega

theorem Reciprocal.even [DecidableEq W] [DecidableEq M] {s : Edges (Edge W M)} (hs : Reciprocal s) : 2 ∣ total s := by
  generalize hn : total s = n
  induction n using Nat.strongRecOn generalizing s with
  | _ n ih =>
    rcases total_zero_or s with h0 | ⟨i, k, e, he⟩
    · rw [← hn, h0]; exact ⟨0, rfl⟩
    · obtain ⟨s', p, e', g1, ⟨hp1, _, _, hp4⟩, g3, _⟩ := eraseEdgeUndirected_spec he (Reciprocal.exists_partner hs he)
      have h1 := total_removeAt_two he hp1 hp4
      rw [← g3] at h1
      have h3 := ih _ (by omega) (eraseEdgeUndirected_reciprocal g1 hs) rfl
      omega

/-! ### Inserting and erasing, swapping twice -/

theorem withoutNode_withNode {E : Type} [EdgeLike E] [LawfulEdge E] (s : Edges E) {n : Nat} (hn : n ≤ s.length) :
    withoutNode (withNode s n) n = s := by
  apply List.ext_getElem?
  intro i
  rw [getElem?_withoutNode, getElem?_withNode _ _ _ hn, if_neg (raise_ne n i), lower_raise]
  cases s[i]? with
  | none => rfl
  | some l =>
    simp only [Option.map_some]
    congr 1
    have : (relabel (raise n) l).filter (fun e => decide (target e ≠ n)) = relabel (raise n) l := by
      rw [List.filter_eq_self]
      intro e he
      obtain ⟨e₀, _, rfl⟩ := List.mem_map.1 he
      rw [LawfulEdge.target_retarget]
      simp [raise_ne]
    rw [this]
    unfold relabel
    rw [List.map_map]
    conv => rhs; rw [← List.map_id l]
    apply List.map_congr_left
    intro e _
    simp only [Function.comp]
    rw [LawfulEdge.target_retarget, LawfulEdge.retarget_retarget, lower_raise, LawfulEdge.retarget_target, id]

theorem withoutNodeE_withNode {s : Edges (EEdge W M)} (hs : Embedded s) {n : Nat} (hn : n ≤ s.length) :
    withoutNodeE (withNode s n) n = s := by
  have h1 := withoutNode_withNode s hn
  have h2 : withoutNodeE (withNode s n) n = withoutNode (withNode s n) n := by
    unfold withoutNodeE withoutNode
    apply List.map_congr_left
    intro l hl
    unfold relabel
    apply List.map_congr_left
    intro e he
    rw [List.mem_filter] at he
    have hl' : l ∈ withNode s n := by
      rw [← List.eraseIdx_eq_take_drop_succ] at hl
      exact List.mem_of_mem_eraseIdx hl
    obtain ⟨i, hi⟩ := List.mem_iff_getElem?.1 hl'
    obtain ⟨k, hk⟩ := List.mem_iff_getElem?.1 he.1
    obtain ⟨_, e', he', _⟩ := withNode_embedded hn hs i k e (by unfold edgeAt; rw [hi]; exact hk)
    obtain ⟨t, ht, hc⟩ := Option.bind_eq_some_iff.1 he'
    rw [ht]
    simp only
    have hall : (t.take e.comp).countP (fun e' => decide (e'.target ≠ n)) = (t.take e.comp).length := by
      rw [List.countP_eq_length]
      intro f hf
      have hf' : f ∈ t := List.mem_of_mem_take hf
      rw [getElem?_withNode _ _ _ hn] at ht
      split at ht
      · cases ht; simp at hf'
      · obtain ⟨t₀, _, rfl⟩ := Option.map_eq_some_iff.1 ht
        obtain ⟨f₀, _, rfl⟩ := List.mem_map.1 hf'
        simp [retarget, raise_ne]
    rw [hall, List.length_take, Nat.min_eq_left (Nat.le_of_lt (List.getElem?_eq_some_iff.1 hc).1)]
    rfl
  rw [h2, h1]

theorem transposed_twice {E : Type} [EdgeLike E] [LawfulEdge E] {s s' s'' : Edges E} {i j : Nat}
    (h : Transposed s s' i j) (h' : Transposed s' s'' i j) : s'' = s := by
  apply List.ext_getElem?
  intro k
  rw [h'.2, h.2, transpose_transpose]
  cases s[k]? with
  | none => rfl
  | some l =>
    simp only [Option.map_some]
    congr 1
    unfold relabel
    rw [List.map_map]
    conv => rhs; rw [← List.map_id l]
    apply List.map_congr_left
    intro e _
    simp only [Function.comp]
    rw [LawfulEdge.target_retarget, LawfulEdge.retarget_retarget, transpose_transpose, LawfulEdge.retarget_target, id]

theorem swap_twice {α : Type} (l : List α) {i j : Nat} (hi : i < l.length) (hj : j < l.length) :
    (((l.set i l[j]).set j l[i]).set i (((l.set i l[j]).set j l[i])[j]'(by simpa using hj))).set j
      (((l.set i l[j]).set j l[i])[i]'(by simpa using hi)) = l := by
  apply List.ext_getElem
  · simp
  · intro k h1 h2
    simp only [List.getElem_set]
    grind

end Verif.Graph
