import Verif.Model.Rollback
import Verif.Props.Graph

/-! # C31: failed insertions are rolled back; C20 when the assignment of a weight fails

A failing operation is one for which one of the flags `f₁`, `f₂`, `f₃` of the model is set, or which throws for another
reason.  Beside the state after a failure, each theorem says that without failures the operation is the one of Model/Graph. -/
namespace Verif.Props
open Verif.Spec Verif.Graph EdgeLike

section lemmas

theorem sentinel_undoes {E : Type} (s : Edges E) (i : Nat) (e : E) (hi : i < s.length) :
    joinSentinel i (Graph.degree (onNode s i (· ++ [e])) i - 1) (numHalves (onNode s i (· ++ [e]))) (onNode s i (· ++ [e])) = s := by
  unfold joinSentinel
  rw [if_pos rfl, onNode_onNode, degree_onNode]
  obtain ⟨l, hl⟩ : ∃ l, s[i]? = some l := ⟨_, List.getElem?_eq_getElem hi⟩
  apply List.ext_getElem?
  intro k
  rw [getElem?_onNode]
  by_cases h : k = i
  · subst h; simp [hl, List.eraseIdx_append_of_length_le]
  · simp [h]

theorem numHalves_append {E : Type} (s : Edges E) (i : Nat) (e : E) (hi : i < s.length) :
    numHalves (onNode s i (· ++ [e])) = numHalves s + 1 := by
  obtain ⟨l, hl⟩ : ∃ l, s[i]? = some l := ⟨_, List.getElem?_eq_getElem hi⟩
  have := total_onNode s i (· ++ [e]) l hl
  simp only [numHalves_eq] at *
  simp at this
  omega

theorem sentinel_idle {E : Type} {s : Edges E} {i pos size : Nat} (h : numHalves s ≠ size) : joinSentinel i pos size s = s := if_neg h

theorem numHalves_insertIdx {E : Type} (s : Edges E) (i p : Nat) (e : E) (hi : i < s.length) (hp : p ≤ Graph.degree s i) :
    numHalves (onNode s i (·.insertIdx p e)) = numHalves s + 1 := by
  obtain ⟨l, hl⟩ : ∃ l, s[i]? = some l := ⟨_, List.getElem?_eq_getElem hi⟩
  have := total_onNode s i (·.insertIdx p e) l hl
  simp only [numHalves_eq] at *
  rw [degree_of_getElem? hl] at hp
  simp [List.length_insertIdx, hp] at this
  omega

theorem numHalves_onEdge {E : Type} (s : Edges E) (n k : Nat) (f : E → E) : numHalves (onEdge s n k f) = numHalves s := by
  rw [numHalves_eq, numHalves_eq]
  unfold onEdge
  cases hl : s[n]? with
  | none =>
    have : onNode s n (·.modify k f) = s := by
      apply List.ext_getElem?
      intro i
      rw [getElem?_onNode]
      split
      · rename_i h; subst h; rw [hl]; rfl
      · rfl
    rw [this]
  | some l =>
    have := total_onNode s n (·.modify k f) l hl
    simp at this
    omega

theorem modifyComp_size {W M : Type} (f : Nat → Nat) (n p k : Nat) (s s' : Edges (EEdge W M)) (h : modifyComp f n p k s = .ok s') :
    numHalves s' = numHalves s ∧ s'.length = s.length ∧ ∀ i, Graph.degree s' i = Graph.degree s i := by
  have hset : ∀ (s s' : Edges (EEdge W M)) (a c : Nat), setComp s a c f = .ok s' → numHalves s' = numHalves s ∧ s'.length = s.length ∧ ∀ i, Graph.degree s' i = Graph.degree s i := by
    intro s s' a c h
    unfold setComp at h
    split at h
    · cases h
    · cases h; exact ⟨numHalves_onEdge _ _ _ _, length_onEdge _ _ _ _, degree_onEdge _ _ _ _⟩
  induction k generalizing p s with
  | zero => unfold modifyComp at h; cases h; exact ⟨rfl, rfl, fun _ => rfl⟩
  | succ k ih =>
    unfold modifyComp at h
    split at h
    · cases h
    · rename_i e he
      generalize hr : (if n ≠ e.target then setComp s e.target e.comp f
        else if f e.comp ≤ p then setComp s e.target e.comp f
        else setComp s e.target (f e.comp) f) = r at h
      cases r with
      | ok t =>
        have h1 := ih _ _ h
        have h2 : numHalves t = numHalves s ∧ t.length = s.length ∧ ∀ i, Graph.degree t i = Graph.degree s i := by
          split at hr
          · exact hset _ _ _ _ hr
          · split at hr <;> exact hset _ _ _ _ hr
        exact ⟨h1.1.trans h2.1, h1.2.1.trans h2.2.1, fun i => (h1.2.2 i).trans (h2.2.2 i)⟩
      | throws => cases h
      | ub => cases h

theorem insertHalf_size {W M : Type} {s s' : Edges (EEdge W M)} {n p : Nat} {e : EEdge W M} (hn : n < s.length)
    (hp : p ≤ Graph.degree s n) (h : insertHalf s n p e = .ok s') : numHalves s' = numHalves s + 1 := by
  unfold insertHalf increment at h
  rw [(modifyComp_size _ _ _ _ _ _ h).1, numHalves_insertIdx s n p e hn hp]

/-- At the end of a node nothing has to be adjusted. -/
theorem insertHalf_end {W M : Type} (s : Edges (EEdge W M)) (n : Nat) (e : EEdge W M) (hn : n < s.length) :
    insertHalf s n (Graph.degree s n) e = .ok (onNode s n (· ++ [e])) := by
  obtain ⟨l, hl⟩ : ∃ l, s[n]? = some l := ⟨_, List.getElem?_eq_getElem hn⟩
  have h1 : onNode s n (·.insertIdx (Graph.degree s n) e) = onNode s n (· ++ [e]) := by
    apply List.ext_getElem?
    intro i
    rw [getElem?_onNode, getElem?_onNode]
    split
    · rename_i h; subst h
      rw [degree_of_getElem? hl, hl]
      simp
    · rfl
  unfold insertHalf
  simp only
  rw [h1]
  unfold increment
  have : Graph.degree (onNode s n (· ++ [e])) n - (Graph.degree s n + 1) = 0 := by
    rw [degree_onNode, degree_of_getElem? hl]; simp [hl]
  rw [this]
  rfl

theorem modifyComp_not_throws {W M : Type} (f : Nat → Nat) (n p k : Nat) (s : Edges (EEdge W M)) : modifyComp f n p k s ≠ .throws := by
  have hset : ∀ (s : Edges (EEdge W M)) (a c : Nat), setComp s a c f ≠ .throws := by
    intro s a c h
    unfold setComp at h
    split at h <;> cases h
  induction k generalizing p s with
  | zero => simp [modifyComp]
  | succ k ih =>
    unfold modifyComp
    split
    · simp
    · rename_i e he
      generalize hr : (if n ≠ e.target then setComp s e.target e.comp f
        else if f e.comp ≤ p then setComp s e.target e.comp f
        else setComp s e.target (f e.comp) f) = r
      cases r with
      | ok t => exact ih _ _
      | throws =>
        split at hr
        · exact absurd hr (hset _ _ _)
        · split at hr <;> exact absurd hr (hset _ _ _)
      | ub => simp [Res.bind]

theorem insertHalf_not_throws {W M : Type} (s : Edges (EEdge W M)) (n p : Nat) (e : EEdge W M) : insertHalf s n p e ≠ .throws :=
  modifyComp_not_throws _ _ _ _ _

theorem length_insertNode' {E : Type} [EdgeLike E] (s : Edges E) (n : Nat) : (insertNode s n).length = s.length + 1 := by
  unfold insertNode fixEdgeData insertSlot
  split
  · simp [List.length_insertIdx]; omega
  · simp

end lemmas

/-! ### C31: edges -/

section
variable {W M : Type}

/-- C31 for `join` of directed graphs. -/
theorem C31_join_directed (f : Bool) (s : Edges (Edge W M)) (i j : Nat) (w : W) (m : M) :
    (∀ s', joinDirectedF f s i j w m = .threw s' → s' = s) ∧
    (f = true → ∃ s', joinDirectedF f s i j w m = .threw s') ∧
    joinDirectedF false s i j w m = ofRes s ((joinDirected s i j w m).bind fun s' => .ok (s', ())) := by
  unfold joinDirectedF joinDirected
  by_cases h : i < s.length ∧ j < s.length
  · simp only [if_pos h]
    cases f <;> simp [ofRes, Res.bind]
  · simp only [if_neg h]
    simp [ofRes, Res.bind]

/-- C31 for `join` of undirected graphs: whichever half cannot be created, the graph is left as it was. -/
theorem C31_join_undirected (f₁ f₂ : Bool) (s : Edges (Edge W M)) (i j : Nat) (w : W) (m₁ m₂ : M) :
    (∀ s', joinUndirectedF f₁ f₂ s i j w m₁ m₂ = .threw s' → s' = s) ∧
    (f₁ = true ∨ f₂ = true → ∃ s', joinUndirectedF f₁ f₂ s i j w m₁ m₂ = .threw s') ∧
    joinUndirectedF false false s i j w m₁ m₂ = ofRes s ((joinUndirected s i j w m₁ m₂).bind fun s' => .ok (s', ())) := by
  unfold joinUndirectedF joinUndirected
  by_cases h : i < s.length ∧ j < s.length
  · simp only [if_pos h]
    have h1 := sentinel_undoes s i ⟨j, w, m₁⟩ h.1
    have h2 : ∀ pos, joinSentinel i pos (numHalves (onNode s i (· ++ [(⟨j, w, m₁⟩ : Edge W M)])))
        (onNode (onNode s i (· ++ [⟨j, w, m₁⟩])) j (· ++ [⟨i, w, m₂⟩])) =
        onNode (onNode s i (· ++ [⟨j, w, m₁⟩])) j (· ++ [⟨i, w, m₂⟩]) := by
      intro pos
      refine sentinel_idle ?_
      rw [numHalves_append _ j _ (by rw [length_onNode]; exact h.2)]
      omega
    refine ⟨?_, ?_, ?_⟩
    · intro s' hs
      cases f₁ <;> cases f₂ <;> simp [h1] at hs <;> exact hs.symm
    · cases f₁ <;> cases f₂ <;> simp
    · simp [h2, ofRes, Res.bind]
  · simp only [if_neg h]
    simp [ofRes, Res.bind]

/-- C31 for `join` of embedded graphs. -/
theorem C31_join_embedded (f₁ f₂ : Bool) (s : Edges (EEdge W M)) (i j : Nat) (w : W) (m₁ m₂ : M) :
    (∀ s', joinEmbeddedF f₁ f₂ s i j w m₁ m₂ = .threw s' → s' = s) ∧
    (f₁ = true ∨ f₂ = true → ∃ s', joinEmbeddedF f₁ f₂ s i j w m₁ m₂ = .threw s') ∧
    joinEmbeddedF false false s i j w m₁ m₂ = ofRes s ((joinEmbedded s i j w m₁ m₂).bind fun s' => .ok (s', ())) := by
  unfold joinEmbeddedF joinEmbedded
  by_cases h : i < s.length ∧ j < s.length
  · simp only [if_pos h]
    have h1 := fun c => sentinel_undoes s i (⟨j, c, w, m₁⟩ : EEdge W M) h.1
    have h2 : ∀ c pos e, joinSentinel i pos (numHalves (onNode s i (· ++ [(⟨j, c, w, m₁⟩ : EEdge W M)])))
        (onNode (onNode s i (· ++ [⟨j, c, w, m₁⟩])) j (· ++ [e])) =
        onNode (onNode s i (· ++ [⟨j, c, w, m₁⟩])) j (· ++ [e]) := by
      intro c pos e
      refine sentinel_idle ?_
      rw [numHalves_append _ j _ (by rw [length_onNode]; exact h.2)]
      omega
    refine ⟨?_, ?_, ?_⟩
    · intro s' hs
      cases f₁ <;> cases f₂ <;> simp [h1] at hs <;> exact hs.symm
    · cases f₁ <;> cases f₂ <;> simp
    · simp [h2, ofRes, Res.bind]
  · simp only [if_neg h]
    simp [ofRes, Res.bind]

/-- C31 for `insert_join` within one node, for insertions whose first half goes to the end of the node.  Missing: insertions
before other edges, for which the property fails, see `C31_insert_join_violated`. -/
theorem C31_insert_join_pos_partial (f₁ f₂ : Bool) (s : Edges (EEdge W M)) (n p q : Nat) (w : W) (m₁ m₂ : M)
    (hp : f₁ = true ∨ p = Graph.degree s n) (s' : Edges (EEdge W M)) (h : insertJoinPosF f₁ f₂ s n p q w m₁ m₂ = .threw s') : s' = s := by
  unfold insertJoinPosF at h
  cases hl : s[n]? with
  | none => rw [hl] at h; cases h
  | some l =>
    have hn : n < s.length := (List.getElem?_eq_some_iff.1 hl).1
    simp only [hl] at h
    by_cases h1 : l.length < p
    · rw [if_pos h1] at h; cases h
    rw [if_neg h1] at h
    by_cases h2 : l.length + 1 < q
    · rw [if_pos h2] at h; cases h; rfl
    rw [if_neg h2] at h
    cases f₁ with
    | true => cases h; rfl
    | false =>
      obtain rfl : p = Graph.degree s n := by simpa using hp
      rw [insertHalf_end _ _ _ hn] at h
      cases f₂ with
      | true =>
        have h3 := sentinel_undoes s n (⟨n, q, w, m₁⟩ : EEdge W M) hn
        rw [show Graph.degree (onNode s n (· ++ [(⟨n, q, w, m₁⟩ : EEdge W M)])) n - 1 = Graph.degree s n by
          rw [degree_onNode, degree_of_getElem? hl]; simp [hl]] at h3
        simp [h3] at h
        exact h.symm
      | false =>
        simp only [Bool.false_eq_true, if_false] at h
        split at h <;> cases h

/-- C31 for `insert_join` between two nodes, for insertions whose first half goes to the end of its node.  Missing: as above. -/
theorem C31_insert_join_partial (f₁ f₂ : Bool) (s : Edges (EEdge W M)) (n p m q : Nat) (w : W) (m₁ m₂ : M)
    (hp : f₁ = true ∨ p = Graph.degree s n) (s' : Edges (EEdge W M)) (h : insertJoinF f₁ f₂ s n p m q w m₁ m₂ = .threw s') : s' = s := by
  unfold insertJoinF at h
  cases hl : s[n]? with
  | none => rw [hl] at h; cases h
  | some l =>
    cases hk : s[m]? with
    | none => rw [hl, hk] at h; cases h
    | some k =>
      have hn : n < s.length := (List.getElem?_eq_some_iff.1 hl).1
      simp only [hl, hk] at h
      by_cases h1 : p ≤ l.length ∧ q ≤ k.length
      · rw [if_pos h1] at h
        by_cases h2 : n = m
        · rw [if_pos h2] at h
          exact C31_insert_join_pos_partial f₁ f₂ s n p q w m₁ m₂ hp s' h
        · rw [if_neg h2] at h
          cases f₁ with
          | true => cases h; rfl
          | false =>
            obtain rfl : p = Graph.degree s n := by simpa using hp
            rw [insertHalf_end _ _ _ hn] at h
            cases f₂ with
            | true =>
              have h3 := sentinel_undoes s n (⟨m, q, w, m₁⟩ : EEdge W M) hn
              rw [show Graph.degree (onNode s n (· ++ [(⟨m, q, w, m₁⟩ : EEdge W M)])) n - 1 = Graph.degree s n by
                rw [degree_onNode, degree_of_getElem? hl]; simp [hl]] at h3
              simp [h3] at h
              exact h.symm
            | false =>
              simp only [Bool.false_eq_true, if_false] at h
              split at h <;> cases h
      · rw [if_neg h1] at h; cases h

/-- Without failures `insert_join` is the one of Model/Graph. -/
theorem C31_insert_join_pos_no_failure (s : Edges (EEdge W M)) (n p q : Nat) (w : W) (m₁ m₂ : M) :
    insertJoinPosF false false s n p q w m₁ m₂ = ofRes s (insertJoinPos s n p q w m₁ m₂) := by
  unfold insertJoinPosF insertJoinPos
  cases hl : s[n]? with
  | none => rfl
  | some l =>
    have hn : n < s.length := (List.getElem?_eq_some_iff.1 hl).1
    simp only
    by_cases h1 : l.length < p
    · simp [h1, ofRes]
    by_cases h2 : l.length + 1 < q
    · simp [h1, h2, ofRes]
    simp only [if_neg h1, if_neg h2, Bool.false_eq_true, if_false]
    cases hh : insertHalf s n p ⟨n, q, w, m₁⟩ with
    | throws => exact absurd hh (insertHalf_not_throws _ _ _ _)
    | ub => rfl
    | ok s₁ =>
      simp only [show ∀ (a : Edges (EEdge W M)) (f : Edges (EEdge W M) → Res (Edges (EEdge W M) × Nat × Nat)), (Res.ok a).bind f = f a from fun _ _ => rfl]
      unfold insertHalf increment at hh
      obtain ⟨_, hlen, hdeg⟩ := modifyComp_size _ _ _ _ _ _ hh
      rw [length_onNode] at hlen
      have hq : q ≤ Graph.degree s₁ n := by
        rw [hdeg, degree_onNode, if_pos rfl, hl]
        simp [List.length_insertIdx, Nat.le_of_not_lt h1]
        omega
      have h2 := fun e => numHalves_insertIdx s₁ n q e (by omega) hq
      generalize (if q ≤ p then p + 1 else p) = pos₁
      have h3 := h2 ⟨n, pos₁, w, m₂⟩
      generalize onNode s₁ n (·.insertIdx q ⟨n, pos₁, w, m₂⟩) = s₂ at h3 ⊢
      split
      · rename_i s₄ h4
        have hs : numHalves s₄ = numHalves s₂ := by
          split at h4
          · exact (modifyComp_size _ _ _ _ _ _ h4).1
          · cases h5 : increment n (q + 1) pos₁ s₂ with
            | ok s₃ =>
              rw [h5] at h4
              exact (modifyComp_size _ _ _ _ _ _ h4).1.trans (modifyComp_size _ _ _ _ _ _ h5).1
            | throws => rw [h5] at h4; cases h4
            | ub => rw [h5] at h4; cases h4
        rw [sentinel_idle (by omega), h4]
        rfl
      · rename_i hno
        generalize hr : (if pos₁ < q then increment n (q + 1) (Graph.degree s₂ n) s₂
          else (increment n (q + 1) pos₁ s₂).bind fun s₃ => increment n (pos₁ + 1) (Graph.degree s₃ n) s₃) = r at hno ⊢
        cases r with
        | ok t => exact absurd rfl (fun h => hno t h)
        | ub => rfl
        | throws =>
          exfalso
          split at hr
          · exact modifyComp_not_throws _ _ _ _ _ hr
          · cases h5 : increment n (q + 1) pos₁ s₂ with
            | ok s₃ => rw [h5] at hr; exact modifyComp_not_throws _ _ _ _ _ hr
            | throws => exact modifyComp_not_throws _ _ _ _ _ h5
            | ub => rw [h5] at hr; cases hr

/-- Without failures `insert_join` is the one of Model/Graph. -/
theorem C31_insert_join_no_failure (s : Edges (EEdge W M)) (n p m q : Nat) (w : W) (m₁ m₂ : M) :
    insertJoinF false false s n p m q w m₁ m₂ = ofRes s (insertJoin s n p m q w m₁ m₂) := by
  unfold insertJoinF insertJoin
  cases hl : s[n]? with
  | none => rfl
  | some l =>
    cases hk : s[m]? with
    | none => rfl
    | some k =>
      have hm : m < s.length := (List.getElem?_eq_some_iff.1 hk).1
      simp only
      by_cases h1 : p ≤ l.length ∧ q ≤ k.length
      · by_cases h2 : n = m
        · simp only [if_pos h1, if_pos h2]
          exact C31_insert_join_pos_no_failure s n p q w m₁ m₂
        · simp only [if_pos h1, if_neg h2, Bool.false_eq_true, if_false]
          cases hh : insertHalf s n p ⟨m, q, w, m₁⟩ with
          | throws => exact absurd hh (insertHalf_not_throws _ _ _ _)
          | ub => rfl
          | ok s₁ =>
            simp only [Res.bind]
            unfold insertHalf increment at hh
            obtain ⟨_, hlen, hdeg⟩ := modifyComp_size _ _ _ _ _ _ hh
            rw [length_onNode] at hlen
            have hq : q ≤ Graph.degree s₁ m := by
              rw [hdeg, degree_onNode, if_neg (Ne.symm h2), degree_of_getElem? hk]; exact h1.2
            cases hh2 : insertHalf s₁ m q ⟨n, p, w, m₂⟩ with
            | throws => exact absurd hh2 (insertHalf_not_throws _ _ _ _)
            | ub => rfl
            | ok s₂ =>
              have := insertHalf_size (by omega) hq hh2
              simp only
              rw [sentinel_idle (by omega)]
              rfl
      · simp only [if_neg h1]
        rfl

end

/-- `sampleE` after the failed call of the next theorem. -/
def brokenE : Edges (EEdge Nat Unit) :=
  [[⟨1, 2, 5, ()⟩, ⟨0, 3, 6, ()⟩, ⟨0, 2, 6, ()⟩, ⟨1, 0, 4, ()⟩], [⟨0, 4, 4, ()⟩, ⟨2, 0, 7, ()⟩, ⟨0, 1, 5, ()⟩], [⟨1, 1, 7, ()⟩]]

/-- C31 fails for `insert_join` before other edges: when the second half cannot be created the first is erased, but the
positions which the other edges have recorded are not restored, and no longer lead to their other halves. -/
theorem C31_insert_join_violated : Embedded sampleE ∧ insertJoinF false true sampleE 0 0 1 0 7 () () = .threw brokenE ∧ ¬ Embedded brokenE := by
  refine ⟨sampleE_embedded, by decide, fun h => ?_⟩
  obtain ⟨_, e', h1, _, h2, _⟩ := h 0 0 _ rfl
  have : e' = ⟨0, 1, 5, ()⟩ := by simpa [edgeAt, brokenE] using h1.symm
  subst this
  cases h2

example : insertJoinF false true sampleE 0 4 1 0 7 () () = .threw sampleE := by decide
example : insertJoinPosF false true sampleE 0 4 2 7 () () = .threw sampleE := by decide
example : joinUndirectedF false true sampleU 0 1 7 () () = .threw sampleU := by decide
example : joinEmbeddedF false true sampleE 0 0 7 () () = .threw sampleE := by decide

/-! ### C31: nodes -/
section
variable {N E : Type} [EdgeLike E]

/-- C31 for `insert_node` at a position of the graph or its end: whether the weight or the slot for edges cannot be created,
the graph is left as it was. -/
theorem C31_insert_node_partial (f₁ f₂ : Bool) (g : G N E) (hg : g.nodes.length = g.edges.length) {pos : Nat} (hp : pos ≤ g.edges.length) (w : N) :
    (f₁ = true ∨ f₂ = true → g.insertNodeF f₁ f₂ pos w = .threw g) ∧
    g.insertNodeF false false pos w = g.insertNode pos w := by
  unfold G.insertNodeF G.insertNode insertionSentinel
  have hmin : min pos g.edges.length = pos := Nat.min_eq_left hp
  simp only [hmin]
  have hl : (insertNode g.edges pos).length = g.edges.length + 1 := length_insertNode' _ _
  constructor
  · intro hf
    cases f₁ with
    | true => simp [hg, Nat.not_lt.2 hp]
    | false =>
      obtain rfl : f₂ = true := by simpa using hf
      simp [hg, Nat.not_lt.2 hp, List.length_insertIdx, hp, Nat.lt_succ_of_le hp]
  · simp [hg, Nat.not_lt.2 hp, List.length_insertIdx, hp, hl]

/-- C31 for `add_node`. -/
theorem C31_add_node (f₁ f₂ : Bool) (g : G N E) (hg : g.nodes.length = g.edges.length) (w : N) :
    (f₁ = true ∨ f₂ = true → g.addNodeF f₁ f₂ w = .threw g) ∧ g.addNodeF false false w = g.insertNode g.edges.length w :=
  C31_insert_node_partial f₁ f₂ g hg (Nat.le_refl _) w

/-- C31 fails for `insert_node` at a position beyond the end, which otherwise means the end: when the slot for the edges cannot
be created, a node weight beyond the end is erased. -/
theorem C31_insert_node_violated (g : G N E) (hg : g.nodes.length = g.edges.length) {pos : Nat} (hp : g.edges.length < pos) (w : N) :
    g.insertNodeF false true pos w = .ub ∧ ∃ g', g.insertNodeF false false pos w = .ret g' (.index g.edges.length) := by
  unfold G.insertNodeF insertionSentinel
  have hmin : min pos g.edges.length = g.edges.length := Nat.min_eq_right (by omega)
  simp only [hmin]
  have hl : (insertNode g.edges g.edges.length).length = g.edges.length + 1 := length_insertNode' _ _
  constructor
  · simp [hg, List.length_insertIdx, Nat.not_lt.2 (show g.edges.length + 1 ≤ pos by omega)]
  · simp [hg, List.length_insertIdx, hl]

end

/-! ### C20 -/
section
variable {W M : Type} [DecidableEq W] [DecidableEq M]

/-- C20: if the old weight cannot be copied or the weight of the partner cannot be assigned, an undirected graph is left as it
was.  Missing: failure of the assignment to the edge itself, see `C20_throwing_assignment_violated`. -/
theorem C20_throwing_assignment_undirected_partial (f₁ f₂ : Bool) (s : Edges (Edge W M)) (n k : Nat) (w : W) (s' : Edges (Edge W M))
    (h : setWeightUndirectedF f₁ f₂ false s n k w = .threw s') : s' = s := by
  unfold setWeightUndirectedF at h
  split at h
  · cases h
  · cases f₁ with
    | true => cases h; rfl
    | false =>
      simp only [Bool.false_eq_true, if_false] at h
      split at h
      · cases h
      · cases h; rfl
      · cases f₂ with
        | true => cases h; rfl
        | false =>
          simp only [Bool.false_eq_true, if_false] at h
          split at h <;> cases h

/-- Without failures `set_edge_weight` is the one of Model/Graph. -/
theorem C20_set_weight_undirected_no_failure (s : Edges (Edge W M)) (n k : Nat) (w : W) :
    setWeightUndirectedF false false false s n k w = ofRes s ((setWeightUndirected s n k w).bind fun s' => .ok (s', ())) := by
  unfold setWeightUndirectedF setWeightUndirected
  cases s[n]?.bind (·[k]?) with
  | none => rfl
  | some e =>
    simp only [Bool.false_eq_true, if_false]
    cases partnerPos s n k e with
    | ub => rfl
    | throws => rfl
    | ok p =>
      simp only [Res.bind]
      cases (onEdge s e.target p fun e => e.setWeight w)[e.target]?.bind (·[p]?) <;> rfl

end

section
variable {W M : Type}

/-- C20: likewise for embedded graphs. -/
theorem C20_throwing_assignment_embedded_partial (f₁ f₂ : Bool) (s : Edges (EEdge W M)) (n k : Nat) (w : W) (s' : Edges (EEdge W M))
    (h : setWeightEmbeddedF f₁ f₂ false s n k w = .threw s') : s' = s := by
  unfold setWeightEmbeddedF at h
  split at h
  · cases h
  · cases f₁ with
    | true => cases h; rfl
    | false =>
      simp only [Bool.false_eq_true, if_false] at h
      split at h
      · cases h
      · cases f₂ with
        | true => cases h; rfl
        | false =>
          simp only [Bool.false_eq_true, if_false] at h
          split at h <;> cases h

end

/-- `sampleU` after the failed call of the next theorem. -/
def brokenU : Edges (Edge Nat Unit) :=
  [[⟨1, 5, ()⟩, ⟨0, 6, ()⟩, ⟨0, 6, ()⟩, ⟨1, 5, ()⟩], [⟨0, 5, ()⟩, ⟨2, 7, ()⟩, ⟨0, 5, ()⟩], [⟨1, 9, ()⟩]]

/-- C20 fails when the assignment to the edge itself throws: the partner keeps the new weight, and the halves differ. -/
theorem C20_throwing_assignment_violated : Reciprocal sampleU ∧
    setWeightUndirectedF false false true sampleU 1 1 9 = .threw brokenU ∧ ¬ Reciprocal brokenU :=
  ⟨sampleU_reciprocal, by decide, fun h => absurd (h.links 1 2 (by decide) 9) (by decide)⟩

example : setWeightUndirectedF false true false sampleU 1 1 9 = .threw sampleU := by decide
example : setWeightEmbeddedF false true false sampleE 1 1 9 = .threw sampleE := by decide
example : (⟨[4, 5], [[], []]⟩ : G Nat (Edge Unit Unit)).insertNodeF false true 1 6 = .threw ⟨[4, 5], [[], []]⟩ := by decide

end Verif.Props
