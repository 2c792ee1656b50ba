import Verif.Spec.NodeWeights
import Verif.Lemmas.GraphHistory
import Verif.Lemmas.GraphInit
/-
Lemmas about the weights of nodes.
-/
set_option linter.unusedSimpArgs false
set_option linter.unusedVariables false
namespace Verif.NodeWeights
open Verif.Graph Verif.Spec Verif.Spec.NodeWeights

variable {N W M E : Type}

/-- The outcome leaves the given weights. -/
def Leaves (ws : List N) : Outcome (G N E) Val → Prop
  | .ret g _ => g.nodes = ws
  | .threw g => g.nodes = ws
  | .ub => True

theorem leaves_onEdges (g : G N E) (r : Res (Edges E)) : Leaves g.nodes (onEdges g r) := by
  unfold onEdges; cases r <;> simp [Leaves]

theorem leaves_onEdges2 (g : G N E) (n m : Nat) (r : Res (Edges E × Nat × Nat)) : Leaves g.nodes (onEdges2 g n m r) := by
  unfold onEdges2; rcases r with ⟨_, _, _⟩ | _ | _ <;> simp [Leaves]

theorem insertIdx_eq (l : List N) (n : Nat) (w : N) (h : n ≤ l.length) : l.insertIdx n w = l.take n ++ w :: l.drop n := by
  induction l generalizing n with
  | nil => simp at h; subst h; rfl
  | cons a l ih => cases n with
    | zero => rfl
    | succ n => simp at h; simp [ih n h]

theorem leaves_insertNode [EdgeLike E] (g : G N E) (hg : g.nodes.length = g.edges.length) (pos : Nat) (w : N) :
    Leaves (g.nodes.take pos ++ w :: g.nodes.drop pos) (g.insertNode pos w) := by
  unfold G.insertNode
  simp only
  rw [if_pos (by omega)]
  show g.nodes.insertIdx _ w = _
  rw [insertIdx_eq _ _ _ (by omega)]
  rcases Nat.le_total pos g.edges.length with h | h
  · rw [Nat.min_eq_left h]
  · rw [Nat.min_eq_right h, ← hg, List.take_of_length_le (l := g.nodes) (i := pos) (by omega),
      List.drop_of_length_le (l := g.nodes) (i := pos) (by omega)]
    simp

theorem leaves_eraseNode (g : G N E) (hg : g.nodes.length = g.edges.length) (n : Nat) (r : Res (Edges E))
    (h : r = .throws → g.edges.length ≤ n) : Leaves (g.nodes.take n ++ g.nodes.drop (n + 1)) (g.eraseNode n r) := by
  unfold G.eraseNode
  cases r with
  | ok s =>
    simp only
    split
    · simp [Leaves, List.eraseIdx_eq_take_drop_succ]
    · trivial
  | throws =>
    have := h rfl
    simp [Leaves, List.take_of_length_le (l := g.nodes) (i := n) (by omega),
      List.drop_of_length_le (l := g.nodes) (i := n + 1) (by omega)]
  | ub => trivial

theorem leaves_swapNodes (g : G N E) (i j : Nat) (r : Res (Edges E)) :
    Leaves (match g.nodes[i]?, g.nodes[j]? with | some a, some b => (g.nodes.set i b).set j a | _, _ => g.nodes)
      (g.swapNodes i j r) := by
  unfold G.swapNodes
  cases g.nodes[i]? <;> cases g.nodes[j]? <;> simp [Leaves]
  cases r <;> simp [Leaves]

theorem leaves_setNodeWeight (g : G N E) (n : Nat) (w : N) :
    Leaves (g.nodes.mapIdx fun i v => if i = n then w else v) (setNodeWeight g n w) := by
  have key : g.nodes.set n w = g.nodes.mapIdx fun i v => if i = n then w else v := by
    apply List.ext_getElem? ; intro i
    rw [List.getElem?_set, List.getElem?_mapIdx]
    rcases Nat.lt_or_ge i g.nodes.length with h | h
    · by_cases hi : n = i
      · subst hi; simp [h]
      · simp [hi, Ne.symm hi, h]
    · simp [h, List.getElem?_eq_none h]
      intro h1; omega
  unfold setNodeWeight
  split
  · rename_i h
    rw [← key, h]
    show g.nodes = _
    rw [List.set_eq_of_length_le (Nat.le_refl _)]
  · split
    · exact key
    · trivial

theorem leaves_mutateNodeWeight (g : G N E) (n : Nat) (f : N → N) :
    Leaves (g.nodes.mapIdx fun i v => if i = n then f v else v) (mutateNodeWeight g n f) := by
  unfold mutateNodeWeight
  split
  · rename_i h
    show g.nodes = _
    apply List.ext_getElem? ; intro i
    rw [List.getElem?_mapIdx]
    rcases Nat.lt_or_ge i g.nodes.length with h1 | h1
    · have : i ≠ n := by omega
      simp [h1, this]
    · simp [List.getElem?_eq_none h1]
  · split
    · rename_i w hw
      show g.nodes.set n (f w) = _
      apply List.ext_getElem? ; intro i
      rw [List.getElem?_set, List.getElem?_mapIdx]
      by_cases hi : n = i
      · subst hi
        obtain ⟨h, rfl⟩ := List.getElem?_eq_some_iff.1 hw
        simp [h]
      · simp [hi, Ne.symm hi]
    · trivial

theorem directed_leaves (stdSort : {α : Type} → (α → α → Bool) → List α → List α) (g : G N (Edge W M))
    (hg : g.nodes.length = g.edges.length) (o : NodeOp N (Op N W M (Edge W M))) :
    Leaves (after g.nodes o) (nodeStep (directedStep stdSort) g o) := by
  cases o with
  | setWeight n w => exact leaves_setNodeWeight g n w
  | mutateWeight n f => exact leaves_mutateNodeWeight g n f
  | call o =>
    cases o with
    | addNode w =>
      have := leaves_insertNode g hg g.edges.length w
      rw [← hg, List.take_length, List.drop_length, hg] at this
      exact this
    | insertNode pos w => exact leaves_insertNode g hg pos w
    | eraseNode n =>
      refine leaves_eraseNode g hg n _ fun h => ?_
      rcases Nat.lt_or_ge n g.edges.length with h1 | h1
      · rw [eraseNodeDirected_spec _ n h1] at h; cases h
      · exact h1
    | swapNodes i j => exact leaves_swapNodes g i j _
    | clear => rfl
    | insertJoin => trivial
    | insertJoinPos => trivial
    | _ => exact leaves_onEdges g _

theorem undirected_leaves [DecidableEq W] [DecidableEq M] (stdSort : {α : Type} → (α → α → Bool) → List α → List α)
    (g : G N (Edge W M)) (hg : g.nodes.length = g.edges.length) (o : NodeOp N (Op N W M (Edge W M))) :
    Leaves (after g.nodes o) (nodeStep (undirectedStep stdSort) g o) := by
  cases o with
  | setWeight n w => exact leaves_setNodeWeight g n w
  | mutateWeight n f => exact leaves_mutateNodeWeight g n f
  | call o =>
    cases o with
    | addNode w =>
      have := leaves_insertNode g hg g.edges.length w
      rw [← hg, List.take_length, List.drop_length, hg] at this
      exact this
    | insertNode pos w => exact leaves_insertNode g hg pos w
    | eraseNode n =>
      refine leaves_eraseNode g hg n _ fun h => ?_
      unfold eraseNodeUndirected at h
      split at h
      · exfalso
        rename_i l hl
        revert h
        generalize partitionsToVisit l n = ns
        generalize g.edges = s
        induction ns generalizing s with
        | nil => intro h; cases h
        | cons a ns ih =>
          intro h
          unfold visit at h
          split at h
          · exact ih _ h
          · cases h
      · rename_i hn
        simpa using hn
    | swapNodes i j => exact leaves_swapNodes g i j _
    | clear => rfl
    | insertJoin => trivial
    | insertJoinPos => trivial
    | _ => exact leaves_onEdges g _

theorem embedded_leaves (g : G N (EEdge W M)) (hg : g.nodes.length = g.edges.length) (he : Embedded g.edges)
    (o : NodeOp N (Op N W M (EEdge W M))) : Leaves (after g.nodes o) (nodeStep embeddedStep g o) := by
  cases o with
  | setWeight n w => exact leaves_setNodeWeight g n w
  | mutateWeight n f => exact leaves_mutateNodeWeight g n f
  | call o =>
    cases o with
    | addNode w =>
      have := leaves_insertNode g hg g.edges.length w
      rw [← hg, List.take_length, List.drop_length, hg] at this
      exact this
    | insertNode pos w => exact leaves_insertNode g hg pos w
    | eraseNode n =>
      refine leaves_eraseNode g hg n _ fun h => ?_
      rcases Nat.lt_or_ge n g.edges.length with h1 | h1
      · rw [(eraseNodeEmbedded_spec he h1).1] at h; cases h
      · exact h1
    | swapNodes i j => exact leaves_swapNodes g i j _
    | clear => rfl
    | insertJoin => exact leaves_onEdges2 g _ _ _
    | insertJoinPos => exact leaves_onEdges2 g _ _ _
    | swapEdges => trivial
    | sortEdges => trivial
    | stableSortEdges => trivial
    | _ => exact leaves_onEdges g _

theorem nodeGood {P : Edges E → Prop} {fl : Spec.Flavour} {step : G N E → Op N W M E → Outcome (G N E) Val}
    (h : ∀ g, Inv P g → ∀ o, InContract fl g o → Good P (step g o))
    (g : G N E) (hg : Inv P g) (o : NodeOp N (Op N W M E)) (hc : NodeContract fl g o) : Good P (nodeStep step g o) := by
  cases o with
  | call o => exact h g hg o hc
  | setWeight n w =>
    simp only [nodeStep, setNodeWeight]
    have : n ≤ g.nodes.length := hc
    split
    · exact .inr ⟨_, rfl, hg⟩
    · rw [if_pos (by omega)]
      exact .inl ⟨_, _, rfl, by simpa using hg.1, hg.2⟩
  | mutateWeight n f =>
    simp only [nodeStep, mutateNodeWeight]
    have : n ≤ g.nodes.length := hc
    split
    · exact .inr ⟨_, rfl, hg⟩
    · rw [List.getElem?_eq_getElem (by omega)]
      exact .inl ⟨_, _, rfl, by simpa using hg.1, hg.2⟩

theorem history {P : Edges E → Prop} {fl : Spec.Flavour} {step : G N E → Op N W M E → Outcome (G N E) Val}
    (h : ∀ g, Inv P g → ∀ o, InContract fl g o → Good P (step g o))
    (hl : ∀ g, Inv P g → ∀ o, Leaves (after g.nodes o) (nodeStep step g o))
    (ops : List (NodeOp N (Op N W M E))) (g : G N E) (hg : Inv P g)
    (hc : Within (nodeStep step) (NodeContract fl) g ops) :
    ∃ g' outs, run (nodeStep step) g ops = some (g', outs) ∧ Inv P g' ∧ g'.nodes = ops.foldl after g.nodes := by
  induction ops generalizing g with
  | nil => exact ⟨g, [], rfl, hg, rfl⟩
  | cons o os ih =>
    unfold Within at hc
    have h1 := hl g hg o
    unfold run
    rcases nodeGood h g hg o hc.1 with ⟨g', b, h2, h3⟩ | ⟨g', h2, h3⟩
    all_goals
      rw [h2] at h1
      have hc2 := hc.2
      rw [h2] at hc2
      rw [h2]
      obtain ⟨g'', outs, h4, h5, h6⟩ := ih g' h3 hc2
      refine ⟨g'', _, by simp only [h4]; rfl, h5, ?_⟩
      rw [h6, show g'.nodes = _ from h1]
      rfl

/-! ### Arrays -/

theorem toElements_ok (l : List N) (n i : Nat) (h : i + n ≤ l.length) : toElements l i n = .ok ((l.drop i).take n) := by
  induction n generalizing i with
  | zero => simp [toElements]
  | succ n ih =>
    have hi : i < l.length := by omega
    simp only [toElements, toElement, List.getElem?_eq_getElem hi, Res.bind, ih (i + 1) (by omega)]
    rw [if_neg (by omega), List.drop_eq_getElem_cons hi, List.take_succ_cons]

theorem toElements_ub (l : List N) (n i : Nat) (h1 : i ≤ l.length) (h : l.length < i + n) : toElements l i n = .ub := by
  induction n generalizing i with
  | zero => omega
  | succ n ih =>
    rcases Nat.lt_or_ge i l.length with hi | hi
    · simp only [toElements, toElement, List.getElem?_eq_getElem hi, Res.bind, ih (i + 1) (by omega) (by omega)]
      rw [if_neg (by omega)]
    · have : i = l.length := by omega
      subst this
      simp [toElements, toElement, Res.bind]

theorem toArrayNoDefault_spec (size : Nat) (l : List N) :
    toArrayNoDefault size l = if size < l.length then .throws else if l.length = size then .ok l else .ub := by
  unfold toArrayNoDefault
  split
  · rfl
  · split
    · rename_i h
      rw [toElements_ok l size 0 (by omega)]
      simp [← h]
    · exact toElements_ub l size 0 (by omega) (by omega)

theorem toArrayList_full (dflt : Option N) (l : List N) : toArrayList dflt l.length l = .ok l := by
  cases dflt with
  | none => simp [toArrayList, toArrayNoDefault_spec]
  | some d =>
    simp only [toArrayList, Static.toArray, Nat.lt_irrefl, if_false, Res.bind]
    congr 1
    apply List.ext_getElem
    · simp
    · intro i h1 h2
      simp at h1
      simp [h1]

end Verif.NodeWeights
