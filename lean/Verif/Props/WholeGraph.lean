import Verif.Model.WholeGraph
import Verif.Spec.WholeGraph
import Verif.Props.Rollback
import Verif.Props.Tree

/-! # Operations on whole graphs which fail part way: C105 -/
namespace Verif.Props
open Verif.Spec Verif.Graph EdgeLike

/-! ### Copying -/

theorem copyElements_steps {α β : Type} (copy : Nat → α → Option (β × Nat)) (f : α → β) (steps : α → Nat)
    (h : ∀ k a, copy k a = if steps a ≤ k then some (f a, k - steps a) else none) (k : Nat) (l : List α) :
    copyElements copy k l = if (l.map steps).sum ≤ k then some (l.map f, k - (l.map steps).sum) else none := by
  induction l generalizing k with
  | nil => simp [copyElements]
  | cons a l ih =>
    simp only [copyElements, h, List.map_cons, List.sum_cons]
    by_cases h1 : steps a ≤ k
    · rw [if_pos h1]
      simp only [Option.bind_some, ih]
      by_cases h2 : (l.map steps).sum ≤ k - steps a
      · rw [if_pos h2, if_pos (by omega)]
        simp; omega
      · rw [if_neg h2, if_neg (by omega)]
        rfl
    · rw [if_neg h1, if_neg (by omega)]
      rfl

theorem copyVector_steps {α β : Type} (copy : Nat → α → Option (β × Nat)) (f : α → β) (steps : α → Nat)
    (h : ∀ k a, copy k a = if steps a ≤ k then some (f a, k - steps a) else none) (k : Nat) (a : α) (l : List α) :
    copyVector copy k (a :: l) = if 1 + ((a :: l).map steps).sum ≤ k
      then some ((a :: l).map f, k - (1 + ((a :: l).map steps).sum)) else none := by
  unfold copyVector
  rw [if_neg (by simp)]
  cases k with
  | zero => rw [if_neg (by omega)]; rfl
  | succ k =>
    simp only [spend, Option.bind_some, copyElements_steps copy f steps h]
    by_cases h2 : ((a :: l).map steps).sum ≤ k
    · rw [if_pos h2, if_pos (by omega)]
      simp; omega
    · rw [if_neg h2, if_neg (by omega)]

theorem copyElement_steps {α : Type} (k : Nat) (a : α) : copyElement k a = if 1 ≤ k then some (id a, k - 1) else none := by
  cases k <;> simp [copyElement, spend]

theorem copyList_steps {α : Type} (k : Nat) (l : List α) :
    copyVector copyElement k l = if listSteps l ≤ k then some (id l, k - listSteps l) else none := by
  cases l with
  | nil => simp [copyVector, listSteps]
  | cons a l =>
    rw [copyVector_steps copyElement id (fun _ => 1) copyElement_steps]
    have : ((a :: l).map fun _ => 1).sum = (a :: l).length := by simp [Nat.add_comm]
    simp only [this, List.map_id, listSteps, id]
    rfl

theorem copyEdges_steps {E : Type} (k : Nat) (s : Edges E) :
    copyEdges k s = if edgesSteps s ≤ k then some (s, k - edgesSteps s) else none := by
  unfold copyEdges
  cases s with
  | nil => simp [copyVector, edgesSteps]
  | cons a l =>
    rw [copyVector_steps (copyVector copyElement) id listSteps copyList_steps]
    simp [edgesSteps]

section
variable {N E : Type}

/-- **C105 (part)** Assigning a copy of a graph, when all allocations and copies succeed or when one of those for the edges fails: in the first case the graph becomes a copy, in
the second it is left as it was and the exception is thrown.  What is missing: the copies of the node weights, see `C105_assign_violated`. -/
theorem C105_assign_partial (k : Nat) (g source : G N E) :
    (edgesSteps source.edges + listSteps source.nodes ≤ k → assignGraph false k g source = .done source) ∧
    (k < edgesSteps source.edges → assignGraph false k g source = .threw g) := by
  unfold assignGraph
  rw [if_neg (by simp), copyEdges_steps]
  constructor
  · intro h
    rw [if_pos (by omega)]
    simp only [assignNodes, copyList_steps]
    rw [if_pos (by omega)]
    rfl
  · intro h
    rw [if_neg (by omega)]

/-- **C105 (violated)** If an allocation or a copy fails while the node weights are assigned, no exception reaches the caller: the program is terminated. -/
theorem C105_assign_violated (k : Nat) (g source : G N E) (h₁ : edgesSteps source.edges ≤ k)
    (h₂ : k < edgesSteps source.edges + listSteps source.nodes) : assignGraph false k g source = .terminated := by
  unfold assignGraph
  rw [if_neg (by simp), copyEdges_steps, if_pos h₁]
  simp only [assignNodes, copyList_steps]
  rw [if_neg (by omega)]
  rfl

/-- **C105** A graph assigned to itself is left as it is, whatever fails. -/
theorem C105_self_assign (k : Nat) (g : G N E) : assignGraph true k g g = .done g := rfl

/-- **C105** `swap` exchanges edges and node weights; `clear` leaves neither. -/
theorem C105_swap_clear (g h : G N E) :
    (swapGraphs g h).1 = h ∧ (swapGraphs g h).2 = g ∧ (clearGraph g).nodes = [] ∧ (clearGraph g).edges = [] := ⟨rfl, rfl, rfl, rfl⟩

/-! ### `swap_nodes` -/

/-- **C105 (part)** `swap_nodes` of directed graphs, and of graphs for which the allocation succeeds: it does what it does when nothing fails, and when it throws the graph is left as it was. -/
theorem C105_swap_nodes_partial (directed f : Bool) (hf : directed = true ∨ f = false) (g : G N E) (i j : Nat) {s : Edges E} :
    g.swapNodesF directed f i j (.ok s) = g.swapNodes i j (.ok s) ∧
    ∀ g', g.swapNodesF directed f i j (.ok s) = .threw g' → g' = g := by
  have h : (f && !directed && decide (i ≠ j)) = false := by rcases hf with rfl | rfl <;> simp
  unfold G.swapNodesF G.swapNodes
  simp only [h]
  constructor
  · rfl
  · intro g'
    split
    · intro h; simp at h
    · intro h; injection h with h; exact h.symm

/-- **C105 (violated)** If the allocation fails in `swap_nodes` of a graph which is not directed, the two weights have changed places although the edges have not. -/
theorem C105_swap_nodes_violated (g : G N E) (i j : Nat) (hij : i ≠ j) {a b : N} (ha : g.nodes[i]? = some a) (hb : g.nodes[j]? = some b) (r : Res (Edges E)) :
    ∃ g', g.swapNodesF false true i j r = .threw g' ∧ g'.edges = g.edges ∧ g'.nodes[i]? = some b ∧ g'.nodes[j]? = some a := by
  have hi : i < g.nodes.length := (List.getElem?_eq_some_iff.1 ha).1
  have hj : j < g.nodes.length := (List.getElem?_eq_some_iff.1 hb).1
  refine ⟨⟨(g.nodes.set i b).set j a, g.edges⟩, ?_, rfl, ?_, ?_⟩
  · unfold G.swapNodesF
    rw [ha, hb]
    simp [hij]
  · rw [List.getElem?_set_ne (Ne.symm hij), List.getElem?_set_self hi]
  · rw [List.getElem?_set_self (by simpa using hj)]

/-! ### `erase_node` -/

theorem eraseFailing_length (l : List N) (n k : Nat) (x : N) (h : n + k + 1 < l.length) : (eraseFailing l n k x).length = l.length := by
  simp [eraseFailing]; omega

/-- **C105 (part)** `erase_node`, when no assignment of a node weight fails: if memory runs out the graph is left as it was, and otherwise the node is erased as usual. -/
theorem C105_erase_node_partial (directed f₁ : Bool) (g : G N E) (n : Nat) (s : Edges E) (hn : n < g.edges.length) :
    (directed = false → f₁ = true → g.eraseNodeF directed f₁ none n (.ok s) = .threw g) ∧
    (directed = true ∨ f₁ = false → g.eraseNodeF directed f₁ none n (.ok s) = g.eraseNode n (.ok s)) := by
  unfold G.eraseNodeF G.eraseNode
  rw [if_neg (by omega)]
  constructor
  · rintro rfl rfl; simp
  · rintro (rfl | rfl) <;> simp

/-- **C105 (violated)** If the assignment of a node weight fails in `erase_node`, the edges of the node have gone and its weight, or that of another node, is still there: there are more weights than
nodes. -/
theorem C105_erase_node_violated (directed : Bool) (g : G N E) (hg : g.nodes.length = g.edges.length) (n k : Nat) (x : N) (s : Edges E) (hs : s.length + 1 = g.edges.length)
    (hn : n + k + 1 < g.nodes.length) :
    ∃ g', g.eraseNodeF directed false (some (k, x)) n (.ok s) = .threw g' ∧ g'.edges = s ∧ g'.nodes.length = g'.edges.length + 1 := by
  refine ⟨⟨eraseFailing g.nodes n k x, s⟩, ?_, rfl, ?_⟩
  · unfold G.eraseNodeF
    rw [if_neg (by omega)]
    simp only [Bool.false_and, Bool.false_eq_true, if_false]
    rw [if_pos (by omega), if_pos hn]
  · rw [eraseFailing_length _ _ _ _ hn]
    dsimp only
    omega

end

/-! ### Inserting nodes into trees -/

theorem insertNodeF_ok {N E : Type} [EdgeLike E] (g : G N E) (hg : g.nodes.length = g.edges.length) (pos : Nat) (w : N) :
    g.insertNodeF false false pos w = g.insertNode pos w := by
  unfold G.insertNodeF G.insertNode insertionSentinel
  have hmin : min pos g.edges.length ≤ g.edges.length := Nat.min_le_right _ _
  have hl : (insertNode g.edges (min pos g.edges.length)).length = g.edges.length + 1 := length_insertNode' _ _
  simp [hg, List.length_insertIdx, hl, hmin]

section
variable {N W M : Type}

/-- Nothing fails. -/
def noFaults : TreeFaults := ⟨false, false, false, false, false⟩

/-- **C105** If nothing fails, `insert_node` of a tree does what C29 says. -/
theorem C105_tree_no_failure (kind : TreeKind) (dw : W) (dm : M) (g : G N (Edge W M)) (hg : g.nodes.length = g.edges.length) (pos parent : Nat) (w : N) :
    insertNodeToTreeF noFaults kind dw dm g pos parent w = insertNodeToTree kind dw dm g pos parent w := by
  unfold insertNodeToTreeF insertNodeToTree
  rw [show noFaults.weight = false from rfl, show noFaults.slot = false from rfl, insertNodeF_ok g hg]
  have hu : ∀ (s : Edges (Edge W M)) (n : Nat), joinUpF noFaults kind dw dm s n parent =
      ofRes s ((joinUp kind dw dm s n parent).bind fun s' => .ok (s', ())) := by
    intro s n
    unfold joinUpF joinUp
    split
    · exact (C31_join_directed false s n parent dw dm).2.2
    · rfl
  have hd : ∀ (s : Edges (Edge W M)) (n : Nat), joinDownF noFaults kind dw dm s n parent =
      ofRes s ((joinDown kind dw dm s n parent).bind fun s' => .ok (s', ())) := by
    intro s n
    unfold joinDownF joinDown
    split
    · rfl
    · split
      · exact (C31_join_undirected false false s parent n dw dm dm).2.2
      · exact (C31_join_directed false s parent n dw dm).2.2
  simp only [hu, hd]
  cases g.insertNode pos w with
  | ub => rfl
  | threw => rfl
  | ret g₁ v =>
    cases v with
    | unit => rfl
    | iters => rfl
    | index n =>
      dsimp only
      split
      · cases joinUp kind dw dm g₁.edges n parent with
        | ub => rfl
        | throws => rfl
        | ok e₂ =>
          dsimp only [Res.bind, ofRes]
          cases joinDown kind dw dm e₂ n parent <;> rfl
      · rfl

/-- **C105 (part)** If the weight of the new node or the slot for its edges cannot be created, the tree is left as it was.  What is missing: failures to create the edges, see
`C105_tree_violated`. -/
theorem C105_tree_partial (f : TreeFaults) (hf : f.weight = true ∨ f.slot = true) (kind : TreeKind) (dw : W) (dm : M) (g : G N (Edge W M))
    (hg : g.nodes.length = g.edges.length) {pos : Nat} (hp : pos ≤ g.edges.length) (parent : Nat) (w : N) :
    insertNodeToTreeF f kind dw dm g pos parent w = .threw g := by
  unfold insertNodeToTreeF
  rw [(C31_insert_node_partial f.weight f.slot g hg hp w).1 hf]

end

/-- A child of the root, above any node but the root. -/
theorem child_of_root {root n : Nat} {par : Nat → Nat} (hpar : ∀ x < n, x ≠ root → par x < n) {x : Nat} (h : Below root par root x) (hx : x < n) (hne : x ≠ root) :
    ∃ y < n, IsParent root par root y := by
  induction h with
  | self => exact absurd rfl hne
  | @up x h1 h2 ih =>
    by_cases h3 : par x = root
    · exact ⟨x, hx, h1, h3⟩
    · exact ih (hpar x hx h1) h3

/-- No tree with several nodes has one without edges. -/
theorem isolated_not_tree {E : Type} [EdgeLike E] (kind : TreeKind) {s : Edges E} {n : Nat} (hn : n < s.length) (h2 : 2 ≤ s.length)
    (h : ∀ b, links s n b = 0 ∧ links s b n = 0) : ¬ IsTree kind s := by
  rintro (rfl | ⟨root, par, ht⟩)
  · simp at hn
  have key : ∀ a b, a < s.length → b < s.length → IsParent root par a b → (a = n ∨ b = n) → False := by
    intro a b ha hb hP hab
    have h3 : links s a b = 0 ∧ links s b a = 0 := by
      rcases hab with rfl | rfl
      · exact h b
      · exact (h a).symm
    have h4 := ht.edges a ha b hb
    have h5 := ht.edges b hb a ha
    rw [h3.1] at h4
    rw [h3.2] at h5
    cases kind <;> simp [downwards, upwards, hP] at h4 h5
  by_cases hr : n = root
  · obtain ⟨x, hx, hxr⟩ : ∃ x < s.length, x ≠ root := by
      by_cases h0 : root = 0
      · exact ⟨1, by omega, by omega⟩
      · exact ⟨0, by omega, by omega⟩
    obtain ⟨y, hy, hP⟩ := child_of_root ht.par_lt (ht.descends x hx) hx hxr
    exact key root y ht.root_lt hy hP (.inl hr.symm)
  · exact key (par n) n (ht.par_lt n hn hr) hn ⟨hr, rfl⟩ (.inr rfl)

section
variable {N W M : Type}


theorem one_way_not_tree {s : Edges (Edge W M)} {n p : Nat} (hn : n < s.length) (hp : p < s.length) (hne : n ≠ p)
    (h : ∀ b, links s n b = 0 ∧ links s b n = 0) (w : W) (m : M) : ¬ IsTree .symmetric (onNode s n (· ++ [⟨p, w, m⟩])) := by
  have hl := length_onNode s n (· ++ [(⟨p, w, m⟩ : Edge W M)])
  rintro (h' | ⟨root, par, ht⟩)
  · rw [h'] at hl
    simp at hl
    omega
  · have h1 := ht.edges n (by omega) p (by omega)
    have h2 := ht.edges p (by omega) n (by omega)
    rw [links_append hn, (h p).1] at h1
    rw [links_append hn, (h p).2] at h2
    simp only [downwards, upwards, true_and, target] at h1 h2
    rw [if_pos trivial] at h1
    rw [if_neg (by omega)] at h2
    omega

/-- One of the edges of the new node which the kind of tree calls for cannot be created. -/
def EdgeFails (f : TreeFaults) : TreeKind → Prop
  | .forward => f.down₁ = true
  | .backward => f.up = true
  | .symmetric => f.up = true ∨ f.down₁ = true
  | .undirected => f.down₁ = true ∨ f.down₂ = true

/-- **C105 (violated)** If an edge of the new node cannot be created, the exception leaves the node behind: what was a tree, with at least one node, no longer is. -/
theorem C105_tree_violated (f : TreeFaults) (hf₁ : f.weight = false) (hf₂ : f.slot = false) (kind : TreeKind) (hf : EdgeFails f kind) (dw : W) (dm : M)
    (g : G N (Edge W M)) (hg : g.nodes.length = g.edges.length) (h0 : 0 < g.edges.length) (pos : Nat) {parent : Nat} (hp : parent ≤ g.edges.length)
    (hne : parent ≠ min pos g.edges.length) (w : N) :
    ∃ g', insertNodeToTreeF f kind dw dm g pos parent w = .threw g' ∧ g'.nodes.length = g.nodes.length + 1 ∧ ¬ IsTree kind g'.edges := by
  let n := min pos g.edges.length
  have hn : n ≤ g.edges.length := Nat.min_le_right _ _
  let s := withNode g.edges n
  have hlen : s.length = g.edges.length + 1 := length_withNode _ _ hn
  have hiso : ¬ IsTree kind s := by
    refine isolated_not_tree (n := n) kind (by omega) (by omega) fun b => ?_
    constructor <;> (rw [links_withNode _ _ hn]; simp)
  have hins : g.insertNodeF f.weight f.slot pos w = .ret ⟨g.nodes.take n ++ w :: g.nodes.drop n, s⟩ (.index n) := by
    rw [hf₁, hf₂, insertNodeF_ok g hg, insertNode_eq hg]
  have hnodes : (g.nodes.take n ++ w :: g.nodes.drop n).length = g.nodes.length + 1 := by simp; omega
  have hdir : ∀ i j, joinDirectedF true s i j dw dm = .threw s := by
    intro i j
    obtain ⟨s', hs'⟩ := (C31_join_directed true s i j dw dm).2.1 rfl
    rw [hs', (C31_join_directed true s i j dw dm).1 s' hs']
  unfold insertNodeToTreeF
  rw [hins]
  dsimp only
  rw [if_pos (by omega)]
  cases kind with
  | forward =>
    refine ⟨⟨_, s⟩, ?_, hnodes, hiso⟩
    simp only [joinUpF, joinDownF, show f.down₁ = true from hf]
    simp [hdir]
  | backward =>
    refine ⟨⟨_, s⟩, ?_, hnodes, hiso⟩
    simp only [joinUpF, show f.up = true from hf]
    simp [hdir]
  | undirected =>
    refine ⟨⟨_, s⟩, ?_, hnodes, hiso⟩
    obtain ⟨s', hs'⟩ := (C31_join_undirected f.down₁ f.down₂ s parent n dw dm dm).2.1 hf
    have h1 := (C31_join_undirected f.down₁ f.down₂ s parent n dw dm dm).1 s' hs'
    subst h1
    simp [joinUpF, joinDownF, hs']
  | symmetric =>
    cases hu : f.up with
    | true =>
      refine ⟨⟨_, s⟩, ?_, hnodes, hiso⟩
      simp [joinUpF, hu, hdir]
    | false =>
      have hd : f.down₁ = true := by rcases hf with h | h; · rw [hu] at h; cases h
                                     · exact h
      have hns : n < s.length := by omega
      have hps : parent < s.length := by omega
      refine ⟨⟨_, onNode s n (· ++ [⟨parent, dw, dm⟩])⟩, ?_, hnodes, ?_⟩
      · have h1 : joinUpF f .symmetric dw dm s n parent = .ret (onNode s n (· ++ [⟨parent, dw, dm⟩])) () := by
          simp [joinUpF, hu, joinDirectedF, hns, hps]
        have h2 : joinDownF f .symmetric dw dm (onNode s n (· ++ [⟨parent, dw, dm⟩])) n parent = .threw (onNode s n (· ++ [⟨parent, dw, dm⟩])) := by
          simp [joinDownF, hd, joinDirectedF]
        rw [h1]
        dsimp only
        rw [h2]
      · exact one_way_not_tree hns hps (Ne.symm hne) (fun b => by constructor <;> (rw [links_withNode _ _ hn]; simp)) dw dm

end

/-! ### Examples -/

/-- Two nodes, with an edge from the first to the second. -/
def smallGraph : G Nat (Edge Nat Unit) := ⟨[4, 5], [[⟨1, 7, ()⟩], []]⟩

example : edgesSteps smallGraph.edges = 3 ∧ listSteps smallGraph.nodes = 3 := by decide
example : assignGraph false 6 (⟨[9], [[]]⟩ : G Nat (Edge Nat Unit)) smallGraph = .done smallGraph := by decide
example : assignGraph false 2 (⟨[9], [[]]⟩ : G Nat (Edge Nat Unit)) smallGraph = .threw ⟨[9], [[]]⟩ := by decide
example : assignGraph false 4 (⟨[9], [[]]⟩ : G Nat (Edge Nat Unit)) smallGraph = .terminated := by decide
example : G.swapNodesF false true sampleTree 0 3 (swapNodesUndirected sampleTree.edges 0 3) = .threw ⟨[13, 11, 12, 10], sampleTree.edges⟩ := by decide
example : G.eraseNodeF false true none sampleTree 1 (eraseNodeUndirected sampleTree.edges 1) = .threw sampleTree := by decide
example : G.eraseNodeF false false (some (1, 0)) sampleTree 0 (eraseNodeUndirected sampleTree.edges 0) = .threw ⟨[11, 0, 12, 13], [[⟨1, (), ()⟩], [⟨0, (), ()⟩], []]⟩ := by decide
example : insertNodeToTreeF ⟨false, false, false, false, true⟩ .undirected () () (⟨[4], [[]]⟩ : G Nat (Edge Unit Unit)) 1 0 5 = .threw ⟨[4, 5], [[], []]⟩ := by decide
example : EdgeFails ⟨false, false, false, false, true⟩ .undirected := .inr rfl
example : insertNodeToTreeF ⟨false, true, false, false, false⟩ .undirected () () (⟨[4], [[]]⟩ : G Nat (Edge Unit Unit)) 1 0 5 = .threw ⟨[4], [[]]⟩ := by decide

end Verif.Props
