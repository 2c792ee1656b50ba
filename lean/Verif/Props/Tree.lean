import Verif.Lemmas.TreeGrown

/-! # Trees: C29, C30 -/
namespace Verif.Props
open Verif.Spec Verif.Graph EdgeLike

section
variable {N W M : Type} [DecidableEq W] [DecidableEq M]

/-- C29.  A tree built from an initializer has exactly the nodes and parents given there, listed depth first; it is a tree. -/
theorem C29_initialization (kind : TreeKind) (dw : W) (dm : M) (w : N) (children : TreeInits N) :
    ∃ g, buildTree kind dw dm w children = .ret g () ∧ g.nodes = w :: (depthFirst children 0 1).map Prod.fst ∧
      g.edges.length = g.nodes.length ∧
      ∃ par, TreeOf kind g.edges 0 par ∧ ∀ k e, (depthFirst children 0 1)[k]? = some e → par (k + 1) = e.2 := by
  obtain ⟨s, h1, h2, h3⟩ := buildTree_spec kind dw dm w children
  refine ⟨_, h1, rfl, by simp [h2]; omega, _, h3.tree, ?_⟩
  intro k e he
  unfold parents
  rw [if_neg (show ¬ k + 1 < 1 by omega), Nat.add_sub_cancel, he]

/-- C29.  Inserting a node makes it a child of the parent given; the parent is named by its index after the insertion.
Otherwise parents stay as they were, up to renumbering. -/
theorem C29_insert_node (kind : TreeKind) (dw : W) (dm : M) {g : G N (Edge W M)} (hg : g.nodes.length = g.edges.length) {root : Nat}
    {par : Nat → Nat} (ht : TreeOf kind g.edges root par) {pos parent : Nat} (w : N) (hp : parent ≤ g.edges.length)
    (hne : parent ≠ min pos g.edges.length) :
    ∃ g', insertNodeToTree kind dw dm g pos parent w = .ret g' (.index (min pos g.edges.length)) ∧
      g'.nodes = g.nodes.take (min pos g.edges.length) ++ w :: g.nodes.drop (min pos g.edges.length) ∧
      TreeOf kind g'.edges (raise (min pos g.edges.length) root) (parentsWith par (min pos g.edges.length) parent) := by
  obtain ⟨s', h1, _, h2, _, _⟩ := insert_tree kind dw dm hg ht w hp hne
  exact ⟨_, h1, rfl, h2⟩

/-- C29.  Trees stay trees: after every history of calls naming proper parents (missing: calls which name the wrong parent, see the violations below) there is exactly one root, from which all
nodes descend, and the edges are those between parents and children.  No call has undefined behaviour. -/
theorem C29_trees_stay_trees_partial {stdSort : {α : Type} → (α → α → Bool) → List α → List α} (hsort : Permutes stdSort) (kind : TreeKind)
    (dw : W) (dm : M) (g : G N (Edge W M)) (hg : g.nodes.length = g.edges.length) (ht : IsTree kind g.edges) (ops : List (TreeOp N W M))
    (hw : Within (treeStep stdSort kind dw dm) InTreeContract g ops) :
    ∃ g' outs, run (treeStep stdSort kind dw dm) g ops = some (g', outs) ∧ g'.nodes.length = g'.edges.length ∧ IsTree kind g'.edges :=
  run_invariant (step := treeStep stdSort kind dw dm) (Inv := TreeInv kind) (fun g o => tree_good hsort kind dw dm g o) g ⟨hg, ht⟩ ops hw

/-- C29 with pruning, of trees made by initialization, by adding nodes, by pruning and by rearranging edges. -/
theorem C29_with_prune {stdSort : {α : Type} → (α → α → Bool) → List α → List α} (hsort : Permutes stdSort) {kind : TreeKind}
    {dw : W} {dm : M} {g : G N (Edge W M)} (h : Grown stdSort kind dw dm g) :
    g.nodes.length = g.edges.length ∧ IsTree kind g.edges := by
  obtain ⟨h1, h2 | ⟨root, par, h2⟩⟩ := grown_nice hsort h
  · exact ⟨h1, .inl h2⟩
  · exact ⟨h1, .inr ⟨root, par, h2.tree⟩⟩

/-- C29 for backward trees: all calls, including `prune`. -/
theorem C29_backward {stdSort : {α : Type} → (α → α → Bool) → List α → List α} (hsort : Permutes stdSort)
    {dw : W} {dm : M} {g : G N (Edge W M)} (h : GrownBackward stdSort dw dm g) :
    g.nodes.length = g.edges.length ∧ IsTree .backward g.edges := grownBackward_tree hsort h

/-- C30.  In a tree made by initialization, by adding nodes, by pruning and (forward trees) by rearranging edges, `prune(n)`
terminates and leaves exactly the nodes which do not descend from `n`, in order and with the edges between them, in order. -/
theorem C30_prune_partial {stdSort : {α : Type} → (α → α → Bool) → List α → List α} (hsort : Permutes stdSort) {kind : TreeKind}
    {dw : W} {dm : M} {g : G N (Edge W M)} (h : Grown stdSort kind dw dm g) {n : Nat} (hn : n < g.edges.length) :
    ∃ root par, TreeOf kind g.edges root par ∧
      ∀ keep : Nat → Bool, (∀ x < g.edges.length, keep x = true ↔ ¬ Below root par n x) →
        ∃ f₀, ∀ f, f₀ ≤ f → prune kind f g n = some (.ret ⟨keepIdx keep g.nodes, inducedOn g.edges keep⟩ .unit) := by
  obtain ⟨h1, h2 | ⟨root, par, h2⟩⟩ := grown_nice hsort h
  · rw [h2] at hn; simp at hn
  · exact ⟨root, par, h2.tree, fun keep hk => prune_nice h1 h2 hn keep hk⟩

/-- C30 for forward trees however they were made, as long as parents are numbered before their children. -/
theorem C30_prune_forward {g : G N (Edge W M)} (hg : g.nodes.length = g.edges.length) {root : Nat} {par : Nat → Nat}
    (ht : TreeOf .forward g.edges root par) (hb : ParentsBefore g.edges.length root par) {n : Nat} (hn : n < g.edges.length)
    (keep : Nat → Bool) (hk : ∀ x < g.edges.length, keep x = true ↔ ¬ Below root par n x) :
    ∃ f₀, ∀ f, f₀ ≤ f → prune .forward f g n = some (.ret ⟨keepIdx keep g.nodes, inducedOn g.edges keep⟩ .unit) :=
  prune_nice hg ⟨ht, hb, fun hu => by simp [upwards] at hu⟩ hn keep hk

/-- C30 for all backward trees. -/
theorem C30_prune_backward {g : G N (Edge W M)} (hg : g.nodes.length = g.edges.length) {root : Nat} {par : Nat → Nat}
    (ht : TreeOf .backward g.edges root par) {n : Nat} (hn : n < g.edges.length) (keep : Nat → Bool)
    (hk : ∀ x < g.edges.length, keep x = true ↔ ¬ Below root par n x) :
    ∃ f₀, ∀ f, f₀ ≤ f → prune .backward f g n = some (.ret ⟨keepIdx keep g.nodes, inducedOn g.edges keep⟩ .unit) :=
  pruneBackward_spec ht g.nodes hg hn keep hk

omit [DecidableEq W] [DecidableEq M] in
/-- `prune(n)` for a node which does not exist: backward trees ignore it, the others throw and are left as they are. -/
theorem C30_prune_out_of_range (kind : TreeKind) (g : G N (Edge W M)) {n : Nat} (hn : g.edges.length ≤ n) {f : Nat} (hf : 0 < f) :
    prune kind f g n = some (if kind = .backward then .ret g .unit else .threw g) := by
  have hno : g.edges[n]? = none := List.getElem?_eq_none hn
  have hdown : ∀ er sym, pruneDown er sym f g n = some (.threw g) := by
    intro er sym
    obtain ⟨f, rfl⟩ : ∃ k, f = k + 1 := ⟨f - 1, by omega⟩
    unfold pruneDown; rw [hno]
  cases kind with
  | forward => exact hdown _ _
  | symmetric => exact hdown _ _
  | undirected => exact hdown _ _
  | backward => unfold prune pruneBackward; simp only; rw [if_neg (by omega)]; rfl

end

/-! ### Violations -/

/-- Two nodes without edges are not a tree. -/
theorem two_isolated_nodes (kind : TreeKind) : ¬ IsTree kind ([[], []] : Edges (Edge Unit Unit)) := by
  rintro (h | ⟨root, par, ht⟩)
  · cases h
  · have hroot := ht.root_lt
    simp only [List.length_cons, List.length_nil] at hroot
    have hx : 1 - root < ([[], []] : Edges (Edge Unit Unit)).length := by simp; omega
    have hne : 1 - root ≠ root := by omega
    have hp := ht.par_lt _ hx hne
    have hz : ∀ a b, links ([[], []] : Edges (Edge Unit Unit)) a b = 0 := by
      intro a b
      rcases a with _ | _ | a <;> simp [links]
    have hP : IsParent root par (par (1 - root)) (1 - root) := ⟨hne, rfl⟩
    have h1 := ht.edges _ hp _ hx
    have h2 := ht.edges _ hx _ hp
    rw [hz] at h1 h2
    cases kind <;> simp [downwards, upwards, hP] at h1 h2

/-- C29 fails when `add_node` names a parent which does not exist: the exception leaves behind a node without parent. -/
theorem C29_missing_parent_violated : ∃ g : G Nat (Edge Unit Unit), IsTree .forward g.edges ∧
    ∃ g', addNodeToTree .forward () () g 7 5 = .threw g' ∧ ¬ IsTree .forward g'.edges :=
  ⟨⟨[4], [[]]⟩, .inr ⟨_, _, tree_single _⟩, ⟨[4, 5], [[], []]⟩, by decide, two_isolated_nodes _⟩

/-- C29 fails when `add_node` names as parent the index which the new node is going to have: no exception is thrown, and
the new node has a loop. -/
theorem C29_own_parent_violated : ∃ g : G Nat (Edge Unit Unit), IsTree .forward g.edges ∧
    ∃ g' v, addNodeToTree .forward () () g 1 5 = .ret g' v ∧ ¬ IsTree .forward g'.edges := by
  refine ⟨⟨[4], [[]]⟩, .inr ⟨_, _, tree_single _⟩, ⟨[4, 5], [[], [⟨1, (), ()⟩]]⟩, .index 1, by decide, ?_⟩
  rintro (h | ⟨root, par, ht⟩)
  · cases h
  · have h1 := ht.edges 1 (by decide) 1 (by decide)
    have hl : links ([[], [⟨1, (), ()⟩]] : Edges (Edge Unit Unit)) 1 1 = 1 := by decide
    rw [hl] at h1
    have hP : IsParent root par 1 1 := by
      by_cases h : IsParent root par 1 1
      · exact h
      · simp [h] at h1
    have h2 : ∀ x, Below root par root x → x ≠ 1 := by
      intro x hb
      induction hb with
      | self => exact hP.1.symm
      | up _ _ ih => rintro rfl; exact ih hP.2
    exact h2 1 (ht.descends 1 (by decide)) rfl

/-- A forward tree whose root is node 1, with child 0, as made by `insert_node(0, 1)`. -/
def childFirst : G Nat (Edge Unit Unit) := ⟨[5, 4], [[], [⟨0, (), ()⟩]]⟩

example : insertNodeToTree .forward () () (⟨[4], [[]]⟩ : G Nat (Edge Unit Unit)) 0 1 5 = .ret childFirst (.index 0) := by decide

/-- C30 fails for forward trees in which a child is numbered before its parent: pruning the root removes the child only, and
throws. -/
theorem C30_forward_violated : IsTree .forward childFirst.edges ∧
    ∀ f, 3 ≤ f → prune .forward f childFirst 1 = some (.threw ⟨[4], [[]]⟩) := by
  constructor
  · obtain ⟨g', h1, _, h2⟩ := C29_insert_node .forward () () (g := (⟨[4], [[]]⟩ : G Nat (Edge Unit Unit))) rfl (tree_single _)
      (pos := 0) (parent := 1) 5 (by decide) (by decide)
    have h3 : insertNodeToTree .forward () () (⟨[4], [[]]⟩ : G Nat (Edge Unit Unit)) 0 1 5 = .ret childFirst (.index 0) := by decide
    rw [h3] at h1
    cases h1
    exact .inr ⟨_, _, h2⟩
  · intro f hf
    refine prune_fuel (kind := .forward) hf ?_
    decide

/-- The symmetric tree in which node 2 is the child of node 1, itself the child of node 0, after `swap_edges(1, 0, 1)`. -/
def swappedPath : G Nat (Edge Unit Unit) := ⟨[4, 5, 6], [[⟨1, (), ()⟩], [⟨2, (), ()⟩, ⟨0, (), ()⟩], [⟨1, (), ()⟩]]⟩

example : run (treeStep (fun _ l => l) .symmetric () ()) (⟨[], []⟩ : G Nat (Edge Unit Unit))
    [.addNode 0 4, .addNode 0 5, .addNode 1 6, .swapEdges 1 0 1] =
    some (swappedPath, [some (.index 0), some (.index 1), some (.index 2), some .unit]) := by decide

/-- C30 fails for symmetric trees whose edges have been rearranged: `prune(1)` never ends. -/
theorem C30_symmetric_violated (f : Nat) : prune .symmetric f swappedPath 1 = none := by
  have : ∀ f, pruneDown (eraseNodeOf .symmetric) true f swappedPath 1 = none ∧
      pruneDown (eraseNodeOf .symmetric) true f swappedPath 0 = none := by
    intro f
    induction f with
    | zero => exact ⟨rfl, rfl⟩
    | succ f ih =>
      constructor
      · unfold pruneDown
        simp [swappedPath] at ih ⊢
        rw [ih.2]
      · unfold pruneDown
        simp [swappedPath] at ih ⊢
        rw [ih.1]
  exact (this f).1

/-! ### Examples -/

/-- A history within the contract, in which the second call puts a new node before its parent. -/
example : Within (treeStep (fun _ l => l) .undirected () ()) InTreeContract (⟨[], []⟩ : G Nat (Edge Unit Unit))
    [.addNode 0 4, .insertNode 0 1 5, .addNode 1 6, .swapNodes 0 2, .swapEdges 1 0 1] :=
  ⟨.inl rfl, .inr ⟨by decide, by decide⟩, .inr (by decide), trivial, trivial, trivial⟩



/-- Node 0 with children 1 and 3; node 2 is the child of 1. -/
def sampleInit : TreeInits Nat := .cons 11 (.cons 12 .nil .nil) (.cons 13 .nil .nil)

def sampleTree : G Nat (Edge Unit Unit) :=
  ⟨[10, 11, 12, 13], [[⟨1, (), ()⟩, ⟨3, (), ()⟩], [⟨0, (), ()⟩, ⟨2, (), ()⟩], [⟨1, (), ()⟩], [⟨0, (), ()⟩]]⟩

theorem sampleTree_built : buildTree .undirected () () 10 sampleInit = .ret sampleTree () := by decide

example : Grown (fun _ l => l) .undirected () () sampleTree := .built sampleTree_built

example : prune .undirected 4 sampleTree 1 =
    some (.ret ⟨[10, 13], [[⟨1, (), ()⟩], [⟨0, (), ()⟩]]⟩ .unit) := by decide

example : depthFirst sampleInit 0 1 = [(11, 0), (12, 1), (13, 0)] := by decide

example : buildTree .backward () () 10 sampleInit = .ret ⟨[10, 11, 12, 13], [[], [⟨0, (), ()⟩], [⟨1, (), ()⟩], [⟨0, (), ()⟩]]⟩ () := by decide

example : prune .backward 4 (⟨[10, 11, 12, 13], [[], [⟨0, (), ()⟩], [⟨1, (), ()⟩], [⟨0, (), ()⟩]]⟩ : G Nat (Edge Unit Unit)) 1 =
    some (.ret ⟨[10, 13], [[], [⟨0, (), ()⟩]]⟩ .unit) := by decide

end Verif.Props
