import Verif.Lemmas.GraphHistory

/-! Properties C10-C17, C20 and C59: mutating graphs.  `Within step P g ops` says that each call of the history `ops`
satisfies `P` when it is made; `InContract` asks for valid iterators only, indices are arbitrary. -/
namespace Verif.Props
open Verif.Spec Verif.Graph

/-! ### C10 -/

/-- C10.  After every history of calls on an embedded graph, starting from any consistent graph (in particular the empty
one), each half edge knows exactly where its other half is and both carry the same weight.  No call of such a history
has undefined behaviour. -/
theorem C10_complementary_indices {N W M : Type} (g : G N (EEdge W M)) (hg : g.nodes.length = g.edges.length)
    (he : Embedded g.edges) (ops : List (Op N W M (EEdge W M))) (hc : Within embeddedStep (InContract .embedded) g ops) :
    ∃ g' outs, run embeddedStep g ops = some (g', outs) ∧ Embedded g'.edges := by
  obtain ⟨g', outs, h1, h2⟩ := run_invariant (Inv := Inv Embedded) (fun s o h hp => embedded_good s h o hp) g ⟨hg, he⟩ ops hc
  exact ⟨g', outs, h1, h2.2⟩

/-- A history from the empty graph with loops and multiple edges, ending in an inconsistent index if any step forgot to
fix one up. -/
example : run (embeddedStep (N := Unit) (W := Nat) (M := Unit)) ⟨[], []⟩
    [.addNode (), .addNode (), .addNode (), .join 0 1 5 () (), .join 1 1 6 () (), .insertJoin 1 1 0 0 7 () (),
      .insertJoinPos 1 0 3 8 () (), .join 2 0 9 () (), .setWeight 1 1 4, .swapNodes 0 2, .eraseEdge 1 2,
      .insertNode 1 (), .eraseNode 2, .join 7 0 1 () ()] =
    some (⟨[(), (), ()], [[⟨2, 0, 9, ()⟩], [], [⟨0, 0, 9, ()⟩]]⟩,
      [some (.index 0), some (.index 1), some (.index 2), some .unit, some .unit, some (.iters 1 1 0 0),
       some (.iters 1 0 1 3), some .unit, some .unit, some .unit, some .unit, some (.index 1), some .unit, none]) := by
  decide

/-- Its calls are within the contract. -/
example : Within (embeddedStep (N := Unit) (W := Nat) (M := Unit)) (InContract .embedded) ⟨[], []⟩
    [.addNode (), .join 0 0 6 () (), .insertJoin 0 1 0 0 7 () (), .eraseEdge 0 2, .eraseEdge 0 2, .setWeight 0 1 4,
      .eraseNode 3, .clear] :=
  ⟨trivial, trivial, ⟨rfl, ⟨_, rfl, by decide⟩, ⟨_, rfl, by decide⟩⟩, .inr ⟨_, rfl, by decide⟩, .inr ⟨_, rfl, by decide⟩,
    ⟨_, rfl⟩, trivial, trivial, trivial⟩

/-! ### C11 -/

/-- C11.  After every history of calls on an undirected graph, starting from any reciprocal graph (in particular the
empty one), the graph is reciprocal.  No call of such a history has undefined behaviour. -/
theorem C11_reciprocal {N W M : Type} [DecidableEq W] [DecidableEq M]
    (stdSort : {α : Type} → (α → α → Bool) → List α → List α) (hsort : Permutes stdSort) (g : G N (Edge W M))
    (hg : g.nodes.length = g.edges.length) (he : Reciprocal g.edges) (ops : List (Op N W M (Edge W M)))
    (hc : Within (undirectedStep stdSort) (InContract .undirected) g ops) :
    ∃ g' outs, run (undirectedStep stdSort) g ops = some (g', outs) ∧ Reciprocal g'.edges := by
  obtain ⟨g', outs, h1, h2⟩ :=
    run_invariant (Inv := Inv Reciprocal) (fun s o h hp => undirected_good hsort s h o hp) g ⟨hg, he⟩ ops hc
  exact ⟨g', outs, h1, h2.2⟩

/-- The empty graph is reciprocal, and a list of edges which is. -/
example : Reciprocal ([] : Edges (Edge Nat Unit)) := ⟨by intro l hl; simp at hl, fun i j _ w => rfl, fun i w => ⟨0, rfl⟩⟩
example : Permutes fun lt => StableSort.stableSort lt := fun _ _ _ l => StableSort.stableSort_perm l
example : Within (undirectedStep (N := Unit) (W := Nat) (M := Unit) fun lt => StableSort.stableSort lt)
    (InContract .undirected) ⟨[], []⟩
    [.addNode (), .addNode (), .join 0 1 6 () (), .join 0 0 7 () (), .join 1 0 7 () (),
      .setWeight 1 0 9, .eraseEdge 0 1, .eraseNode 3, .sortEdges (fun e f => decide (e.weight < f.weight)) 0 0 0 2] :=
  ⟨trivial, trivial, trivial, trivial, trivial, ⟨_, rfl⟩, .inr ⟨_, rfl, by decide⟩, trivial,
    ⟨by decide, ⟨by intro a b h; simp at *; omega, by intro a b c h1 h2; simp at *; omega⟩,
      ⟨_, rfl, by decide⟩, ⟨_, rfl, by decide⟩, by decide⟩, trivial⟩
example : run (undirectedStep (N := Unit) (W := Nat) (M := Unit) fun lt => StableSort.stableSort lt) ⟨[], []⟩
    [.addNode (), .addNode (), .join 0 1 6 () (), .join 0 0 7 () (), .join 1 0 7 () (), .setWeight 1 0 9,
      .eraseEdge 0 1, .swapNodes 0 1] =
    some (⟨[(), ()], [[⟨1, 9, ()⟩, ⟨1, 7, ()⟩], [⟨0, 9, ()⟩, ⟨0, 7, ()⟩]]⟩,
      [some (.index 0), some (.index 1), some .unit, some .unit, some .unit, some .unit, some .unit, some .unit]) := by decide

/-! ### C12 -/

/-- C12 for directed graphs: after every history of calls, from any graph of which it holds, each edge leads to a node
and there is one node weight per node.  No call has undefined behaviour. -/
theorem C12_no_dangling_directed {N W M : Type} (stdSort : {α : Type} → (α → α → Bool) → List α → List α)
    (hsort : Permutes stdSort) (g : G N (Edge W M)) (hg : g.nodes.length = g.edges.length) (he : InRange g.edges)
    (ops : List (Op N W M (Edge W M))) (hc : Within (directedStep stdSort) (InContract .directed) g ops) :
    ∃ g' outs, run (directedStep stdSort) g ops = some (g', outs) ∧ g'.nodes.length = g'.edges.length ∧
      InRange g'.edges := by
  obtain ⟨g', outs, h1, h2⟩ :=
    run_invariant (Inv := Inv InRange) (fun s o h hp => directed_good hsort s h o hp) g ⟨hg, he⟩ ops hc
  exact ⟨g', outs, h1, h2⟩

/-- C12 for undirected graphs. -/
theorem C12_no_dangling_undirected {N W M : Type} [DecidableEq W] [DecidableEq M]
    (stdSort : {α : Type} → (α → α → Bool) → List α → List α)
    (hsort : Permutes stdSort) (g : G N (Edge W M)) (hg : g.nodes.length = g.edges.length) (he : Reciprocal g.edges)
    (ops : List (Op N W M (Edge W M))) (hc : Within (undirectedStep stdSort) (InContract .undirected) g ops) :
    ∃ g' outs, run (undirectedStep stdSort) g ops = some (g', outs) ∧ g'.nodes.length = g'.edges.length ∧
      InRange g'.edges := by
  obtain ⟨g', outs, h1, h2⟩ :=
    run_invariant (Inv := Inv Reciprocal) (fun s o h hp => undirected_good hsort s h o hp) g ⟨hg, he⟩ ops hc
  exact ⟨g', outs, h1, h2.1, h2.2.inRange⟩

/-- C12 for embedded graphs. -/
theorem C12_no_dangling_embedded {N W M : Type} (g : G N (EEdge W M)) (hg : g.nodes.length = g.edges.length)
    (he : Embedded g.edges) (ops : List (Op N W M (EEdge W M))) (hc : Within embeddedStep (InContract .embedded) g ops) :
    ∃ g' outs, run embeddedStep g ops = some (g', outs) ∧ g'.nodes.length = g'.edges.length ∧ InRange g'.edges := by
  obtain ⟨g', outs, h1, h2⟩ := run_invariant (Inv := Inv Embedded) (fun s o h hp => embedded_good s h o hp) g ⟨hg, he⟩ ops hc
  exact ⟨g', outs, h1, h2.1, Embedded.inRange h2.2⟩

example : Within (directedStep (N := Nat) (W := Nat) (M := Unit) fun lt => StableSort.stableSort lt)
    (InContract .directed) ⟨[5, 6], [[⟨1, 3, ()⟩, ⟨0, 4, ()⟩], []]⟩
    [.insertNode 1 7, .join 2 0 6 () (), .eraseNode 0, .eraseNode 9, .eraseEdge 1 0, .swapNodes 0 1] :=
  ⟨trivial, trivial, trivial, trivial, .inr ⟨_, rfl, by decide⟩, trivial, trivial⟩

/-! ### C13 -/

/-- C13.  `size()` of a directed graph is the number of edges. -/
theorem C13_size_directed {E : Type} (s : Edges E) : sizeDirected s = total s := numHalves_eq s

/-- C13.  After every history of calls on an undirected graph the degrees add up to exactly twice `size()`. -/
theorem C13_size_undirected {N W M : Type} [DecidableEq W] [DecidableEq M]
    (stdSort : {α : Type} → (α → α → Bool) → List α → List α)
    (hsort : Permutes stdSort) (g : G N (Edge W M)) (hg : g.nodes.length = g.edges.length) (he : Reciprocal g.edges)
    (ops : List (Op N W M (Edge W M))) (hc : Within (undirectedStep stdSort) (InContract .undirected) g ops) :
    ∃ g' outs, run (undirectedStep stdSort) g ops = some (g', outs) ∧ total g'.edges = 2 * sizeUndirected g'.edges := by
  obtain ⟨g', outs, h1, h2⟩ := C11_reciprocal stdSort hsort g hg he ops hc
  refine ⟨g', outs, h1, ?_⟩
  have := Reciprocal.even h2
  unfold sizeUndirected
  rw [numHalves_eq]; omega

/-- C13.  After every history of calls on an embedded graph the degrees add up to exactly twice `size()`. -/
theorem C13_size_embedded {N W M : Type} (g : G N (EEdge W M)) (hg : g.nodes.length = g.edges.length)
    (he : Embedded g.edges) (ops : List (Op N W M (EEdge W M))) (hc : Within embeddedStep (InContract .embedded) g ops) :
    ∃ g' outs, run embeddedStep g ops = some (g', outs) ∧ total g'.edges = 2 * sizeUndirected g'.edges := by
  obtain ⟨g', outs, h1, h2⟩ := C10_complementary_indices g hg he ops hc
  refine ⟨g', outs, h1, ?_⟩
  have := Embedded.even h2
  unfold sizeUndirected
  rw [numHalves_eq]; omega

/-- C13.  Joining existing nodes raises `size()` by one, in every flavour. -/
theorem C13_join_directed {W M : Type} (s : Edges (Edge W M)) (i j : Nat) (w : W) (m : M) (hi : i < s.length)
    (hj : j < s.length) : ∃ s', joinDirected s i j w m = .ok s' ∧ sizeDirected s' = sizeDirected s + 1 := by
  refine ⟨_, by unfold joinDirected; rw [if_pos ⟨hi, hj⟩], ?_⟩
  have := total_onNode s i (· ++ [⟨j, w, m⟩]) s[i] (List.getElem?_eq_getElem hi)
  unfold sizeDirected
  rw [numHalves_eq, numHalves_eq]
  simp at this
  omega

theorem C13_join_undirected {W M : Type} [DecidableEq W] [DecidableEq M] (s : Edges (Edge W M)) (i j : Nat) (w : W)
    (m₁ m₂ : M) (hi : i < s.length) (hj : j < s.length) :
    ∃ s', joinUndirected s i j w m₁ m₂ = .ok s' ∧ sizeUndirected s' = sizeUndirected s + 1 := by
  refine ⟨_, by unfold joinUndirected; rw [if_pos ⟨hi, hj⟩], ?_⟩
  have h1 := total_onNode s i (· ++ [⟨j, w, m₁⟩]) s[i] (List.getElem?_eq_getElem hi)
  have hj' : j < (onNode s i (· ++ [⟨j, w, m₁⟩])).length := by rw [length_onNode]; exact hj
  have h2 := total_onNode (onNode s i (· ++ [⟨j, w, m₁⟩])) j (· ++ [⟨i, w, m₂⟩]) _ (List.getElem?_eq_getElem hj')
  unfold sizeUndirected
  rw [numHalves_eq, numHalves_eq]
  simp at h1 h2
  omega

theorem C13_join_embedded {W M : Type} (s : Edges (EEdge W M)) (hs : Embedded s) (i j : Nat) (w : W)
    (m₁ m₂ : M) (hi : i < s.length) (hj : j < s.length) :
    ∃ s', joinEmbedded s i j w m₁ m₂ = .ok s' ∧ sizeUndirected s' = sizeUndirected s + 1 := by
  obtain ⟨s', h1, h2, h3⟩ := joinEmbedded_spec hs (w := w) (m₁ := m₁) (m₂ := m₂) hi hj
  refine ⟨s', h1, ?_⟩
  have := total_removeAt_two h3.first h3.second (by
    intro hc
    obtain ⟨c1, c2⟩ := Prod.mk.inj hc
    subst c1
    simp at c2)
  rw [← total_removeAtE, h3.rest] at this
  unfold sizeUndirected
  rw [numHalves_eq, numHalves_eq]
  omega

/-- C13.  Erasing an edge lowers `size()` by one, in every flavour. -/
theorem C13_erase_edge_directed {E : Type} (s : Edges E) (n k : Nat) (e : E) (he : edgeAt s n k = some e) :
    ∃ s', eraseEdgeDirected s n k = .ok s' ∧ sizeDirected s' + 1 = sizeDirected s := by
  obtain ⟨l, hl, hk⟩ := Option.bind_eq_some_iff.1 he
  refine ⟨_, eraseEdgeDirected_cases (.inr ⟨l, hl, Nat.le_of_lt (List.getElem?_eq_some_iff.1 hk).1⟩), ?_⟩
  unfold sizeDirected
  rw [numHalves_eq, numHalves_eq, total_erase_one he]

theorem C13_erase_edge_undirected {W M : Type} [DecidableEq W] [DecidableEq M] (s : Edges (Edge W M))
    (hs : Reciprocal s) (n k : Nat) (e : Edge W M) (he : edgeAt s n k = some e) :
    ∃ s', eraseEdgeUndirected s n k = .ok s' ∧ sizeUndirected s' + 1 = sizeUndirected s := by
  obtain ⟨s', p, e', h1, ⟨h2, _, _, h4⟩, h3, _⟩ := eraseEdgeUndirected_spec he (Reciprocal.exists_partner hs he)
  refine ⟨s', h1, ?_⟩
  have := total_removeAt_two he h2 h4
  rw [← h3] at this
  unfold sizeUndirected
  rw [numHalves_eq, numHalves_eq]
  omega

theorem C13_erase_edge_embedded {W M : Type} (s : Edges (EEdge W M)) (hs : Embedded s) (n k : Nat) (e : EEdge W M)
    (he : edgeAt s n k = some e) :
    ∃ s', eraseEdgeEmbedded s n k = .ok s' ∧ sizeUndirected s' + 1 = sizeUndirected s := by
  obtain ⟨h0, e', he', _⟩ := hs n k e he
  refine ⟨_, (eraseEdgeEmbedded_spec hs he).1, ?_⟩
  have := total_removeAt_two he he' h0
  rw [← total_removeAtE] at this
  unfold sizeUndirected
  rw [numHalves_eq, numHalves_eq]
  omega

/-- A reciprocal graph with a loop and a double edge, and an embedded one: used as concrete cases below. -/
def sampleU : Edges (Edge Nat Unit) :=
  [[⟨1, 5, ()⟩, ⟨0, 6, ()⟩, ⟨0, 6, ()⟩, ⟨1, 5, ()⟩], [⟨0, 5, ()⟩, ⟨2, 7, ()⟩, ⟨0, 5, ()⟩], [⟨1, 7, ()⟩]]

def sampleE : Edges (EEdge Nat Unit) :=
  [[⟨1, 2, 5, ()⟩, ⟨0, 2, 6, ()⟩, ⟨0, 1, 6, ()⟩, ⟨1, 0, 4, ()⟩], [⟨0, 3, 4, ()⟩, ⟨2, 0, 7, ()⟩, ⟨0, 0, 5, ()⟩], [⟨1, 1, 7, ()⟩]]

theorem sampleU_reciprocal : Reciprocal sampleU := by
  have h : run (undirectedStep (N := Unit) (W := Nat) (M := Unit) fun lt => StableSort.stableSort lt) ⟨[], []⟩
    [.addNode (), .addNode (), .addNode (), .join 0 1 5 () (), .join 0 0 6 () (), .join 1 2 7 () (), .join 0 1 5 () ()] =
    some (⟨[(), (), ()], sampleU⟩, [some (.index 0), some (.index 1), some (.index 2), some .unit, some .unit,
      some .unit, some .unit]) := by decide
  obtain ⟨g', outs, h1, h2⟩ := C11_reciprocal (N := Unit) (W := Nat) (M := Unit) (fun lt => StableSort.stableSort lt)
    (fun _ _ _ l => StableSort.stableSort_perm l) ⟨[], []⟩ rfl
    ⟨by intro l hl; simp at hl, fun i j _ w => rfl, fun i w => ⟨0, rfl⟩⟩
    [.addNode (), .addNode (), .addNode (), .join 0 1 5 () (), .join 0 0 6 () (), .join 1 2 7 () (), .join 0 1 5 () ()]
    ⟨trivial, trivial, trivial, trivial, trivial, trivial, trivial, trivial⟩
  rw [h] at h1
  cases h1
  exact h2

theorem sampleE_embedded : Embedded sampleE := by
  have h : run (embeddedStep (N := Unit) (W := Nat) (M := Unit)) ⟨[], []⟩
    [.addNode (), .addNode (), .addNode (), .join 0 1 5 () (), .join 0 0 6 () (), .insertJoin 1 0 2 0 7 () (),
      .insertJoin 0 3 1 0 4 () ()] =
    some (⟨[(), (), ()], sampleE⟩, [some (.index 0), some (.index 1), some (.index 2), some .unit, some .unit,
      some (.iters 1 0 2 0), some (.iters 0 3 1 0)]) := by decide
  obtain ⟨g', outs, h1, h2⟩ := C10_complementary_indices (N := Unit) (W := Nat) (M := Unit) ⟨[], []⟩ rfl
    (by intro n k e he; simp [edgeAt] at he)
    [.addNode (), .addNode (), .addNode (), .join 0 1 5 () (), .join 0 0 6 () (), .insertJoin 1 0 2 0 7 () (),
      .insertJoin 0 3 1 0 4 () ()]
    ⟨trivial, trivial, trivial, trivial, trivial,
      ⟨rfl, ⟨_, rfl, by decide⟩, ⟨_, rfl, by decide⟩⟩, ⟨rfl, ⟨_, rfl, by decide⟩, ⟨_, rfl, by decide⟩⟩, trivial⟩
  rw [h] at h1
  cases h1
  exact h2

example : sizeUndirected sampleU = 4 ∧ sizeUndirected sampleE = 4 ∧ total sampleE = 8 := by decide
example : eraseEdgeUndirected sampleU 0 2 = .ok [[⟨1, 5, ()⟩, ⟨1, 5, ()⟩], [⟨0, 5, ()⟩, ⟨2, 7, ()⟩, ⟨0, 5, ()⟩], [⟨1, 7, ()⟩]] := by
  decide

/-! ### C14 -/

/-- C14 for directed graphs: `erase_node(n)` leaves the graph induced on the other nodes. -/
theorem C14_erase_node_directed {N W M : Type} (stdSort : {α : Type} → (α → α → Bool) → List α → List α)
    (g : G N (Edge W M)) (hg : g.nodes.length = g.edges.length) (n : Nat) (hn : n < g.edges.length) :
    directedStep stdSort g (.eraseNode n) =
      .ret ⟨g.nodes.take n ++ g.nodes.drop (n + 1), withoutNode g.edges n⟩ .unit :=
  eraseNode_eq hg hn (eraseNodeDirected_spec _ _ hn)

/-- C14 for undirected graphs. -/
theorem C14_erase_node_undirected {N W M : Type} [DecidableEq W] [DecidableEq M]
    (stdSort : {α : Type} → (α → α → Bool) → List α → List α)
    (g : G N (Edge W M)) (hg : g.nodes.length = g.edges.length) (he : Reciprocal g.edges) (n : Nat)
    (hn : n < g.edges.length) :
    undirectedStep stdSort g (.eraseNode n) =
      .ret ⟨g.nodes.take n ++ g.nodes.drop (n + 1), withoutNode g.edges n⟩ .unit :=
  eraseNode_eq hg hn (eraseNodeUndirected_spec _ (Reciprocal.targetSym he) _ hn)

/-- C14 for embedded graphs. -/
theorem C14_erase_node_embedded {N W M : Type} (g : G N (EEdge W M)) (hg : g.nodes.length = g.edges.length)
    (he : Embedded g.edges) (n : Nat) (hn : n < g.edges.length) :
    embeddedStep g (.eraseNode n) =
      .ret ⟨g.nodes.take n ++ g.nodes.drop (n + 1), withoutNodeE g.edges n⟩ .unit :=
  eraseNode_eq hg hn (eraseNodeEmbedded_spec he hn).1

/-- C14: erasing a node which does not exist throws and changes nothing, in every flavour. -/
theorem C14_erase_node_throws {N W M : Type} [DecidableEq W] [DecidableEq M]
    (stdSort : {α : Type} → (α → α → Bool) → List α → List α) (g : G N (Edge W M)) (g' : G N (EEdge W M)) (n : Nat)
    (hn : g.edges.length ≤ n) (hn' : g'.edges.length ≤ n) :
    directedStep stdSort g (.eraseNode n) = .threw g ∧ undirectedStep stdSort g (.eraseNode n) = .threw g ∧
    embeddedStep g' (.eraseNode n) = .threw g' := by
  refine ⟨?_, ?_, ?_⟩
  · unfold directedStep eraseNodeDirected; simp only; rw [if_neg (by omega)]; rfl
  · unfold undirectedStep eraseNodeUndirected; simp only; rw [List.getElem?_eq_none hn]; rfl
  · unfold embeddedStep eraseNodeEmbedded; simp only; rw [List.getElem?_eq_none hn']; rfl

example : withoutNode sampleU 0 = [[⟨1, 7, ()⟩], [⟨0, 7, ()⟩]] ∧
    withoutNodeE sampleE 2 = [[⟨1, 1, 5, ()⟩, ⟨0, 2, 6, ()⟩, ⟨0, 1, 6, ()⟩, ⟨1, 0, 4, ()⟩], [⟨0, 3, 4, ()⟩, ⟨0, 0, 5, ()⟩]] := by
  decide

/-! ### C15 -/

theorem take_drop_insert {α : Type} (l : List α) (n : Nat) (a : α) (h : n ≤ l.length) :
    (l.take n ++ a :: l.drop n).take n ++ (l.take n ++ a :: l.drop n).drop (n + 1) = l := by
  have hn : (l.take n).length = n := by rw [List.length_take]; omega
  rw [List.take_left' hn, List.drop_append, hn, List.drop_eq_nil_of_le (by omega),
    show n + 1 - n = 1 by omega, List.drop_succ_cons, List.drop_zero, List.nil_append, List.take_append_drop]

/-- C15.  `insert_node(pos)` adds an isolated node at `pos` (or at the end if `pos` is beyond it) and otherwise only
relabels; the index is returned.  For all flavours of graph. -/
theorem C15_insert_node {N W M : Type} [DecidableEq W] [DecidableEq M]
    (stdSort : {α : Type} → (α → α → Bool) → List α → List α)
    (g : G N (Edge W M)) (hg : g.nodes.length = g.edges.length) (g' : G N (EEdge W M))
    (hg' : g'.nodes.length = g'.edges.length) (pos : Nat) (w : N) :
    (let n := min pos g.edges.length
     let r : Outcome (G N (Edge W M)) Val := .ret ⟨g.nodes.take n ++ w :: g.nodes.drop n, withNode g.edges n⟩ (.index n)
     directedStep stdSort g (.insertNode pos w) = r ∧ undirectedStep stdSort g (.insertNode pos w) = r) ∧
    (let n := min pos g'.edges.length
     embeddedStep g' (.insertNode pos w) =
      .ret ⟨g'.nodes.take n ++ w :: g'.nodes.drop n, withNode g'.edges n⟩ (.index n)) :=
  ⟨⟨insertNode_eq hg pos w, insertNode_eq hg pos w⟩, insertNode_eq hg' pos w⟩

/-- C15.  Erasing the node just inserted restores the graph: directed graphs. -/
theorem C15_insert_then_erase_directed {N W M : Type} (stdSort : {α : Type} → (α → α → Bool) → List α → List α)
    (g : G N (Edge W M)) (hg : g.nodes.length = g.edges.length) (pos : Nat) (w : N) :
    ∃ g' n, directedStep stdSort g (.insertNode pos w) = .ret g' (.index n) ∧
      directedStep stdSort g' (.eraseNode n) = .ret g .unit := by
  refine ⟨_, _, insertNode_eq hg pos w, ?_⟩
  rw [C14_erase_node_directed]
  · simp only
    rw [withoutNode_withNode _ (by omega)]
    congr 1
    cases g
    simp only [G.mk.injEq, and_true]
    exact take_drop_insert _ _ _ (by simp only at hg; omega)
  · simp only
    rw [length_withNode _ _ (by omega)]
    simp only [List.length_append, List.length_take, List.length_cons, List.length_drop]; omega
  · simp only; rw [length_withNode _ _ (by omega)]; omega

/-- C15: undirected graphs. -/
theorem C15_insert_then_erase_undirected {N W M : Type} [DecidableEq W] [DecidableEq M]
    (stdSort : {α : Type} → (α → α → Bool) → List α → List α)
    (g : G N (Edge W M)) (hg : g.nodes.length = g.edges.length) (he : Reciprocal g.edges) (pos : Nat) (w : N) :
    ∃ g' n, undirectedStep stdSort g (.insertNode pos w) = .ret g' (.index n) ∧
      undirectedStep stdSort g' (.eraseNode n) = .ret g .unit := by
  refine ⟨_, _, insertNode_eq hg pos w, ?_⟩
  rw [C14_erase_node_undirected]
  · simp only
    rw [withoutNode_withNode _ (by omega)]
    congr 1
    cases g
    simp only [G.mk.injEq, and_true]
    exact take_drop_insert _ _ _ (by simp only at hg; omega)
  · simp only
    rw [length_withNode _ _ (by omega)]
    simp only [List.length_append, List.length_take, List.length_cons, List.length_drop]; omega
  · exact withNode_reciprocal (by omega) he
  · simp only; rw [length_withNode _ _ (by omega)]; omega

/-- C15: embedded graphs. -/
theorem C15_insert_then_erase_embedded {N W M : Type} (g : G N (EEdge W M)) (hg : g.nodes.length = g.edges.length)
    (he : Embedded g.edges) (pos : Nat) (w : N) :
    ∃ g' n, embeddedStep g (.insertNode pos w) = .ret g' (.index n) ∧
      embeddedStep g' (.eraseNode n) = .ret g .unit := by
  refine ⟨_, _, insertNode_eq hg pos w, ?_⟩
  rw [C14_erase_node_embedded]
  · simp only
    rw [withoutNodeE_withNode he (by omega)]
    congr 1
    cases g
    simp only [G.mk.injEq, and_true]
    exact take_drop_insert _ _ _ (by simp only at hg; omega)
  · simp only
    rw [length_withNode _ _ (by omega)]
    simp only [List.length_append, List.length_take, List.length_cons, List.length_drop]; omega
  · exact withNode_embedded (by omega) he
  · simp only; rw [length_withNode _ _ (by omega)]; omega

example : withNode sampleU 1 =
    [[⟨2, 5, ()⟩, ⟨0, 6, ()⟩, ⟨0, 6, ()⟩, ⟨2, 5, ()⟩], [], [⟨0, 5, ()⟩, ⟨3, 7, ()⟩, ⟨0, 5, ()⟩], [⟨2, 7, ()⟩]] := by decide

/-! ### C16 -/

/-- C16 for directed graphs: `swap_nodes(i, j)` yields the graph relabelled by the transposition, with the node weights
exchanged; doing it again restores the graph. -/
theorem C16_swap_nodes_directed {N W M : Type} (stdSort : {α : Type} → (α → α → Bool) → List α → List α)
    (g : G N (Edge W M)) (hg : g.nodes.length = g.edges.length) (i j : Nat) (hi : i < g.edges.length)
    (hj : j < g.edges.length) :
    ∃ g', directedStep stdSort g (.swapNodes i j) = .ret g' .unit ∧ Transposed g.edges g'.edges i j ∧
      g'.nodes = (g.nodes.set i (g.nodes[j]'(hg ▸ hj))).set j (g.nodes[i]'(hg ▸ hi)) ∧
      directedStep stdSort g' (.swapNodes i j) = .ret g .unit := by
  obtain ⟨s', h1, h2⟩ := swapNodesDirected_spec g.edges i j hi hj
  obtain ⟨s'', h3, h4⟩ := swapNodesDirected_spec s' i j (by rw [h2.1]; exact hi) (by rw [h2.1]; exact hj)
  have h5 := transposed_twice h2 h4
  subst h5
  refine ⟨_, swapNodes_eq hg hi hj h1, h2, rfl, ?_⟩
  unfold directedStep
  simp only
  rw [swapNodes_eq (s' := g.edges) (by simp [hg, h2.1]) (by simp only; rw [h2.1]; exact hi)
    (by simp only; rw [h2.1]; exact hj) h3]
  congr 1
  cases g
  simp only [G.mk.injEq, and_true]
  exact swap_twice _ _ _

/-- C16 for undirected graphs. -/
theorem C16_swap_nodes_undirected {N W M : Type} [DecidableEq W] [DecidableEq M]
    (stdSort : {α : Type} → (α → α → Bool) → List α → List α)
    (g : G N (Edge W M)) (hg : g.nodes.length = g.edges.length) (he : Reciprocal g.edges) (i j : Nat)
    (hi : i < g.edges.length) (hj : j < g.edges.length) :
    ∃ g', undirectedStep stdSort g (.swapNodes i j) = .ret g' .unit ∧ Transposed g.edges g'.edges i j ∧
      g'.nodes = (g.nodes.set i (g.nodes[j]'(hg ▸ hj))).set j (g.nodes[i]'(hg ▸ hi)) ∧
      undirectedStep stdSort g' (.swapNodes i j) = .ret g .unit := by
  obtain ⟨s', h1, h2⟩ := swapNodesUndirected_spec g.edges (Reciprocal.targetSym he) i j hi hj
  obtain ⟨s'', h3, h4⟩ := swapNodesUndirected_spec s' (Reciprocal.targetSym (transposed_reciprocal h2 hi hj he)) i j
    (by rw [h2.1]; exact hi) (by rw [h2.1]; exact hj)
  have h5 := transposed_twice h2 h4
  subst h5
  refine ⟨_, swapNodes_eq hg hi hj h1, h2, rfl, ?_⟩
  unfold undirectedStep
  simp only
  rw [swapNodes_eq (s' := g.edges) (by simp [hg, h2.1]) (by simp only; rw [h2.1]; exact hi)
    (by simp only; rw [h2.1]; exact hj) h3]
  congr 1
  cases g
  simp only [G.mk.injEq, and_true]
  exact swap_twice _ _ _

/-- C16 for embedded graphs. -/
theorem C16_swap_nodes_embedded {N W M : Type} (g : G N (EEdge W M)) (hg : g.nodes.length = g.edges.length)
    (he : Embedded g.edges) (i j : Nat) (hi : i < g.edges.length) (hj : j < g.edges.length) :
    ∃ g', embeddedStep g (.swapNodes i j) = .ret g' .unit ∧ Transposed g.edges g'.edges i j ∧
      g'.nodes = (g.nodes.set i (g.nodes[j]'(hg ▸ hj))).set j (g.nodes[i]'(hg ▸ hi)) ∧
      embeddedStep g' (.swapNodes i j) = .ret g .unit := by
  obtain ⟨s', h1, h2⟩ := swapNodesUndirected_spec g.edges (Embedded.targetSym he) i j hi hj
  obtain ⟨s'', h3, h4⟩ := swapNodesUndirected_spec s' (Embedded.targetSym (transposed_embedded h2 he)) i j
    (by rw [h2.1]; exact hi) (by rw [h2.1]; exact hj)
  have h5 := transposed_twice h2 h4
  subst h5
  refine ⟨_, swapNodes_eq hg hi hj h1, h2, rfl, ?_⟩
  unfold embeddedStep
  simp only
  rw [swapNodes_eq (s' := g.edges) (by simp [hg, h2.1]) (by simp only; rw [h2.1]; exact hi)
    (by simp only; rw [h2.1]; exact hj) h3]
  congr 1
  cases g
  simp only [G.mk.injEq, and_true]
  exact swap_twice _ _ _

/-- C16: an index out of range throws and changes nothing, in every flavour. -/
theorem C16_swap_nodes_throws {N W M : Type} [DecidableEq W] [DecidableEq M]
    (stdSort : {α : Type} → (α → α → Bool) → List α → List α) (g : G N (Edge W M)) (g' : G N (EEdge W M))
    (hg : g.nodes.length = g.edges.length) (hg' : g'.nodes.length = g'.edges.length) (i j : Nat)
    (h : ¬ (i < g.edges.length ∧ j < g.edges.length)) (h' : ¬ (i < g'.edges.length ∧ j < g'.edges.length)) :
    directedStep stdSort g (.swapNodes i j) = .threw g ∧ undirectedStep stdSort g (.swapNodes i j) = .threw g ∧
    embeddedStep g' (.swapNodes i j) = .threw g' := by
  have main : ∀ {E : Type} (g : G N E) (r : Res (Edges E)), g.nodes.length = g.edges.length →
      ¬ (i < g.edges.length ∧ j < g.edges.length) → g.swapNodes i j r = .threw g := by
    intro E g r hg h
    unfold G.swapNodes
    by_cases hi : i < g.edges.length
    · rw [List.getElem?_eq_none (l := g.nodes) (i := j) (by omega)]
      split
      · rename_i h; cases h
      · rfl
    · rw [List.getElem?_eq_none (l := g.nodes) (i := i) (by omega)]
  exact ⟨main g _ hg h, main g _ hg h, main g' _ hg' h'⟩

example : swapNodesUndirected sampleU 0 2 =
    .ok [[⟨1, 7, ()⟩], [⟨2, 5, ()⟩, ⟨0, 7, ()⟩, ⟨2, 5, ()⟩], [⟨1, 5, ()⟩, ⟨2, 6, ()⟩, ⟨2, 6, ()⟩, ⟨1, 5, ()⟩]] := by decide

/-! ### C17 -/

/-- C17 for directed graphs: erasing the `k`-th edge of `n` removes it and nothing else. -/
theorem C17_erase_edge_directed {N W M : Type} (stdSort : {α : Type} → (α → α → Bool) → List α → List α)
    (g : G N (Edge W M)) (n k : Nat) (e : Edge W M) (he : edgeAt g.edges n k = some e) :
    directedStep stdSort g (.eraseEdge n k) =
      .ret ⟨g.nodes, removeAt g.edges fun i x => decide ((i, x) = (n, k))⟩ .unit := by
  obtain ⟨l, hl, hk⟩ := Option.bind_eq_some_iff.1 he
  unfold directedStep
  simp only
  rw [eraseEdgeDirected_cases (.inr ⟨l, hl, Nat.le_of_lt (List.getElem?_eq_some_iff.1 hk).1⟩)]
  unfold onEdges
  simp only
  congr 2
  apply List.ext_getElem?
  intro i
  rw [getElem?_removeAt, getElem?_onNode]
  split
  · rename_i hi
    subst hi
    rw [hl, Option.map_some, Option.map_some, keepIdx_eraseIdx _ l k (by intro x; simp)]
  · rename_i hi
    cases g.edges[i]? with
    | none => rfl
    | some l' => rw [Option.map_some, keepIdx_all]; intro x _; simp [hi]

/-- C17 for undirected graphs: erasing the `k`-th edge of `n` removes it and one edge leading back with the same weight,
and nothing else. -/
theorem C17_erase_edge_undirected {N W M : Type} [DecidableEq W] [DecidableEq M]
    (stdSort : {α : Type} → (α → α → Bool) → List α → List α)
    (g : G N (Edge W M)) (hr : Reciprocal g.edges) (n k : Nat) (e : Edge W M) (he : edgeAt g.edges n k = some e) :
    ∃ p e', Partner g.edges n k e p e' ∧ undirectedStep stdSort g (.eraseEdge n k) =
      .ret ⟨g.nodes, removeAt g.edges fun i x => decide ((i, x) = (n, k) ∨ (i, x) = (e.target, p))⟩ .unit := by
  obtain ⟨s', p, e', h1, h2, h3, _⟩ := eraseEdgeUndirected_spec he (Reciprocal.exists_partner hr he)
  refine ⟨p, e', h2, ?_⟩
  unfold undirectedStep
  simp only
  rw [h1, h3]
  rfl

/-- C17 for embedded graphs: erasing the `k`-th edge of `n` removes it and its other half, and nothing else. -/
theorem C17_erase_edge_embedded {N W M : Type} (g : G N (EEdge W M)) (hr : Embedded g.edges) (n k : Nat)
    (e : EEdge W M) (he : edgeAt g.edges n k = some e) :
    embeddedStep g (.eraseEdge n k) =
      .ret ⟨g.nodes, removeAtE g.edges fun i x => decide ((i, x) = (n, k) ∨ (i, x) = (e.target, e.comp))⟩ .unit := by
  unfold embeddedStep
  simp only
  rw [(eraseEdgeEmbedded_spec hr he).1]
  rfl

example : edgeAt sampleE 0 0 = some ⟨1, 2, 5, ()⟩ ∧ eraseEdgeEmbedded sampleE 0 0 =
    .ok [[⟨0, 1, 6, ()⟩, ⟨0, 0, 6, ()⟩, ⟨1, 0, 4, ()⟩], [⟨0, 2, 4, ()⟩, ⟨2, 0, 7, ()⟩], [⟨1, 1, 7, ()⟩]] := by decide
example : edgeAt sampleU 0 2 = some ⟨0, 6, ()⟩ ∧ Partner sampleU 0 2 ⟨0, 6, ()⟩ 1 ⟨0, 6, ()⟩ := by
  refine ⟨by decide, by decide, rfl, rfl, by decide⟩

/-! ### C20 -/

/-- C20 for undirected graphs whose edges carry no meta data: setting the weight of an edge changes the weight of that
half, and of one partner half, to the given value, and nothing else.  (For edges with meta data see C111.) -/
theorem C20_set_weight_undirected {N W M : Type} [DecidableEq W] [DecidableEq M] [Subsingleton M]
    (stdSort : {α : Type} → (α → α → Bool) → List α → List α)
    (g : G N (Edge W M)) (hr : Reciprocal g.edges) (n k : Nat) (e : Edge W M) (he : edgeAt g.edges n k = some e) (w : W) :
    ∃ p e', Partner g.edges n k e p e' ∧ undirectedStep stdSort g (.setWeight n k w) =
      .ret ⟨g.nodes, changeAt g.edges (fun i x => decide ((i, x) = (n, k) ∨ (i, x) = (e.target, p)))
        fun e => { e with weight := w }⟩ .unit := by
  obtain ⟨p, hp⟩ := partnerPos_ok (Reciprocal.exists_partner hr he)
  obtain ⟨e', he'⟩ := partnerPos_spec hp
  refine ⟨p, e', he', ?_⟩
  unfold undirectedStep
  simp only
  rw [setWeightUndirected_spec he hp w]
  rfl

/-- C20: likewise for a weight computed from the old one. -/
theorem C20_mutate_weight_undirected {N W M : Type} [DecidableEq W] [DecidableEq M] [Subsingleton M]
    (stdSort : {α : Type} → (α → α → Bool) → List α → List α)
    (g : G N (Edge W M)) (hr : Reciprocal g.edges) (n k : Nat) (e : Edge W M) (he : edgeAt g.edges n k = some e)
    (f : W → W) :
    ∃ p e', Partner g.edges n k e p e' ∧ undirectedStep stdSort g (.mutateWeight n k f) =
      .ret ⟨g.nodes, changeAt g.edges (fun i x => decide ((i, x) = (n, k) ∨ (i, x) = (e.target, p)))
        fun e' => { e' with weight := f e.weight }⟩ .unit := by
  obtain ⟨p, hp⟩ := partnerPos_ok (Reciprocal.exists_partner hr he)
  obtain ⟨e', he'⟩ := partnerPos_spec hp
  refine ⟨p, e', he', ?_⟩
  unfold undirectedStep
  simp only
  rw [mutateWeightUndirected_spec he hp f]
  rfl

/-- C20 for embedded graphs: the two halves of the chosen edge and nothing else. -/
theorem C20_set_weight_embedded {N W M : Type} (g : G N (EEdge W M)) (hr : Embedded g.edges) (n k : Nat)
    (e : EEdge W M) (he : edgeAt g.edges n k = some e) (w : W) :
    embeddedStep g (.setWeight n k w) =
      .ret ⟨g.nodes, changeAt g.edges (fun i x => decide ((i, x) = (n, k) ∨ (i, x) = (e.target, e.comp)))
        fun e => { e with weight := w }⟩ .unit := by
  unfold embeddedStep
  simp only
  rw [setWeightEmbedded_spec hr he w]
  rfl

/-- C20: likewise for a weight computed from the old one. -/
theorem C20_mutate_weight_embedded {N W M : Type} (g : G N (EEdge W M)) (hr : Embedded g.edges) (n k : Nat)
    (e : EEdge W M) (he : edgeAt g.edges n k = some e) (f : W → W) :
    embeddedStep g (.mutateWeight n k f) =
      .ret ⟨g.nodes, changeAt g.edges (fun i x => decide ((i, x) = (n, k) ∨ (i, x) = (e.target, e.comp)))
        fun e' => { e' with weight := f e.weight }⟩ .unit := by
  unfold embeddedStep
  simp only
  rw [mutateWeightEmbedded_spec hr he f]
  rfl

/-- C20 for directed graphs: the chosen edge and nothing else. -/
theorem C20_set_weight_directed {N W M : Type} (stdSort : {α : Type} → (α → α → Bool) → List α → List α)
    (g : G N (Edge W M)) (n k : Nat) (e : Edge W M) (he : edgeAt g.edges n k = some e) (w : W) :
    directedStep stdSort g (.setWeight n k w) =
      .ret ⟨g.nodes, changeAt g.edges (fun i x => decide ((i, x) = (n, k))) fun e => { e with weight := w }⟩ .unit := by
  have he' : g.edges[n]?.bind (·[k]?) = some e := he
  unfold directedStep setWeightDirected
  simp only
  rw [he']
  unfold onEdges
  simp only
  congr 2
  apply edges_ext
  · rw [length_onEdge, length_changeAt]
  · intro i x
    rw [edgeAt_onEdge, edgeAt_changeAt]
    by_cases h : (i, x) = (n, k)
    · rw [if_pos h]; simp [h]; rfl
    · rw [if_neg h]; cases edgeAt g.edges i x <;> simp [h]

example : setWeightUndirected sampleU 0 2 9 =
    .ok [[⟨1, 5, ()⟩, ⟨0, 9, ()⟩, ⟨0, 9, ()⟩, ⟨1, 5, ()⟩], [⟨0, 5, ()⟩, ⟨2, 7, ()⟩, ⟨0, 5, ()⟩], [⟨1, 7, ()⟩]] := by decide
example : mutateWeightEmbedded sampleE 0 2 (· + 1) =
    .ok [[⟨1, 2, 5, ()⟩, ⟨0, 2, 7, ()⟩, ⟨0, 1, 7, ()⟩, ⟨1, 0, 4, ()⟩], [⟨0, 3, 4, ()⟩, ⟨2, 0, 7, ()⟩, ⟨0, 0, 5, ()⟩],
      [⟨1, 1, 7, ()⟩]] := by decide

/-! ### C59 -/

/-- C59.  `join` on an embedded graph adds one edge, with its halves at the ends of the two nodes (for a loop, one after
the other), and changes nothing else. -/
theorem C59_join_embedded {N W M : Type} (g : G N (EEdge W M)) (he : Embedded g.edges) (i j : Nat) (w : W) (m₁ m₂ : M)
    (hi : i < g.edges.length) (hj : j < g.edges.length) :
    ∃ s', embeddedStep g (.join i j w m₁ m₂) = .ret ⟨g.nodes, s'⟩ .unit ∧
      JoinedE g.edges s' i (degree g.edges i) j (if i = j then degree g.edges j + 1 else degree g.edges j) w m₁ m₂ := by
  obtain ⟨s', h1, _, h3⟩ := joinEmbedded_spec he (w := w) (m₁ := m₁) (m₂ := m₂) hi hj
  refine ⟨s', ?_, h3⟩
  unfold embeddedStep
  simp only
  rw [h1]; rfl

/-- C59.  `insert_join` with two iterators adds one edge, with its halves at the two positions (if both are in the same
node, the first half moves up by one when the second is inserted at or before it), and changes nothing else.  The
iterators returned are to the two halves. -/
theorem C59_insert_join {N W M : Type} (g : G N (EEdge W M)) (he : Embedded g.edges) (n p m q : Nat) (w : W) (m₁ m₂ : M)
    (hp : ValidIter g.edges n p) (hq : ValidIter g.edges m q) :
    ∃ s' p', embeddedStep g (.insertJoin n p m q w m₁ m₂) = .ret ⟨g.nodes, s'⟩ (.iters n p' m q) ∧
      JoinedE g.edges s' n p' m q w m₁ m₂ ∧ p' = (if n = m ∧ q ≤ p then p + 1 else p) := by
  obtain ⟨s', h1, _, h3⟩ := insertJoin_spec he (w := w) (m₁ := m₁) (m₂ := m₂) (ValidIter.lt hp).1 (ValidIter.lt hq).1
    (ValidIter.lt hp).2 (ValidIter.lt hq).2
  refine ⟨s', _, ?_, h3, rfl⟩
  unfold embeddedStep
  simp only
  rw [h1]; rfl

/-- C59.  `insert_join` with an iterator and a position: likewise, the position being that of the second half within the
result; a position beyond the end throws and changes nothing. -/
theorem C59_insert_join_position {N W M : Type} (g : G N (EEdge W M)) (he : Embedded g.edges) (n p q : Nat) (w : W)
    (m₁ m₂ : M) (hp : ValidIter g.edges n p) :
    (q ≤ degree g.edges n + 1 → ∃ s' p', embeddedStep g (.insertJoinPos n p q w m₁ m₂) =
        .ret ⟨g.nodes, s'⟩ (.iters n p' n q) ∧ JoinedE g.edges s' n p' n q w m₁ m₂ ∧
        p' = (if q ≤ p then p + 1 else p)) ∧
    (degree g.edges n + 1 < q → embeddedStep g (.insertJoinPos n p q w m₁ m₂) = .threw g) := by
  obtain ⟨hn, hp'⟩ := ValidIter.lt hp
  refine ⟨?_, ?_⟩
  · intro hq
    obtain ⟨s', h1, _, h3⟩ := insertJoinPos_spec he (w := w) (m₁ := m₁) (m₂ := m₂) hn hp' hq
    refine ⟨s', _, ?_, h3, rfl⟩
    unfold embeddedStep
    simp only
    rw [h1]; rfl
  · intro hq
    have hl := degree_of_getElem? (List.getElem?_eq_getElem hn)
    unfold embeddedStep insertJoinPos
    simp only
    rw [List.getElem?_eq_getElem hn]
    simp only
    rw [if_neg (by omega), if_pos (by omega)]
    rfl

/-- C59.  Erasing either half of an edge just added, wherever it was inserted, restores the graph. -/
theorem C59_join_then_erase {N W M : Type} (ns : List N) (s s' : Edges (EEdge W M)) (n p m q : Nat) (w : W) (m₁ m₂ : M)
    (he : Embedded s') (h : JoinedE s s' n p m q w m₁ m₂) :
    embeddedStep ⟨ns, s'⟩ (.eraseEdge n p) = .ret ⟨ns, s⟩ .unit ∧
    embeddedStep ⟨ns, s'⟩ (.eraseEdge m q) = .ret ⟨ns, s⟩ .unit := by
  refine ⟨?_, ?_⟩
  · rw [C17_erase_edge_embedded ⟨ns, s'⟩ he n p _ h.first]
    simp only
    rw [h.rest]
  · rw [C17_erase_edge_embedded ⟨ns, s'⟩ he m q _ h.second]
    simp only
    rw [← h.rest]
    congr 3
    funext i x
    rw [decide_eq_decide]
    exact or_comm

/-- C59 for undirected and directed graphs: `join` appends one half edge to each of the two nodes, or one edge to the
first; a missing node throws and changes nothing. -/
theorem C59_join {N W M : Type} [DecidableEq W] [DecidableEq M]
    (stdSort : {α : Type} → (α → α → Bool) → List α → List α) (g : G N (Edge W M)) (i j : Nat) (w : W) (m₁ m₂ : M) :
    (i < g.edges.length ∧ j < g.edges.length →
      (∃ s', directedStep stdSort g (.join i j w m₁ m₂) = .ret ⟨g.nodes, s'⟩ .unit ∧ s'.length = g.edges.length ∧
        ∀ k, s'[k]? = g.edges[k]?.map fun l => if k = i then l ++ [⟨j, w, m₁⟩] else l) ∧
      (∃ s', undirectedStep stdSort g (.join i j w m₁ m₂) = .ret ⟨g.nodes, s'⟩ .unit ∧ s'.length = g.edges.length ∧
        ∀ k, s'[k]? = g.edges[k]?.map fun l =>
          l ++ (if k = i then [⟨j, w, m₁⟩] else []) ++ (if k = j then [⟨i, w, m₂⟩] else []))) ∧
    (¬ (i < g.edges.length ∧ j < g.edges.length) →
      directedStep stdSort g (.join i j w m₁ m₂) = .threw g ∧ undirectedStep stdSort g (.join i j w m₁ m₂) = .threw g) := by
  refine ⟨?_, ?_⟩
  · intro h
    refine ⟨⟨_, by unfold directedStep joinDirected; simp only; rw [if_pos h]; rfl, length_onNode _ _ _, ?_⟩,
      ⟨_, by unfold undirectedStep joinUndirected; simp only; rw [if_pos h]; rfl, by rw [length_onNode, length_onNode], ?_⟩⟩
    · intro k
      rw [getElem?_onNode]
      by_cases hk : k = i
      · simp [hk]
      · simp [hk]
    · intro k
      rw [getElem?_onNode, getElem?_onNode]
      by_cases hk : k = i <;> by_cases hj : k = j
      all_goals cases g.edges[k]? <;> simp_all
  · intro h
    refine ⟨?_, ?_⟩
    · unfold directedStep joinDirected; simp only; rw [if_neg h]; rfl
    · unfold undirectedStep joinUndirected; simp only; rw [if_neg h]; rfl

example : JoinedE sampleE [[⟨1, 2, 5, ()⟩, ⟨0, 4, 6, ()⟩, ⟨0, 3, 8, ()⟩, ⟨0, 2, 8, ()⟩, ⟨0, 1, 6, ()⟩, ⟨1, 0, 4, ()⟩],
    [⟨0, 5, 4, ()⟩, ⟨2, 0, 7, ()⟩, ⟨0, 0, 5, ()⟩], [⟨1, 1, 7, ()⟩]] 0 3 0 2 8 () () := ⟨by decide, by decide, by decide⟩
example : (match insertJoinPos sampleE 0 2 2 8 () () with | .ok (_, p, q) => (p, q) | _ => (0, 0)) = (3, 2) := by decide

end Verif.Props
