import Verif.Lemmas.NodeWeights
import Verif.Props.GraphInit
/-
C94: there is one weight for each node of a graph, the one which was given for it.
-/
namespace Verif.Props
open Verif.Graph Verif.NodeWeights Verif.Spec Verif.Spec.NodeWeights

variable {N W M : Type}

/-- **C94**  A directed graph is constructed from lists of edges and of weights precisely if there are as many weights as
nodes and every edge leads to a node; then the nodes have the weights listed, in order.  Otherwise an exception is thrown. -/
theorem C94_directed (edges : Edges (Edge W M)) (ws : List N) :
    (ws.length = edges.length ∧ InRange edges → fromBoth makeDirected edges ws = .ok ⟨ws, edges⟩) ∧
    (¬ (ws.length = edges.length ∧ InRange edges) → fromBoth makeDirected edges ws = .throws) := by
  obtain ⟨h1, h2⟩ := C12_directed_init edges
  unfold fromBoth checkInitialization
  by_cases h : ws.length = edges.length
  · simp only [h, ne_eq, not_true_eq_false, if_false, Res.bind, true_and]
    exact ⟨fun hr => by rw [h1 hr], fun hr => by rw [h2 hr]⟩
  · simp [h, Res.bind]

example : fromBoth makeDirected [[(⟨1, 5, ()⟩ : Edge Nat Unit)], []] ["a", "b"] = .ok ⟨["a", "b"], [[⟨1, 5, ()⟩], []]⟩ := by decide
example : fromBoth makeDirected [[(⟨1, 5, ()⟩ : Edge Nat Unit)], []] ["a"] = .throws := by decide

/-- **C94**  The same for undirected graphs, of which the edges have to be reciprocal.  Each node has the edges listed for it, in
canonical order. -/
theorem C94_undirected [DecidableEq W] [DecidableEq M] (k : WeightKind W) (hk : WeightsOk M k) (edges : Edges (Edge W M))
    (ws : List N) :
    (ws.length = edges.length ∧ Reciprocal edges → ∃ s, fromBoth (makeUndirected k) edges ws = .ok ⟨ws, s⟩ ∧ Presents k edges s) ∧
    (¬ (ws.length = edges.length ∧ Reciprocal edges) → fromBoth (makeUndirected k) edges ws = .throws) := by
  obtain ⟨h1, h2⟩ := C18_undirected_init k hk edges
  unfold fromBoth checkInitialization
  by_cases h : ws.length = edges.length
  · simp only [h, ne_eq, not_true_eq_false, if_false, Res.bind, true_and]
    refine ⟨fun hr => ?_, fun hr => by rw [h2 hr]⟩
    obtain ⟨s, h3, h4, _⟩ := h1 hr
    exact ⟨s, by rw [h3], h4⟩
  · simp [h, Res.bind]

/-- **C94**  The same for embedded graphs. -/
theorem C94_embedded [DecidableEq W] (edges : Edges (EEdge W M)) (ws : List N) :
    (ws.length = edges.length ∧ Embedded edges → fromBoth makeEmbedded edges ws = .ok ⟨ws, edges⟩) ∧
    (¬ (ws.length = edges.length ∧ Embedded edges) → fromBoth makeEmbedded edges ws = .throws) := by
  obtain ⟨h1, h2⟩ := C19_embedded_init edges
  unfold fromBoth checkInitialization
  by_cases h : ws.length = edges.length
  · simp only [h, ne_eq, not_true_eq_false, if_false, Res.bind, true_and]
    exact ⟨fun hr => by rw [h1 hr], fun hr => by rw [h2 hr]⟩
  · simp [h, Res.bind]

/-- **C94**  Without a list of weights, with or without allocators, the weight of each node is the default one.  Here `make` is
the construction of the edges, whatever the flavour. -/
theorem C94_default {E : Type} (make : Edges E → Res (Edges E)) (dflt : N) (edges s : Edges E) (hm : make edges = .ok s) :
    ∃ ws, fromEdges make dflt edges = .ok ⟨ws, s⟩ ∧ fromEdgesAlloc make dflt edges = .ok ⟨ws, s⟩ ∧
      ws.length = edges.length ∧ ∀ w ∈ ws, w = dflt :=
  ⟨List.replicate edges.length dflt, by simp [fromEdges, hm, Res.bind], by simp [fromEdgesAlloc, hm, Res.bind], by simp,
    fun w hw => (List.mem_replicate.1 hw).2⟩

example : fromEdges makeDirected 7 [[(⟨1, 5, ()⟩ : Edge Nat Unit)], []] = .ok ⟨[7, 7], [[⟨1, 5, ()⟩], []]⟩ := by decide

/-- **C94**  Static graphs: if the edges can be constructed then the number of nodes is the one which is part of the type; the
graph gets the weights listed, provided that there is one for each node, and otherwise an exception is thrown.  This needs no
default values of weights (`dflt` may be missing), and without weights listed they are the default ones. -/
theorem C94_static {E : Type} (fl : StaticStorage.Flavour) (size order : Nat) (make : Edges E → Res (Edges E))
    (edges s : Edges E) (hm : makeStatic fl size order make edges = .ok s) :
    edges.length = order ∧
    (∀ (dflt : Option N) ws, ws.length = order → staticFromBoth (makeStatic fl size order make) order dflt edges ws = .ok ⟨ws, s⟩) ∧
    (∀ (dflt : Option N) ws, ws.length ≠ order → staticFromBoth (makeStatic fl size order make) order dflt edges ws = .throws) ∧
    (∀ dflt : N, staticFromEdges (makeStatic fl size order make) order dflt edges = .ok ⟨List.replicate order dflt, s⟩) := by
  have ho : edges.length = order := by
    unfold makeStatic StaticStorage.construct StaticStorage.fill at hm
    split at hm
    · cases hm
    · rename_i h; simpa using h
  refine ⟨ho, fun dflt ws hw => ?_, fun dflt ws hw => ?_, fun dflt => ?_⟩
  · subst hw
    simp only [staticFromBoth, checkInitialization, ho, ne_eq, not_true_eq_false, if_false, Res.bind, hm, toArrayList_full]
  · simp only [staticFromBoth, checkInitialization]
    rw [if_pos (by rw [ho]; exact hw)]
    rfl
  · simp [staticFromEdges, hm, Res.bind]

example : makeStatic .directed 1 2 makeDirected [[(⟨1, 5, ()⟩ : Edge Nat Unit)], []] = .ok [[⟨1, 5, ()⟩], []] := by decide

/-- **C94**  Graphs with weights of different types, which are static: a call which is well-formed and succeeds has one weight
for each node, those which were given if there are any nodes. -/
theorem C94_heterogeneous {E : Type} (fl : StaticStorage.Flavour) (size order : Nat) (make : Edges E → Res (Edges E))
    (dflts : Option (List N)) (hd : ∀ ds, dflts = some ds → ds.length = order) (edges : Edges E) (args : List N) (g : G N E)
    (h : heterogeneous (makeStatic fl size order make) order dflts edges args = some (.ok g)) :
    g.nodes = args ∧ g.nodes.length = order ∧ edges.length = order := by
  have key : ∀ ws : List N, ((checkInitialization edges args.length).bind fun edges =>
      (makeStatic fl size order make edges).bind fun s => .ok ⟨ws, s⟩) = .ok g →
      g.nodes = ws ∧ args.length = edges.length ∧ edges.length = order := by
    intro ws hw
    unfold checkInitialization at hw
    split at hw
    · cases hw
    · rename_i h1
      simp only [Res.bind] at hw
      split at hw
      · rename_i s hs
        cases hw
        exact ⟨rfl, by simpa using h1, (C94_static (N := N) fl size order make edges s hs).1⟩
      · cases hw
      · cases hw
  unfold heterogeneous at h
  simp only at h
  split at h
  · rename_i h1
    obtain ⟨h2, h3, h4⟩ := key args (by simpa using h)
    exact ⟨h2, by rw [h2, h1], h4⟩
  · rename_i h1
    split at h
    · rename_i ds
      obtain ⟨h2, h3, h4⟩ := key ds (by simpa using h)
      exfalso
      apply h1
      rw [h3, h4]
    · cases h

example : heterogeneous (makeStatic .directed 1 2 makeDirected) 2 none [[(⟨1, 5, ()⟩ : Edge Nat Unit)], []] [Sum.inl 1, Sum.inr "a"] =
    some (.ok ⟨[Sum.inl 1, Sum.inr "a"], [[⟨1, 5, ()⟩], []]⟩) := by decide

/-- **C94**  Histories of calls of directed graphs: there is always one weight for each node, and the weights are those which
result from the calls which insert, erase, swap or set them (`after`), whatever else happens to the graph. -/
theorem C94_history_directed (stdSort : {α : Type} → (α → α → Bool) → List α → List α) (hsort : Permutes stdSort)
    (g : G N (Edge W M)) (hg : g.nodes.length = g.edges.length) (he : InRange g.edges)
    (ops : List (NodeOp N (Op N W M (Edge W M))))
    (hc : Within (nodeStep (directedStep stdSort)) (NodeContract .directed) g ops) :
    ∃ g' outs, run (nodeStep (directedStep stdSort)) g ops = some (g', outs) ∧ g'.nodes.length = g'.edges.length ∧
      g'.nodes = ops.foldl after g.nodes := by
  obtain ⟨g', outs, h1, h2, h3⟩ := history (P := InRange) (fl := .directed) (fun g hg o ho => directed_good hsort g hg o ho)
    (fun g hg o => directed_leaves stdSort g hg.1 o) ops g ⟨hg, he⟩ hc
  exact ⟨g', outs, h1, h2.1, h3⟩

example : run (nodeStep (directedStep (N := Nat) (W := Nat) (M := Unit) fun lt => StableSort.stableSort lt))
    ⟨[5, 6], [[⟨1, 3, ()⟩], []]⟩ [.call (.insertNode 1 7), .setWeight 2 9, .setWeight 3 1, .call (.swapNodes 0 2),
      .mutateWeight 0 (· + 1), .call (.eraseNode 1)] =
    some (⟨[10, 5], [[], [⟨0, 3, ()⟩]]⟩, [some (.index 1), some .unit, none, some .unit, some .unit, some .unit]) := by decide

/-- **C94**  Histories of calls of undirected graphs. -/
theorem C94_history_undirected [DecidableEq W] [DecidableEq M] (stdSort : {α : Type} → (α → α → Bool) → List α → List α)
    (hsort : Permutes stdSort) (g : G N (Edge W M)) (hg : g.nodes.length = g.edges.length) (he : Reciprocal g.edges)
    (ops : List (NodeOp N (Op N W M (Edge W M))))
    (hc : Within (nodeStep (undirectedStep stdSort)) (NodeContract .undirected) g ops) :
    ∃ g' outs, run (nodeStep (undirectedStep stdSort)) g ops = some (g', outs) ∧ g'.nodes.length = g'.edges.length ∧
      g'.nodes = ops.foldl after g.nodes := by
  obtain ⟨g', outs, h1, h2, h3⟩ := history (P := Reciprocal) (fl := .undirected)
    (fun g hg o ho => undirected_good hsort g hg o ho) (fun g hg o => undirected_leaves stdSort g hg.1 o) ops g ⟨hg, he⟩ hc
  exact ⟨g', outs, h1, h2.1, h3⟩

/-- **C94**  Histories of calls of embedded graphs. -/
theorem C94_history_embedded (g : G N (EEdge W M)) (hg : g.nodes.length = g.edges.length) (he : Embedded g.edges)
    (ops : List (NodeOp N (Op N W M (EEdge W M)))) (hc : Within (nodeStep embeddedStep) (NodeContract .embedded) g ops) :
    ∃ g' outs, run (nodeStep embeddedStep) g ops = some (g', outs) ∧ g'.nodes.length = g'.edges.length ∧
      g'.nodes = ops.foldl after g.nodes := by
  obtain ⟨g', outs, h1, h2, h3⟩ := history (P := Embedded) (fl := .embedded)
    (fun g hg o ho => embedded_good g hg o ho) (fun g hg o => embedded_leaves g hg.1 hg.2 o) ops g ⟨hg, he⟩ hc
  exact ⟨g', outs, h1, h2.1, h3⟩

/-- **C94 (violated)**  The constructors which take allocators do not compare the number of weights with the number of nodes:
whatever the lists, the graph is constructed if its edges can be.  If there are too many weights, a node which is added gets
the first of the surplus ones instead of the weight given; if there are too few, adding a node is undefined. -/
theorem C94_allocators_violated {E : Type} [EdgeLike E] (make : Edges E → Res (Edges E)) (edges s : Edges E)
    (hm : make edges = .ok s) (hs : s.length = edges.length) (ws : List N) :
    fromBothAlloc make edges ws = .ok ⟨ws, s⟩ ∧
    (∀ w extra (h : edges.length < ws.length), ws[edges.length]'h = extra →
      ∃ g' : G N E, G.addNodeF false false ⟨ws, s⟩ w = .ret g' (.index edges.length) ∧ g'.nodes = ws ∧
        g'.nodes[edges.length]? = some extra) ∧
    (∀ w, ws.length < edges.length → (G.addNodeF false false ⟨ws, s⟩ w : Outcome (G N E) Val) = .ub) := by
  refine ⟨by simp [fromBothAlloc, hm, Res.bind], fun w extra h hx => ?_, fun w h => ?_⟩
  · have hl : (insertNode s s.length).length = s.length + 1 := by simp [insertNode, fixEdgeData, insertSlot]
    refine ⟨⟨ws, insertNode s s.length⟩, ?_, rfl, by rw [← hx]; simp [h]⟩
    have hi : (ws.insertIdx s.length w).eraseIdx s.length = ws := List.eraseIdx_insertIdx_self _
    have h' : s.length < ws.length := by omega
    have hw : (ws.insertIdx s.length w).length = ws.length + 1 := by rw [List.length_insertIdx, if_pos (by omega)]
    unfold G.addNodeF G.insertNodeF insertionSentinel
    simp only [Nat.min_self]
    rw [if_neg (by omega)]
    simp only [Bool.false_eq_true, if_false, or_self, hl, hw]
    rw [if_pos (by omega), if_pos (by omega), hi, hs]
  · unfold G.addNodeF G.insertNodeF
    simp [hs, h]

example : fromBothAlloc makeDirected [([] : List (Edge Nat Unit))] [1, 2] = .ok ⟨[1, 2], [[]]⟩ := by decide
example : G.addNodeF false false (⟨[1, 2], [([] : List (Edge Nat Unit))]⟩ : G Nat _) 5 = .ret ⟨[1, 2], [[], []]⟩ (.index 1) := by decide

/-- **C04 (violated)**  A `static_stack` of elements without a default value cannot be constructed with fewer elements than it
can hold: an element beyond the end of the list is read.  (The check which should prevent that compares with `>` instead of
`>=`, and so never fails in time.) -/
theorem C04_no_default_violated (size : Nat) (l : List N) :
    (l.length < size → stackNoDefault size l = .ub) ∧ (l.length = size → stackNoDefault size l = .ok (l, size)) ∧
    (size < l.length → stackNoDefault size l = .throws) := by
  unfold stackNoDefault
  rw [toArrayNoDefault_spec]
  refine ⟨fun h => ?_, fun h => ?_, fun h => ?_⟩
  · rw [if_neg (by omega), if_neg (by omega)]; rfl
  · rw [if_neg (by omega), if_pos h]; simp [Res.bind, h]
  · rw [if_pos h]; rfl

example : stackNoDefault 3 ['a', 'b'] = .ub := by decide

/-- **C05 (violated)**  The same for `static_queue`. -/
theorem C05_no_default_violated (size : Nat) (l : List N) :
    (l.length < size → queueNoDefault size l = .ub) ∧
    (l.length = size → 0 < size → queueNoDefault size l = .ok (l, 0, size - 1)) ∧
    (size < l.length → queueNoDefault size l = .throws) := by
  unfold queueNoDefault
  rw [toArrayNoDefault_spec]
  refine ⟨fun h => ?_, fun h h0 => ?_, fun h => ?_⟩
  · rw [if_neg (by omega), if_neg (by omega)]; rfl
  · rw [if_neg (by omega), if_pos h]
    simp only [Res.bind]
    rw [if_pos (by omega), if_pos (by omega), h]
  · rw [if_pos h]; rfl

end Verif.Props
