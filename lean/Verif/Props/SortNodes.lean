import Verif.Lemmas.SortNodes
import Verif.Lemmas.GraphHistory
import Verif.Lemmas.Tree
import Verif.Props.Algorithms

/-! Property C61: the nodes of a graph are sorted. -/
namespace Verif.Props
open Verif.Spec Verif.Graph Verif.SortNodes

section
variable {N E : Type} [EdgeLike E]

/-- The graphs are the same but for the numbering of the nodes: node `k` of `g'` is node `old k` of `g`, with the same weight and the same edges in the same order;
and `new` is the inverse of `old`. -/
structure Renumbered (g g' : G N E) (old new : Nat → Nat) : Prop where
  order : g'.nodes.length = g.nodes.length ∧ g'.edges.length = g.edges.length
  inverse : ∀ k, new (old k) = k ∧ old (new k) = k
  nodes : ∀ k, g'.nodes[k]? = g.nodes[old k]?
  edges : ∀ k, g'.edges[k]? = g.edges[old k]?.map (relabel new)

/-- A comparator of nodes which decides by weight; it may do what it likes, in particular look at the indices, if neither weight is less than the other. -/
def Respects (comp : NodeComp N) (lt : N → N → Bool) : Prop :=
  ∀ w i j a b, w i = some a → w j = some b → (lt a b = true → comp w i j = true) ∧ (lt b a = true → comp w i j = false)

/-- What sorting is to achieve: the graph is only renumbered, nodes outside the range keep their numbers, and the weights in the range are sorted. -/
def NodesSorted (lt : N → N → Bool) (first last : Nat) (g g' : G N E) : Prop :=
  (∃ old new, Renumbered g g' old new ∧ ∀ k, ¬ (first ≤ k ∧ k < last) → old k = k) ∧ Sorted lt ((g'.nodes.drop first).take (last - first))

namespace SortNodes

theorem Renumbered.refl [LawfulEdge E] (g : G N E) : Renumbered g g id id := by
  refine ⟨⟨rfl, rfl⟩, fun k => ⟨rfl, rfl⟩, fun k => rfl, fun k => ?_⟩
  cases h : g.edges[k]? with
  | none => simp [h]
  | some l =>
    simp only [id, h, Option.map_some]
    congr 1
    rw [relabel]
    conv => lhs; rw [← List.map_id l]
    exact List.map_congr_left fun e _ => by rw [id, id, LawfulEdge.retarget_target]

theorem set_set {l : List N} {i j : Nat} (hi : i < l.length) (hj : j < l.length) (k : Nat) : ((l.set i l[j]).set j l[i])[k]? = l[transpose i j k]? := by
  simp only [transpose, List.getElem?_set, List.length_set]
  by_cases h1 : j = k
  · subst h1
    by_cases h2 : j = i
    · subst h2; simp [hi]
    · rw [if_pos rfl, if_pos hj, if_neg h2, if_pos rfl, List.getElem?_eq_getElem hi]
  · rw [if_neg h1]
    by_cases h2 : i = k
    · subst h2; rw [if_pos rfl, if_pos hi, if_pos rfl, List.getElem?_eq_getElem hj]
    · rw [if_neg h2, if_neg (fun h => h2 h.symm), if_neg (fun h => h1 h.symm)]

theorem Renumbered.swap [LawfulEdge E] {g₀ g : G N E} {old new : Nat → Nat} (h : Renumbered g₀ g old new) {i j : Nat} (hi : i < g.nodes.length) (hj : j < g.nodes.length)
    {s' : Edges E} (ht : Transposed g.edges s' i j) :
    Renumbered g₀ ⟨(g.nodes.set i g.nodes[j]).set j g.nodes[i], s'⟩ (fun k => old (transpose i j k)) (fun k => transpose i j (new k)) := by
  refine ⟨⟨by simpa using h.order.1, ht.1.trans h.order.2⟩, ?_, ?_, ?_⟩
  · intro k
    refine ⟨?_, ?_⟩
    · simp only [(h.inverse _).1, transpose_transpose]
    · simp only [transpose_transpose, (h.inverse _).2]
  · intro k
    simp only
    rw [set_set hi hj, h.nodes]
  · intro k
    simp only
    rw [ht.2, h.edges, Option.map_map]
    congr 1
    funext l
    simp only [Function.comp, relabel, List.map_map]
    exact List.map_congr_left fun e _ => by simp only [Function.comp, LawfulEdge.target_retarget, LawfulEdge.retarget_retarget]

/-- The old number of a node, where `v` gives those of the nodes in the range. -/
def oldOf {m n : Nat} (first : Nat) (v : Vector (Fin m) n) (k : Nat) : Nat := if h : first ≤ k ∧ k < first + n then v[k - first]'(by omega) else k

theorem oldOf_swap {m n : Nat} (first : Nat) (v : Vector (Fin m) n) {i j : Nat} (hi : i < n) (hj : j < n) (k : Nat) :
    oldOf first (v.swap i j hi hj) k = oldOf first v (transpose (first + i) (first + j) k) := by
  unfold oldOf transpose
  by_cases h : first ≤ k ∧ k < first + n
  · rw [dif_pos h, Vector.getElem_swap]
    by_cases h1 : k = first + i
    · subst h1
      simp only [Nat.add_sub_cancel_left, if_true]
      rw [dif_pos (by omega)]
    · rw [if_neg (by omega)]
      by_cases h2 : k = first + j
      · subst h2
        simp only [Nat.add_sub_cancel_left, if_true, if_neg h1]
        rw [dif_pos (by omega)]
      · rw [if_neg (by omega), if_neg h1, if_neg h2, dif_pos h]
  · rw [dif_neg h, if_neg (by omega), if_neg (by omega), dif_neg h]

theorem sort_nodes [LawfulEdge E] {swapEdges : Edges E → Nat → Nat → Res (Edges E)} {Inv : Edges E → Prop} {lt : N → N → Bool} (hlt : StrictWeak lt) {comp : NodeComp N}
    (hc : Respects comp lt) {first last : Nat}
    (hswap : ∀ s, Inv s → ∀ i j, first ≤ i → first ≤ j → i < s.length → j < s.length → ∃ s', swapEdges s i j = .ok s' ∧ Transposed s s' i j ∧ Inv s')
    {g : G N E} (hg : g.nodes.length = g.edges.length) (hi : Inv g.edges) (hle : first ≤ last) (hlast : last ≤ g.edges.length) :
    ∃ g', sortNodes swapEdges comp first last g = .ok g' ∧ Inv g'.edges ∧ NodesSorted lt first last g g' := by
  obtain ⟨n, rfl⟩ : ∃ n, last = first + n := ⟨last - first, by omega⟩
  have hn : first + n - first = n := by omega
  let vcomp : Heap.PosComp (Fin g.nodes.length) n := fun v i j => comp (fun k => g.nodes[oldOf first v k]?) (first + i) (first + j)
  let R : G N E → Vector (Fin g.nodes.length) n → Prop := fun g' v => Inv g'.edges ∧ ∃ new, Renumbered g g' (oldOf first v) new
  have hcorr : Corresponds (fun (g : G N E) i j => comp (fun k => g.nodes[k]?) i j) (swapOf swapEdges) first vcomp R := by
    refine ⟨?_, ?_⟩
    · rintro g' v ⟨_, new, hr⟩ i j
      have : (fun k => g'.nodes[k]?) = fun k => g.nodes[oldOf first v k]? := funext hr.nodes
      simp only [vcomp, this]
    · rintro g' v ⟨hinv, new, hr⟩ i j hi hj
      have hl : g'.nodes.length = g'.edges.length := by rw [hr.order.1, hr.order.2, hg]
      obtain ⟨s', h1, h2, h3⟩ := hswap g'.edges hinv (first + i) (first + j) (by omega) (by omega) (by rw [hr.order.2]; omega) (by rw [hr.order.2]; omega)
      have e := swapNodes_eq hl (i := first + i) (j := first + j) (by rw [hr.order.2]; omega) (by rw [hr.order.2]; omega) h1
      have :=  Renumbered.swap hr (i := first + i) (j := first + j) (by rw [hr.order.1]; omega) (by rw [hr.order.1]; omega) h2
      rw [show (fun k => oldOf first v (transpose (first + i) (first + j) k)) = oldOf first (v.swap i j hi hj) from (funext (oldOf_swap first v hi hj)).symm] at this
      exact ⟨_, by simp only [swapOf, e], h3, _, this⟩
  let v₀ : Vector (Fin g.nodes.length) n := Vector.ofFn fun i => ⟨first + i, by omega⟩
  have hv₀ : oldOf first v₀ = id := by
    funext k
    unfold oldOf
    split
    · simp only [v₀, Vector.getElem_ofFn, id]; omega
    · rfl
  have hR : R g v₀ := by
    refine ⟨hi, id, ?_⟩
    rw [hv₀]
    exact Renumbered.refl g
  obtain ⟨g', e1, hinv', new, hr⟩ := sort_corresponds hcorr hR
  refine ⟨g', by rw [sortNodes, hn]; exact e1, hinv', ⟨oldOf first (Heap.sort vcomp v₀), new, hr, ?_⟩, ?_⟩
  · intro k hk
    rw [oldOf, dif_neg hk]
  · let lt' : Fin g.nodes.length → Fin g.nodes.length → Bool := fun a b => lt g.nodes[a] g.nodes[b]
    have hlt' : StrictWeak lt' := ⟨fun a b => hlt.asymm _ _, fun a b c => hlt.negTrans _ _ _⟩
    have hget : ∀ (v : Vector (Fin g.nodes.length) n) (i : Fin n), g.nodes[oldOf first v (first + i)]? = some g.nodes[v[i]] := by
      intro v i
      have hb : first ≤ first + (i : Nat) ∧ first + (i : Nat) < first + n := by omega
      have : oldOf first v (first + i) = v[i] := by
        rw [oldOf, dif_pos hb]
        simp only [Nat.add_sub_cancel_left]
        rfl
      rw [this]
      exact List.getElem?_eq_getElem _
    have hsorted := (C01_sort_any_tie_break lt' hlt' vcomp (fun v i j => hc _ _ _ _ _ (hget v i) (hget v j)) v₀).2
    have hlist : (g'.nodes.drop first).take n = (Heap.sort vcomp v₀).toList.map fun x => g.nodes[x] := by
      apply List.ext_getElem?
      intro k
      by_cases hk : k < n
      · rw [List.getElem?_take_of_lt hk, List.getElem?_drop, hr.nodes, hget _ ⟨k, hk⟩, List.getElem?_map, List.getElem?_eq_getElem (by simpa using hk)]
        simp
      · rw [List.getElem?_eq_none (by rw [List.length_take]; omega), List.getElem?_eq_none (by simp; omega)]
    rw [hn, hlist]
    unfold Sorted at hsorted ⊢
    rw [List.pairwise_map]
    exact hsorted

end SortNodes

end

/-- C61 for directed graphs: sorting a range of nodes only renumbers the nodes; those outside the range keep their numbers, and the weights in the range are
sorted.  (Comparators may look at the indices, to decide between nodes of which neither weight is less.) -/
theorem C61_sort_nodes_directed {N W M : Type} {lt : N → N → Bool} (hlt : StrictWeak lt) {comp : NodeComp N} (hc : Respects comp lt) (g : G N (Edge W M))
    (hg : g.nodes.length = g.edges.length) {first last : Nat} (hle : first ≤ last) (hlast : last ≤ g.edges.length) :
    ∃ g', sortNodes swapNodesDirected comp first last g = .ok g' ∧ NodesSorted lt first last g g' := by
  obtain ⟨g', h1, _, h2⟩ := SortNodes.sort_nodes (Inv := fun _ => True) hlt hc
    (fun s _ i j _ _ hi hj => let ⟨s', a, b⟩ := swapNodesDirected_spec s i j hi hj; ⟨s', a, b, trivial⟩) hg trivial hle hlast
  exact ⟨g', h1, h2⟩

/-- C61 for undirected graphs; the result is again an undirected graph. -/
theorem C61_sort_nodes_undirected {N W M : Type} [DecidableEq W] {lt : N → N → Bool} (hlt : StrictWeak lt) {comp : NodeComp N} (hc : Respects comp lt) (g : G N (Edge W M))
    (hg : g.nodes.length = g.edges.length) (he : Reciprocal g.edges) {first last : Nat} (hle : first ≤ last) (hlast : last ≤ g.edges.length) :
    ∃ g', sortNodes swapNodesUndirected comp first last g = .ok g' ∧ Reciprocal g'.edges ∧ NodesSorted lt first last g g' :=
  SortNodes.sort_nodes (Inv := Reciprocal) hlt hc
    (fun s hs i j _ _ hi hj => let ⟨s', a, b⟩ := swapNodesUndirected_spec s (Reciprocal.targetSym hs) i j hi hj; ⟨s', a, b, transposed_reciprocal b hi hj hs⟩) hg he hle hlast

/-- C61 for embedded graphs; the result is again an embedded graph. -/
theorem C61_sort_nodes_embedded {N W M : Type} {lt : N → N → Bool} (hlt : StrictWeak lt) {comp : NodeComp N} (hc : Respects comp lt) (g : G N (EEdge W M))
    (hg : g.nodes.length = g.edges.length) (he : Embedded g.edges) {first last : Nat} (hle : first ≤ last) (hlast : last ≤ g.edges.length) :
    ∃ g', sortNodes swapNodesUndirected comp first last g = .ok g' ∧ Embedded g'.edges ∧ NodesSorted lt first last g g' :=
  SortNodes.sort_nodes (Inv := Embedded) hlt hc
    (fun s hs i j _ _ hi hj => let ⟨s', a, b⟩ := swapNodesUndirected_spec s (Embedded.targetSym hs) i j hi hj; ⟨s', a, b, transposed_embedded b hs⟩) hg he hle hlast

/-- C61 for trees of any kind, if the root is not in the range: the result is a tree with the same root. -/
theorem C61_sort_nodes_tree {N W M : Type} [DecidableEq W] [DecidableEq M] {kind : TreeKind} {lt : N → N → Bool} (hlt : StrictWeak lt) {comp : NodeComp N} (hc : Respects comp lt)
    (g : G N (Edge W M)) (hg : g.nodes.length = g.edges.length) {first last : Nat} {par : Nat → Nat} (ht : TreeOf kind g.edges 0 par) (hf : 0 < first) (hle : first ≤ last)
    (hlast : last ≤ g.edges.length) :
    ∃ g', sortNodes (swapNodesOf kind) comp first last g = .ok g' ∧ (∃ par, TreeOf kind g'.edges 0 par) ∧ NodesSorted lt first last g g' := by
  refine SortNodes.sort_nodes (Inv := fun s => ∃ par, TreeOf kind s 0 par) hlt hc ?_ hg ⟨par, ht⟩ hle hlast
  rintro s ⟨par, ht⟩ i j h1 h2 hi hj
  have hex : ∃ s', swapNodesOf kind s i j = .ok s' ∧ Transposed s s' i j := by
    unfold swapNodesOf
    split
    · rename_i hk
      subst hk
      exact swapNodesUndirected_spec s (TreeOf.targetSym ht) i j hi hj
    · exact swapNodesDirected_spec s i j hi hj
  obtain ⟨s', a, b⟩ := hex
  have := transpose_tree ht hi hj b
  rw [show transpose i j 0 = 0 by unfold transpose; rw [if_neg (by omega), if_neg (by omega)]] at this
  exact ⟨s', a, b, _, this⟩

/-- The hypotheses are met by a tree whose weights are sorted by remainder, which has ties decided by index; and the result. -/
example : StrictWeak (fun a b : Nat => decide (a % 3 < b % 3)) := ⟨by simp; omega, by simp; omega⟩

def remainders : NodeComp Nat := fun w i j =>
  match w i, w j with
  | some a, some b => if a % 3 = b % 3 then decide (i < j) else decide (a % 3 < b % 3)
  | _, _ => false

example : Respects remainders (fun a b : Nat => decide (a % 3 < b % 3)) := by
  intro w i j a b ha hb
  simp only [remainders, ha, hb, decide_eq_true_eq]
  constructor
  · intro h; rw [if_neg (by omega)]; simpa using h
  · intro h; rw [if_neg (by omega)]; simp; omega

example : TreeOf .forward ([[⟨1, (), ()⟩, ⟨3, (), ()⟩], [⟨2, (), ()⟩], [], []] : Edges (Edge Unit Unit)) 0 (fun x => if x = 2 then 1 else 0) := by
  have hb : ∀ x < 4, Below 0 (fun x => if x = 2 then 1 else 0) 0 x := by
    intro x hx
    match x with
    | 0 => exact .self
    | 1 => exact .up (by omega) .self
    | 2 => exact .up (by omega) (.up (by simp) .self)
    | 3 => exact .up (by omega) .self
  exact ⟨by decide, by decide, hb, by unfold InRange; decide, by decide⟩

example :
    sortNodes (swapNodesOf .forward) remainders 1 4 (⟨[7, 5, 4, 3], [[⟨1, (), ()⟩, ⟨3, (), ()⟩], [⟨2, (), ()⟩], [], []]⟩ : G Nat (Edge Unit Unit)) =
      .ok ⟨[7, 3, 4, 5], [[⟨3, (), ()⟩, ⟨1, (), ()⟩], [], [], [⟨2, (), ()⟩]]⟩ := by decide +kernel

end Verif.Props
