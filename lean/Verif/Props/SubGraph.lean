import Verif.Lemmas.SubGraph
import Verif.Props.Graph

/-! # Subgraphs: C28 -/
namespace Verif.Props
open Verif.Spec Verif.Graph EdgeLike

/-- C28.  `sub_graph(g, pred)` of a directed graph terminates; it is the graph induced on the nodes whose weight satisfies
`pred`: exactly these nodes and exactly the edges between them, each in order. -/
theorem C28_sub_graph_directed {N W M : Type} (g : G N (Edge W M)) (hg : g.nodes.length = g.edges.length)
    (he : InRange g.edges) (pred : N → Bool) {fuel : Nat} (hf : g.nodes.length ≤ fuel) :
    subGraph eraseNodeDirected g pred fuel =
      .ok (some ⟨g.nodes.filter pred, inducedOn g.edges (keeps g.nodes pred)⟩) := by
  have := subLoop_spec (er := eraseNodeDirected) (pred := pred) g.nodes (fun K => inducedOn g.edges K) (fun _ => True)
    (fun K => by rw [length_inducedOn, hg])
    (fun K q hq hK _ => ⟨by
      rw [eraseNodeDirected_spec _ _ (by rw [length_inducedOn, ← hg]; exact rank_lt hK hq), withoutNode_inducedOn _ _ _ hK],
      trivial⟩) fuel 0 (Nat.zero_le _) (by omega) trivial
  rw [soFar_zero, inducedOn_all, keepIdx_all _ (fun _ _ => rfl)] at this
  rw [inducedOn_congr (K' := keeps g.nodes pred) he (fun t ht => soFar_full (by omega)),
    keepIdx_congr (q := keeps g.nodes pred) _ (fun t ht => soFar_full ht), keepIdx_keeps] at this
  exact this

/-- C28 for undirected graphs. -/
theorem C28_sub_graph_undirected {N W M : Type} [DecidableEq W] [DecidableEq M] (g : G N (Edge W M))
    (hg : g.nodes.length = g.edges.length) (he : Reciprocal g.edges) (pred : N → Bool) {fuel : Nat} (hf : g.nodes.length ≤ fuel) :
    subGraph eraseNodeUndirected g pred fuel =
      .ok (some ⟨g.nodes.filter pred, inducedOn g.edges (keeps g.nodes pred)⟩) := by
  have := subLoop_spec (er := eraseNodeUndirected) (pred := pred) g.nodes (fun K => inducedOn g.edges K) Reciprocal
    (fun K => by rw [length_inducedOn, hg])
    (fun K q hq hK hP => by
      have h1 : rank K q < (inducedOn g.edges K).length := by rw [length_inducedOn, ← hg]; exact rank_lt hK hq
      have h2 := eraseNodeUndirected_spec _ (Reciprocal.targetSym hP) _ h1
      rw [withoutNode_inducedOn _ _ _ hK] at h2
      refine ⟨h2, ?_⟩
      have h3 := withoutNode_reciprocal h1 hP
      rwa [withoutNode_inducedOn _ _ _ hK] at h3) fuel 0 (Nat.zero_le _) (by omega)
    (by rw [soFar_zero, inducedOn_all]; exact he)
  rw [soFar_zero, inducedOn_all, keepIdx_all _ (fun _ _ => rfl)] at this
  rw [inducedOn_congr (K' := keeps g.nodes pred) he.inRange (fun t ht => soFar_full (by omega)),
    keepIdx_congr (q := keeps g.nodes pred) _ (fun t ht => soFar_full ht), keepIdx_keeps] at this
  exact this

/-- C28 for embedded graphs. -/
theorem C28_sub_graph_embedded {N W M : Type} (g : G N (EEdge W M))
    (hg : g.nodes.length = g.edges.length) (he : Embedded g.edges) (pred : N → Bool) {fuel : Nat} (hf : g.nodes.length ≤ fuel) :
    subGraph eraseNodeEmbedded g pred fuel =
      .ok (some ⟨g.nodes.filter pred, inducedOnE g.edges (keeps g.nodes pred)⟩) ∧
    Embedded (inducedOnE g.edges (keeps g.nodes pred)) := by
  have hr := Embedded.inRange he
  have hstep : ∀ K q, q < g.nodes.length → K q = true → Embedded (inducedOnE g.edges K) →
      eraseNodeEmbedded (inducedOnE g.edges K) (rank K q) = .ok (inducedOnE g.edges (minus K q)) ∧
        Embedded (inducedOnE g.edges (minus K q)) := by
    intro K q hq hK hP
    have h1 : rank K q < (inducedOnE g.edges K).length := by rw [length_inducedOnE, ← hg]; exact rank_lt hK hq
    have h2 := eraseNodeEmbedded_spec hP h1
    rwa [withoutNodeE_inducedOnE _ hr _ _ hK] at h2
  have := subLoop_spec (er := eraseNodeEmbedded) (pred := pred) g.nodes (fun K => inducedOnE g.edges K) Embedded
    (fun K => by rw [length_inducedOnE, hg]) hstep fuel 0 (Nat.zero_le _) (by omega)
    (by rw [soFar_zero, inducedOnE_all _ he]; exact he)
  rw [soFar_zero, inducedOnE_all _ he, keepIdx_all _ (fun _ _ => rfl)] at this
  have hc := inducedOnE_congr (K := soFar (keeps g.nodes pred) g.nodes.length) (K' := keeps g.nodes pred) hr
    (fun t ht => soFar_full (by omega))
  rw [hc, keepIdx_congr (q := keeps g.nodes pred) _ (fun t ht => soFar_full ht), keepIdx_keeps] at this
  refine ⟨this, ?_⟩
  rw [← hc]
  exact embedded_induced (fun K => inducedOnE g.edges K) hstep (by rw [inducedOnE_all _ he]; exact he)

/-- Removing the middle node of `sampleU`, or all but the first one of `sampleE`. -/
example : subGraph eraseNodeUndirected ⟨[5, 4, 7], sampleU⟩ (fun w => w % 2 == 1) 3 =
    .ok (some ⟨[5, 7], [[⟨0, 6, ()⟩, ⟨0, 6, ()⟩], []]⟩) := by decide
example : subGraph eraseNodeEmbedded ⟨[5, 4, 8], sampleE⟩ (fun w => w % 2 == 1) 3 =
    .ok (some ⟨[5], [[⟨0, 1, 6, ()⟩, ⟨0, 0, 6, ()⟩]]⟩) := by decide
example : inducedOnE sampleE (fun i => i == 0) = [[⟨0, 1, 6, ()⟩, ⟨0, 0, 6, ()⟩]] := by decide

end Verif.Props
