import Verif.Lemmas.GraphInit
import Verif.Props.Graph

/-! Properties C18 and C19 (and the initialisation of directed graphs, for C12): constructing graphs from nested
initializer lists. -/
namespace Verif.Props
open Verif.Spec Verif.Graph

/-! ### C18 -/

/-- C18.  Constructing an undirected graph from arbitrary nested lists of edges succeeds precisely if the lists are
reciprocal; otherwise it throws.  It has no undefined behaviour and always terminates.  If it succeeds, the nodes hold
the edges listed for them in canonical order. -/
theorem C18_undirected_init {W M : Type} [DecidableEq W] [DecidableEq M] (k : WeightKind W) (hk : WeightsOk M k)
    (s : Edges (Edge W M)) :
    (Reciprocal s → ∃ s', makeUndirected k s = .ok s' ∧ Presents k s s' ∧ Reciprocal s') ∧
    (¬ Reciprocal s → makeUndirected k s = .throws) := by
  obtain ⟨s', h1, h2⟩ := makeUndirected_spec hk s
  have hp : Presents k s s' := by
    refine List.Forall₂.imp ?_ h1
    rintro l l' ⟨_, h3, h4, h5⟩
    refine ⟨h3, h4.canonical, fun hne c => ?_⟩
    have h := h5 (by cases k <;> simp_all [WeightKind.clusters])
    · by_cases hc : ∃ e ∈ l, key e = c
      · obtain ⟨e, _, rfl⟩ := hc
        exact h e
      · rw [List.filter_eq_nil_iff.2, List.filter_eq_nil_iff.2]
        · intro e he; simp only [decide_eq_true_eq]; exact fun h => hc ⟨e, he, h⟩
        · intro e he; simp only [decide_eq_true_eq]; exact fun h => hc ⟨e, h3.mem_iff.1 he, h⟩
  rcases h2 with ⟨h2, h3⟩ | ⟨h2, h3⟩
  · exact ⟨fun _ => ⟨s', h2, hp, (arranged_reciprocal h1).2 h3⟩, fun h => absurd h3 h⟩
  · exact ⟨fun h => absurd h h3, fun _ => h2⟩

/-- The assumption on the types holds for integers, for an empty type and for a type with equality only. -/
example : WeightsOk Unit (.ordered fun a b : Nat => decide (a < b)) :=
  ⟨⟨by intro a b h; simp at *; omega, by intro a b c h1 h2; simp at *; omega⟩, by intro a b; simp; omega⟩
example : WeightsOk Nat (.empty : WeightKind Unit) := inferInstanceAs (Subsingleton Unit)
example : WeightsOk Unit (.equality : WeightKind Nat) := inferInstanceAs (Subsingleton Unit)

/-- Both cases occur, also with loops and multiple edges: `sampleU` is accepted, and leaving out a half is noticed. -/
example : Reciprocal sampleU ∧ ¬ Reciprocal (onNode sampleU 1 (·.eraseIdx 2)) :=
  ⟨sampleU_reciprocal, fun h => absurd (h.links 0 1 (by decide) 5) (by decide)⟩

/-- The blocks found in an unsorted list with weights which can only be compared for equality. -/
example : visitEdges (.equality : WeightKind Nat) [[⟨0, 6, ()⟩, ⟨0, 6, ()⟩, ⟨1, 7, ()⟩, ⟨1, 5, ()⟩, ⟨1, 5, ()⟩],
    [⟨0, 5, ()⟩, ⟨0, 5, ()⟩, ⟨0, 7, ()⟩]] =
    [[.loop 0 0 2, .link 0 1 2 3 2 3, .link 0 1 3 5 0 2], [.link 1 0 0 2 3 5, .link 1 0 2 3 2 3]] := by
  decide +kernel
example : makeUndirected (.ordered fun a b : Nat => decide (a < b)) sampleU =
    .ok [[⟨0, 6, ()⟩, ⟨0, 6, ()⟩, ⟨1, 5, ()⟩, ⟨1, 5, ()⟩], [⟨0, 5, ()⟩, ⟨0, 5, ()⟩, ⟨2, 7, ()⟩], [⟨1, 7, ()⟩]] := by
  decide +kernel
example : makeUndirected (.equality : WeightKind Nat) [[⟨1, 5, ()⟩, ⟨1, 7, ()⟩, ⟨1, 5, ()⟩], [⟨0, 7, ()⟩, ⟨0, 5, ()⟩, ⟨0, 5, ()⟩]] =
    .ok [[⟨1, 5, ()⟩, ⟨1, 5, ()⟩, ⟨1, 7, ()⟩], [⟨0, 7, ()⟩, ⟨0, 5, ()⟩, ⟨0, 5, ()⟩]] := by
  decide +kernel

/-! ### C19 -/

/-- C19.  Constructing an embedded graph from arbitrary nested lists of edges succeeds, with the edges exactly as
listed, precisely if complementary indices and weights are consistent; otherwise it throws. -/
theorem C19_embedded_init {W M : Type} [DecidableEq W] (s : Edges (EEdge W M)) :
    (Embedded s → makeEmbedded s = .ok s) ∧ (¬ Embedded s → makeEmbedded s = .throws) := by
  rcases makeEmbedded_spec s with ⟨h1, h2⟩ | ⟨h1, h2⟩
  · exact ⟨fun _ => h1, fun h => absurd h2 h⟩
  · exact ⟨fun h => absurd h h2, fun _ => h1⟩

example : Embedded sampleE := sampleE_embedded
example : makeEmbedded sampleE = .ok sampleE := by decide
example : makeEmbedded [[(⟨0, 0, 1, ()⟩ : EEdge Nat Unit)]] = .throws := by decide
example : makeEmbedded [[(⟨1, 0, 1, ()⟩ : EEdge Nat Unit)], [⟨0, 1, 1, ()⟩]] = .throws := by decide
example : makeEmbedded [[(⟨1, 7, 1, ()⟩ : EEdge Nat Unit)], [⟨0, 0, 1, ()⟩]] = .throws := by decide

/-! ### C12, construction -/

/-- C12 for the construction of directed graphs: it succeeds, with the edges exactly as listed, precisely if every edge
leads to a node. -/
theorem C12_directed_init {W M : Type} (s : Edges (Edge W M)) :
    (InRange s → makeDirected s = .ok s) ∧ (¬ InRange s → makeDirected s = .throws) := by
  rcases makeDirected_spec s with ⟨h1, h2⟩ | ⟨h1, h2⟩
  · exact ⟨fun _ => h1, fun h => absurd h2 h⟩
  · exact ⟨fun h => absurd h h2, fun _ => h1⟩

example : makeDirected [[(⟨1, 5, ()⟩ : Edge Nat Unit)], []] = .ok [[⟨1, 5, ()⟩], []] := by decide
example : makeDirected [[(⟨1, 5, ()⟩ : Edge Nat Unit)]] = .throws := by decide

end Verif.Props
