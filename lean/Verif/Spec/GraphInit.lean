import Mathlib.Data.List.Forall2
import Verif.Spec.Graph
import Verif.Model.GraphInit
/-
What initialising a graph from nested lists of edges means.
-/
namespace Verif.Spec
open Verif.Graph

/-- What is assumed of the types of weights and meta data: an empty weight type has only one value; `std::totally_ordered`
means that `<` is a strict weak order for which equivalent weights are equal; and edges whose weight can only be compared
for equality have no meta data (for undirected graphs the code does not compile otherwise). -/
def WeightsOk {W : Type} (M : Type) : WeightKind W → Prop
  | .empty => Subsingleton W
  | .ordered lt => StrictWeak lt ∧ ∀ a b, lt a b = false → lt b a = false → a = b
  | .equality => Subsingleton M

/-- Target and weight: what makes half edges interchangeable. -/
def key {W M : Type} (e : Edge W M) : Nat × W := (e.target, e.weight)

/-- The edges of a node are in canonical order: targets increase; edges with the same target and weight are adjacent;
and if weights are ordered, they increase among the edges with the same target. -/
structure Canonical {W M : Type} (k : WeightKind W) (l : List (Edge W M)) : Prop where
  targets : l.Pairwise fun e f => e.target ≤ f.target
  weights : ∀ lt, k = .ordered lt → l.Pairwise fun e f => e.target = f.target → lt f.weight e.weight = false
  adjacent : ∀ (a b c : Nat) (_ : a < b) (_ : b < c) (_ : c < l.length), key l[a] = key l[c] → key l[b] = key l[a]

/-- `s'` presents the graph `s` canonically: each node has the edges listed for it, in canonical order; and unless
weights can only be compared for equality, edges with the same target and weight are in the order they are listed in. -/
def Presents {W M : Type} [DecidableEq W] (k : WeightKind W) (s s' : Edges (Edge W M)) : Prop :=
  List.Forall₂ (fun l l' => l'.Perm l ∧ Canonical k l' ∧
    (k ≠ .equality → ∀ c, l'.filter (fun e => decide (key e = c)) = l.filter (fun e => decide (key e = c)))) s s'

end Verif.Spec
