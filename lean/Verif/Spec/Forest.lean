import Verif.Model.Forest
import Verif.Spec.Tree
/-
What is said about adaptors of trees and about forests.
-/
namespace Verif.Spec.Forest
open Verif.Graph

/-- The way up from a node to the root. -/
inductive Climb (root : Nat) (par : Nat → Nat) : Nat → List Nat → Prop
  | root : Climb root par root [root]
  | up {x : Nat} {l : List Nat} : x ≠ root → Climb root par (par x) l → Climb root par x (x :: l)

/-- Nodes are listed with their weights in a tree with weights `ws`: each node below `n` once, beginning with `n`, and none before one which it is below. -/
def ListsBelow {N : Type} (ws : List N) (root : Nat) (par : Nat → Nat) (n : Nat) (l : List (Nat × N)) : Prop :=
  (l.map Prod.fst).head? = some n ∧ (l.map Prod.fst).Nodup ∧ (∀ x, x ∈ l.map Prod.fst ↔ x < ws.length ∧ Below root par n x) ∧
  (∀ x w, (x, w) ∈ l → ws[x]? = some w) ∧ (l.map Prod.fst).Pairwise fun a b => ¬ Below root par b a

/-- Nodes are listed so that each is followed by the lists for the targets of its edges, in the order of the edges. -/
inductive Preorder {E : Type} [EdgeLike E] (s : Edges E) : Nat → List Nat → Prop
  | node {n : Nat} {es : List E} {ls : List (List Nat)} : s[n]? = some es → ls.length = es.length →
      (∀ (k : Nat) (e : E) (l : List Nat), es[k]? = some e → ls[k]? = some l → Preorder s (EdgeLike.target e) l) → Preorder s n (n :: ls.flatten)

end Verif.Spec.Forest
