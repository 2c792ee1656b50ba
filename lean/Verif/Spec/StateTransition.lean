import Verif.Model.StateTransition
import Verif.Spec.Traversal

/- What is expected of checks of transitions. -/
namespace Verif.Spec.StateTransition
open Verif.Graph Verif.Text Verif.StateTransition Verif.Spec

/-- There is an object for each node, and transitions lead to nodes. -/
def WellFormed {T : Type} (g : TransitionGraph T) : Prop := g.nodes.length = g.edges.length ∧ InRange g.edges

/-- Transition `k` of node `i` leads from object `p` to the node `e.target`, with object `t`. -/
def Leading {T : Type} (g : TransitionGraph T) (i k : Nat) (e : Edge (Transition T) Unit) (p t : T) : Prop :=
  edgeAt g.edges i k = some e ∧ g.nodes[i]? = some p ∧ g.nodes[e.target]? = some t

/-- All transitions, by node and position. -/
def transitions {T : Type} (g : TransitionGraph T) : List (Nat × Nat) := (List.range g.edges.length).flatMap fun i => (List.range (degree g.edges i)).map fun k => (i, k)

/-- The lines of a message which are not empty. -/
def lines (ls : List Str) : Str := "\n".toList.intercalate (ls.filter (· ≠ []))

/-- The call is the one for transition `k` of node `i`: the result of the transition, applied to the object of the node it comes from, together with the object of the node it leads to. -/
def CallFor {T : Type} (description : Str) (g : TransitionGraph T) (i k : Nat) (c : Call T) : Prop :=
  ∃ e, Leading g i k e c.parent c.prediction ∧ e.weight.fn c.parent = some c.obtained ∧ c.ordering = e.weight.ordering ∧ c.source = i ∧ c.target = e.target ∧
    c.message = lines [description, "Transition from node ".toList ++ Nat.toDigits 10 i ++ " to ".toList ++ Nat.toDigits 10 e.target, e.weight.description]

/-- Element by element. -/
def Each {α β : Type} (R : α → β → Prop) (l : List α) (m : List β) : Prop := l.length = m.length ∧ ∀ (i : Nat) a b, l[i]? = some a → m[i]? = some b → R a b

end Verif.Spec.StateTransition
