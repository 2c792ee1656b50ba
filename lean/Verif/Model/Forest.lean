import Verif.Model.Tree
import Verif.Model.NodeWeights
/-
Model of the adaptors of trees and of the iterators over forests, /repo/Source/sequoia/Maths/Graph/DynamicTree.hpp:216-419.

Trees live in a memory, a list; a pointer to a tree is its position there.  Two things a client does with these adaptors are defined as well: visiting everything below a node, by recursion over the forests, as
/repo/Source/sequoia/Parsing/CommandLineArguments.cpp:85-103 and 147-160 do.
-/
namespace Verif.Forest
open Verif.Graph EdgeLike

variable {N E : Type} [EdgeLike E]

/-- `basic_tree_adaptor`, DynamicTree.hpp:216-278: a pointer, which may be null, and a node; `none` is `npos`. -/
structure Adaptor where
  tree : Option Nat
  node : Option Nat
deriving DecidableEq, Repr

/-- `basic_tree_adaptor()`, DynamicTree.hpp:224 and 275-276. -/
def null : Adaptor := ⟨none, none⟩

/-- `basic_tree_adaptor(tree, node)`, DynamicTree.hpp:226-229. -/
def adapt (t n : Nat) : Adaptor := ⟨some t, some n⟩

/-- `tree()`, DynamicTree.hpp:231-246.  A pointer to a tree which is no longer there is dangling. -/
def Adaptor.get (mem : List (G N E)) (a : Adaptor) : Res (G N E) :=
  match a.tree with
  | none => .throws
  | some t => match mem[t]? with
    | some g => .ok g
    | none => .ub

/-- `operator bool`, DynamicTree.hpp:260-264; `npos` is not less than any order. -/
def Adaptor.valid (mem : List (G N E)) (a : Adaptor) : Res Bool :=
  match a.tree with
  | none => .ok false
  | some t => match mem[t]? with
    | some g => .ok (match a.node with | some n => decide (n < g.edges.length) | none => false)
    | none => .ub

/-- `root_weight`, DynamicTree.hpp:293-298. -/
def rootWeight (mem : List (G N E)) (a : Adaptor) : Res N :=
  (a.get mem).bind fun g => match a.node with
    | some n => match g.nodes[n]? with
      | some w => .ok w
      | none => .ub
    | none => .ub

/-- `mutate_root_weight`, DynamicTree.hpp:286-291 and 300-304, with `mutate_node_weight` of the tree. -/
def mutateRootWeight (mem : List (G N E)) (a : Adaptor) (f : N → N) : Res (List (G N E)) :=
  match a.tree, a.node with
  | none, _ => .throws
  | some _, none => .ub
  | some t, some n => match mem[t]? with
    | none => .ub
    | some g => match NodeWeights.mutateNodeWeight g n f with
      | .ret g' _ => .ok (mem.set t g')
      | .threw _ => .throws
      | .ub => .ub

/-- The range of `forest_from_tree_iterator`s over the edges of a node, DynamicTree.hpp:306-347: each refers to the target of an edge, in the same tree. -/
def forestFromTree (mem : List (G N E)) (t n : Nat) : Res (List Adaptor) :=
  match mem[t]? with
  | none => .ub
  | some g => match g.edges[n]? with
    | none => .throws
    | some l => .ok (l.map fun e => adapt t (target e))

/-- The range of `forest_iterator`s over all trees, DynamicTree.hpp:350-384: each refers to node 0 of a tree. -/
def forest (mem : List (G N E)) : List Adaptor := (List.range mem.length).map fun t => adapt t 0

/-- Visit trees one after the other; `none` if there is not enough fuel. -/
def visitAll {B : Type} (visit : Adaptor → Res (Option (List B))) : List Adaptor → Res (Option (List B))
  | [] => .ok (some [])
  | a :: as => (visit a).bind fun
    | none => .ok none
    | some l => (visitAll visit as).bind fun
      | none => .ok none
      | some l' => .ok (some (l ++ l'))

/-- Visit the node of an adaptor, and then the trees of its forest: the nodes visited, with their weights. -/
def visit (mem : List (G N E)) : Nat → Adaptor → Res (Option (List (Nat × N)))
  | 0, _ => .ok none
  | f + 1, a => (rootWeight mem a).bind fun w =>
    match a.tree, a.node with
    | some t, some n => (forestFromTree mem t n).bind fun as => (visitAll (visit mem f) as).bind fun
      | none => .ok none
      | some l => .ok (some ((n, w) :: l))
    | _, _ => .ub

end Verif.Forest
