import Verif.Model.Graph
/-
Model of `sort_nodes`, /repo/Source/sequoia/Maths/Graph/GraphPrimitive.hpp:185-195, which applies `sequoia::sort`
(/repo/Source/sequoia/Algorithms/Algorithms.hpp) to pseudo iterators: dereferencing such an iterator gives the index of a node, and `iter_swap` swaps the nodes.

The algorithms are those of Model/Heap.lean, once more: there they act on a sequence of values; here they act on a state `σ` by way of `swap`, which may fail, and see it
only through `comp`.  `first` is the index of the first node to be sorted; other positions are given by their distance from it.
-/
namespace Verif.SortNodes
open Verif.Graph

section
variable {σ : Type} (comp : σ → Nat → Nat → Bool) (swap : σ → Nat → Nat → Res σ) (first : Nat)

/-- `bubble_up`, Algorithms.hpp:23-34. -/
def bubbleUp (cur : Nat) (s : σ) : Res σ :=
  if cur = 0 then .ok s
  else if comp s (first + (cur - 1) / 2) (first + cur) then
    (swap s (first + (cur - 1) / 2) (first + cur)).bind (bubbleUp ((cur - 1) / 2))
  else .ok s
termination_by cur
decreasing_by omega

/-- The dominant child, Algorithms.hpp:43-46, given the position of the right child. -/
def dominant (right : Nat) (s : σ) : Nat := if comp s (first + right) (first + (right - 1)) then right - 1 else right

/-- `bubble_down`, Algorithms.hpp:36-58, on the first `e` positions; the fuel bounds the number of steps, running out of it counts as undefined. -/
def bubbleDown (e : Nat) : Nat → Nat → σ → Res σ
  | 0, _, _ => .ub
  | fuel + 1, cur, s =>
    if e ≤ 1 then .ok s
    else if 2 * (cur + 1) < e then
      let child := dominant comp first (2 * (cur + 1)) s
      if comp s (first + cur) (first + child) then (swap s (first + child) (first + cur)).bind (bubbleDown e fuel child) else .ok s
    else if 2 * cur + 1 < e then
      if comp s (first + cur) (first + (2 * cur + 1)) then swap s (first + (2 * cur + 1)) (first + cur) else .ok s
    else .ok s

/-- The loop of `make_heap`, Algorithms.hpp:65-70; `left` is the number of positions still to be dealt with. -/
def makeHeapLoop : Nat → Nat → σ → Res σ
  | 0, _, s => .ok s
  | left + 1, cur, s => (bubbleUp comp swap first cur s).bind (makeHeapLoop left (cur + 1))

/-- `make_heap`, Algorithms.hpp:60-71. -/
def makeHeap (e : Nat) (s : σ) : Res σ := if e ≤ 1 then .ok s else makeHeapLoop comp swap first (e - 1) 1 s

/-- The extraction loop of `sort`, Algorithms.hpp:85-90. -/
def sortLoop : Nat → σ → Res σ
  | 0, s => .ok s
  | e + 1, s => (swap s first (first + e)).bind fun s => (bubbleDown comp swap first e (e + 1) 0 s).bind (sortLoop e)

/-- `sort`, Algorithms.hpp:79-91, on `n` positions. -/
def sort (n : Nat) (s : σ) : Res σ := if n ≤ 1 then .ok s else (makeHeap comp swap first n s).bind (sortLoop comp swap first n)

end

/-- What a comparator gets to see: the current weights of the nodes, and two indices. -/
abbrev NodeComp (N : Type) := (Nat → Option N) → Nat → Nat → Bool

/-- `iter_swap`, GraphPrimitive.hpp:76-80; an exception cannot be followed up, so it does not matter which graph it leaves. -/
def swapOf {N E : Type} (swapEdges : Edges E → Nat → Nat → Res (Edges E)) (g : G N E) (i j : Nat) : Res (G N E) :=
  match g.swapNodes i j (swapEdges g.edges i j) with
  | .ret g' _ => .ok g'
  | .threw _ => .throws
  | .ub => .ub

/-- `sort_nodes(first, last, c)`, GraphPrimitive.hpp:191-195.  `swapEdges` is `swap_nodes` of the connectivity. -/
def sortNodes {N E : Type} (swapEdges : Edges E → Nat → Nat → Res (Edges E)) (comp : NodeComp N) (first last : Nat) (g : G N E) : Res (G N E) :=
  sort (fun (g : G N E) i j => comp (fun k => g.nodes[k]?) i j) (swapOf swapEdges) first (last - first) g

end Verif.SortNodes
