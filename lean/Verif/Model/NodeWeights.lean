import Verif.Model.GraphInit
import Verif.Model.Rollback
import Verif.Model.StaticStorage
import Verif.Model.StaticContainers
/-
Model of the constructors of graphs with node weights, /repo/Source/sequoia/Maths/Graph/GraphPrimitive.hpp:123-146 and
247-303, DynamicGraph.hpp:182-213, with NodeStorage.hpp, StaticNodeStorage.hpp and HeterogeneousNodeStorage.hpp, and of
the members which change the weight of a node.

`make` is the constructor of the connectivity from the lists of edges, see Model/GraphInit: it is the base class which is
constructed first.
-/
namespace Verif.NodeWeights
open Verif.Graph

variable {N E : Type}

/-- `check_initialization`, GraphPrimitive.hpp:538-545. -/
def checkInitialization (edges : Edges E) (numNodes : Nat) : Res (Edges E) :=
  if numNodes ≠ edges.length then .throws else .ok edges

/-- `graph_primitive(edges)` for node weights which are not empty and have a default value, GraphPrimitive.hpp:129-133, with
`node_storage_base(n)`, NodeStorage.hpp:150-152. -/
def fromEdges (make : Edges E → Res (Edges E)) (dflt : N) (edges : Edges E) : Res (G N E) :=
  (make edges).bind fun s => .ok ⟨List.replicate edges.length dflt, s⟩

/-- `graph_primitive(edges, nodeWeights)`, GraphPrimitive.hpp:135-139, with NodeStorage.hpp:159-161. -/
def fromBoth (make : Edges E → Res (Edges E)) (edges : Edges E) (weights : List N) : Res (G N E) :=
  (checkInitialization edges weights.length).bind fun edges => (make edges).bind fun s => .ok ⟨weights, s⟩

/-- `graph_primitive(edges, edgeAlloc, nodeAlloc)`, GraphPrimitive.hpp:282-303 (with or without an allocator for the
partitions), with NodeStorage.hpp:168-171. -/
def fromEdgesAlloc (make : Edges E → Res (Edges E)) (dflt : N) (edges : Edges E) : Res (G N E) :=
  (make edges).bind fun s => .ok ⟨List.replicate edges.length dflt, s⟩

/-- `graph_primitive(edges, edgeAlloc, nodeWeights, nodeAlloc)`, GraphPrimitive.hpp:247-268 (with or without an allocator for
the partitions), which DynamicGraph.hpp:206-214 makes public, with NodeStorage.hpp:173-176. -/
def fromBothAlloc (make : Edges E → Res (Edges E)) (edges : Edges E) (weights : List N) : Res (G N E) :=
  (make edges).bind fun s => .ok ⟨weights, s⟩

/-- `to_element` for types without a default value, ArrayUtilities.hpp:26-42, with `std::identity`. -/
def toElement (l : List N) (i : Nat) : Res N :=
  if i > l.length then .throws
  else match l[i]? with
    | some a => .ok a
    | none => .ub

/-- The elements `i, …, i + n - 1` in the order in which they are made, ArrayUtilities.hpp:44-50. -/
def toElements (l : List N) : Nat → Nat → Res (List N)
  | _, 0 => .ok []
  | i, n + 1 => (toElement l i).bind fun a => (toElements l (i + 1) n).bind fun r => .ok (a :: r)

/-- `utilities::to_array<T, size>` for types without a default value, ArrayUtilities.hpp:53-63. -/
def toArrayNoDefault (size : Nat) (l : List N) : Res (List N) :=
  if size < l.length then .throws else toElements l 0 size

/-- The constructor of `static_stack` from a list of elements of a type without a default value, StaticStack.hpp:29-33: the
elements and their number. -/
def stackNoDefault (size : Nat) (l : List N) : Res (List N × Nat) :=
  (toArrayNoDefault size l).bind fun a => .ok (a, l.length)

/-- The constructor of `static_queue`, similarly, StaticQueue.hpp:29-34: the elements and the positions of the first and the
last of them. -/
def queueNoDefault (size : Nat) (l : List N) : Res (List N × Nat × Nat) :=
  (toArrayNoDefault size l).bind fun a => .ok (a, if l.length ≠ 0 then 0 else size, if l.length ≠ 0 then l.length - 1 else size)

/-- `utilities::to_array<T, size>` for any type: `dflt` is its default value, if there is one. -/
def toArrayList (dflt : Option N) (size : Nat) (l : List N) : Res (List N) :=
  match dflt with
  | none => toArrayNoDefault size l
  | some d => (Static.toArray d size l).bind fun v => .ok v.toList

/-- The constructor of the edges of a static graph of the given size and order: the lists are stored as modelled in
Model/StaticStorage, and `make` checks and arranges them.  Simplification: directed and embedded graphs are checked before
they are stored, undirected ones afterwards. -/
def makeStatic (fl : StaticStorage.Flavour) (size order : Nat) (make : Edges E → Res (Edges E)) (edges : Edges E) :
    Res (Edges E) :=
  (StaticStorage.construct fl size order edges).bind fun _ => make edges

/-- `graph_primitive(edges)` for static graphs: `static_node_storage(n)` ignores its argument, StaticNodeStorage.hpp:34-36. -/
def staticFromEdges (make : Edges E → Res (Edges E)) (order : Nat) (dflt : N) (edges : Edges E) : Res (G N E) :=
  (make edges).bind fun s => .ok ⟨List.replicate order dflt, s⟩

/-- `graph_primitive(edges, nodeWeights)` for static graphs, with StaticNodeStorage.hpp:38-40. -/
def staticFromBoth (make : Edges E → Res (Edges E)) (order : Nat) (dflt : Option N) (edges : Edges E) (weights : List N) :
    Res (G N E) :=
  (checkInitialization edges weights.length).bind fun edges => (make edges).bind fun s =>
    (toArrayList dflt order weights).bind fun a => .ok ⟨a, s⟩

/-- `graph_primitive(edges, nodeWeights...)` for heterogeneous nodes, GraphPrimitive.hpp:141-146, with
`heterogeneous_node_storage(args...)`, HeterogeneousNodeStorage.hpp:35-38: values of different types are values of one sum
type here, `dflts` has the default values of the types, if they all have one.  A tuple is made from as many values as it has
elements, or from none, in which case its elements get their default values; otherwise the call is ill-formed. -/
def heterogeneous (make : Edges E → Res (Edges E)) (order : Nat) (dflts : Option (List N)) (edges : Edges E) (args : List N) :
    Option (Res (G N E)) :=
  let build (ws : List N) : Res (G N E) :=
    (checkInitialization edges args.length).bind fun edges => (make edges).bind fun s => .ok ⟨ws, s⟩
  if args.length = order then some (build args)
  else match args, dflts with
    | [], some ds => some (build ds)
    | _, _ => none

/-- Calls which concern nodes: those of Model/Graph, and the two which change the weight of a node.  A node is given by the
iterator at position `n` of the weights. -/
inductive NodeOp (N O : Type) where
  | call (o : O)
  | setWeight (n : Nat) (w : N)
  | mutateWeight (n : Nat) (f : N → N)

/-- `set_node_weight`, NodeStorage.hpp:125-132.  An iterator beyond the end is no iterator. -/
def setNodeWeight (g : G N E) (n : Nat) (w : N) : Outcome (G N E) Val :=
  if n = g.nodes.length then .threw g
  else if n < g.nodes.length then .ret { g with nodes := g.nodes.set n w } .unit
  else .ub

/-- `mutate_node_weight`, NodeStorage.hpp:134-141; the value of the function is not modelled. -/
def mutateNodeWeight (g : G N E) (n : Nat) (f : N → N) : Outcome (G N E) Val :=
  if n = g.nodes.length then .threw g
  else match g.nodes[n]? with
    | some w => .ret { g with nodes := g.nodes.set n (f w) } .unit
    | none => .ub

/-- One call. -/
def nodeStep {O : Type} (step : G N E → O → Outcome (G N E) Val) (g : G N E) : NodeOp N O → Outcome (G N E) Val
  | .call o => step g o
  | .setWeight n w => setNodeWeight g n w
  | .mutateWeight n f => mutateNodeWeight g n f

end Verif.NodeWeights
