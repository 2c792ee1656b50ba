import Verif.Model.GraphInit
import Verif.Model.Text
/-
What is wrong with a graph which is refused, and how it is said: /repo/Source/sequoia/Maths/Graph/GraphErrors.hpp and GraphErrors.cpp, with the checks of the initialization of graphs,
/repo/Source/sequoia/Maths/Graph/Connectivity.hpp:981-1129, 1234-1284 and /repo/Source/sequoia/Maths/Graph/GraphPrimitive.hpp:538-545.
-/
namespace Verif.GraphErrors
open Verif.Graph
open Verif.Text (Str)

/-- `std::to_string` of an index. -/
def digits (n : Nat) : Str := Nat.toDigits 10 n

/-- `to_string` of `edge_indices`, GraphErrors.cpp:19-23. -/
def edgeIndices (node edge : Nat) : Str := "[node: ".toList ++ digits node ++ ", edge: ".toList ++ digits edge ++ "]".toList

/-- `prefix`, GraphErrors.cpp:25-29. -/
def leader (method : Str) : Str := "connectivity::".toList ++ method

/-- `error_prefix`, GraphErrors.cpp:31-35. -/
def errorPrefix (method : Str) : Str := leader method ++ ": ".toList

/-- `error_prefix` with the indices of an edge, GraphErrors.cpp:37-41. -/
def errorPrefixAt (method : Str) (node edge : Nat) : Str := leader method ++ " ".toList ++ edgeIndices node edge ++ ": ".toList

/-- What is thrown, GraphErrors.cpp:44-156, except for what cannot occur (`embedded_edge_message`, `inversion_consistency_message`) or would mean that an invariant is broken (`erase_edge_error`,
`absent_partner_weight_message`). -/
inductive Fault where
  | node (method : Str) (order node : Nat)
  | nodes (method : Str) (order node1 node2 : Nat)
  | range (method : Str) (node edge : Nat) (name : Str) (size index : Nat)
  | insertion (method : Str) (node size index : Nat)
  | swap (node index numEdges : Nat)
  | reciprocated (node edge : Nat) (name : Str) (found expected : Nat)
  | oddLoops (method : Str) (node : Nat)
  | selfReferential (node edge target comp : Nat)
  | weights (method : Str) (node edge : Nat)
  | noPartner (method : Str) (node edge : Nat)
  | sizes (nodes partitions : Nat)
  deriving DecidableEq

/-- The messages, GraphErrors.cpp:44-156, in the same order. -/
def Fault.message : Fault → Str
  | .node method order n => errorPrefix method ++ "node index ".toList ++ digits n ++ " out of range - graph order is ".toList ++ digits order
  | .nodes method order node1 node2 =>
    errorPrefix method ++ "at least one node index [".toList ++ digits node1 ++ ", ".toList ++ digits node2 ++ "] out of range - graph order is ".toList ++ digits order
  | .range method n edge name size index =>
    errorPrefixAt method n edge ++ name ++ " index ".toList ++ digits index ++ " out of range - max index is ".toList ++ digits size
  | .insertion method n size index =>
    errorPrefix method ++ "insertion position ".toList ++ digits index ++ " out of range for node ".toList ++ digits n ++ " - max index is ".toList ++ digits size
  | .swap n index numEdges =>
    "swap_edges: edge index ".toList ++ digits index ++ " out of range for node ".toList ++ digits n ++ ", which has ".toList ++ digits numEdges ++ " edge(s)".toList
  | .reciprocated n edge name found expected =>
    errorPrefixAt "process_complementary_edges".toList n edge ++ "Reciprocated ".toList ++ name ++ " index ".toList ++ digits found ++ " does not match ".toList ++ digits expected
  | .oddLoops method n => errorPrefix method ++ "Odd number of loop edges for node ".toList ++ digits n
  | .selfReferential n edge target comp =>
    errorPrefixAt "process_complementary_edges".toList n edge ++ "Indices [target: ".toList ++ digits target ++ ", comp: ".toList ++ digits comp ++ "] are self-referential".toList
  | .weights method n edge => errorPrefixAt method n edge ++ "Mismatch between weights".toList
  | .noPartner method n edge => errorPrefixAt method n edge ++ "Reciprocated partial edge does not exist".toList
  | .sizes numNodes partitions =>
    "Error initializing graph\n".toList ++ "Number of node weights:    ".toList ++ digits numNodes ++ "\n".toList ++ "Number of edge paritions:  ".toList ++ digits partitions ++ "\n".toList ++
      "Please ensure these numbers are the same".toList

/-- `check_node_index_range`, GraphErrors.hpp:61-65. -/
def checkNode (method : Str) (order node : Nat) : Option Fault := if node ≥ order then some (.node method order node) else none

/-- `check_node_index_range` for two nodes, GraphErrors.hpp:67-71. -/
def checkNodes (method : Str) (order node1 node2 : Nat) : Option Fault := if node1 ≥ order ∨ node2 ≥ order then some (.nodes method order node1 node2) else none

/-- `check_edge_index_range`, GraphErrors.hpp:73-77. -/
def checkEdge (method : Str) (node edge : Nat) (name : Str) (size index : Nat) : Option Fault := if index ≥ size then some (.range method node edge name size index) else none

/-- `check_edge_insertion_index`, GraphErrors.hpp:79-83. -/
def checkInsertion (method : Str) (node size index : Nat) : Option Fault := if index > size then some (.insertion method node size index) else none

/-- `check_edge_swap_indices`, GraphErrors.hpp:85-96. -/
def checkSwap (node i j numEdges : Nat) : Option Fault :=
  if i ≥ numEdges then some (.swap node i numEdges) else if j ≥ numEdges then some (.swap node j numEdges) else none

/-- `check_initialization`, GraphPrimitive.hpp:538-545. -/
def checkInitialization (numNodes partitions : Nat) : Option Fault := if numNodes ≠ partitions then some (.sizes numNodes partitions) else none

section loops
variable {α : Type}

/-- The inner loop over the edges of a node, Connectivity.hpp:989, 1071: the first fault is thrown. -/
def inRow (f : Nat → Nat → α → Option Fault) (n : Nat) : Nat → List α → Option Fault
  | _, [] => none
  | k, e :: l =>
    match f n k e with
    | some x => some x
    | none => inRow f n (k + 1) l

/-- The outer loop, over the nodes, Connectivity.hpp:985, 1067. -/
def inRows (f : Nat → Nat → α → Option Fault) : Nat → List (List α) → Option Fault
  | _, [] => none
  | n, l :: s =>
    match inRow f n 0 l with
    | some x => some x
    | none => inRows f (n + 1) s

end loops

/-- `validate` for directed graphs, Connectivity.hpp:1064-1083: what is thrown. -/
def diagnoseDirected {W M : Type} (s : Edges (Edge W M)) : Option Fault :=
  inRows (fun n k e => checkEdge "process_edges".toList n k "target".toList s.length e.target) 0 s

/-- The body of the loops of `validate` for embedded graphs, Connectivity.hpp:991-1042. -/
def embeddedFault {W M : Type} [DecidableEq W] (s : Edges (EEdge W M)) (n k : Nat) (e : EEdge W M) : Option Fault :=
  match s[e.target]? with
  | none => checkEdge "process_complementary_edges".toList n k "target".toList s.length e.target
  | some t =>
    match t[e.comp]? with
    | none => checkEdge "process_complementary_edges".toList n k "complementary".toList t.length e.comp
    | some e' =>
      if e.target = n ∧ e.comp = k then some (.selfReferential n k e.target e.comp)
      else if e'.comp ≠ k then some (.reciprocated n k "complementary".toList e'.comp k)
      else if e'.target ≠ n then some (.reciprocated n k "target".toList e'.target n)
      else if e.weight ≠ e'.weight then some (.weights "process_complementary_edges".toList n k)
      else none

/-- `validate` for embedded graphs, Connectivity.hpp:981-1062: what is thrown. -/
def diagnoseEmbedded {W M : Type} [DecidableEq W] (s : Edges (EEdge W M)) : Option Fault := inRows (embeddedFault s) 0 s

section undirected
variable {W M : Type} [DecidableEq W] [DecidableEq M]

/-- The body of the inner loop of `visit_edges`, Connectivity.hpp:1255-1278, with the checks of `validate`, 1100-1126, for a block of edges like `e`. -/
def blockFault (k : WeightKind W) (s : Edges (Edge W M)) (i : Nat) (e : Edge W M) (lo up : Nat) : Option Fault :=
  if e.target = i then (if (up - lo) % 2 ≠ 0 then some (.oddLoops "connectivity_base".toList i) else none)
  else
    match s[e.target]? with
    | none => checkEdge [] i lo "target".toList s.length e.target
    | some t =>
      let r := matching k t i e
      if r.2 - r.1 = 0 then some (.noPartner "connectivity_base".toList i lo)
      else if up - lo > r.2 - r.1 then some (.noPartner "connectivity_base".toList i (lo + (r.2 - r.1)))
      else if up - lo < r.2 - r.1 then some (.noPartner "connectivity_base".toList e.target (r.1 + (up - lo)))
      else none

/-- The inner loop of `visit_edges`, Connectivity.hpp:1249-1281, which does not end if there is an empty block. -/
def faultNode (k : WeightKind W) (s : Edges (Edge W M)) (i : Nat) (l : List (Edge W M)) (lo : Nat) : Res (Option Fault) :=
  if h : lo < l.length then
    let up := blockEnd k l lo l[lo]
    if _hup : lo < up then
      match blockFault k s i l[lo] lo up with
      | some f => .ok (some f)
      | none => faultNode k s i l up
    else .ub
  else .ok none
termination_by l.length - lo
decreasing_by
  have : lo < blockEnd k l lo l[lo] := _hup
  omega

/-- The outer loop of `visit_edges`, Connectivity.hpp:1244. -/
def faultNodes (k : WeightKind W) (s : Edges (Edge W M)) : Nat → Edges (Edge W M) → Res (Option Fault)
  | _, [] => .ok none
  | i, l :: r =>
    (faultNode k s i l 0).bind fun x =>
      match x with
      | some f => .ok (some f)
      | none => faultNodes k s (i + 1) r

/-- `make_edges` for undirected graphs without sharing, Connectivity.hpp:920-925: what is thrown. -/
def diagnoseUndirected (k : WeightKind W) (s : Edges (Edge W M)) : Res (Option Fault) := (preprocess k s).bind fun s' => faultNodes k s' 0 s'

end undirected

end Verif.GraphErrors
