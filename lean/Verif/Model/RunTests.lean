import Verif.Model.SortNodes
import Verif.Model.Tree
import Verif.Model.Traversal
/-
Model of the execution of tests, /repo/Source/sequoia/TestFramework/TestRunner.cpp: `sort_tests` and `run_tests`.

`T` stands for tests and `S` for summaries of their results, which are combined by `add`, the `operator+=` of summaries.  A test is executed by `exec`; the results are
taken not to depend on the order of execution.  Text output, timing, files and exceptions thrown by tests are not modelled.
-/
namespace Verif.RunTests
open Verif.Graph Verif.SortNodes EdgeLike

/-- `suite_node`, TestRunner.hpp:329-333. -/
structure SuiteNode (S T : Type) where
  summary : S
  test : Option T
  deriving DecidableEq, Repr

/-- The tree of suites; the edges are from suites to what they contain and have no weights. -/
abbrev Suites (S T : Type) := G (SuiteNode S T) (Edge Unit Unit)

section
variable {S T : Type} (parallelizable : T → Bool)

/-- The comparator of `sort_tests`, TestRunner.cpp:809-822. -/
def testsComp : NodeComp (SuiteNode S T) := fun weights i j =>
  match weights i, weights j with
  | some lhs, some rhs =>
    match lhs.test, rhs.test with
    | none, none => decide (i < j)
    | none, some _ => true
    | some _, none => false
    | some a, some b =>
      if !parallelizable a && parallelizable b then true
      else if parallelizable a && !parallelizable b then false
      else decide (i < j)
  | _, _ => false

/-- `sort_tests`, TestRunner.cpp:806-823; the range starts behind the root. -/
def sortTests (g : Suites S T) : Res (Suites S T) := sortNodes (swapNodesOf .forward) (testsComp parallelizable) 1 g.edges.length g

/-- The state while tests are run: the weights of the nodes, the tests executed so far and, in the tracker (TestRunner.cpp:178-272), the depth, the tests processed, with
the summaries recorded, and what has been recorded each time the depth has returned to its initial value. -/
structure RunState (S T : Type) where
  nodes : List (SuiteNode S T)
  executed : List T
  depth : Int
  processed : List (T × S)
  recorded : List (List (T × S))
  deriving DecidableEq, Repr

variable (exec : T → S)

/-- The `executor`, TestRunner.cpp:837, on the node with the given index; dereferencing an empty optional is undefined. -/
def execNode (st : RunState S T) (n : Nat) : Res (RunState S T) :=
  match st.nodes[n]? with
  | some ⟨_, some t⟩ => .ok { st with nodes := st.nodes.set n ⟨exec t, some t⟩, executed := st.executed ++ [t] }
  | _ => .ub

def execNodes : List Nat → RunState S T → Res (RunState S T)
  | [], st => .ok st
  | n :: ns, st => (execNode exec st n).bind (execNodes ns)

/-- The search for the first test which is parallelizable, TestRunner.cpp:835; what is searched are the nodes from index `n` on. -/
def findParallelizable : List (SuiteNode S T) → Nat → Res Nat
  | [], n => .ok n
  | ⟨_, some t⟩ :: l, n => if parallelizable t then .ok n else findParallelizable l (n + 1)
  | ⟨_, none⟩ :: _, _ => .ub

/-- Concurrent execution, TestRunner.cpp:832-855: from the first test up to the first parallelizable one they are executed in order, the others in the order in which
the threads happen to take them, `schedule`. -/
def execConcurrent (schedule : List Nat → List Nat) (st : RunState S T) : Res (RunState S T) :=
  let first := st.nodes.findIdx fun wt => wt.test.isSome
  (findParallelizable parallelizable (st.nodes.drop first) first).bind fun next =>
    (execNodes exec (List.range' first (next - first)) st).bind
      (execNodes exec (schedule (List.range' next (st.nodes.length - next))))

variable (add : S → S → S)

/-- The sum in `nodeLate`, TestRunner.cpp:875-876. -/
def addUp (nodes : List (SuiteNode S T)) : List (Edge Unit Unit) → S → Res S
  | [], s => .ok s
  | e :: es, s =>
    match nodes[e.target]? with
    | some wt => addUp nodes es (add s wt.summary)
    | none => .ub

/-- `nodeEarly` and `nodeLate`, TestRunner.cpp:860-899, with `process_test` and `decrement_depth` of the tracker. -/
def onEvent (serial : Bool) (edges : Edges (Edge Unit Unit)) (st : RunState S T) : Event → Res (RunState S T)
  | .before n =>
    let st := { st with depth := st.depth + 1 }
    if serial then
      match st.nodes[n]? with
      | some wt => if wt.test.isSome then execNode exec st n else .ok st
      | none => .ub
    else .ok st
  | .after n =>
    match st.nodes[n]?, edges[n]? with
    | some wt, some l =>
      (addUp add st.nodes l wt.summary).bind fun s =>
        let processed := st.processed ++ (match wt.test with | some t => [(t, s)] | none => [])
        .ok { st with
          nodes := st.nodes.set n ⟨s, wt.test⟩
          processed := processed
          depth := st.depth - 1
          recorded := if st.depth - 1 = -1 then st.recorded ++ [processed] else st.recorded }
    | _, _ => .ub
  | _ => .ok st

def onEvents (serial : Bool) (edges : Edges (Edge Unit Unit)) : List Event → RunState S T → Res (RunState S T)
  | [], st => .ok st
  | e :: es, st => (onEvent exec add serial edges st e).bind (onEvents serial edges es)

/-- `run_tests`, TestRunner.cpp:825-901; what follows there is output. -/
def runTests (serial : Bool) (schedule : List Nat → List Nat) (g : Suites S T) : Res (RunState S T) :=
  let st : RunState S T := ⟨g.nodes, [], -1, [], []⟩
  (if serial then .ok st else execConcurrent parallelizable exec schedule st).bind fun st =>
    (traverseDfs true g.edges 0 (g.edges.length + 1)).bind fun
      | some events => onEvents exec add serial g.edges events st
      | none => .ub

/-- The part of `execute` in which tests are run, TestRunner.cpp:775-784, for a single repetition. -/
def execute (serial : Bool) (schedule : List Nat → List Nat) (g : Suites S T) : Res (RunState S T) :=
  (if serial then .ok g else sortTests parallelizable g).bind (runTests parallelizable exec add serial schedule)

end
end Verif.RunTests
