import Verif.Model.RunTests
import Verif.Model.SummaryText
/-
What the test runner prints while it runs tests, and their repetition: /repo/Source/sequoia/TestFramework/TestRunner.cpp, the rest of `run_tests`, `reset_tests`, and
the loop over repetitions in `execute`.

The summary of a node is given with the text of its failure messages.  Times which are measured by the runner itself, and how a floating point number is printed, are
parameters.  The tests are executed as in `Verif.Model.RunTests`; that `reset` of a test restores its materials is the subject of `Verif.Model.Materials`.
-/
namespace Verif.RunReport
open Verif.Graph Verif.Text Verif.Logger Verif.SummaryText Verif.RunTests

/-- A summary with its failure messages, `m_FailureMessages`, TestLogger.hpp:388-392. -/
abbrev Found := Summary × Str

/-- `operator+=`, TestLogger.cpp:317-348. -/
def Found.plus (a b : Found) : Found := (a.1.add b.1, a.2 ++ b.2)

/-- The constructor from a name, TestLogger.cpp:266. -/
def Found.nothing (name : String) : Found := ({ name := name }, [])

/-- `running_tests_message`, TestRunner.cpp:36-43. -/
def runningTestsMessage (serial : Bool) : Str :=
  let mess := "\nRunning tests".toList
  let mess := if serial then mess ++ ", synchronously".toList else mess
  mess ++ "...\n\n".toList

/-- `indentation::trim`, Indent.hpp:50-55. -/
def trim (ind : Str) (count : Nat) : Str := ind.take (ind.length - min count ind.length)

section
variable {T : Type} (render : Int → Nat → Str)

/-- `printNode`, TestRunner.cpp:906-931; the state is `indent0` and what has been printed. -/
def printNode (serial : Bool) (nodes : List (SuiteNode Found T)) (st : Str × Str) (n : Nat) : Res (Str × Str) :=
  if n = 0 then .ok st
  else match nodes[n]? with
  | none => .ub
  | some wt =>
    (match wt.test with
      | some _ => SummaryText.summarize render wt.summary.1 wt.summary.2 [] none ⟨false, true, true⟩ st.1 ['\t']
      | none =>
        let message := indent (wt.summary.1.name.toList ++ [':']) st.1
        if serial then .ok (appendIndented message (reportTime render wt.summary.1 none) st.1) else .ok (message ++ ['\n'])).bind fun text =>
      .ok (st.1 ++ ['\t'], st.2 ++ text)

/-- `decreaseIndent`, TestRunner.cpp:933. -/
def decreaseIndent (st : Str × Str) (n : Nat) : Str × Str := if n = 0 then st else (trim st.1 1, st.2)

/-- The calls of these two in the traversal, TestRunner.cpp:935. -/
def printEvents (serial : Bool) (nodes : List (SuiteNode Found T)) : List Graph.Event → Str × Str → Res (Str × Str)
  | [], st => .ok st
  | .before n :: es, st => (printNode render serial nodes st n).bind (printEvents serial nodes es)
  | .after n :: es, st => printEvents serial nodes es (decreaseIndent st n)
  | _ :: es, st => printEvents serial nodes es st

/-- The verbose report, TestRunner.cpp:903-936. -/
def verboseReport (serial : Bool) (edges : Edges (Edge Unit Unit)) (nodes : List (SuiteNode Found T)) : Res Str :=
  (traverseDfs true edges 0 (edges.length + 1)).bind fun
    | some events => (printEvents render serial nodes events ([], [])).bind fun st => .ok st.2
    | none => .ub

/-- The loop of the brief report, TestRunner.cpp:939-944. -/
def briefLoop (serial : Bool) (nodes : List (SuiteNode Found T)) : List (Edge Unit Unit) → Str → Res Str
  | [], text => .ok text
  | e :: es, text =>
    match nodes[e.target]? with
    | none => .ub
    | some wt => (SummaryText.summarize render wt.summary.1 wt.summary.2 [':'] none ⟨false, true, serial⟩ [] ['\t']).bind fun t => briefLoop serial nodes es (text ++ t)

/-- The brief report, TestRunner.cpp:937-945. -/
def briefReport (serial : Bool) (edges : Edges (Edge Unit Unit)) (nodes : List (SuiteNode Found T)) : Res Str :=
  match edges[0]? with
  | none => .ub
  | some l => briefLoop render serial nodes l []

/-- `execution_time` at the root, TestRunner.cpp:947. -/
def setRootTime (async : Option Int) (nodes : List (SuiteNode Found T)) : Res (List (SuiteNode Found T)) :=
  match async with
  | none => .ok nodes
  | some d =>
    match nodes with
    | [] => .ub
    | wt :: rest => .ok (⟨({ wt.summary.1 with duration := d }, wt.summary.2), wt.test⟩ :: rest)

/-- The grand totals, TestRunner.cpp:949-950. -/
def grandTotals (total : Int) (nodes : List (SuiteNode Found T)) : Res Str :=
  match nodes with
  | [] => .ub
  | wt :: _ =>
    (SummaryText.summarize render wt.summary.1 wt.summary.2 [] (some total) ⟨true, false, true⟩ ['\t'] []).bind fun t =>
      .ok ("\n-----------Grand Totals-----------\n".toList ++ t)

/-- How tests are executed and reported, and the times measured: of the concurrent execution, and of the whole of a run. -/
structure Settings (T : Type) where
  parallelizable : T → Bool
  serial : Bool
  verbose : Bool
  schedule : Nat → List Nat → List Nat
  exec : Nat → T → Found
  asyncTime : Nat → Int
  totalTime : Nat → Int

variable (c : Settings T)

/-- `run_tests`, TestRunner.cpp:825-951, for repetition `i`: the nodes afterwards and what is printed. -/
def run (i : Nat) (g : Suites Found T) : Res (Suites Found T × Str) :=
  (runTests c.parallelizable (c.exec i) Found.plus c.serial (c.schedule i) g).bind fun st =>
    (if c.verbose then verboseReport render c.serial g.edges st.nodes else briefReport render c.serial g.edges st.nodes).bind fun body =>
      (setRootTime (if c.serial then none else some (c.asyncTime i)) st.nodes).bind fun nodes =>
        (grandTotals render (c.totalTime i) nodes).bind fun totals =>
          .ok (⟨nodes, g.edges⟩, runningTestsMessage c.serial ++ body ++ totals)

/-- `resetFn`, TestRunner.cpp:979-995, as far as summaries are concerned. -/
def resetNode (nodes : List (SuiteNode Found T)) (n : Nat) : Res (List (SuiteNode Found T)) :=
  match nodes[n]? with
  | none => .ub
  | some wt => .ok (nodes.set n ⟨Found.nothing wt.summary.1.name, wt.test⟩)

def resetEvents : List Graph.Event → List (SuiteNode Found T) → Res (List (SuiteNode Found T))
  | [], nodes => .ok nodes
  | .before n :: es, nodes => (resetNode nodes n).bind (resetEvents es)
  | _ :: es, nodes => resetEvents es nodes

/-- `reset_tests`, TestRunner.cpp:972-998. -/
def resetTests (g : Suites Found T) : Res (Suites Found T) :=
  (traverseDfs true g.edges 0 (g.edges.length + 1)).bind fun
    | some events => (resetEvents events g.nodes).bind fun nodes => .ok ⟨nodes, g.edges⟩
    | none => .ub

/-- The loop over repetitions, TestRunner.cpp:787-793, of which `n` are left; `i` is the index of the next one. -/
def repetitions : Nat → Nat → Suites Found T → Str → Res Str
  | 0, _, _, text => .ok text
  | n + 1, i, g, text =>
    (if i = 0 then .ok g else resetTests g).bind fun g =>
      (run render c i g).bind fun r => repetitions n (i + 1) r.1 (text ++ r.2)

/-- The part of `execute` in which tests are run, TestRunner.cpp:777-795. -/
def executeReports (reps : Nat) (g : Suites Found T) : Res Str :=
  (if c.serial then .ok g else sortTests c.parallelizable g).bind fun g => repetitions render c reps 0 g []

end
end Verif.RunReport
