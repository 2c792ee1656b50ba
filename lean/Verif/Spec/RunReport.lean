import Verif.Model.RunReport
import Mathlib.Data.List.Forall2
/- What the test runner should print about the tests it has run. -/
namespace Verif.Spec.RunReport
open Verif.Graph Verif.Text Verif.Logger Verif.RunTests Verif.RunReport

variable {T : Type}

/-- Suites start with nothing but their names. -/
def Fresh (g : Suites Found T) : Prop := ∀ wt ∈ g.nodes, wt.test = none → wt.summary = Found.nothing wt.summary.1.name

/-- What is found in each node: for a test, what its execution gives; for a suite, what is found in what it contains, put together under the name of the suite. -/
def Totals (exec : T → Found) (g : Suites Found T) (sum : Nat → Found) : Prop :=
  ∀ x wt l, g.nodes[x]? = some wt → g.edges[x]? = some l →
    sum x = (l.map fun e => sum e.target).foldl Found.plus (match wt.test with | some t => exec t | none => Found.nothing wt.summary.1.name)

def tabs (depth : Nat) : Str := List.replicate depth '\t'

/-- What the verbose report has for a node at the given depth: a summary of a test, with its failures; the name of a suite, with the time if there is only one thread. -/
def NodeText (render : Int → Nat → Str) (serial : Bool) (g : Suites Found T) (sum : Nat → Found) (depth x : Nat) (text : Str) : Prop :=
  ∃ wt, g.nodes[x]? = some wt ∧
    match wt.test with
    | some _ => SummaryText.summarize render (sum x).1 (sum x).2 [] none ⟨false, true, true⟩ (tabs depth) (tabs 1) = .ok text
    | none => text = indent (wt.summary.1.name.toList ++ [':']) (tabs depth) ++ ['\n'] ++
        if serial then indent (SummaryText.reportTime render (sum x).1 none) (tabs depth) else []

/-- The text for what some edges lead to: each node is followed by what it contains, one level deeper. -/
inductive Listed (own : Nat → Nat → Str → Prop) (s : Edges (Edge Unit Unit)) : Nat → List (Edge Unit Unit) → Str → Prop
  | nil {depth : Nat} : Listed own s depth [] []
  | cons {depth : Nat} {e : Edge Unit Unit} {es l : List (Edge Unit Unit)} {t u v : Str} : own depth e.target t → s[e.target]? = some l →
      Listed own s (depth + 1) l u → Listed own s depth es v → Listed own s depth (e :: es) (t ++ u ++ v)

/-- The tests in what some edges lead to, in order. -/
inductive Contains (g : Suites Found T) : List (Edge Unit Unit) → List T → Prop
  | nil : Contains g [] []
  | test {e : Edge Unit Unit} {es : List (Edge Unit Unit)} {f : Found} {t : T} {ts : List T} : g.nodes[e.target]? = some ⟨f, some t⟩ → Contains g es ts → Contains g (e :: es) (t :: ts)
  | suite {e : Edge Unit Unit} {es l : List (Edge Unit Unit)} {f : Found} {us ts : List T} : g.nodes[e.target]? = some ⟨f, none⟩ → g.edges[e.target]? = some l → Contains g l us →
      Contains g es ts → Contains g (e :: es) (us ++ ts)

/-- The report on one run of all tests. -/
def Report (render : Int → Nat → Str) (serial verbose : Bool) (exec : T → Found) (asyncTime totalTime : Int) (g : Suites Found T) (text : Str) : Prop :=
  ∃ (sum : Nat → Found) (l : List (Edge Unit Unit)) (body totals : Str), Totals exec g sum ∧ g.edges[0]? = some l ∧
    (if verbose then Listed (NodeText render serial g sum) g.edges 0 l body
     else ∃ texts, List.Forall₂ (fun e t => SummaryText.summarize render (sum e.target).1 (sum e.target).2 [':'] none ⟨false, true, serial⟩ [] (tabs 1) = .ok t) l texts ∧
       body = texts.flatten) ∧
    SummaryText.summarize render (if serial then (sum 0).1 else { (sum 0).1 with duration := asyncTime }) (sum 0).2 [] (some totalTime) ⟨true, false, true⟩ (tabs 1) [] =
      .ok totals ∧
    text = (if serial then "\nRunning tests, synchronously...\n\n".toList else "\nRunning tests...\n\n".toList) ++ body ++
      "\n-----------Grand Totals-----------\n".toList ++ totals

end Verif.Spec.RunReport
