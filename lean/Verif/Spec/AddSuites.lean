import Verif.Model.AddSuites
import Verif.Spec.Suite
import Verif.Spec.RunReport
/- Which tests the test runner should have, given the suites which have been added and what has been selected, and what it should say about selections which it cannot find. -/
namespace Verif.Spec.AddSuites
open Verif.Graph Verif.Text Verif.Suites Verif.RunTests Verif.RunReport Verif.AddSuites Verif.Spec.Suites

variable {L T P : Type}

/-- The name of what is added. -/
def title : Addition L → String
  | .tests name _ => name
  | .suites name _ => name

/-- The tests in what is added, each with the names of the suites around it, the outermost first. -/
def given : Addition L → List (L × List String)
  | .tests name ts => ts.map fun t => (t, [name])
  | .suites name subs => locatedList [name] subs

/-- Two of the tests have the same name and the same source. -/
def Duplicates (a : About L T P) (ts : List L) : Prop := ¬ (ts.map fun t => (a.name t, a.source t)).Nodup

open Classical in
/-- The tests which have to be run, each with the names of the suites around it. -/
noncomputable def testsWanted (a : About L T P) (suites files : Option (List Str)) (adds : List (Addition L)) : List (T × List String) :=
  adds.flatMap fun s => ((given s).filter fun x => decide (Accepts a.selects String.toList suites files x.1 x.2)).map fun x => (a.prepare (title s) x.1, x.2)

/-- The tests in what some edges lead to, in order, each with the names of the suites around it; there is no suite without tests. -/
inductive Holds (g : Suites Found T) : List String → List (Edge Unit Unit) → List (T × List String) → Prop
  | nil {path : List String} : Holds g path [] []
  | test {path : List String} {e : Edge Unit Unit} {es : List (Edge Unit Unit)} {f : Found} {t : T} {ts : List (T × List String)} :
      g.nodes[e.target]? = some ⟨f, some t⟩ → Holds g path es ts → Holds g path (e :: es) ((t, path) :: ts)
  | suite {path : List String} {e : Edge Unit Unit} {es l : List (Edge Unit Unit)} {f : Found} {us ts : List (T × List String)} :
      g.nodes[e.target]? = some ⟨f, none⟩ → g.edges[e.target]? = some l → us ≠ [] → Holds g (path ++ [f.1.name]) l us → Holds g path es ts →
      Holds g path (e :: es) (us ++ ts)

/-- The selections which are not the first to match any of the candidates. -/
def unmatched {X : Type} (hit : Str → X → Bool) (selected : Option (List Str)) (candidates : List X) : List Str :=
  match selected with
  | none => []
  | some ks => (ks.zipIdx.filter fun (_, i) => !candidates.any fun x => ks.findIdx? (fun k => hit k x) == some i).map Prod.fst

/-- What is said about a suite and about a file which cannot be found. -/
def suiteNotFound (name : Str) : Str :=
  "  Warning: Test Suite '".toList ++ name ++ "' not found\n".toList ++
    if '.' ∈ name then "    If trying to select a source file use 'select' rather than 'test'\n".toList else []

def fileNotFound (path : Str) : Str :=
  "  Warning: Test File '".toList ++ path ++ "' not found\n".toList ++
    if Includes.hasExtension path then [] else "    If trying to test a suite use 'test' rather than 'select'\n".toList

/-- All that is said about selections. -/
def notFound (a : About L T P) (suites files : Option (List Str)) (adds : List (Addition L)) : Str :=
  (unmatched (fun name (s : String) => name = s.toList) suites ((adds.flatMap given).flatMap Prod.snd)).flatMap suiteNotFound ++
  (unmatched a.selects files ((adds.flatMap given).map Prod.fst)).flatMap fileNotFound

end Verif.Spec.AddSuites
