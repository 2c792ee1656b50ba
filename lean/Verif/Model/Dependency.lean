/-
Model of the selection of stale tests: /repo/Source/sequoia/TestFramework/DependencyAnalyzer.cpp.

What is read from the file system is a parameter: the files which `add_files` finds, sorted by name, each with its time stamp and with the
positions of those files which its includes have been resolved to (`get_includes` and the search in `build_dependencies`, lines 234-257; includes
which match none of the files are left out); Verif.Model.Resolve models how these are found.  Time stamps are natural numbers.
-/
import Verif.Model.Traversal
import Verif.Model.Suite

namespace Verif.Dependency

open Verif.Graph Verif.Suites

/-- What is known about a file: the name without extension, whether it is a source file, whether it is in the repository of the tests, its path
relative to this repository, the time stamp, the files it includes and, if there are materials for it, the time stamps of the folder and of everything within. -/
structure File (K : Type) where
  stem : Nat
  cpp : Bool
  test : Bool
  rel : K
  time : Nat
  includes : List Nat
  materials : Option (Nat × List Nat)
  deriving DecidableEq, Repr

/-- The part of `file_info`, DependencyAnalyzer.cpp:44-59, which changes. -/
structure Info where
  time : Nat
  stale : Bool
  deriving DecidableEq, Repr

section
variable {K : Type}

/-- `is_stale` and the constructor of `file_info`, DependencyAnalyzer.cpp:28-50. -/
def fileInfo (prune : Nat) (exe : Option Nat) (f : File K) : Res Info :=
  match exe with
  | some e => if e ≤ f.time then .throws else .ok ⟨f.time, decide (prune < f.time)⟩
  | none => .ok ⟨f.time, decide (prune < f.time)⟩

/-- `add_files`, DependencyAnalyzer.cpp:209-219, and adding the nodes, 393-396. -/
def addFiles (prune : Nat) (exe : Option Nat) : List (File K) → Res (List Info)
  | [] => .ok []
  | f :: fs => (fileInfo prune exe f).bind fun i => (addFiles prune exe fs).bind fun is => .ok (i :: is)

/-- The graph under construction. -/
structure Build where
  edges : Edges (Edge Unit Unit)
  infos : List Info
  deriving DecidableEq, Repr

/-- One included file, DependencyAnalyzer.cpp:259-293; `f` is the file with number `i`, and `j` is the number of the included one. -/
def addInclude (fs : List (File K)) (i : Nat) (f : File K) (j : Nat) (g : Build) : Res Build :=
  (joinDirected g.edges i j () ()).bind fun s =>
    if f.cpp then
      match fs[j]? with
      | none => .ub
      | some fj =>
        if f.stem = fj.stem then
          match g.infos[i]?, g.infos[j]? with
          | some wi, some wj => .ok ⟨s, g.infos.set j ⟨max wi.time wj.time, wi.stale || wj.stale⟩⟩
          | _, _ => .ub
        else
          match fs[i + 1]? with
          | none => .ok ⟨s, g.infos⟩
          | some fn => if fn.stem = f.stem then (joinDirected s (i + 1) j () ()).bind fun s => .ok ⟨s, g.infos⟩ else .ok ⟨s, g.infos⟩
    else .ok ⟨s, g.infos⟩

/-- The loop over the included files, DependencyAnalyzer.cpp:232-299. -/
def addIncludes (fs : List (File K)) (i : Nat) (f : File K) : List Nat → Build → Res Build
  | [], g => .ok g
  | j :: js, g => (addInclude fs i f j g).bind fun g => addIncludes fs i f js g

/-- The loop over the files in `build_dependencies`, DependencyAnalyzer.cpp:227-300. -/
def buildFrom (fs : List (File K)) : List (File K × Nat) → Build → Res Build
  | [], g => .ok g
  | (f, i) :: l, g => (addIncludes fs i f f.includes g).bind fun g => buildFrom fs l g

/-- The loop in `nodesLate`, DependencyAnalyzer.cpp:402-410. -/
def lateEdges (n : Nat) : List (Edge Unit Unit) → List Info → Res (List Info)
  | [], ws => .ok ws
  | e :: l, ws =>
    match ws[n]?, ws[e.target]? with
    | some w, some t => lateEdges n l (ws.set n ⟨max w.time t.time, w.stale || t.stale⟩)
    | _, _ => .ub

/-- `nodesLate`, DependencyAnalyzer.cpp:400-412. -/
def late (s : Edges (Edge Unit Unit)) (n : Nat) (ws : List Info) : Res (List Info) :=
  match s[n]? with
  | some l => lateEdges n l ws
  | none => .ub

/-- The calls to `nodesLate` in the course of the traversal, DependencyAnalyzer.cpp:414. -/
def lateAll (s : Edges (Edge Unit Unit)) : List Event → List Info → Res (List Info)
  | [], ws => .ok ws
  | .after n :: l, ws => (late s n ws).bind fun ws => lateAll s l ws
  | _ :: l, ws => lateAll s l ws

/-- `find_stale_tests` up to the traversal, DependencyAnalyzer.cpp:363-414. -/
def propagate (prune : Nat) (exe : Option Nat) (fs : List (File K)) : Res (List Info) :=
  (addFiles prune exe fs).bind fun is =>
    (buildFrom fs fs.zipIdx ⟨List.replicate fs.length [], is⟩).bind fun g =>
      (traverseDfs true g.edges 0 fs.length).bind fun
        | some events => lateAll g.edges events g.infos
        | none => .ub

variable [LinearOrder K]

/-- `std::ranges::binary_search`. -/
def binarySearch (l : List K) (k : K) : Bool :=
  match l[lowerBound (l.map (·, 0)) k l.length 0 l.length]? with
  | some e => decide (e = k)
  | none => false

/-- `materials_modified`, DependencyAnalyzer.cpp:309-324. -/
def materialsModified (prune : Nat) : Option (Nat × List Nat) → Bool
  | some m => m.2.any fun t => decide (prune < t)
  | none => false

/-- `materials_max_write_time`, DependencyAnalyzer.cpp:327-344. -/
def materialsMaxWriteTime : Option (Nat × List Nat) → Option Nat
  | some m => some (m.2.foldl max m.1)
  | none => none

/-- Comparison of an optional time stamp with a time stamp. -/
def later (t : Nat) : Option Nat → Bool
  | some w => decide (t < w)
  | none => false

/-- `maxModificationTime`, DependencyAnalyzer.cpp:434. -/
def maxModificationTime (t : Nat) : Option Nat → Nat
  | some w => max w t
  | none => t

/-- Whether a test is stale in the end, DependencyAnalyzer.cpp:428-445 and 346-354; `passes` are the contents of the file and its time stamp. -/
def testStale (prune : Nat) (passes : Option (List K × Nat)) (f : File K) (w : Info) : Bool :=
  match passes with
  | none => w.stale || materialsModified prune f.materials
  | some p =>
    if binarySearch p.1 f.rel then
      let written := materialsMaxWriteTime f.materials
      let stale := w.stale || later prune written
      if stale && decide (maxModificationTime w.time written ≤ p.2) then false else stale
    else w.stale || materialsModified prune f.materials

/-- The loop over the tests, DependencyAnalyzer.cpp:422-449. -/
def staleTests (prune : Nat) (passes : Option (List K × Nat)) : List (File K) → List Info → List K
  | f :: fs, w :: ws =>
    if f.cpp && f.test && testStale prune passes f w then f.rel :: staleTests prune passes fs ws else staleTests prune passes fs ws
  | _, _ => []

/-- `find_stale_tests`, DependencyAnalyzer.cpp:363-454. -/
def findStaleTests (sort : List K → List K) (prune : Nat) (exe : Option Nat) (passes : Option (List K × Nat)) (fs : List (File K)) : Res (List K) :=
  (propagate prune exe fs).bind fun ws => .ok (sort (staleTests prune passes fs ws))

end

end Verif.Dependency
