/-
Model of /repo/Source/sequoia/Core/Object/Factory.hpp and Suite.hpp.
-/
import Verif.Model.Tree
import Mathlib.Order.Defs.LinearOrder

namespace Verif.Suites

open Verif.Graph

/-! ### The factory -/

section Factory
variable {K : Type} [LinearOrder K]

/-- `std::ranges::lower_bound` as binary search: `first` and the length of what remains; the fuel is the length. -/
def lowerBound (l : List (K × Nat)) (name : K) : Nat → Nat → Nat → Nat
  | 0, first, _ => first
  | fuel + 1, first, len =>
    if len = 0 then first
    else
      let half := len / 2
      match l[first + half]? with
      | none => first
      | some e => if e.1 < name then lowerBound l name fuel (first + half + 1) (len - half - 1) else lowerBound l name fuel first half

/-- `std::ranges::adjacent_find` with equality of the names; says whether there is a pair. -/
def adjacentEqual : List (K × Nat) → Bool
  | [] => false
  | [_] => false
  | a :: b :: l => a.1 = b.1 || adjacentEqual (b :: l)

/-- `make_element`, Factory.hpp:160-168, for each of the names; the products are numbered. -/
def makeElements (empty : K) : List K → Nat → Res (List (K × Nat))
  | [], _ => .ok []
  | n :: ns, i => if n = empty then .throws else (makeElements empty ns (i + 1)).bind fun l => .ok ((n, i) :: l)

/-- The constructor, Factory.hpp:95-105.  `sort` is `std::ranges::sort`. -/
def construct (sort : List (K × Nat) → List (K × Nat)) (empty : K) (names : List K) : Res (List (K × Nat)) :=
  (makeElements empty names 0).bind fun l =>
    let s := sort l
    if adjacentEqual s then .throws else .ok s

/-- `find`, Factory.hpp:152-158. -/
def findName (creators : List (K × Nat)) (name : K) : Option (K × Nat) :=
  match creators[lowerBound creators name creators.length 0 creators.length]? with
  | some e => if e.1 = name then some e else none
  | none => none

/-- `make`, Factory.hpp:107-118; the product is given by its number. -/
def make (creators : List (K × Nat)) (name : K) : Res Nat :=
  match findName creators name with
  | some e => .ok e.2
  | none => .throws

/-- `make_or`, Factory.hpp:120-133; dereferencing the end iterator would be undefined. -/
def makeOr (creators : List (K × Nat)) (product : Nat) (name : K) : Res Nat :=
  match findName creators name with
  | some e => .ok e.2
  | none =>
    match creators.find? (fun e => e.2 = product) with
    | some e => .ok e.2
    | none => .ub

end Factory

/-! ### Suites -/

/-- `suite`, Suite.hpp:29-63: what is known about the suite itself, and either items or suites within it; the extraction functions do not
compile if there are both. -/
inductive Suite (S L : Type) where
  | flat (s : S) (items : List L)
  | deep (s : S) (subs : List (Suite S L))

section Extraction
variable {S L σ : Type} (filter : σ → L → List S → Bool × σ)

/-- `extract_leaves` for items, Suite.hpp:210-222: the filter is given the item and the suites around it, the outermost first. -/
def leavesOf {X : Type} (t : L → X) (path : List S) : List L → List X × σ → List X × σ
  | [], c => c
  | l :: ls, (c, st) =>
    let r := filter st l path
    leavesOf t path ls (if r.1 then c ++ [t l] else c, r.2)

mutual
/-- `extract_leaves`, Suite.hpp:202-234. -/
def extractLeaves {X : Type} (t : L → X) (path : List S) : Suite S L → List X × σ → List X × σ
  | .flat s items, c => leavesOf filter t (path ++ [s]) items c
  | .deep s subs, c => extractLeavesList t (path ++ [s]) subs c

/-- The suites within a suite, Suite.hpp:224-234. -/
def extractLeavesList {X : Type} (t : L → X) (path : List S) : List (Suite S L) → List X × σ → List X × σ
  | [], c => c
  | s :: subs, c => extractLeavesList t path subs (extractLeaves t path s c)
end

variable {N W M : Type} (kind : TreeKind) (dw : W) (dm : M) (fuel : Nat)

/-- A tree and the state of the filter. -/
abbrev St (N W M σ : Type) := G N (Edge W M) × σ

/-- `tree.add_node` in the extraction. -/
def addTo (parent : Nat) (w : N) (g : G N (Edge W M)) : Res (G N (Edge W M) × Nat) :=
  match addNodeToTree kind dw dm g parent w with
  | .ret g' (.index n) => .ok (g', n)
  | .ret .. => .ub
  | .threw _ => .throws
  | .ub => .ub

/-- The end of `extract_tree`, Suite.hpp:250-251: a node without edges is pruned.  Running out of fuel counts as undefined. -/
def pruneIfEmpty (node : Nat) (g : G N (Edge W M)) : Res (G N (Edge W M)) :=
  match g.edges[node]? with
  | none => .throws
  | some l =>
    if l.length = 0 then
      match prune kind fuel g node with
      | some (.ret g' _) => .ok g'
      | some (.threw _) => .throws
      | some .ub => .ub
      | none => .ub
    else .ok g

/-- `extract_tree` for items, Suite.hpp:257-269. -/
def treeItems (tL : L → N) (path : List S) (node : Nat) : List L → St N W M σ → Res (St N W M σ)
  | [], c => .ok c
  | l :: ls, (g, st) =>
    let r := filter st l path
    if r.1 then (addTo kind dw dm node (tL l) g).bind fun x => treeItems tL path node ls (x.1, r.2)
    else treeItems tL path node ls (g, r.2)

mutual
/-- `extract_tree`, Suite.hpp:236-283. -/
def extractTree (tS : S → N) (tL : L → N) (path : List S) (parent : Nat) : Suite S L → St N W M σ → Res (St N W M σ)
  | .flat s items, (g, st) =>
    (addTo kind dw dm parent (tS s) g).bind fun x =>
      (treeItems filter kind dw dm tL (path ++ [s]) x.2 items (x.1, st)).bind fun c =>
        (pruneIfEmpty kind fuel x.2 c.1).bind fun g' => .ok (g', c.2)
  | .deep s subs, (g, st) =>
    (addTo kind dw dm parent (tS s) g).bind fun x =>
      (extractTreeList tS tL (path ++ [s]) x.2 subs (x.1, st)).bind fun c =>
        (pruneIfEmpty kind fuel x.2 c.1).bind fun g' => .ok (g', c.2)

/-- The suites within a suite, Suite.hpp:271-282. -/
def extractTreeList (tS : S → N) (tL : L → N) (path : List S) (node : Nat) : List (Suite S L) → St N W M σ → Res (St N W M σ)
  | [], c => .ok c
  | s :: subs, c => (extractTree tS tL path node s c).bind fun c' => extractTreeList tS tL path node subs c'
end

end Extraction

/-! ### The granular filter -/

section Granular
variable {K I S L : Type} [DecidableEq K]

/-- A selection, Suite.hpp:419-420: the keys, each with whether it has been found. -/
abbrev Selection (K : Type) := Option (List (K × Bool))

/-- `granular_filter`, Suite.hpp:341-460: the selected suites and the selected items. -/
structure Granular (K I : Type) where
  suites : Selection K
  items : Selection I

/-- `make`, Suite.hpp:431-441. -/
def makeSelection {K : Type} (sel : Option (List K)) : Selection K := sel.map fun l => l.map fun k => (k, false)

/-- `add`, Suite.hpp:422-429. -/
def addSelection {K : Type} (m : Selection K) (k : K) : Selection K :=
  match m with
  | none => some [(k, false)]
  | some l => some (l ++ [(k, false)])

/-- The search in `find`, Suite.hpp:449-454: the first entry which matches is marked. -/
def markFirst {K : Type} (eq : K → Bool) : List (K × Bool) → List (K × Bool) × Bool
  | [] => ([], false)
  | e :: l => if eq e.1 then ((e.1, true) :: l, true) else let r := markFirst eq l; (e :: r.1, r.2)

/-- `find`, Suite.hpp:443-459. -/
def findSelection {K : Type} (eq : K → Bool) (m : Selection K) : Selection K × Bool :=
  match m with
  | none => (none, false)
  | some l => let r := markFirst eq l; (some r.1, r.2)

/-- The search for each of the suites around an item, Suite.hpp:388. -/
def findSuites (name : S → K) : List S → Selection K → Selection K × Bool
  | [], m => (m, false)
  | s :: ss, m =>
    let r := findSelection (fun k => k = name s) m
    let r' := findSuites name ss r.1
    (r'.1, r.2 || r'.2)

/-- `operator()`, Suite.hpp:380-391; `matches` is the comparison of a key with the projection of an item. -/
def Granular.apply (matches' : I → L → Bool) (name : S → K) (f : Granular K I) (l : L) (path : List S) : Bool × Granular K I :=
  if f.suites.isNone && f.items.isNone then (true, f)
  else
    let i := findSelection (fun k => matches' k l) f.items
    let s := findSuites name path f.suites
    (i.2 || s.2, ⟨s.1, i.1⟩)

end Granular

end Verif.Suites
