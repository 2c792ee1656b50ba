/-
Specifications for factories, suites and the granular filter.
-/
import Verif.Model.Suite

namespace Verif.Spec.Suites

open Verif.Suites Verif.Graph

/-! ### Suites -/

section
variable {S L : Type}

mutual
/-- The items of a suite in order, each with the suites around it, the outermost first. -/
def located (path : List S) : Suite S L → List (L × List S)
  | .flat s items => items.map fun l => (l, path ++ [s])
  | .deep s subs => locatedList (path ++ [s]) subs

def locatedList (path : List S) : List (Suite S L) → List (L × List S)
  | [] => []
  | s :: subs => located path s ++ locatedList path subs
end

/-- A filter, which may have a state, decides according to `acc`, whatever has happened before. -/
def Decides {σ : Type} (filter : σ → L → List S → Bool × σ) (acc : L → List S → Bool) (Inv : σ → Prop) : Prop :=
  ∀ st l p, Inv st → (filter st l p).1 = acc l p ∧ Inv (filter st l p).2

/-- The state of a filter after it has been applied to the given items, one after the other. -/
def visited {σ : Type} (filter : σ → L → List S → Bool × σ) (st : σ) (ls : List (L × List S)) : σ :=
  ls.foldl (fun st x => (filter st x.1 x.2).2) st

/-- Trees without children. -/
def childless {N : Type} : List N → TreeInits N
  | [] => .nil
  | w :: ws => .cons w .nil (childless ws)

mutual
/-- What is left of a suite, if anything, when the items which are not accepted and the suites without items are removed. -/
def pruned {N : Type} (acc : L → List S → Bool) (tS : S → N) (tL : L → N) (path : List S) : Suite S L → Option (N × TreeInits N)
  | .flat s items => match childless ((items.filter fun l => acc l (path ++ [s])).map tL) with
    | .nil => none
    | t => some (tS s, t)
  | .deep s subs => match prunedList acc tS tL (path ++ [s]) subs with
    | .nil => none
    | t => some (tS s, t)

def prunedList {N : Type} (acc : L → List S → Bool) (tS : S → N) (tL : L → N) (path : List S) : List (Suite S L) → TreeInits N
  | [] => .nil
  | s :: subs => match pruned acc tS tL path s with
    | none => prunedList acc tS tL path subs
    | some t => .cons t.1 t.2 (prunedList acc tS tL path subs)
end

/-- The nodes without children, each with the chain of nodes above it. -/
def tips {N : Type} (path : List N) : TreeInits N → List (N × List N)
  | .nil => []
  | .cons w .nil rest => (w, path) :: tips path rest
  | .cons w cs rest => tips (path ++ [w]) cs ++ tips path rest

end

/-! ### The granular filter -/

section
variable {K I S L : Type} [DecidableEq K]

/-- What is selected, irrespective of what has been found. -/
def keys {K : Type} (m : Selection K) : Option (List K) := m.map (·.map Prod.fst)

/-- The filter accepts an item: nothing is selected, or the item is, or a suite around it. -/
def Accepts (m : I → L → Bool) (name : S → K) (suites : Option (List K)) (items : Option (List I)) (l : L) (path : List S) : Prop :=
  (suites = none ∧ items = none) ∨ (∃ ks, items = some ks ∧ ∃ k ∈ ks, m k l = true) ∨ (∃ ks, suites = some ks ∧ ∃ s ∈ path, name s ∈ ks)

end

end Verif.Spec.Suites
