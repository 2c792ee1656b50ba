import Verif.Model.Graph
import Verif.Spec.Order
/-
What the operations on graphs mean.  A graph is seen as the list, for each node, of its edges in order.
-/
namespace Verif.Spec
open Verif.Graph Verif.Graph.EdgeLike

/-- The `k`-th edge of node `n`. -/
def edgeAt {E : Type} (s : Edges E) (n k : Nat) : Option E := s[n]?.bind (·[k]?)

/-- Every edge leads to a node. -/
def InRange {E : Type} [EdgeLike E] (s : Edges E) : Prop := ∀ l ∈ s, ∀ e ∈ l, target e < s.length

/-- The number of edges of weight `w` which node `i` has to node `j`. -/
def mult {W M : Type} [DecidableEq W] (s : Edges (Edge W M)) (i j : Nat) (w : W) : Nat :=
  match s[i]? with
  | some l => l.countP fun e => decide (e.target = j ∧ e.weight = w)
  | none => 0

/-- An undirected graph: each link is listed equally often, per weight, at both of its ends, and loops, which are
listed twice at their only end, occur an even number of times per weight. -/
structure Reciprocal {W M : Type} [DecidableEq W] (s : Edges (Edge W M)) : Prop where
  inRange : InRange s
  links : ∀ i j, i ≠ j → ∀ w, mult s i j w = mult s j i w
  loops : ∀ i w, 2 ∣ mult s i i w

/-- An embedded graph: each half edge knows where its other half is. -/
def Embedded {W M : Type} (s : Edges (EEdge W M)) : Prop :=
  ∀ n k e, edgeAt s n k = some e → (e.target, e.comp) ≠ (n, k) ∧
    ∃ e', edgeAt s e.target e.comp = some e' ∧ e'.target = n ∧ e'.comp = k ∧ e'.weight = e.weight

/-- In an undirected graph, the `p`-th edge of the target of `e`, where `e` is the `k`-th edge of `n`, may serve as the
other half of `e`: it leads back, has the same weight and is not `e` itself. -/
def Partner {W M : Type} (s : Edges (Edge W M)) (n k : Nat) (e : Edge W M) (p : Nat) (e' : Edge W M) : Prop :=
  edgeAt s e.target p = some e' ∧ e'.target = n ∧ e'.weight = e.weight ∧ (e.target, p) ≠ (n, k)

/-- The entries of a list at the positions satisfying `p`. -/
def keepIdx {E : Type} (p : Nat → Bool) : List E → List E
  | [] => []
  | e :: l => if p 0 then e :: keepIdx (fun k => p (k + 1)) l else keepIdx (fun k => p (k + 1)) l

/-- The graph without the half edges at the given positions; everything else is left as it is. -/
def removeAt {E : Type} (s : Edges E) (P : Nat → Nat → Bool) : Edges E := s.mapIdx fun i l => keepIdx (fun k => !P i k) l

/-- The graph with the half edges at the given positions changed by `f`; everything else is left as it is. -/
def changeAt {E : Type} (s : Edges E) (P : Nat → Nat → Bool) (f : E → E) : Edges E :=
  s.mapIdx fun i l => l.mapIdx fun k e => if P i k then f e else e

/-- The number of positions before `k` satisfying `p`: the new index of an entry when only those are kept. -/
def rank (p : Nat → Bool) (k : Nat) : Nat := (List.range k).countP p

/-- The embedded graph without the half edges at the given positions: everything else is left as it is, except that
complementary indices follow the half edges they refer to. -/
def removeAtE {W M : Type} (s : Edges (EEdge W M)) (P : Nat → Nat → Bool) : Edges (EEdge W M) :=
  (removeAt s P).map (·.map fun e => { e with comp := rank (fun k => !P e.target k) e.comp })

/-- `s'` is the embedded graph `s` together with one more edge, whose halves are at position `p` of node `n` and at
position `q` of node `m`. -/
structure JoinedE {W M : Type} (s s' : Edges (EEdge W M)) (n p m q : Nat) (w : W) (m₁ m₂ : M) : Prop where
  first : edgeAt s' n p = some ⟨m, q, w, m₁⟩
  second : edgeAt s' m q = some ⟨n, p, w, m₂⟩
  rest : removeAtE s' (fun i k => decide ((i, k) = (n, p) ∨ (i, k) = (m, q))) = s

/-- Node indices after removing node `n`. -/
def lower (n t : Nat) : Nat := if n < t then t - 1 else t

/-- Node indices after inserting a node at `n`. -/
def raise (n t : Nat) : Nat := if n ≤ t then t + 1 else t

/-- The transposition of `i` and `j`. -/
def transpose (i j t : Nat) : Nat := if t = i then j else if t = j then i else t

/-- Relabel the targets of the edges of a node. -/
def relabel {E : Type} [EdgeLike E] (f : Nat → Nat) (l : List E) : List E := l.map fun e => retarget e (f (target e))

/-- The graph induced on the nodes other than `n`. -/
def withoutNode {E : Type} [EdgeLike E] (s : Edges E) (n : Nat) : Edges E :=
  (s.take n ++ s.drop (n + 1)).map fun l => relabel (lower n) (l.filter fun e => decide (target e ≠ n))

/-- The embedded graph induced on the nodes other than `n`: as `withoutNode`, and the complementary index of each edge
becomes the number of edges kept before its other half. -/
def withoutNodeE {W M : Type} (s : Edges (EEdge W M)) (n : Nat) : Edges (EEdge W M) :=
  (s.take n ++ s.drop (n + 1)).map fun l => (l.filter fun e => decide (e.target ≠ n)).map fun e =>
    { e with
      target := lower n e.target
      comp := match s[e.target]? with
        | some t => (t.take e.comp).countP fun e' => decide (e'.target ≠ n)
        | none => 0 }

/-- The graph with an isolated node added at `n`. -/
def withNode {E : Type} [EdgeLike E] (s : Edges E) (n : Nat) : Edges E :=
  (s.take n ++ [] :: s.drop n).map (relabel (raise n))

/-- The graph relabelled by the transposition of `i` and `j`: node `k` has the edges node `(i j) k` had, relabelled. -/
def Transposed {E : Type} [EdgeLike E] (s s' : Edges E) (i j : Nat) : Prop :=
  s'.length = s.length ∧ ∀ k, s'[k]? = s[transpose i j k]?.map (relabel (transpose i j))

/-- The number of half edges: the sum over all nodes of the number of edges listed there. -/
def total {E : Type} (s : Edges E) : Nat := (s.map List.length).sum

/-! ### What callers have to respect -/

/-- What is assumed of `std::ranges::sort`: given a strict weak order it permutes. -/
def Permutes (stdSort : {α : Type} → (α → α → Bool) → List α → List α) : Prop :=
  ∀ (α : Type) (lt : α → α → Bool), StrictWeak lt → ∀ l, (stdSort lt l).Perm l

inductive Flavour where
  | directed
  | undirected
  | embedded
  deriving DecidableEq

/-- A valid iterator: to an edge of `n` or to the end of the edges of `n`. -/
def ValidIter {E : Type} (s : Edges E) (n k : Nat) : Prop := ∃ l, s[n]? = some l ∧ k ≤ l.length

/-- An iterator which may be dereferenced. -/
def ValidEdge {E : Type} (s : Edges E) (n k : Nat) : Prop := ∃ e, edgeAt s n k = some e

/-- Calls with valid iterators, valid ranges and proper comparators, to members which the flavour offers.  Indices may
be arbitrary. -/
def InContract {N W M E : Type} (fl : Flavour) (g : G N E) : Op N W M E → Prop
  | .insertJoin n p m q _ _ _ => fl = .embedded ∧ ValidIter g.edges n p ∧ ValidIter g.edges m q
  | .insertJoinPos n p _ _ _ _ => fl = .embedded ∧ ValidIter g.edges n p
  | .eraseEdge n k => g.edges = [] ∨ ValidIter g.edges n k
  | .setWeight n k _ => ValidEdge g.edges n k
  | .mutateWeight n k _ => ValidEdge g.edges n k
  | .swapEdges _ _ _ => fl ≠ .embedded
  | .sortEdges lt n p m q => fl ≠ .embedded ∧ StrictWeak lt ∧ ValidIter g.edges n p ∧ ValidIter g.edges m q ∧ (n = m → p ≤ q)
  | .stableSortEdges lt n p m q =>
      fl ≠ .embedded ∧ StrictWeak lt ∧ ValidIter g.edges n p ∧ ValidIter g.edges m q ∧ (n = m → p ≤ q)
  | _ => True

end Verif.Spec
