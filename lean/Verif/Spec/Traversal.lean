import Verif.Model.Traversal
import Verif.Spec.Graph
/- What is expected of traversals. -/
namespace Verif.Spec
open Verif.Graph EdgeLike

section
variable {E : Type} [EdgeLike E]

/-- The container returns whatever was put into it, each element once, provided that it never holds more than `cap` of
them; what is returned next is a `best` one of those it holds. -/
def Serves {Q : Type} (best : Nat → List Nat → Prop) (c : Container Q) (cap : Nat) : Prop :=
  ∃ holds : Q → List Nat → Prop, holds c.init [] ∧
    (∀ q l, holds q l → (c.isEmpty q = true ↔ l = [])) ∧
    (∀ q l a, holds q l → l.length < cap → ∃ q' l', c.push q a = .ok q' ∧ l'.Perm (a :: l) ∧ holds q' l') ∧
    (∀ q l, holds q l → l ≠ [] → ∃ a q' l', c.get q = .ok a ∧ c.pop q = .ok q' ∧ l.Perm (a :: l') ∧ best a l ∧ holds q' l')

/-- The number of edges listed for a node. -/
def degree (s : Edges E) (n : Nat) : Nat := match s[n]? with | some l => l.length | none => 0

/-- The loops of a node, by position. -/
def loopsAt (s : Edges E) (n : Nat) : List Nat :=
  (List.range (degree s n)).filter fun k => match edgeAt s n k with | some e => decide (target e = n) | none => false

/-- Positions in the order of consideration. -/
def inOrder (rev : Bool) (l : List Nat) : List Nat := if rev then l.reverse else l

/-- The half edge is reported by the first traversal function, exactly once, and not by the second. -/
def ReportedFirst (events : List Event) (n k : Nat) : Prop :=
  events.count (.first n k) = 1 ∧ events.count (.second n k) = 0

/-- The half edge is reported by the second traversal function, exactly once, and not by the first. -/
def ReportedSecond (events : List Event) (n k : Nat) : Prop :=
  events.count (.first n k) = 0 ∧ events.count (.second n k) = 1

/-- Some edge leads from `a` to `b`. -/
def Leads (s : Edges E) (a b : Nat) : Prop := ∃ k e, edgeAt s a k = some e ∧ target e = b

/-- There is a walk of the given length from `a`. -/
inductive Walk (s : Edges E) (a : Nat) : Nat → Nat → Prop
  | refl : Walk s a a 0
  | snoc {b c d : Nat} : Walk s a b d → Leads s b c → Walk s a c (d + 1)

/-- `b` can be reached from `a`. -/
def Reach (s : Edges E) (a b : Nat) : Prop := ∃ d, Walk s a b d

/-- The calls to the node functions are those for the nodes of the list, in this order, `before` first and then `after`. -/
def isNodeCall : Event → Bool
  | .before _ => true
  | .after _ => true
  | _ => false

/-- Each node of the list is visited once, in this order: both node functions are called for it, and nothing is called for
other nodes in between. -/
def NodeCalls (events : List Event) (order : List Nat) : Prop :=
  events.filter isNodeCall = order.flatMap fun n => [.before n, .after n]

/-- `seg` are the nodes visited in a search starting at `r`, when those of `done` have been visited already: those which can
be reached and have not been visited yet, each once, beginning with `r`; and the order of visits is as demanded. -/
def SearchFrom (s : Edges E) (Ord : List Nat → Nat → List Nat → Prop) (done : List Nat) (r : Nat) (seg : List Nat) : Prop :=
  seg.head? = some r ∧ seg.Nodup ∧ (∀ n, n ∈ seg ↔ Reach s r n ∧ n ∉ done) ∧ Ord done r seg

/-- The searches of a traversal which finds disconnected parts: if nodes are left, the next search starts from the first of
them. -/
def Searches (s : Edges E) (Ord : List Nat → Nat → List Nat → Prop) : List Nat → Nat → List (List Nat) → Prop
  | _, _, [] => False
  | done, r, seg :: rest => SearchFrom s Ord done r seg ∧
    (((∀ n, n < s.length → n ∈ done ++ seg) ∧ rest = []) ∨
      ∃ r', r' < s.length ∧ r' ∉ done ++ seg ∧ (∀ n, n < r' → n ∈ done ++ seg) ∧ Searches s Ord (done ++ seg) r' rest)

/-- In order of non-decreasing distance from `r`. -/
def ByDistance (s : Edges E) (_ : List Nat) (r : Nat) (seg : List Nat) : Prop :=
  seg.Pairwise fun a b => ∀ d, Walk s r b d → ∃ d' ≤ d, Walk s r a d'

/-- Whenever a node is visited, it is not less than any other which has been discovered, i.e. to which an edge of an earlier
node leads, but has not been visited. -/
def ByPriority (s : Edges E) (lt : Nat → Nat → Bool) (done : List Nat) (r : Nat) (seg : List Nat) : Prop :=
  ∀ p a q, seg = p ++ a :: q → ∀ b, b ∉ done ++ p → (b = r ∨ ∃ n ∈ p, Leads s n b) → lt a b = false

/-- A node has been discovered in a search from `r` when those of `p` have been visited. -/
def Discovered (s : Edges E) (r : Nat) (p : List Nat) (x : Nat) : Prop := x = r ∨ ∃ n ∈ p, Leads s n x

/-- Whenever a node is visited, no other which is waiting was discovered later: at all earlier times, if the one visited had
been discovered, so had the other. -/
def ByRecency (s : Edges E) (done : List Nat) (r : Nat) (seg : List Nat) : Prop :=
  ∀ p a q, seg = p ++ a :: q → ∀ b, b ∉ done ++ p → Discovered s r p b →
    ∀ p₁, p₁ <+: p → Discovered s r p₁ a → Discovered s r p₁ b

/-- No particular order. -/
def AnyOrder (_ : List Nat) (_ : Nat) (_ : List Nat) : Prop := True

/-! ### Depth first -/

/-- What is visited below a node in a depth first search: the edges followed, given by their positions, each with the node
it leads to, what is visited below that node, and then the remaining ones. -/
inductive Forest where
  | nil
  | cons (k root : Nat) (children rest : Forest)
  deriving DecidableEq, Repr

/-- The nodes of a forest, parents first. -/
def Forest.nodes : Forest → List Nat
  | .nil => []
  | .cons _ r ch rest => r :: ch.nodes ++ rest.nodes

/-- The calls for what is visited below node `n`: an edge is reported, then the node it leads to is visited and left again
after everything below it. -/
def Forest.calls (n : Nat) : Forest → List Event
  | .nil => []
  | .cons k r ch rest => .first n k :: .before r :: ch.calls r ++ .after r :: rest.calls n

/-- The edges of the forest below `n` are edges of the graph, those at `n` being in increasing order from `lo` on. -/
def Forest.Valid (s : Edges E) (n : Nat) : Nat → Forest → Prop
  | _, .nil => True
  | lo, .cons k r ch rest => lo ≤ k ∧ (∃ e, edgeAt s n k = some e ∧ target e = r) ∧ ch.Valid s r 0 ∧ rest.Valid s n (k + 1)

/-- Whenever one of the nodes is left, all nodes to which its edges lead have been visited. -/
def NothingMissed (s : Edges E) (events : List Event) (ns : List Nat) : Prop :=
  ∀ x ∈ ns, ∀ t, Leads s x t → ∃ p q, events = p ++ .after x :: q ∧ .before t ∈ p

end
end Verif.Spec
