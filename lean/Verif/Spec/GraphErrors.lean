import Verif.Model.GraphErrors
import Verif.Spec.GraphInit
/- What the messages for graphs which are refused say. -/
namespace Verif.Spec.GraphErrors
open Verif.GraphErrors Verif.Graph Verif.Spec

/-- What messages say about the listing of a directed graph. -/
def DirectedSays {W M : Type} (s : Edges (Edge W M)) : Fault → Prop
  | .range _ n k _ size i => ∃ e, edgeAt s n k = some e ∧ e.target = i ∧ size = s.length ∧ s.length ≤ i
  | _ => False

/-- What messages say about the listing of an embedded graph. -/
def EmbeddedSays {W M : Type} (s : Edges (EEdge W M)) : Fault → Prop
  | .range _ n k name size i => ∃ e, edgeAt s n k = some e ∧
    (name = "target".toList ∧ e.target = i ∧ size = s.length ∧ s.length ≤ i ∨
      name = "complementary".toList ∧ e.comp = i ∧ ∃ t, s[e.target]? = some t ∧ size = t.length ∧ t.length ≤ i)
  | .selfReferential n k t c => ∃ e, edgeAt s n k = some e ∧ e.target = n ∧ e.comp = k ∧ t = n ∧ c = k
  | .reciprocated n k name found expected => ∃ e e', edgeAt s n k = some e ∧ edgeAt s e.target e.comp = some e' ∧
    (name = "complementary".toList ∧ e'.comp = found ∧ expected = k ∧ found ≠ k ∨ name = "target".toList ∧ e'.target = found ∧ expected = n ∧ found ≠ n)
  | .weights _ n k => ∃ e e', edgeAt s n k = some e ∧ edgeAt s e.target e.comp = some e' ∧ e.weight ≠ e'.weight
  | _ => False

/-- An edge is one of those which an embedded graph may have. -/
def EmbeddedEdge {W M : Type} (s : Edges (EEdge W M)) (n k : Nat) (e : EEdge W M) : Prop :=
  (e.target, e.comp) ≠ (n, k) ∧ ∃ e', edgeAt s e.target e.comp = some e' ∧ e'.target = n ∧ e'.comp = k ∧ e'.weight = e.weight

/-- What messages say about the listing `s` of an undirected graph, if positions refer to the listing `s'`. If an edge is said to have no partner, then the edges leading back are needed for those like it which
are listed before. -/
def UndirectedSays {W M : Type} [DecidableEq W] (s s' : Edges (Edge W M)) : Fault → Prop
  | .range _ n k _ size i => ∃ e, edgeAt s' n k = some e ∧ e.target = i ∧ size = s.length ∧ s.length ≤ i
  | .oddLoops _ n => ∃ w, ¬ 2 ∣ mult s n n w
  | .noPartner _ n k => ∃ l e, s'[n]? = some l ∧ l[k]? = some e ∧ e.target ≠ n ∧ e.target < s.length ∧
    (l.take k).countP (fun f => decide (f.target = e.target ∧ f.weight = e.weight)) = mult s e.target n e.weight
  | _ => False

/-- The position of an edge is before that of another. -/
def Before (n k n' k' : Nat) : Prop := n < n' ∨ n = n' ∧ k < k'

/-- The position of the edge which a message is about. -/
def position : Fault → Option (Nat × Nat)
  | .range _ n k _ _ _ | .reciprocated n k _ _ _ | .selfReferential n k _ _ | .weights _ n k | .noPartner _ n k => some (n, k)
  | _ => none

/-- The name of a method or an index: without blanks, colons or digits. -/
def PlainName (m : Text.Str) : Prop := ∀ c ∈ m, c ≠ ' ' ∧ c ≠ ':' ∧ c.isDigit = false

/-- The names in a message are plain. -/
def PlainNames : Fault → Prop
  | .node m _ _ | .nodes m _ _ _ | .insertion m _ _ _ | .oddLoops m _ | .weights m _ _ | .noPartner m _ _ => PlainName m
  | .range m _ _ name _ _ => PlainName m ∧ PlainName name
  | .reciprocated _ _ name _ _ => PlainName name
  | _ => True

end Verif.Spec.GraphErrors
