import Verif.Model.Help
import Verif.Spec.CommandLine
import Verif.Spec.Tree
/- What help should say: one line for each option, with its aliases and parameters, options within options being indented. -/
namespace Verif.Spec.Help
open Verif.Graph Verif.Text Verif.Help
open Verif.Cmd (Opt OptTree)

/-- The graph has the given tree of options from the given node on. -/
inductive Holds (g : OptGraph) : Nat → OptTree → Prop
  | node {n : Nat} {o : Opt} {l : List (Edge Unit Unit)} {cs : List OptTree} : g.nodes[n]? = some o → g.edges[n]? = some l → l.length = cs.length →
      (∀ (i : Nat) (e : Edge Unit Unit) (c : OptTree), l[i]? = some e → cs[i]? = some c → Holds g e.target c) → Holds g n (.node o cs)

/-- The options of a tree, in order, and how deep they are nested. -/
inductive Entries : Nat → List OptTree → List (Nat × Opt) → Prop
  | nil {depth : Nat} : Entries depth [] []
  | cons {depth : Nat} {o : Opt} {cs ts : List OptTree} {inner rest : List (Nat × Opt)} : Entries (depth + 1) cs inner → Entries depth ts rest →
      Entries depth (.node o cs :: ts) ((depth, o) :: inner ++ rest)

/-- Between bars, if there are any. -/
def aliasText (o : Opt) : Str := if o.aliases = [] then [] else " | ".toList ++ (o.aliases.map (· ++ [' '])).flatten ++ ['|']

/-- The line for an option: for instance `name | -n | first, second`. -/
def line (depth : Nat) (o : Opt) : Str :=
  List.replicate (2 * depth) ' ' ++ o.name ++ aliasText o ++ List.intercalate [','] (o.params.map (' ' :: ·))

/-- All lines. -/
def text (entries : List (Nat × Opt)) : Str := (entries.map fun e => line e.1 e.2 ++ ['\n']).flatten

/-- Names are single lines, and do not end with a comma if there is nothing after them. -/
def Printable (o : Opt) : Prop := o.name ≠ [] ∧ '\n' ∉ o.name ∧ (o.aliases = [] → o.params = [] → o.name.getLast? ≠ some ',')

/-- Names and aliases are words, aliases do not begin with a bar, and parameters are described without commas. -/
def Plain (o : Opt) : Prop :=
  Printable o ∧ ' ' ∉ o.name ∧ (∀ a ∈ o.aliases, a ≠ [] ∧ ' ' ∉ a ∧ '\n' ∉ a ∧ a.head? ≠ some '|') ∧ ∀ p ∈ o.params, p ≠ [] ∧ ',' ∉ p ∧ '\n' ∉ p ∧ p.head? ≠ some '|'

/-- A tree, as a graph of options, with one of its nodes. -/
def Tree (p : OptGraph × Nat) : Prop :=
  p.1.nodes.length = p.1.edges.length ∧ (∀ o ∈ p.1.nodes, Printable o) ∧ (∃ par, Verif.Spec.TreeOf .forward p.1.edges 0 par) ∧ p.2 < p.1.edges.length

/-- What the user is to know about options: everything except for what is invoked. -/
inductive Alike : List OptTree → List OptTree → Prop
  | nil : Alike [] []
  | cons {o o' : Opt} {cs cs' ts ts' : List OptTree} : o.name = o'.name → o.aliases = o'.aliases → o.params = o'.params → Alike cs cs' → Alike ts ts' →
      Alike (.node o cs :: ts) (.node o' cs' :: ts')

/-- Options, each within the one before and with its arguments; and the options within the last of them. -/
inductive Inside : List OptTree → List Str → List OptTree → Prop
  | here {opts : List OptTree} : Inside opts [] opts
  | deeper {opts inner : List OptTree} {word : Str} {t : OptTree} {args rest : List Str} : word ≠ [] → Verif.Spec.Names opts word t → args.length = t.opt.params.length →
      Inside t.children rest inner → Inside opts (word :: args ++ rest) inner

end Verif.Spec.Help
