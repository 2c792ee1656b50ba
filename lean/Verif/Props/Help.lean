import Verif.Lemmas.Help
import Verif.Props.CommandLine
set_option linter.unusedSimpArgs false
/-
Properties of help on the command line, and of messages about it, C103.
-/
namespace Verif.Props
open Verif.Graph Verif.Text Verif.Help Verif.Spec Verif.Spec.Help
open Verif.Cmd (Opt OptTree parseInvoke)

/-- **C103** Help has a line for every option: in order, options within options being indented, with the name, all aliases and all parameters. -/
theorem C103_help {gs : List (OptGraph × Nat)} {ts : List OptTree} (hg : ∀ p ∈ gs, Tree p) (h : List.Forall₂ (fun p t => Holds p.1 p.2 t) gs ts) :
    ∃ es, Entries 0 ts es ∧ generateHelp gs = .ok (text es) := by
  obtain ⟨es, h1, h2⟩ := helpLoop_ok hg h []
  refine ⟨es, h1, ?_⟩
  unfold generateHelp
  rw [h2]
  simp [Res.bind]

/-- **C103** Nothing is lost: if options are described by words then options with the same help have the same names, aliases and parameters, and are nested in the same way. -/
theorem C103_complete {gs gs' : List (OptGraph × Nat)} {ts ts' : List OptTree} (hg : ∀ p ∈ gs, Tree p) (h : List.Forall₂ (fun p t => Holds p.1 p.2 t) gs ts)
    (hg' : ∀ p ∈ gs', Tree p) (h' : List.Forall₂ (fun p t => Holds p.1 p.2 t) gs' ts') (hp : ∀ p ∈ gs, ∀ o ∈ p.1.nodes, Plain o) (hp' : ∀ p ∈ gs', ∀ o ∈ p.1.nodes, Plain o)
    (he : generateHelp gs = generateHelp gs') : Alike ts ts' := by
  obtain ⟨es, h1, h2⟩ := C103_help hg h
  obtain ⟨es', h1', h2'⟩ := C103_help hg' h'
  rw [h2, h2'] at he
  have ht : text es = text es' := by injection he
  have := text_unique (entries_plain h hp h1) (entries_plain h' hp' h1') ht
  exact (alike_of_entries es (r := []) (r' := []) (List.append_nil _).symm (List.append_nil _).symm h1 h1' (by simp) (by simp) this).1

/-- **C103** Help is never empty, unless there are no options; so that it is noticed that help has been asked for. -/
theorem C103_something {gs : List (OptGraph × Nat)} {ts : List OptTree} (hg : ∀ p ∈ gs, Tree p) (h : List.Forall₂ (fun p t => Holds p.1 p.2 t) gs ts) (hne : ts ≠ []) {s : Str}
    (hs : generateHelp gs = .ok s) : s ≠ [] := by
  obtain ⟨es, h1, h2⟩ := C103_help hg h
  rw [hs] at h2
  cases h2
  cases h1 with
  | nil => exact absurd rfl hne
  | cons _ _ => simp [text]

/-- **C103** If help is asked for after options, each within the one before and with its arguments, then it is about the options within the last of them, and nothing is invoked. -/
theorem C103_asked {opts inner : List OptTree} {words : List Str} (h : Inside opts words inner) (hne : inner ≠ []) (hu : Unknown inner "--help".toList) (hb : ∀ t ∈ opts, t.bound = true)
    {gs : List (OptGraph × Nat)} (hg : ∀ p ∈ gs, Tree p) (hh : List.Forall₂ (fun p t => Holds p.1 p.2 t) gs inner) :
    ∃ es, Entries 0 inner es ∧ parseInvoke opts (words ++ ["--help".toList]) = .ok (some inner, []) ∧ generateHelp gs = .ok (text es) := by
  obtain ⟨es, h1, h2⟩ := C103_help hg hh
  exact ⟨es, h1, asked_top h hne hu hb, h2⟩

/-- **C103** Several messages: the first comes after the kind of message, and the others begin in the same column, each on a line of its own; there is an empty line at the end. -/
theorem C103_messages (type ind : Str) {m : Str} {ms : List Str} (h : ∀ m ∈ ms, m ≠ [] ∧ '\n' ∉ m) :
    ∃ first others : Str, first = ind ++ type ++ ": ".toList ∧ others.length = first.length ∧ (∃ n, others = ind ++ List.replicate n ' ') ∧
      makeAll type (m :: ms) ind = first ++ m ++ (ms.map fun m => '\n' :: others ++ m).flatten ++ "\n\n".toList := by
  refine ⟨_, ind ++ List.replicate (type.length + 2) ' ', rfl, by simp, ⟨_, rfl⟩, ?_⟩
  unfold makeAll
  dsimp only
  rw [makeMore_lines type ind ms _ (by simp [makeOne]) h]
  simp [makeOne]

/-- **C103** If arguments are missing then it is said for which option, which parameters it has, and how many arguments have been found; in the singular if there is one. -/
theorem C103_missing (digits : Nat → Str) (opt : Opt) (actual : Nat) :
    missingMessage digits opt actual = "  Error: while parsing option \"".toList ++ opt.name ++ "\": expected ".toList ++ digits opt.params.length ++
      (if opt.params.length = 1 then " argument, [".toList else " arguments, [".toList) ++ List.intercalate ", ".toList opt.params ++ "], but found ".toList ++ digits actual ++
      (if actual = 1 then " argument".toList else " arguments".toList) := by
  unfold missingMessage makeOne
  dsimp only
  rw [listParams_spec]
  unfold pluralize
  split <;> split <;> simp

/-- **C103** If an argument is not recognized then it is quoted. -/
theorem C103_unrecognized (arg : Str) : unrecognizedMessage arg = "  Error: unrecognized option '".toList ++ arg ++ "'".toList := by
  unfold unrecognizedMessage makeOne
  simp

/-! ### An example, and a violation -/

/-- An option `create`, with the alias `-c` and two parameters, within which there is an option `--namespace`. -/
def someOptions : OptGraph :=
  ⟨[⟨"create".toList, ["-c".toList], ["class".toList, "where".toList], some 0, none⟩, ⟨"--namespace".toList, [], ["name".toList], some 1, none⟩], [[⟨1, (), ()⟩], []]⟩

/-- The same as a tree. -/
def someTree : OptTree := .node ⟨"create".toList, ["-c".toList], ["class".toList, "where".toList], some 0, none⟩ [.node ⟨"--namespace".toList, [], ["name".toList], some 1, none⟩ []]

example : Tree (someOptions, 0) ∧ Tree (someOptions, 1) ∧ Holds someOptions 0 someTree ∧ (∀ o ∈ someOptions.nodes, Plain o) ∧
    generateHelp [(someOptions, 0)] = .ok "create | -c | class, where\n  --namespace name\n".toList ∧ generateHelp [(someOptions, 1)] = .ok "--namespace name\n".toList := by
  have hp : ∀ o ∈ someOptions.nodes, Plain o := by unfold Plain Printable; decide
  have ht : ∃ par, TreeOf .forward someOptions.edges 0 par := by
    refine ⟨fun _ => 0, by decide, by decide, ?_, by unfold InRange; decide, by decide⟩
    intro x hx
    match x, hx with
    | 0, _ => exact .self
    | 1, _ => exact .up (by omega) .self
  refine ⟨⟨rfl, fun o ho => (hp o ho).1, ht, by decide⟩, ⟨rfl, fun o ho => (hp o ho).1, ht, by decide⟩, ?_, hp, by decide +kernel, by decide +kernel⟩
  refine .node rfl rfl rfl ?_
  intro i e c he hc
  match i with
  | 0 =>
    cases he; cases hc
    exact .node rfl rfl rfl (by simp)
  | i + 1 => simp at he

example : Inside [someTree] ["-c".toList, "foo".toList, "bar".toList] someTree.children ∧ Unknown someTree.children "--help".toList ∧ someTree.bound = true ∧
    parseInvoke [someTree] ["-c".toList, "foo".toList, "bar".toList, "--help".toList] = .ok (some someTree.children, []) := by
  refine ⟨.deeper (t := someTree) (args := ["foo".toList, "bar".toList]) (rest := []) (by decide) (by rfl) rfl .here, ?_, rfl, rfl⟩
  intro t ht
  simp only [someTree, OptTree.children, List.mem_cons, List.not_mem_nil, or_false] at ht
  subst ht
  decide

example : makeAll "Warning".toList ["first".toList, "second".toList] [] = "Warning: first\n         second\n\n".toList := by decide +kernel

/-- **C103 (violated)** A comma at the end of the name of an option is taken to be one after a parameter. -/
theorem C103_comma_violated : ∃ g : OptGraph, g.nodes.map (·.name) = ["list,".toList] ∧ generateHelp [(g, 0)] = .ok "list\n".toList :=
  ⟨⟨[⟨"list,".toList, [], [], some 0, none⟩], [[]]⟩, rfl, by decide +kernel⟩

/-- **C103 (violated)** Help has been asked for, but what comes after it is still parsed, without going into options: a command line which is accepted by itself is refused after it. -/
theorem C103_after_violated : ∃ opts : List OptTree, ∃ help rest : List Str, parseInvoke opts help = .ok (some [.node ⟨"b".toList, [], [], some 1, none⟩ []], []) ∧
    parseInvoke opts rest = .ok (none, [(0, []), (1, [])]) ∧ parseInvoke opts (help ++ rest) = .throws :=
  ⟨[.node ⟨"a".toList, [], [], some 0, none⟩ [.node ⟨"b".toList, [], [], some 1, none⟩ []]], ["a".toList, "--help".toList], ["a".toList, "b".toList], by rfl, by rfl, by rfl⟩

end Verif.Props
