import Verif.Model.Basic
/-
Model of /repo/Source/sequoia/Parsing/CommandLineArguments.hpp and CommandLineArguments.cpp: `argument_parser` and
`parse_invoke_depth_first`.

Strings are lists of characters.  The function objects `early` and `late` are represented by numbers.  The help message is represented by
the forest from which it is generated; for its text, which is never empty, and for those of exceptions see `Verif.Model.Help`.
-/
namespace Verif.Cmd

abbrev Str := List Char

/-- `option`, CommandLineArguments.hpp:79-86. -/
structure Opt where
  name : Str
  aliases : List Str := []
  params : List Str := []
  early : Option Nat := none
  late : Option Nat := none
  deriving DecidableEq, Repr

/-- A tree of options, `options_tree`, CommandLineArguments.hpp:106. -/
inductive OptTree where
  | node (o : Opt) (cs : List OptTree)

/-- `root_weight`. -/
def OptTree.opt : OptTree → Opt
  | .node o _ => o

/-- The trees below the root, which `forest_from_tree_iterator` runs over. -/
def OptTree.children : OptTree → List OptTree
  | .node _ cs => cs

/-- Whether the option has a function object, CommandLineArguments.cpp:194 and 205. -/
def OptTree.bound (t : OptTree) : Bool := t.opt.early.isSome || t.opt.late.isSome

/-- A node of a tree of operations, CommandLineArguments.hpp:99-104, and the node to which it was added. -/
structure Op where
  parent : Option Nat
  early : Option Nat
  late : Option Nat
  args : List Str
  deriving DecidableEq, Repr

/-- `m_Operations`, each tree being the list of its nodes in the order in which they were added, and `m_Help`, represented by the
forest from which the text is generated. -/
structure St where
  ops : List (List Op)
  help : Option (List OptTree)

/-- Change `m_Operations.back()`. -/
def modLast (f : List Op → List Op) : List (List Op) → List (List Op)
  | [] => []
  | [x] => [f x]
  | x :: y :: r => x :: modLast f (y :: r)

/-- `is_alias`, CommandLineArguments.cpp:247-251. -/
def isAlias (t : OptTree) (s : Str) : Bool := decide (s ∈ t.opt.aliases)

/-- The search for an option, CommandLineArguments.cpp:104-108. -/
def findOption (opts : List OptTree) (a : Str) : Option OptTree := opts.find? fun t => decide (t.opt.name = a) || isAlias t a

/-- `operation_data`: `oper_tree`, which is null or a node of `m_Operations.back()`, and `saturated_args`,
CommandLineArguments.hpp:189-193. -/
abbrev Data := Nat × Nat

/-- `process_option`, CommandLineArguments.cpp:190-218. -/
def processOption (t : OptTree) (data : Option Data) (top : Bool) (ops : List (List Op)) : Res (Data × List (List Op)) :=
  if top then
    if t.bound then .ok ((0, 0), ops ++ [[⟨none, t.opt.early, t.opt.late, []⟩]]) else .throws
  else
    match ops.getLast?, data with
    | some N, some d =>
      if t.bound then .ok ((N.length, 0), modLast (· ++ [⟨some d.1, t.opt.early, t.opt.late, []⟩]) ops)
      else
        match N[d.1]? with
        | some op => .ok ((d.1, op.args.length), ops)
        | none => .ub
    | _, _ => .throws

/-- The loop of `process_concatenated_aliases`, CommandLineArguments.cpp:227-243. -/
def concatLoop (opts : List OptTree) (data : Option Data) (top : Bool) : List Char → List (List Op) → Res (Bool × List (List Op))
  | [], ops => .ok (true, ops)
  | c :: cs, ops =>
    if c ≠ '-' then
      match opts.find? (isAlias · ['-', c]) with
      | none => .ok (false, ops)
      | some t => (processOption t data top ops).bind fun r => concatLoop opts data top cs r.2
    else concatLoop opts data top cs ops

/-- `process_concatenated_aliases`, CommandLineArguments.cpp:220-244. -/
def processConcat (opts : List OptTree) (a : Str) (data : Option Data) (top : Bool) (ops : List (List Op)) : Res (Bool × List (List Op)) :=
  if a.length < 2 ∨ (a[0]? = some '-' ∧ (a[1]? = some ' ' ∨ a[1]? = some '-')) then .ok (false, ops)
  else concatLoop opts data top a.tail ops

/-- `root_weight(currentOperationData.oper_tree).arguments.size()`. -/
def argCount (st : St) (d : Data) : Option Nat := st.ops.getLast?.bind fun N => N[d.1]?.map fun op => op.args.length

/-- `m_Index` is represented by the list of the arguments which have not been read. -/
abbrev Rec := List OptTree → Option Data → Bool → Option OptTree → Option Data → St → List Str → Res (St × List Str)

/-- The recursive call of `parse`, CommandLineArguments.cpp:95 and 150-153. -/
def enter (rec : Rec) (opts : List OptTree) (d : Data) (st : St) (as : List Str) : Res (St × List Str) :=
  if st.help.isSome ∨ opts.isEmpty then .ok (st, as) else rec opts (some d) false none (some d) st as

/-- The end of the body of the loop of `parse`, CommandLineArguments.cpp:141-157. -/
def complete (rec : Rec) (opts : List OptTree) (prev : Option Data) (top : Bool) (t : OptTree) (d : Data) (st : St) (as : List Str) :
    Res (St × List Str) :=
  match argCount st d with
  | none => .ub
  | some n =>
    if n = t.opt.params.length + d.2 then
      (enter rec t.children d st as).bind fun r => rec opts prev top none prev r.1 r.2
    else rec opts prev top (some t) (some d) st as

/-- The body of the loop of `parse` for the argument `a`, CommandLineArguments.cpp:101-158. -/
def body (rec : Rec) (opts : List OptTree) (prev : Option Data) (top : Bool) (cur : Option OptTree) (data : Option Data) (st : St)
    (a : Str) (as : List Str) : Res (St × List Str) :=
  match data, cur with
  | some d, some t =>
    match argCount st d with
    | none => .ub
    | some n =>
      complete rec opts prev top t d
        (if n < t.opt.params.length + d.2 then
          { st with ops := modLast (fun N => N.modify d.1 fun op => { op with args := op.args ++ [a] }) st.ops } else st) as
  | _, _ =>
    if a = [] then rec opts prev top cur data st as
    else
      match findOption opts a with
      | none =>
        if a = "--help".toList then .ok ({ st with help := some opts }, as)
        else (processConcat opts a data top st.ops).bind fun r =>
          if r.1 then rec opts prev top cur data { st with ops := r.2 } as
          else if top then .throws
          else .ok ({ st with ops := r.2 }, a :: as)
      | some t => (processOption t data top st.ops).bind fun r => complete rec opts prev top t r.1 { st with ops := r.2 } as

/-- What is done when all arguments have been read, CommandLineArguments.cpp:160-187. -/
def final (cur : Option OptTree) (data : Option Data) (st : St) : Res (St × List Str) :=
  match cur with
  | none => .ok (st, [])
  | some t =>
    if st.ops.isEmpty then .ok (st, [])
    else
      match data with
      | none => .ub
      | some d =>
        match argCount st d with
        | none => .ub
        | some n => if n ≠ t.opt.params.length then .throws else .ok (st, [])

/-- The loop of `parse`, CommandLineArguments.cpp:97-187; it consumes an argument each time, so that their number is enough fuel. -/
def loop : Nat → Rec
  | _, _, _, _, cur, data, st, [] => final cur data st
  | 0, _, _, _, _, _, _, _ :: _ => .ub
  | f + 1, opts, prev, top, cur, data, st, a :: as => body (loop f) opts prev top cur data st a as

/-- The constructor of `argument_parser`, CommandLineArguments.cpp:81-90 and 92-95; `args` are the arguments after the zeroth. -/
def parse (opts : List OptTree) (args : List Str) : Res St :=
  if opts.isEmpty then .ok ⟨[], none⟩ else (loop args.length opts none true none none ⟨[], none⟩ args).bind fun r => .ok r.1

/-- The nodes which were added to node `p`. -/
def kidsOf (N : List Op) (p : Nat) : List Nat := (List.range N.length).filter fun q => decide ((N[q]?.bind fun op => op.parent) = some p)

/-- A depth first traversal of a tree of operations which invokes `early` when it comes to a node and `late` when it
leaves it, CommandLineArguments.hpp:155-166; see Props/Traversal for `traverse`.  The result lists the invocations: which function object and
with which arguments. -/
def visit : Nat → List Op → Nat → List (Nat × List Str)
  | 0, _, _ => []
  | f + 1, N, p =>
    match N[p]? with
    | none => []
    | some op =>
      (match op.early with | some e => [(e, op.args)] | none => []) ++ (kidsOf N p).flatMap (visit f N) ++
      (match op.late with | some l => [(l, op.args)] | none => [])

/-- `parse_invoke_depth_first`, CommandLineArguments.hpp:144-172; the result is whether there is a help text, and the list of invocations. -/
def parseInvoke (opts : List OptTree) (args : List Str) : Res (Option (List OptTree) × List (Nat × List Str)) :=
  (parse opts args).bind fun st =>
    if st.help.isSome then .ok (st.help, []) else .ok (none, st.ops.flatMap fun N => visit N.length N 0)

end Verif.Cmd
