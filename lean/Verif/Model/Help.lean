import Verif.Model.CommandLine
import Verif.Model.RunReport
/-
The texts of `argument_parser`: help, and the messages of its exceptions; /repo/Source/sequoia/Parsing/CommandLineArguments.cpp.

The options are given as graphs, as in the code; `Verif.Model.CommandLine` has them as trees.
-/
namespace Verif.Help
open Verif.Graph Verif.Text
open Verif.Cmd (Opt)

/-- `options_tree`, CommandLineArguments.hpp:106. -/
abbrev OptGraph := G Opt (Edge Unit Unit)

/-- `nodeEarly` without the change of the indentation, CommandLineArguments.cpp:266-287: the help text, with what is said about an option added to it. -/
def describe (wt : Opt) (ind help : Str) : Str :=
  let help := help ++ indent wt.name ind
  let help := if wt.aliases.isEmpty then help else help ++ " | ".toList ++ (wt.aliases.flatMap fun a => a ++ [' ']) ++ ['|']
  let help := help ++ wt.params.flatMap fun p => [' '] ++ p ++ [',']
  let help := if help.getLast? = some ',' then help.dropLast else help
  help ++ ['\n']

/-- `nodeEarly`, CommandLineArguments.cpp:264-290; the state is `ind` and `help`. -/
def helpNode (nodes : List Opt) (st : Str × Str) (n : Nat) : Res (Str × Str) :=
  match nodes[n]? with
  | none => .ub
  | some wt => .ok (st.1 ++ [' ', ' '], describe wt st.1 st.2)

/-- The calls of `nodeEarly` and `nodeLate` in the traversal, CommandLineArguments.cpp:292-294. -/
def helpEvents (nodes : List Opt) : List Graph.Event → Str × Str → Res (Str × Str)
  | [], st => .ok st
  | .before n :: es, st => (helpNode nodes st n).bind (helpEvents nodes es)
  | .after _ :: es, st => helpEvents nodes es (RunReport.trim st.1 2, st.2)
  | _ :: es, st => helpEvents nodes es st

/-- The loop of `generate_help`, CommandLineArguments.cpp:259-295, over trees and the nodes at which they begin. -/
def helpLoop : List (OptGraph × Nat) → Str × Str → Res (Str × Str)
  | [], st => .ok st
  | t :: ts, st =>
    (traverseDfs false t.1.edges t.2 (t.1.edges.length + 1)).bind fun
      | some events => (helpEvents t.1.nodes events st).bind (helpLoop ts)
      | none => .ub

/-- `generate_help`, CommandLineArguments.cpp:253-298. -/
def generateHelp (options : List (OptGraph × Nat)) : Res Str := (helpLoop options ([], [])).bind fun st => .ok st.2

/-- `make` for one message, CommandLineArguments.cpp:23-26. -/
def makeOne (type message ind : Str) : Str := ind ++ type ++ ": ".toList ++ message

/-- The loop of `make` for several messages, CommandLineArguments.cpp:37-40. -/
def makeMore (type ind : Str) : List Str → Str → Str
  | [], mess => mess
  | m :: ms, mess => makeMore type ind ms (appendIndented mess m (ind ++ List.replicate (type.length + 2) ' '))

/-- `make` for several messages, CommandLineArguments.cpp:28-46. -/
def makeAll (type : Str) (messages : List Str) (ind : Str) : Str :=
  match messages with
  | [] => []
  | m :: ms => makeMore type ind ms (makeOne type m ind) ++ ['\n', '\n']

/-- `pluralize`, CommandLineArguments.cpp:74-79. -/
def pluralize (n : Nat) (noun pre : Str) : Str :=
  let s := pre ++ noun
  if n = 1 then s else s ++ ['s']

/-- The loop over the parameters, CommandLineArguments.cpp:174-178. -/
def listParams : List Str → Str → Str
  | [], mess => mess
  | p :: ps, mess => listParams ps (if 1 < (p :: ps).length then mess ++ p ++ ", ".toList else mess ++ p)

/-- The message if there are too few arguments, CommandLineArguments.cpp:164-183; `digits` is `std::to_string`. -/
def missingMessage (digits : Nat → Str) (opt : Opt) (actual : Nat) : Str :=
  let expected := opt.params.length
  let mess := "while parsing option \"".toList ++ opt.name ++ "\": expected ".toList ++ digits expected ++ pluralize expected "argument".toList [' '] ++ ", [".toList
  let mess := listParams opt.params mess
  let mess := mess ++ "], but found ".toList ++ digits actual ++ pluralize actual "argument".toList [' ']
  makeOne "Error".toList mess "  ".toList

/-- The message for an unknown option, CommandLineArguments.cpp:122. -/
def unrecognizedMessage (arg : Str) : Str := makeOne "Error".toList ("unrecognized option '".toList ++ arg ++ ['\'']) "  ".toList

end Verif.Help
