/-
Model of /repo/Source/sequoia/Runtime/ShellCommands.hpp and ShellCommands.cpp.  A command is its text.  Running a command is not modelled.
-/
namespace Verif.Shell

/-- `shell_command`, ShellCommands.hpp:19-64. -/
abbrev Command := List Char

/-- `operator&&`, ShellCommands.hpp:45-51. -/
def and (lhs rhs : Command) : Command :=
  if rhs.isEmpty then lhs else if lhs.isEmpty then rhs else lhs ++ "&&".toList ++ rhs

/-- `std::isdigit`, in the "C" locale. -/
def isDigit (c : Char) : Bool := '0' ≤ c && c ≤ '9'

/-- The constructor with an output file, ShellCommands.cpp:20-32. -/
def redirected (cmd output : List Char) (append : Bool) : Command :=
  if output.isEmpty then cmd
  else
    let spaced := match cmd.getLast? with
      | some c => if isDigit c then cmd ++ [' '] else cmd
      | none => cmd
    spaced ++ (if append then ">> ".toList else "> ".toList) ++ output ++ " 2>&1".toList

/-- The preamble in the constructor, ShellCommands.cpp:36-49, for compilers other than that of Microsoft. -/
def preambleCmd (preamble output : List Char) (append : Bool) : Command :=
  if preamble.isEmpty then []
  else and (and (redirected "echo".toList output append) (redirected ("echo ".toList ++ preamble) output true)) (redirected "echo".toList output true)

/-- The constructor with a preamble and an output file, ShellCommands.cpp:34-52. -/
def withPreamble (preamble cmd output : List Char) (append : Bool) : Command :=
  let pre := preambleCmd preamble output append
  and pre (redirected cmd output (if pre.isEmpty then append else true))

end Verif.Shell
