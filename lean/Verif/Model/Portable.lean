import Verif.Model.Messages
import Verif.Model.LoggerText
/-
What becomes of paths in the descriptions of checks and in the messages of exceptions, before they are written to files under version control:
/repo/Source/sequoia/TestFramework/FreeCheckers.hpp:299-360, FreeTestCore.hpp:108-112; and the messages of exceptions which are about files:
TestFramework/FileSystemUtilities.cpp:26-34, 70-89 and Streaming/Streaming.cpp:18-43.  Paths are lists of their elements; postprocessors other than the default one
are not modelled.
-/
namespace Verif.Portable
open Verif.Text Verif.Messages Verif.LoggerText

/-- `default_exception_message_postprocessor`, FreeCheckers.hpp:299-313. -/
def postprocess (root : Path) (message : Str) : Str :=
  match find message (generic root) 0 with
  | some pos => splice message pos ((generic root).length + 1) []
  | none => message

/-- `test_base::report`, FreeTestCore.hpp:108-112; the repository of tests is `Tests` within the project, ProjectPaths.cpp. -/
def report (root : Path) (message : Str) (location : Option (Path × Nat)) : Str :=
  match location with
  | some l => reportLine message (root ++ ["Tests".toList]) l.1 l.2
  | none => message

/-- What a function throws, as seen by the handlers of `check_exception_thrown`, with the message. -/
inductive Thrown where
  | nothing
  | expected (what : Str)
  | standard (what : Str)
  | other
  deriving DecidableEq, Repr

/-- What is logged within `check_exception_thrown`, FreeCheckers.hpp:335-357. -/
def logged (root : Path) : Thrown → Item
  | .nothing => .failure "No exception thrown".toList
  | .expected what => .caught (postprocess root what)
  | .standard what =>
    .failure (appendLine "Unexpected exception thrown (caught by std::exception&):".toList ['"'] ++ what ++ "\"\n".toList)
  | .other => .failure "Unknown exception thrown\n".toList

/-- `check_exception_thrown<E>`, FreeCheckers.hpp:318-358, where `type` is the name of `E`. -/
def checkThrown (root : Path) (description type : Str) (thrown : Thrown) : List TEvent :=
  [.enter (appendLine (appendLine description "Expected Exception Type:".toList) type), .item .check, .item (logged root thrown), .leave]

/-- `report_file_issue`, Streaming.cpp:18-27. -/
def fileIssue (file : Path) (description : Str) : Str :=
  "Unable to open file ".toList ++ generic file ++ (if description = [] then [] else ' ' :: description) ++ ['\n']

/-- `report_failed_read`, Streaming.cpp:30-34. -/
def failedRead (file : Path) : Str := fileIssue file " for reading".toList

/-- `report_failed_write`, Streaming.cpp:36-40; this is what `write_to_file` throws, 60-67. -/
def failedWrite (file : Path) : Str := fileIssue file " for writing".toList

/-- What `throw_if` throws, FileSystemUtilities.cpp:26-34. -/
def throwIf (p : Path) (message : Str) : Str := if p = [] then message else generic p ++ ' ' :: message

/-- What `throw_unless_exists` throws, FileSystemUtilities.cpp:70-76. -/
def notFound (p : Path) (message : Str) : Str := throwIf p (appendLine (if p = [] then "File path is empty".toList else "not found".toList) message)

/-- What `throw_unless_directory` throws, FileSystemUtilities.cpp:78-81. -/
def notDirectory (p : Path) (message : Str) : Str := throwIf p (appendLine (if p = [] then "File path is empty".toList else "is not a directory".toList) message)

/-- What `throw_unless_regular_file` throws for what exists, FileSystemUtilities.cpp:83-87. -/
def notRegular (p : Path) (message : Str) : Str := throwIf p (appendLine " is not a regular file".toList message)

/-- `path_check_preamble`, ConcreteTypeCheckers.cpp:21-25: the description of the comparison of two files. -/
def pathPreamble (what : Str) (path prediction : Path) : Str :=
  appendLine (appendLine (appendLine what (generic path)) "vs".toList) (generic prediction) ++ ['\n']

end Verif.Portable
