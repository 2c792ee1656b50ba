import Verif.Model.LoggerText
import Verif.Model.Messages
/-
Model of the files for recovery and the dump files, which tell what was going on if the process dies: /repo/Source/sequoia/TestFramework/TestLogger.cpp, lines 33-97 and 99-145, TestRunner.cpp, lines 586-610 and
1070-1081, and FreeTestCore.hpp, lines 176-180.

The logger is that of Verif.Model.LoggerText.  Files are written character by character, so that the process may die at any point.  It is assumed that files can be opened, and that what has been written is there after the
process has died; the streams are closed, hence flushed, immediately.
-/
namespace Verif.Recovery
open Verif.Text Verif.Logger Verif.LoggerText

/-- Which of the members of `active_recovery_files` are not empty, TestLogger.hpp:35-39. -/
structure Active where
  recovery : Bool
  dump : Bool
  deriving DecidableEq, Repr

/-- `make_active_recovery_paths`, TestRunner.cpp:1070-1081: the bits of `recovery_mode` are 1 for recovery and 2 for the dump. -/
def activeFiles (mode : Nat) : Active := ⟨decide (mode &&& 1 = 1), decide (mode &&& 2 = 2)⟩

inductive File where
  | recovery
  | dump
  deriving DecidableEq, Repr

/-- The contents of the files, if they exist. -/
structure Disk where
  recovery : Option Str := none
  dump : Option Str := none
  deriving DecidableEq, Repr

/-- What is done to a file: it is opened, with or without `std::ios_base::app`, and a character is written. -/
inductive Write where
  | opened (f : File) (append : Bool)
  | put (f : File) (c : Char)
  deriving DecidableEq, Repr

def Disk.get (d : Disk) : File → Option Str
  | .recovery => d.recovery
  | .dump => d.dump

def Disk.set (d : Disk) (f : File) (s : Option Str) : Disk :=
  match f with
  | .recovery => { d with recovery := s }
  | .dump => { d with dump := s }

def Disk.write (d : Disk) : Write → Disk
  | .opened f append => d.set f (some (if append then (d.get f).getD [] else []))
  | .put f c => d.set f (some ((d.get f).getD [] ++ [c]))

def Disk.writes (d : Disk) (ws : List Write) : Disk := ws.foldl Disk.write d

/-- The text is written, if the path is not empty, as in TestLogger.cpp:33-76. -/
def record (active : Bool) (f : File) (append : Bool) (text : Str) : List Write := if active then .opened f append :: text.map (.put f) else []

/-- `record_check_started`, TestLogger.cpp:33-40. -/
def checkStarted (a : Active) (m : Str) : List Write := record a.recovery .recovery false ("Check started:\n".toList ++ m ++ ['\n'])

/-- `record_check_ended`, TestLogger.cpp:42-49. -/
def checkEnded (a : Active) : List Write := record a.recovery .recovery true "Check ended\n".toList

/-- `recored_dump_started`, TestLogger.cpp:51-58. -/
def dumpStarted (a : Active) (m : Str) : List Write := record a.dump .dump true (m ++ ['\n'])

/-- `recored_dump_ended`, TestLogger.cpp:60-67. -/
def dumpEnded (a : Active) : List Write := record a.dump .dump true ['\n', '\n']

/-- `recored_critical_failure`, TestLogger.cpp:69-76. -/
def criticalFailure (a : Active) (m : Str) : List Write := record a.recovery .recovery true ("\nCritical Failure:\n".toList ++ m ++ ['\n'])

/-- What is written by the constructor and the destructor of a sentinel, and by `log_critical_failure`, TestLogger.cpp:81-145 and 185-190. -/
def writesOf (a : Active) (s : TState) : TEvent → List Write
  | .enter m => (if s.core.sentinels = [] then checkStarted a m else []) ++ dumpStarted a m
  | .leave =>
    match s.core.sentinels with
    | [t] => (if s.core.results.criticalFailures ≠ t.priorCritical then [] else checkEnded a) ++ dumpEnded a
    | _ => []
  | .item (.critical m) => criticalFailure a m
  | .item _ => []

/-- A logger and the files. -/
structure RState where
  logger : TState := {}
  disk : Disk := {}

/-- One event. -/
def stepR (a : Active) (mode : Mode) (s : RState) (e : TEvent) : Res RState :=
  (stepT mode s.logger e).bind fun t => .ok ⟨t, s.disk.writes (writesOf a s.logger e)⟩

/-- A history. -/
def runR (a : Active) (mode : Mode) : RState → List TEvent → Res RState
  | s, [] => .ok s
  | s, e :: es => (stepR a mode s e).bind fun s' => runR a mode s' es

/-- What is on the disk if the process dies when some events have taken place and `k` of the writes of the next one. -/
def crash (a : Active) (mode : Mode) (s : RState) (es : List TEvent) (e : TEvent) (k : Nat) : Res Disk :=
  (runR a mode s es).bind fun s' => .ok (s'.disk.writes ((writesOf a s'.logger e).take k))

/-- What happens if a test throws: `basic_test::log_critical_failure`, FreeTestCore.hpp:176-180, with `num` from `std::uncaught_exceptions`. -/
def unexpected (tag : Str) (file : Messages.Path) (num : Int) (what : Str) (s : TState) : List TEvent :=
  [.enter [], .item (.critical (Messages.exceptionMessage tag file num s.lastMessage what)), .leave]

/-- Tests one after the other, each with its mode and with a logger of its own, TestRunner.hpp:404-411; the files are shared. -/
def runTests (a : Active) : Disk → List (Mode × List TEvent) → Res Disk
  | d, [] => .ok d
  | d, (mode, es) :: ts => (runR a mode ⟨{}, d⟩ es).bind fun s => runTests a s.disk ts

/-- What matters of a runner while the command line is processed: whether the directory exists, the files in it, and `m_RecoveryMode`. -/
structure Start where
  directory : Bool
  disk : Disk
  mode : Nat := 0

/-- The options `recover` and `dump`, TestRunner.cpp:589-610: `create_directory` says whether the directory has been created. -/
def option (s : Start) (f : File) : Start :=
  let disk := if s.directory then s.disk.set f none else s.disk
  ⟨true, disk, s.mode ||| match f with | .recovery => 1 | .dump => 2⟩

end Verif.Recovery
