import Verif.Model.Recovery
import Verif.Spec.LoggerText
/- What the files should hold. -/
namespace Verif.Spec.Recovery
open Verif.Text Verif.LoggerText Verif.Spec.LoggerText

/-- The critical failures. -/
def criticals (es : List TEvent) : List Str := es.filterMap fun e => match e with | .item (.critical m) => some m | _ => none

/-- The descriptions of the checks which have begun. -/
def begun (es : List TEvent) : List Str := es.filterMap fun e => match e with | .enter m => some m | _ => none

/-- The record of a check with its critical failures, so far. -/
def ongoing (m : Str) (cs : List Str) : Str :=
  "Check started:\n".toList ++ m ++ ['\n'] ++ cs.flatMap fun c => "\nCritical Failure:\n".toList ++ c ++ ['\n']

/-- The record of a check which is over. -/
def over (m : Str) (cs : List Str) : Str := if cs = [] then ongoing m cs ++ "Check ended\n".toList else ongoing m cs

/-- One line for each description. -/
def linesOf (ms : List Str) : Str := ms.flatMap fun m => m ++ ['\n']

/-- The checks which are over, each followed by two line breaks. -/
def dumped (cs : List (Str × Body)) : Str := cs.flatMap fun c => linesOf (begun (checkEvents c.1 c.2)) ++ ['\n', '\n']

/-- All tests, each with its mode and its checks. -/
def dumpedTests (ts : List (Verif.Logger.Mode × List (Str × Body))) : Str := ts.flatMap fun t => dumped t.2

/-- The text is found at the end. -/
def EndsWith (text : Str) (s : Str) : Prop := ∃ r, s = r ++ text

/-- What a logger sees of some checks. -/
def eventsOf (cs : List (Str × Body)) : List TEvent := cs.flatMap fun c => checkEvents c.1 c.2

end Verif.Spec.Recovery
