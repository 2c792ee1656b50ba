import Verif.Model.Logger
import Verif.Model.Text
/-
The texts of /repo/Source/sequoia/TestFramework/TestLogger.cpp: which messages are put together, in which channel and how they are
closed.  The counters are those of `Verif.Model.Logger`, on which this builds; `end_block` is from
/repo/Source/sequoia/TestFramework/Output.cpp.  The recovery files are not modelled here.
-/
namespace Verif.LoggerText
open Verif.Text Verif.Logger

/-- The number of line breaks at the end of the text, which is given backwards, but no more than `n`: the first loop of `end_block`,
Output.cpp:259-263. -/
def trailing : Nat → Str → Nat
  | 0, _ => 0
  | _ + 1, [] => 0
  | n + 1, c :: t => if c ≠ '\n' then 0 else trailing n t + 1

/-- `end_block`, Output.cpp:255-272. -/
def endBlock (s : Str) (newlines : Nat) (footer : Str) : Str :=
  if s = [] then s else s ++ List.replicate (newlines - trailing (min s.length newlines) s.reverse) '\n' ++ footer

/-- `footer`, Output.cpp:243-247. -/
def footer : Str := List.replicate 39 '=' ++ ['\n']

/-- `level_message`, TestLogger.hpp:112-120. -/
structure Level where
  message : Str
  written : Bool := false
  deriving DecidableEq, Repr

/-- `failure_info`: the index of the top-level check and the text. -/
structure Info where
  index : Nat
  message : Str
  deriving DecidableEq, Repr

/-- The counters and sentinels, `m_SentinelDepth`, the outputs of `m_Results`, and the message of `exception_info`. -/
structure TState where
  core : State := {}
  levels : List Level := []
  failureMessages : List Info := []
  diagnostics : List Info := []
  caught : List Info := []
  lastMessage : Str := []
  deriving DecidableEq, Repr

/-- What may be called on a sentinel, TestLogger.hpp:208-218. -/
inductive Item where
  | check
  | performanceCheck
  | failure (message : Str)
  | performanceFailure (message : Str)
  | critical (message : Str)
  | caught (message : Str)
  deriving DecidableEq, Repr

/-- What happens to a logger. -/
inductive TEvent where
  | enter (message : Str)
  | leave
  | item (i : Item)
  deriving DecidableEq, Repr

/-- The lambda `build`, TestLogger.cpp:152-163. -/
def build (msg text ind : Str) : Str := if msg = [] then indent text ind else appendIndented msg text ind

/-- The loop over the levels in `failure_message`, TestLogger.cpp:165-177: the levels afterwards, the indentation and the message. -/
def levelsLoop : List Level → Str → Nat → Str → List Level × Str × Str
  | [], ind, _, msg => ([], ind, msg)
  | l :: ls, ind, active, msg =>
    if l.message = [] then
      let r := levelsLoop ls ind active msg
      (l :: r.1, r.2)
    else
      let ind' := if active > 0 then ind ++ [' ', ' '] else ind
      if l.written then
        let r := levelsLoop ls ind' (active + 1) msg
        (l :: r.1, r.2)
      else
        let r := levelsLoop ls ind' (active + 1) (build msg l.message ind')
        ({ l with written := true } :: r.1, r.2)

/-- `output_channel`, TestLogger.cpp:248-252: whether the output is that of failures. -/
def toMessages (mode : Mode) (critical : Bool) : Bool := decide (mode ≠ .falseNegative) || critical

/-- `failure_message`, TestLogger.cpp:149-183. -/
def failureMessage (mode : Mode) (message : Str) (critical : Bool) (s : TState) : TState :=
  let r := levelsLoop s.levels [] 0 []
  let msg := build r.2.2 message r.2.1
  let info : Info := ⟨s.core.results.topLevelChecks, endBlock msg 1 []⟩
  if toMessages mode critical then { s with levels := r.1, failureMessages := s.failureMessages ++ [info] }
  else { s with levels := r.1, diagnostics := s.diagnostics ++ [info] }

/-- `top_level_message`, TestLogger.hpp:92-95. -/
def topLevelMessage (s : TState) : Str := match s.levels with | [] => [] | l :: _ => l.message

/-- `log_caught_exception_message`, TestLogger.cpp:210-216. -/
def logCaught (message : Str) (s : TState) : TState :=
  let mess := topLevelMessage s ++ ['\n'] ++ message
  { s with caught := s.caught ++ [⟨s.core.results.topLevelChecks, endBlock mess 2 footer⟩] }

/-- Change the last entry; there must be one. -/
def modifyLast (f : Str → Str) : List Info → Res (List Info)
  | [] => .ub
  | [i] => .ok [{ i with message := f i.message }]
  | i :: j :: l => (modifyLast f (j :: l)).bind fun r => .ok (i :: r)

/-- `end_message`, TestLogger.cpp:241-246. -/
def endMessage (mode : Mode) (critical : Bool) (s : TState) : Res TState :=
  if toMessages mode critical then
    (modifyLast (fun m => endBlock m 2 footer) s.failureMessages).bind fun l => .ok { s with failureMessages := l }
  else (modifyLast (fun m => endBlock m 2 footer) s.diagnostics).bind fun l => .ok { s with diagnostics := l }

/-- The lambda `fpMessageMaker`, TestLogger.cpp:113-121. -/
def verdict (message : Str) : Str :=
  endBlock (appendIndented "False Negative Failure:".toList message []) 2 footer

/-- Append to the message of the innermost level, TestLogger.cpp:201. -/
def appendBack (message : Str) : List Level → List Level
  | [] => [⟨message, false⟩]
  | [l] => [{ l with message := l.message ++ message }]
  | l :: k :: ls => l :: appendBack message (k :: ls)

/-- `log_top_level_failure`, TestLogger.cpp:192-208, as far as texts are concerned. -/
def logTopLevelFailure (mode : Mode) (message : Str) (s : TState) : TState :=
  let s := { s with levels := appendBack message s.levels }
  if mode = .falseNegative then { s with failureMessages := s.failureMessages ++ [⟨s.core.results.topLevelChecks, message⟩] } else s

/-- What the destructor of the outermost sentinel writes, TestLogger.cpp:105-143. -/
def concludeText (mode : Mode) (t : Sentinel) (s : TState) : Res TState :=
  let failed := s.core.results.failures ≠ t.priorFailures
  if s.core.results.criticalFailures ≠ t.priorCritical then endMessage mode true s
  else
    (if failed then endMessage mode false s else .ok s).bind fun s =>
      if (mode = .falseNegative ∧ ¬ failed) ∨ (mode ≠ .falseNegative ∧ failed) then
        .ok (logTopLevelFailure mode (if mode = .falseNegative then verdict (topLevelMessage s) else []) s)
      else if mode = .falsePositive then
        .ok { s with diagnostics := s.diagnostics ++ [⟨s.core.results.topLevelChecks, verdict (topLevelMessage s)⟩] }
      else .ok s

/-- The event without its text. -/
def TEvent.forget : TEvent → Event
  | .enter _ => .enter
  | .leave => .leave
  | .item .check => .check
  | .item .performanceCheck => .performanceCheck
  | .item (.failure _) => .failure
  | .item (.performanceFailure _) => .performanceFailure
  | .item (.critical _) => .critical
  | .item (.caught _) => .caught

/-- The destructor of a sentinel, TestLogger.cpp:99-145, with `decrement_depth`, 228-239. -/
def leaveText (mode : Mode) (s : TState) : Res TState :=
  match s.core.sentinels with
  | [] => .throws
  | [t] =>
    (concludeText mode t s).bind fun s' =>
      match s'.levels with
      | [] => .throws
      | [l] => .ok { s' with levels := [], lastMessage := l.message }
      | _ => .ok { s' with levels := s'.levels.dropLast }
  | _ => if s.levels = [] then .throws else .ok { s with levels := s.levels.dropLast }

/-- What becomes of the texts in one event. -/
def stepText (mode : Mode) (s : TState) : TEvent → Res TState
  | .enter m => .ok { s with levels := s.levels ++ [⟨m, false⟩] }
  | .leave => leaveText mode s
  | .item (.failure m) => .ok (failureMessage mode m false s)
  | .item (.performanceFailure m) => .ok (failureMessage mode m false s)
  | .item (.critical m) => .ok (failureMessage mode m true s)
  | .item (.caught m) => .ok (logCaught m s)
  | .item .check => .ok s
  | .item .performanceCheck => .ok s

/-- One event: the texts are made with the counters before it, which agree with those afterwards as far as they are used. -/
def stepT (mode : Mode) (s : TState) (e : TEvent) : Res TState :=
  (stepText mode s e).bind fun s' => (step mode s.core e.forget).bind fun c => .ok { s' with core := c }

/-- A history. -/
def runT (mode : Mode) : TState → List TEvent → Res TState
  | s, [] => .ok s
  | s, e :: es => (stepT mode s e).bind fun s' => runT mode s' es

/-- `to_reduced_string`, TestLogger.cpp:20-31. -/
def reduced (infos : List Info) : Str := infos.flatMap fun i => if i.message = [] then [] else i.message ++ ['\n']

end Verif.LoggerText
