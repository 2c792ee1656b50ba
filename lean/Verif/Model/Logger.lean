import Verif.Model.Basic
/-
Model of the accounting of /repo/Source/sequoia/TestFramework/TestLogger.hpp and TestLogger.cpp: the sentinels, the results and the summaries.

A message is represented by the index of the top-level check to which it is attributed; its text is not modelled, and neither are the recovery files (for these see
`Verif.Model.PruneFiles`).  Counters are natural numbers; subtraction on `std::size_t` is modelled with its wrap-around.
-/
namespace Verif.Logger

/-- `test_mode`, TestMode.hpp. -/
inductive Mode where
  | standard
  | falseNegative
  | falsePositive
  deriving DecidableEq, Repr

/-- `test_results`, TestLogger.hpp:41-58, without the information on exceptions. -/
structure Results where
  failures : Nat := 0
  topLevelFailures : Nat := 0
  performanceFailures : Nat := 0
  criticalFailures : Nat := 0
  topLevelChecks : Nat := 0
  deepChecks : Nat := 0
  performanceChecks : Nat := 0
  failureMessages : List Nat := []
  diagnostics : List Nat := []
  caught : List Nat := []
  deriving DecidableEq, Repr

/-- A sentinel: the counters stored by its constructor, TestLogger.hpp:253-256. -/
structure Sentinel where
  priorFailures : Nat
  priorCritical : Nat
  priorDeepChecks : Nat
  deriving DecidableEq, Repr

/-- A logger and the sentinels which are alive, the innermost first; since sentinels are local variables they are destroyed in the reverse order, also if an exception is
thrown. -/
structure State where
  results : Results := {}
  sentinels : List Sentinel := []
  deriving DecidableEq, Repr

/-- What happens to a logger: the construction and destruction of sentinels, and the calls of the members of a sentinel, TestLogger.hpp:204-214. -/
inductive Event where
  | enter
  | leave
  | check
  | performanceCheck
  | failure
  | performanceFailure
  | critical
  | caught
  deriving DecidableEq, Repr

/-- `output_channel` and `add_to_output`, TestLogger.cpp:244-254: the message is attributed to the current top-level check. -/
def addMessage (mode : Mode) (critical : Bool) (r : Results) : Results :=
  if mode ≠ .falseNegative ∨ critical then { r with failureMessages := r.failureMessages ++ [r.topLevelChecks] }
  else { r with diagnostics := r.diagnostics ++ [r.topLevelChecks] }

/-- `log_check`, TestLogger.hpp:128. -/
def logCheck (r : Results) : Results := { r with deepChecks := r.deepChecks + 1 }

/-- `log_performance_check`, TestLogger.hpp:132-136. -/
def logPerformanceCheck (r : Results) : Results :=
  let r := logCheck r
  { r with performanceChecks := r.performanceChecks + 1 }

/-- `log_failure`, TestLogger.hpp:140-144. -/
def logFailure (mode : Mode) (r : Results) : Results := addMessage mode false { r with failures := r.failures + 1 }

/-- `log_performance_failure`, TestLogger.hpp:146-150. -/
def logPerformanceFailure (mode : Mode) (r : Results) : Results := logFailure mode { r with performanceFailures := r.performanceFailures + 1 }

/-- `log_critical_failure`, TestLogger.cpp:183-188. -/
def logCriticalFailure (mode : Mode) (r : Results) : Results := addMessage mode true { r with criticalFailures := r.criticalFailures + 1 }

/-- `log_top_level_failure`, TestLogger.cpp:190-206. -/
def logTopLevelFailure (mode : Mode) (r : Results) : Results :=
  let r := { r with topLevelFailures := r.topLevelFailures + 1 }
  if mode = .falseNegative then { r with failureMessages := r.failureMessages ++ [r.topLevelChecks] } else r

/-- `end_message`, TestLogger.cpp:237-242: appends to the last message of the channel, so is undefined if there is none. -/
def endMessage (mode : Mode) (critical : Bool) (r : Results) : Res Unit :=
  if mode ≠ .falseNegative ∨ critical then (if r.failureMessages.isEmpty then .ub else .ok ())
  else (if r.diagnostics.isEmpty then .ub else .ok ())

/-- The constructor of a sentinel, TestLogger.cpp:81-97. -/
def enter (s : State) : State :=
  let sentinel := ⟨s.results.failures, s.results.criticalFailures, s.results.deepChecks⟩
  { results := if s.sentinels.isEmpty then { s.results with topLevelChecks := s.results.topLevelChecks + 1 } else s.results
    sentinels := sentinel :: s.sentinels }

/-- What the destructor of the outermost sentinel does to the results, TestLogger.cpp:103-141. -/
def conclude (mode : Mode) (t : Sentinel) (r : Results) : Res Results :=
  let failed := r.failures ≠ t.priorFailures
  if r.criticalFailures ≠ t.priorCritical then (endMessage mode true r).bind fun _ => .ok r
  else
    (if failed then endMessage mode false r else .ok ()).bind fun _ =>
      if (mode = .falseNegative ∧ ¬ failed) ∨ (mode ≠ .falseNegative ∧ failed) then .ok (logTopLevelFailure mode r)
      else if mode = .falsePositive then .ok { r with diagnostics := r.diagnostics ++ [r.topLevelChecks] }
      else .ok r

/-- The destructor of a sentinel, TestLogger.cpp:99-145; `decrement_depth`, 224-235, throws if there is no sentinel. -/
def leave (mode : Mode) (s : State) : Res State :=
  match s.sentinels with
  | [] => .throws
  | [t] => (conclude mode t s.results).bind fun r => .ok ⟨r, []⟩
  | _ :: rest => .ok ⟨s.results, rest⟩

/-- One event.  The members of a sentinel can only be called while there is one. -/
def step (mode : Mode) (s : State) : Event → Res State
  | .enter => .ok (enter s)
  | .leave => leave mode s
  | .check => .ok { s with results := logCheck s.results }
  | .performanceCheck => .ok { s with results := logPerformanceCheck s.results }
  | .failure => .ok { s with results := logFailure mode s.results }
  | .performanceFailure => .ok { s with results := logPerformanceFailure mode s.results }
  | .critical => .ok { s with results := logCriticalFailure mode s.results }
  | .caught => .ok { s with results := { s.results with caught := s.results.caught ++ [s.results.topLevelChecks] } }

/-- A history of events. -/
def runEvents (mode : Mode) : State → List Event → Res State
  | s, [] => .ok s
  | s, e :: es => (step mode s e).bind fun s' => runEvents mode s' es

/-- Subtraction on `std::size_t`. -/
def wsub (a b : Nat) : Nat := if b ≤ a then a - b else 2 ^ 64 + a - b

/-- `log_summary`, TestLogger.hpp:296-414; a message again is represented by a number, and the duration by a number of ticks. -/
structure Summary where
  name : String := ""
  failureMessages : List Nat := []
  diagnostics : List Nat := []
  caught : List Nat := []
  standardTopLevelChecks : Nat := 0
  standardDeepChecks : Nat := 0
  standardPerformanceChecks : Nat := 0
  falsePositiveChecks : Nat := 0
  falseNegativeChecks : Nat := 0
  falsePositivePerformanceChecks : Nat := 0
  falseNegativePerformanceChecks : Nat := 0
  standardTopLevelFailures : Nat := 0
  standardDeepFailures : Nat := 0
  standardPerformanceFailures : Nat := 0
  falsePositiveFailures : Nat := 0
  falseNegativeFailures : Nat := 0
  falsePositivePerformanceFailures : Nat := 0
  falseNegativePerformanceFailures : Nat := 0
  criticalFailures : Nat := 0
  exceptionsInFlight : Nat := 0
  duration : Int := 0
  deriving DecidableEq, Repr

/-- The constructor from a logger, TestLogger.cpp:266-299. -/
def summarize (name : String) (mode : Mode) (delta : Int) (r : Results) : Summary :=
  let base : Summary :=
    { name := name, failureMessages := r.failureMessages, diagnostics := r.diagnostics, caught := r.caught, criticalFailures := r.criticalFailures, duration := delta }
  match mode with
  | .standard =>
    { base with
      standardTopLevelFailures := wsub r.topLevelFailures r.performanceFailures
      standardDeepFailures := wsub r.failures r.performanceFailures
      standardPerformanceFailures := r.performanceFailures
      standardTopLevelChecks := wsub r.topLevelChecks r.performanceChecks
      standardDeepChecks := wsub r.deepChecks r.performanceChecks
      standardPerformanceChecks := r.performanceChecks }
  | .falsePositive =>
    { base with
      falsePositiveFailures := wsub r.topLevelFailures r.performanceFailures
      falsePositivePerformanceFailures := r.performanceFailures
      falsePositiveChecks := wsub r.topLevelChecks r.performanceChecks
      falsePositivePerformanceChecks := r.performanceChecks }
  | .falseNegative =>
    let f := wsub r.performanceChecks r.performanceFailures
    { base with
      falseNegativePerformanceFailures := f
      falseNegativeFailures := wsub r.topLevelFailures f
      falseNegativeChecks := wsub r.topLevelChecks r.performanceChecks
      falseNegativePerformanceChecks := r.performanceChecks }

/-- `soft_failures`, TestLogger.cpp:306-315. -/
def Summary.softFailures (s : Summary) : Nat :=
  s.standardTopLevelFailures + s.falseNegativeFailures + s.falsePositiveFailures + s.standardPerformanceFailures + s.falseNegativePerformanceFailures +
    s.falsePositivePerformanceFailures

/-- `operator+=` and `operator+`, TestLogger.cpp:317-355.  The sums are assumed to be less than 2 ^ 64. -/
def Summary.add (s t : Summary) : Summary :=
  { s with
    failureMessages := s.failureMessages ++ t.failureMessages
    diagnostics := s.diagnostics ++ t.diagnostics
    standardTopLevelChecks := s.standardTopLevelChecks + t.standardTopLevelChecks
    standardDeepChecks := s.standardDeepChecks + t.standardDeepChecks
    standardPerformanceChecks := s.standardPerformanceChecks + t.standardPerformanceChecks
    falsePositiveChecks := s.falsePositiveChecks + t.falsePositiveChecks
    falseNegativeChecks := s.falseNegativeChecks + t.falseNegativeChecks
    falsePositivePerformanceChecks := s.falsePositivePerformanceChecks + t.falsePositivePerformanceChecks
    falseNegativePerformanceChecks := s.falseNegativePerformanceChecks + t.falseNegativePerformanceChecks
    standardTopLevelFailures := s.standardTopLevelFailures + t.standardTopLevelFailures
    standardDeepFailures := s.standardDeepFailures + t.standardDeepFailures
    standardPerformanceFailures := s.standardPerformanceFailures + t.standardPerformanceFailures
    falsePositiveFailures := s.falsePositiveFailures + t.falsePositiveFailures
    falseNegativeFailures := s.falseNegativeFailures + t.falseNegativeFailures
    falsePositivePerformanceFailures := s.falsePositivePerformanceFailures + t.falsePositivePerformanceFailures
    falseNegativePerformanceFailures := s.falseNegativePerformanceFailures + t.falseNegativePerformanceFailures
    criticalFailures := s.criticalFailures + t.criticalFailures
    exceptionsInFlight := s.exceptionsInFlight + t.exceptionsInFlight
    duration := s.duration + t.duration }

end Verif.Logger
