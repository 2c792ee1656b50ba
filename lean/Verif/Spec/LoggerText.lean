import Verif.Model.LoggerText
/- What the messages of a logger should be. -/
namespace Verif.Spec.LoggerText
open Verif.Text Verif.Logger Verif.LoggerText

/-- What happens within a check: nothing more, something and then more, or another check, nested within, and then more. -/
inductive Body where
  | done
  | item (i : Item) (rest : Body)
  | nested (message : Str) (inner rest : Body)

/-- What a logger sees of it. -/
def Body.events : Body → List TEvent
  | .done => []
  | .item i r => .item i :: r.events
  | .nested m i r => .enter m :: (i.events ++ .leave :: r.events)

/-- What a logger sees of a check at the top level, given its description and what happens within. -/
def checkEvents (m : Str) (b : Body) : List TEvent := .enter m :: (b.events ++ [.leave])

/-- One text below another. -/
def join (a b : Str) : Str := if a = [] then b else if b = [] then a else a ++ ['\n'] ++ b

/-- Put a description above the first report, if there is one. -/
def above (m : Str) : List (Bool × Str) → List (Bool × Str)
  | [] => []
  | (c, t) :: l => (c, join m t) :: l

/-- Two spaces for each level. -/
def spaces (k : Nat) : Str := List.replicate (2 * k) ' '

/-- The reports of failures, each with whether it is critical: a failure is reported at the indentation of the check it belongs to, and the
description of a check is put above the first report from within; checks without description do not count as levels.  `k` is the number of
descriptions around. -/
def reports : Nat → Body → List (Bool × Str)
  | _, .done => []
  | k, .item (.failure m) r => (false, indent m (spaces (k - 1))) :: reports k r
  | k, .item (.performanceFailure m) r => (false, indent m (spaces (k - 1))) :: reports k r
  | k, .item (.critical m) r => (true, indent m (spaces (k - 1))) :: reports k r
  | k, .item _ r => reports k r
  | k, .nested m i r => above (indent m (spaces k)) (reports (if m = [] then k else k + 1) i) ++ reports k r

/-- The messages of exceptions. -/
def exceptions : Body → List Str
  | .done => []
  | .item (.caught m) r => m :: exceptions r
  | .item _ r => exceptions r
  | .nested _ i r => exceptions i ++ exceptions r

/-- Each ends with a line break. -/
def unclosed (rs : List (Bool × Str)) : List Str := rs.map fun r => endBlock r.2 1 []

/-- And the last with an empty line and a footer. -/
def closed : List (Bool × Str) → List Str
  | [] => []
  | [r] => [endBlock (endBlock r.2 1 []) 2 footer]
  | r :: s :: l => endBlock r.2 1 [] :: closed (s :: l)

/-- What a check with description `m` adds to the report of failures.  A false-negative check should fail: only what is critical is
reported, or that nothing failed. -/
def newMessages (mode : Mode) (m : Str) (rs : List (Bool × Str)) : List Str :=
  if mode = .falseNegative then
    if rs = [] then [verdict m] else closed (rs.filter (·.1))
  else closed rs

/-- What it adds to the diagnostics. -/
def newDiagnostics (mode : Mode) (m : Str) (rs : List (Bool × Str)) : List Str :=
  match mode with
  | .standard => []
  | .falseNegative => if rs.any (·.1) then unclosed (rs.filter (!·.1)) else closed rs
  | .falsePositive => if rs = [] then [verdict m] else []

/-- No check is going on. -/
def Idle (s : TState) : Prop := s.core.sentinels = [] ∧ s.levels = []

end Verif.Spec.LoggerText
