import Verif.Model.MachineNumbers
import Verif.Model.StringReports
/-
Checks with a comparison, and advice: /repo/Source/sequoia/TestFramework/BinaryRelationships.hpp, /repo/Source/sequoia/TestFramework/Advice.hpp and Advice.cpp, and `binary_comparison`,
/repo/Source/sequoia/TestFramework/FreeCheckers.hpp:285-297, for values of integral types.

Types are identified by width and signedness, so that `long` and `long long` are the same if they are of the same width.  An advisor is a function object with a single `operator()`, whose parameters
are of an integral type.
-/
namespace Verif.Comparisons
open Verif.MachineNumbers Verif.Messages Verif.StringReports
open Verif.Text (Str)

/-- The usual arithmetic conversions of types which have been promoted. -/
def usual : IntTy → IntTy → IntTy
  | .signed v, .signed w => .signed (max v w)
  | .unsigned v, .unsigned w => .unsigned (max v w)
  | .unsigned v, .signed w => if w ≤ v then .unsigned v else .signed w
  | .signed v, .unsigned w => if v ≤ w then .unsigned w else .signed v
  | .bool, T => T
  | T, .bool => T

/-- `std::common_type_t` of two integral types. -/
def commonType (n : Nat) (S T : IntTy) : IntTy := if S = T then S else usual (promoted n S) (promoted n T)

/-- `advisor_analyser::utilize`, Advice.hpp:69-79: whether an advisor whose parameters are of type `A` is used for values of type `T`. -/
def useAdvisor (n : Nat) (A T : IntTy) : Bool := decide (commonType n A T = A)

/-- An advisor, together with the prefix of the tutor. -/
structure Tutor where
  param : IntTy
  advice : Int → Int → Str
  leader : Str

/-- The constructors of `advice_data`, Advice.hpp:184-193: values are converted to the type of the parameters. -/
def adviceFor (n : Nat) (T : IntTy) (tutor : Option Tutor) (obtained prediction : Int) : Str × Str :=
  match tutor with
  | some a => if useAdvisor n a.param T then (a.advice (converted a.param obtained) (converted a.param prediction), a.leader) else ([], [])
  | none => ([], [])

/-- `abs` of a value of the type. -/
def absOf (T : IntTy) (x : Int) : Res Int := if x < 0 then computed T (-x) else .ok x

/-- `within_tolerance::operator()`, BinaryRelationships.hpp:68-76.  For unsigned types which are not promoted the call of `abs` is ambiguous, so that `has_abs`, BinaryRelationships.hpp:25-34, does not hold and
there is no such comparison: here there is, but nothing is claimed about it. -/
def withinTolerance (n : Nat) (T : IntTy) (tol obtained prediction : Int) : Res Bool :=
  (computed (promoted n T) (obtained - prediction)).bind fun d => (absOf (promoted n T) d).bind fun a => .ok (decide (a ≤ tol))

/-- The comparisons for which there is a reporter. -/
inductive Comparison where
  | equal | less | lessEqual | greater | greaterEqual
  | within (tol : Int)
  deriving DecidableEq

/-- The comparison of two values of a type. -/
def Comparison.holds (n : Nat) (T : IntTy) : Comparison → Int → Int → Res Bool
  | .equal, x, y => .ok (decide (x = y))
  | .less, x, y => .ok (decide (x < y))
  | .lessEqual, x, y => .ok (decide (x ≤ y))
  | .greater, x, y => .ok (decide (x > y))
  | .greaterEqual, x, y => .ok (decide (x ≥ y))
  | .within tol, x, y => withinTolerance n T tol x y

/-- `to_string` of a value: a decimal number.  Simplification: in the code truth values and characters are shown in other ways. -/
def shown (x : Int) : Str := (if x < 0 then ['-'] else []) ++ Nat.toDigits 10 x.natAbs

/-- `relational_failure_message`, BinaryRelationships.hpp:103-108. -/
def relational (symbol : Str) (x y : Int) : Str := predictionMessage (shown x) (symbol ++ [' '] ++ shown y)

/-- The specialisations of `failure_reporter`, BinaryRelationships.hpp:78-156. -/
def Comparison.reporter : Comparison → Int → Int → Str
  | .equal, x, y => appendLine "operator== returned false".toList (predictionMessage (shown x) (shown y))
  | .less, x, y => relational "<".toList x y
  | .lessEqual, x, y => relational "<=".toList x y
  | .greater, x, y => relational ">".toList x y
  | .greaterEqual, x, y => relational ">=".toList x y
  | .within tol, x, y => predictionMessage (shown x) (shown y) ++ " +/- ".toList ++ shown tol

/-- `binary_comparison`, FreeCheckers.hpp:285-297: the message, if the comparison fails. -/
def compareWith (n : Nat) (T : IntTy) (c : Comparison) (tutor : Option Tutor) (x y : Int) : Res (Option Str) :=
  (c.holds n T x y).bind fun b =>
    if b then .ok none
    else
      let a := adviceFor n T tutor x y
      .ok (some (appendAdvice (c.reporter x y) a.2 a.1))

end Verif.Comparisons
