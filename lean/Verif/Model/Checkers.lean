import Verif.Model.Logger
/-
Model of the checks of the test framework: /repo/Source/sequoia/TestFramework/FreeCheckers.hpp, and the testers of ConcreteTypeCheckers.hpp for strings, pairs, tuples, variants,
optionals, pointers, functions, points of time and `std::any`.

A check is represented by what it does to the logger, a list of events (see `Verif.Model.Logger`), and by what it returns.  Descriptions, advice and the text of messages are left
out.  Types are represented by `Ty`; classes of users, their operators and their testers are parameters.
-/
namespace Verif.Checkers
open Verif.Logger

/-- The kinds of checks, FreeCheckers.hpp:82-150; `best` stands for `with_best_available`, with `minimal_reporting_permitted::no`, and `minimal` for the same with
`minimal_reporting_permitted::yes`.  Customized equivalence is left out. -/
inductive Flavour where
  | equality
  | simple
  | equivalence
  | weak
  | best
  | minimal
  deriving DecidableEq, Repr

/-- Types: a class, a string, a range with the given elements, `std::pair`, `std::tuple`, `std::variant`, `std::optional`, a pointer, `std::unique_ptr` or `std::shared_ptr`,
`std::weak_ptr`, `std::function`, and `std::chrono::time_point` with ticks of `num / den` nanoseconds. -/
inductive Ty where
  | cls (n : Nat)
  | str
  | range (n : Nat) (e : Ty)
  | pair (s t : Ty)
  | tup (n : Nat) (ts : Fin n → Ty)
  | var (n : Nat) (ts : Fin n → Ty)
  | opt (t : Ty)
  | ptr (t : Ty)
  | smart (t : Ty)
  | weak (t : Ty)
  | fn
  | time (num den : Nat)

/-- The values of a type, given those of the classes.  A pointer is null or an address together with what is there; of a `std::weak_ptr` it is
what `lock` returns.  A function is empty or something identified by a number.  A point of time is the number of ticks since the epoch, whose arithmetic does not overflow.  Variants
which are valueless by exception are left out. -/
def Ty.Val (C : Nat → Type) : Ty → Type
  | .cls n => C n
  | .str => List Nat
  | .range _ e => List (e.Val C)
  | .pair s t => s.Val C × t.Val C
  | .tup n ts => (i : Fin n) → (ts i).Val C
  | .var n ts => (i : Fin n) × (ts i).Val C
  | .opt t => Option (t.Val C)
  | .ptr t => Option (Nat × t.Val C)
  | .smart t => Option (Nat × t.Val C)
  | .weak t => Option (Nat × t.Val C)
  | .fn => Option Nat
  | .time _ _ => Int

/-- What is known about the classes and ranges of users: whether there is an `operator==` and what it does, whether values can be reported, and what the testers do to a logger. -/
structure Env (C : Nat → Type) where
  comparable : Nat → Bool
  eq : (n : Nat) → C n → C n → Bool
  reportable : Ty → Bool
  tester : (n : Nat) → Flavour → Option (C n → C n → List Event)
  rangeComparable : Nat → Bool
  rangeEq : Nat → (e : Ty) → List (e.Val C) → List (e.Val C) → Bool

/-- Whether some event is a failure: `failure_detected`, TestLogger.hpp:224, of a sentinel within whose lifetime the events happen; see `C66_detected`. -/
def failed (b : List Event) : Bool := b.any fun e => e = .failure || e = .performanceFailure

/-- A check whose body does the given things, within the lifetime of a sentinel, and which returns `!sentry.failure_detected()`. -/
def guarded (b : List Event) : List Event × Bool := (.enter :: (b ++ [.leave]), !failed b)

/-- `binary_comparison`, FreeCheckers.hpp:285-297, given the result of the comparison. -/
def binary (c : Bool) : List Event := if c then [.check] else [.check, .failure]

/-- `check(equality, …)` for a fundamental type. -/
def checkScalar {α : Type} [DecidableEq α] (x y : α) : List Event × Bool := guarded (binary (decide (x = y)))

/-- The check of ranges given by iterators, FreeCheckers.hpp:368-416, where `chk` is the check of elements. -/
def checkRange {α β : Type} (chk : α → β → List Event × Bool) (xs : List α) (ys : List β) : List Event × Bool :=
  let size := checkScalar xs.length ys.length
  if size.2 then
    let elems := List.zipWith chk xs ys
    (.enter :: (size.1 ++ elems.flatMap (·.1) ++ [.leave]), elems.all (·.2))
  else (.enter :: (size.1 ++ [.leave]), false)

/-- What the checks depend on for a given type: `deep_equality_comparable`, `operator==`, `reportable`, `faithful_range`; the tests of `value_tester`, if there are any; the check
of a range, if supported; and whether the bodies of these two are well-formed. -/
structure Ops (α : Type) where
  comparable : Bool
  eq : α → α → Bool
  reportable : Bool
  isRange : Bool
  tester : Flavour → Option (α → α → List Event)
  range : Flavour → Option (α → α → List Event × Bool)
  bodyOk : Flavour → Bool

section
variable {α : Type} (o : Ops α)

/-- `supports_equality_check`, FreeCheckers.hpp:475-480. -/
def supportsEquality : Bool := (o.comparable && o.reportable) || (o.tester .equality).isSome || (o.range .equality).isSome

/-- `supports_simple_equality_check`, FreeCheckers.hpp:531-535. -/
def supportsSimple : Bool := (o.comparable && o.reportable) || (o.range .simple).isSome

/-- `supports_generalized_equivalence_check` for `equivalence_check_t`, FreeCheckers.hpp:575-581 and 198-203. -/
def supportsEquivalence : Bool := (o.tester .equivalence).isSome || (o.range .equivalence).isSome || supportsEquality o

/-- `supports_generalized_equivalence_check` for `weak_equivalence_check_t`, FreeCheckers.hpp:575-581 and 198-203. -/
def supportsWeak : Bool := (o.tester .weak).isSome || (o.range .weak).isSome || supportsEquivalence o

/-- `supports_best_available_check`, FreeCheckers.hpp:205-211 and 625-632, with `minimal_reporting_permitted::no`. -/
def supportsBest : Bool :=
  (o.tester .best).isSome || (supportsEquality o || supportsSimple o || supportsEquivalence o || supportsWeak o) || (o.range .best).isSome || (o.comparable && o.reportable)

/-- Likewise with `minimal_reporting_permitted::yes`, FreeCheckers.hpp:205-211 and 625-632.  What is meant by `std::equality_comparable_with` is taken to be
`deep_equality_comparable`. -/
def supportsMinimal : Bool :=
  (o.tester .minimal).isSome || (supportsEquality o || supportsSimple o || supportsEquivalence o || supportsWeak o) || (o.range .minimal).isSome || (o.comparable && o.reportable)
    || o.comparable

/-- Whether the constraints of a check are satisfied. -/
def supports : Flavour → Bool
  | .equality => supportsEquality o
  | .simple => supportsSimple o
  | .equivalence => supportsEquivalence o
  | .weak => supportsWeak o
  | .best => supportsBest o
  | .minimal => supportsMinimal o

/-- Whether the body of the check of equality, FreeCheckers.hpp:509-525, is well-formed, given that its constraints are satisfied: a final message, FreeCheckers.hpp:286, needs a
reportable type. -/
def equalityOk : Bool :=
  (!o.comparable || ((o.tester .equality).isSome || o.isRange) || o.reportable) && (!((o.tester .equality).isSome || (o.range .equality).isSome) || o.bodyOk .equality)

/-- Likewise for simple equality, FreeCheckers.hpp:548-558: the comparison is unconditional. -/
def simpleOk : Bool := o.comparable && (o.isRange || o.reportable) && (!(o.range .simple).isSome || o.bodyOk .simple)

/-- Likewise for equivalence, FreeCheckers.hpp:587-620. -/
def equivalenceOk : Bool := if (o.tester .equivalence).isSome || (o.range .equivalence).isSome then o.bodyOk .equivalence else supportsEquality o && equalityOk o

/-- Likewise for weak equivalence, FreeCheckers.hpp:587-620. -/
def weakOk : Bool := if (o.tester .weak).isSome || (o.range .weak).isSome then o.bodyOk .weak else supportsEquivalence o && equivalenceOk o

/-- Likewise for the best available check, FreeCheckers.hpp:645-685: the last alternative is `static_assert(false)`. -/
def bestOk : Bool :=
  if (o.tester .best).isSome then o.bodyOk .best
  else if (o.tester .equality).isSome then equalityOk o
  else if (o.tester .equivalence).isSome then equivalenceOk o
  else if (o.tester .weak).isSome then weakOk o
  else if (o.range .best).isSome then o.bodyOk .best
  else if o.comparable && o.reportable then simpleOk o
  else false

/-- Likewise with minimal reporting, FreeCheckers.hpp:645-685: the test of values and the check of ranges are those of `with_best_available`, which stands for
`minimal_reporting_permitted::no`, lines 655 and 672. -/
def minimalOk : Bool :=
  if (o.tester .minimal).isSome then (o.tester .best).isSome && o.bodyOk .best
  else if (o.tester .equality).isSome then equalityOk o
  else if (o.tester .equivalence).isSome then equivalenceOk o
  else if (o.tester .weak).isSome then weakOk o
  else if (o.range .minimal).isSome then (o.range .best).isSome && o.bodyOk .best
  else if o.comparable && o.reportable then simpleOk o
  else o.comparable

/-- Whether the body of a check is well-formed. -/
def wellFormed : Flavour → Bool
  | .equality => equalityOk o
  | .simple => simpleOk o
  | .equivalence => equivalenceOk o
  | .weak => weakOk o
  | .best => bestOk o
  | .minimal => minimalOk o

/-- What a test or, failing that, the check of a range does, FreeCheckers.hpp:517-524. -/
def detail (φ : Flavour) (x y : α) : List Event :=
  match o.tester φ with
  | some t => t x y
  | none =>
    match o.range φ with
    | some r => (r x y).1
    | none => []

/-- `check(equality, …)`, FreeCheckers.hpp:500-527. -/
def checkEquality (x y : α) : List Event × Bool := guarded ((if o.comparable then binary (o.eq x y) else []) ++ detail o .equality x y)

/-- `check(simple_equality, …)`, FreeCheckers.hpp:539-560. -/
def checkSimple (x y : α) : List Event × Bool :=
  guarded (binary (o.eq x y) ++ match o.range .simple with
    | some r => (r x y).1
    | none => [])

/-- `check(equivalence, …)` and `general_equivalence_check`, FreeCheckers.hpp:258-283 and 583-621. -/
def checkEquivalence (x y : α) : List Event × Bool :=
  match o.tester .equivalence with
  | some t => guarded (t x y)
  | none =>
    match o.range .equivalence with
    | some r => r x y
    | none => checkEquality o x y

/-- `check(weak_equivalence, …)`, FreeCheckers.hpp:583-621. -/
def checkWeak (x y : α) : List Event × Bool :=
  match o.tester .weak with
  | some t => guarded (t x y)
  | none =>
    match o.range .weak with
    | some r => r x y
    | none => checkEquivalence o x y

/-- `check(with_best_available, …)`, FreeCheckers.hpp:636-686. -/
def checkBest (x y : α) : List Event × Bool :=
  match o.tester .best with
  | some t => guarded ((if o.comparable then binary (o.eq x y) else []) ++ t x y)
  | none =>
    if (o.tester .equality).isSome then checkEquality o x y
    else if (o.tester .equivalence).isSome then checkEquivalence o x y
    else if (o.tester .weak).isSome then checkWeak o x y
    else
      match o.range .best with
      | some r => r x y
      | none => checkSimple o x y

/-- The same with minimal reporting, FreeCheckers.hpp:636-686.  Where there is no test or check of a range of the kind `with_best_available` the body is ill-formed, see
`minimalOk`. -/
def checkMinimal (x y : α) : List Event × Bool :=
  if (o.tester .minimal).isSome then
    guarded ((if o.comparable then binary (o.eq x y) else []) ++ match o.tester .best with
      | some t => t x y
      | none => [])
  else if (o.tester .equality).isSome then checkEquality o x y
  else if (o.tester .equivalence).isSome then checkEquivalence o x y
  else if (o.tester .weak).isSome then checkWeak o x y
  else if (o.range .minimal).isSome then
    match o.range .best with
    | some r => r x y
    | none => guarded []
  else if o.comparable && o.reportable then checkSimple o x y
  else checkScalar (o.eq x y) true

/-- `check` for a given type. -/
def checkOps : Flavour → α → α → List Event × Bool
  | .equality => checkEquality o
  | .simple => checkSimple o
  | .equivalence => checkEquivalence o
  | .weak => checkWeak o
  | .best => checkBest o
  | .minimal => checkMinimal o

/-- A check is instantiable if its constraints are satisfied and its body is well-formed. -/
def instantiable (φ : Flavour) : Bool := supports o φ && wellFormed o φ

end

/-- The test of strings, ConcreteTypeCheckers.hpp:175-221: the first characters which differ are compared or, failing that, the sizes `m` and `n`. -/
def testString (m n : Nat) : List Nat → List Nat → List Event
  | [], [] => []
  | a :: x, b :: y => if a = b then testString m n x y else (checkScalar a b).1
  | _ :: _, [] => (checkScalar m n).1
  | [], _ :: _ => (checkScalar m n).1

/-- The test of optionals and of the pointees of pointers, ConcreteTypeCheckers.hpp:606-625, 672-690 and 712-730. -/
def testNullable {α : Type} (chk : α → α → List Event × Bool) : Option α → Option α → List Event
  | some x, some y => (chk x y).1
  | x, y => (checkScalar x.isSome y.isSome).1

/-- The test of tuples, ConcreteTypeCheckers.hpp:297-325: the elements in order. -/
def testTuple {n : Nat} {A : Fin n → Type} (chk : (i : Fin n) → A i → A i → List Event × Bool) (x y : (i : Fin n) → A i) : List Event :=
  (List.finRange n).flatMap fun i => (chk i (x i) (y i)).1

/-- The test of variants, ConcreteTypeCheckers.hpp:567-598: the indices, then the contents. -/
def testVariant {n : Nat} {A : Fin n → Type} (chk : (i : Fin n) → A i → A i → List Event × Bool) (x y : (i : Fin n) × A i) : List Event :=
  (checkScalar x.1.val y.1.val).1 ++ if h : x.1 = y.1 then (chk y.1 (h ▸ x.2) y.2).1 else []

/-- `operator==` of pointers. -/
def samePointer {α : Type} (x y : Option (Nat × α)) : Bool := decide (x.map (·.1) = y.map (·.1))

/-- The traits and tests of pointers, ConcreteTypeCheckers.hpp:667-691: they are comparable and reportable, and there is no test of their equality. -/
def rawOps {α : Type} (o : Ops α) (reportable : Bool) : Ops (Option (Nat × α)) where
  comparable := true
  eq := samePointer
  reportable := reportable
  isRange := false
  tester
    | .equivalence => some (testNullable fun x y => checkOps o .best x.2 y.2)
    | _ => none
  range _ := none
  bodyOk _ := instantiable o .best

/-- The traits and tests of smart pointers, ConcreteTypeCheckers.hpp:699-779. -/
def smartOps {α : Type} (o : Ops α) (reportable : Bool) : Ops (Option (Nat × α)) where
  comparable := true
  eq := samePointer
  reportable := reportable
  isRange := false
  tester
    | .equality => some fun x y => (checkOps (rawOps o true) .equality x y).1
    | .equivalence => some (testNullable fun x y => checkOps o .best x.2 y.2)
    | _ => none
  range _ := none
  bodyOk φ := φ = .equality || instantiable o .best

/-- The traits and tests of `std::weak_ptr`, ConcreteTypeCheckers.hpp:781-804: there is no `operator==`, and the pointers returned by `lock` are checked. -/
def weakOps {α : Type} (o : Ops α) (reportable : Bool) : Ops (Option (Nat × α)) where
  comparable := false
  eq _ _ := false
  reportable := reportable
  isRange := false
  tester
    | .equality => some fun x y => (checkOps (smartOps o true) .equality x y).1
    | .equivalence => some fun x y => (checkOps (smartOps o true) .equivalence x y).1
    | _ => none
  range _ := none
  bodyOk φ := φ = .equality || instantiable (smartOps o true) .equivalence

/-- `std::chrono::duration_cast<std::chrono::nanoseconds>` of ticks of `num / den` nanoseconds. -/
def nanoseconds (num den : Nat) (ticks : Int) : Int := (ticks * num).tdiv den

section
variable {C : Nat → Type} (E : Env C)

/-- The traits and tests of a type.  For `deep_equality_comparable` see TypeTraits.hpp:141-183; for the tests see ConcreteTypeCheckers.hpp:236-265 (strings, which convert to
views), 269-293 (pairs), 297-325 (tuples), 562-599 (variants), 601-626 (optionals), 667-691 (pointers), 699-779 (smart pointers), 781-804 (weak pointers), 811-826 (functions) and
834-848 (points of time).  The operators of pairs, tuples, variants, optionals, smart pointers and points of time are those of the standard library; there is none for weak pointers
and functions. -/
def ops : (T : Ty) → Ops (T.Val C)
  | .cls n =>
    { comparable := E.comparable n
      eq := E.eq n
      reportable := E.reportable (.cls n)
      isRange := false
      tester := E.tester n
      range := fun _ => none
      bodyOk := fun _ => true }
  | .str =>
    { comparable := true
      eq := fun (x y : List Nat) => decide (x = y)
      reportable := true
      isRange := true
      tester := fun φ => if φ = .equality ∨ φ = .equivalence then some fun (x y : List Nat) => testString x.length y.length x y else none
      range := fun _ => some fun (x y : List Nat) => checkRange checkScalar x y
      bodyOk := fun _ => true }
  | .range n e =>
    { comparable := E.rangeComparable n && (ops e).comparable
      eq := E.rangeEq n e
      reportable := E.reportable (.range n e)
      isRange := true
      tester := fun _ => none
      range := fun φ => if supports (ops e) φ then some fun (x y : List (e.Val C)) => checkRange (checkOps (ops e) φ) x y else none
      bodyOk := wellFormed (ops e) }
  | .pair s t =>
    { comparable := (ops s).comparable && (ops t).comparable
      eq := fun (x y : s.Val C × t.Val C) => (ops s).eq x.1 y.1 && (ops t).eq x.2 y.2
      reportable := E.reportable (.pair s t)
      isRange := false
      tester := fun φ => some fun (x y : s.Val C × t.Val C) => (checkOps (ops s) φ x.1 y.1).1 ++ (checkOps (ops t) φ x.2 y.2).1
      range := fun _ => none
      bodyOk := fun φ => instantiable (ops s) φ && instantiable (ops t) φ }
  | .tup n ts =>
    { comparable := (List.finRange n).all fun i => (ops (ts i)).comparable
      eq := fun (x y : (i : Fin n) → (ts i).Val C) => (List.finRange n).all fun i => (ops (ts i)).eq (x i) (y i)
      reportable := E.reportable (.tup n ts)
      isRange := false
      tester := fun φ => some fun (x y : (i : Fin n) → (ts i).Val C) => testTuple (fun i => checkOps (ops (ts i)) φ) x y
      range := fun _ => none
      bodyOk := fun φ => (List.finRange n).all fun i => instantiable (ops (ts i)) φ }
  | .var n ts =>
    { comparable := (List.finRange n).all fun i => (ops (ts i)).comparable
      eq := fun (x y : (i : Fin n) × (ts i).Val C) => if h : x.1 = y.1 then (ops (ts y.1)).eq (h ▸ x.2) y.2 else false
      reportable := E.reportable (.var n ts)
      isRange := false
      tester := fun φ => some fun (x y : (i : Fin n) × (ts i).Val C) => testVariant (fun i => checkOps (ops (ts i)) φ) x y
      range := fun _ => none
      bodyOk := fun φ => (List.finRange n).all fun i => instantiable (ops (ts i)) φ }
  | .opt t =>
    { comparable := (ops t).comparable
      eq := fun (x y : Option (t.Val C)) => match x, y with
        | some a, some b => (ops t).eq a b
        | a, b => decide (a.isSome = b.isSome)
      reportable := E.reportable (.opt t)
      isRange := false
      tester := fun φ => some fun (x y : Option (t.Val C)) => testNullable (checkOps (ops t) φ) x y
      range := fun _ => none
      bodyOk := fun φ => instantiable (ops t) φ }
  | .ptr t => rawOps (ops t) true
  | .smart t => smartOps (ops t) (E.reportable (.smart t))
  | .weak t => weakOps (ops t) (E.reportable (.weak t))
  | .fn =>
    { comparable := false
      eq := fun _ _ => false
      reportable := E.reportable .fn
      isRange := false
      tester := fun φ => if φ = .weak then
          some fun (x y : Option Nat) => (checkScalar ((x.isSome && y.isSome) || (!x.isSome && !y.isSome)) true).1
        else none
      range := fun _ => none
      bodyOk := fun _ => true }
  | .time num den =>
    { comparable := true
      eq := fun (x y : Int) => decide (x = y)
      reportable := E.reportable (.time num den)
      isRange := false
      tester := fun φ => if φ = .equality then some fun (x y : Int) => (checkScalar (nanoseconds num den x) (nanoseconds num den y)).1 else none
      range := fun _ => none
      bodyOk := fun _ => true }

/-- `check`: what is done to the logger and what is returned. -/
def check (φ : Flavour) (T : Ty) (x y : T.Val C) : List Event × Bool := checkOps (ops E T) φ x y

/-- Whether `check` is well-formed. -/
def checkable (φ : Flavour) (T : Ty) : Bool := instantiable (ops E T) φ

/-- What is held by a `std::any`, from the point of view of a type. -/
inductive Held (α : Type) where
  | nothing
  | other
  | value (x : α)

/-- `check(equivalence, …)` of a `std::any` against a value of some other type, ConcreteTypeCheckers.hpp:628-658 and FreeCheckers.hpp:258-283. -/
def checkAny (T : Ty) (x : Held (T.Val C)) (y : T.Val C) : List Event × Bool :=
  match x with
  | .nothing => guarded (checkScalar false true).1
  | .other => guarded ((checkScalar true true).1 ++ (checkScalar false true).1)
  | .value a => guarded ((checkScalar true true).1 ++ (check E .best T a y).1)

end

/-! ### Exceptions -/

/-- `check_exception_thrown<E>`, FreeCheckers.hpp:317-357, where `isA t u` says that a handler of `const u&` catches exceptions of the type `t`, and `thrown` is the type of what the
function throws, if anything: the handlers are those of `E`, of `std::exception` and of everything.  The extraction of the message is taken not to throw. -/
def checkException {X : Type} (isA : X → X → Bool) (expected stdException : X) (thrown : Option X) : List Event × Bool :=
  match thrown with
  | none => ([.enter, .check, .failure, .leave], false)
  | some t =>
    if isA t expected then ([.enter, .check, .caught, .leave], true)
    else if isA t stdException then ([.enter, .check, .failure, .leave], false)
    else ([.enter, .check, .failure, .leave], false)

/-! ### Comparison by a function object -/

/-- `check(compare, …)`, FreeCheckers.hpp:178-182 and 423-446: the comparison if it can be invoked, which here is so for the class `n` only; otherwise the elements of the range. -/
def checkWith {C : Nat → Type} (n : Nat) (cmp : C n → C n → Bool) : (T : Ty) → Option (T.Val C → T.Val C → List Event × Bool)
  | .cls m => if h : m = n then some fun x y => guarded (binary (cmp (h ▸ x) (h ▸ y))) else none
  | .range _ e => (checkWith n cmp e).map fun chk (x y : List (e.Val C)) => guarded (checkRange chk x y).1
  | _ => none

end Verif.Checkers
