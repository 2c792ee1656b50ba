import Verif.Model.Basic
/-
Model of the checks of the semantics of types: /repo/Source/sequoia/TestFramework/SemanticsCheckersDetails.hpp, RegularCheckersDetails.hpp and MoveOnlyCheckersDetails.hpp, for
types without allocators.

A type is given by what its operations do to the state of the program, which is arbitrary: in particular, objects may share what they own, and operations may have effects on
objects other than their operands.  Objects are known by the names of variables.  A check is represented by the results of the elementary checks it makes.  A check of equality of
two objects of the type passes if and only if `operator==` says so; comparisons with objects of other types are left open.  Comparisons have no effect on the state, and operations do
not throw.
-/
namespace Verif.Semantics

/-- The objects: `x` and `y` are those given by the user; `z`, `w` and `v` are the variables of `check_semantics`, RegularCheckersDetails.hpp:71-109; `m` is the variable `w` of
`do_check_move_construction` and `opt` the object in what it returns; `ty`, `sx`, `sy` and `u` are the temporary objects which are assigned from, swapped and deserialized to.
The others are used only for types with allocators, see `Model/AllocationChecks.lean`. -/
inductive Var where
  | x | y | z | m | opt | w | ty | sx | sy | v | u | cy | pc | po | pm | ux | uy | vx | vy
  deriving DecidableEq, Repr

/-- A type: its operators, its operations and what is predicted of it by the user, all of them as functions of the state `W`; `U` is the type of the predictions. -/
structure Ops (W U : Type) where
  eq : W → Var → Var → Bool
  ne : W → Var → Var → Bool
  lt : W → Var → Var → Bool
  le : W → Var → Var → Bool
  gt : W → Var → Var → Bool
  ge : W → Var → Var → Bool
  /-- `operator<=>`, if there is one -/
  threeway : Option (W → Var → Var → Ordering)
  /-- whether a check of an object against a prediction, with the best available check, passes -/
  against : W → Var → U → Bool
  /-- from the first object to the second, which is new -/
  copyConstruct : Var → Var → W → W
  moveConstruct : Var → Var → W → W
  /-- from the first object to the second, which exists -/
  copyAssign : Var → Var → W → W
  moveAssign : Var → Var → W → W
  swap : Var → Var → W → W
  destroy : Var → W → W
  /-- serialization of the first object, and deserialization to the second one, if there are such operators -/
  stream : Option (Var → Var → W → W)
  /-- the same, but for a prediction rather than an object -/
  streamFrom : Option (U → Var → W → W)

/-- The results of the checks which have been made. -/
abbrev Log := List Bool

/-- A part of a check: what it does to the state, the results it logs, and what it returns. -/
def M (W α : Type) := W → W × Log × α

def M.bind {W α β : Type} (a : M W α) (f : α → M W β) : M W β := fun w =>
  let (w, log, r) := a w
  let (w, log', r) := f r w
  (w, log ++ log', r)

instance {W : Type} : Monad (M W) where
  pure a := fun w => (w, [], a)
  bind := M.bind

section
variable {W U : Type}

/-- An elementary check: it is logged, and it returns whether it passes. -/
def test (b : W → Bool) : M W Bool := fun w => (w, [b w], b w)

/-- An operation. -/
def act (f : W → W) : M W Unit := fun w => (f w, [], ())

variable (t : Ops W U)

/-- `check_comparison_consistency`, SemanticsCheckersDetails.hpp:258-266. -/
def comparisonConsistency (f : W → Var → Bool) : M W Bool := do
  let a ← test (f · .x)
  let b ← test (f · .y)
  return a && b

/-- `check_equality_prerequisites`, SemanticsCheckersDetails.hpp:322-328. -/
def equalityPrerequisites : M W Bool := do
  let eq ← comparisonConsistency fun w a => t.eq w a a
  let ne ← comparisonConsistency fun w a => !t.ne w a a
  if eq && ne then test (t.ne · .x .y) else return false

/-- `check_equality_prerequisites` with equivalents, SemanticsCheckersDetails.hpp:343-358. -/
def equalityPrerequisitesWith (xe ye : U) : M W Bool := do
  if ← equalityPrerequisites t then
    let a ← test (t.against · .x xe)
    let b ← test (t.against · .y ye)
    return a && b
  else return false

/-- The part for `operator<=>`, if there is one. -/
def threewayCheck (f : (W → Var → Var → Ordering) → M W Bool) : M W Bool :=
  match t.threeway with
  | some c => f c
  | none => pure true

/-- `check_ordering_operators`, SemanticsCheckersDetails.hpp:270-285. -/
def orderingOperators : M W Bool := do
  let lt ← comparisonConsistency fun w a => !t.lt w a a
  let le ← comparisonConsistency fun w a => t.le w a a
  let gt ← comparisonConsistency fun w a => !t.gt w a a
  let ge ← comparisonConsistency fun w a => t.ge w a a
  let tw ← threewayCheck t fun c => comparisonConsistency fun w a => c w a a == .eq
  return lt && le && gt && ge && tw

/-- `comp`, SemanticsCheckersDetails.hpp:293-308. -/
def comp (a b : Var) : M W Bool := do
  let gt ← test (t.gt · b a)
  let le ← test (t.le · a b)
  let ge ← test (t.ge · b a)
  let tw ← threewayCheck t fun c => test fun w => c w a b == .lt
  return gt && le && ge && tw

/-- `check_ordering_consistency`, SemanticsCheckersDetails.hpp:289-311. -/
def orderingConsistency : M W Bool := do
  if ← orderingOperators t then fun w => if t.lt w .x .y then comp t .x .y w else comp t .y .x w
  else return false

/-- `check_prerequisites`, SemanticsCheckersDetails.hpp:194-238, and `check_orderable_prerequisites`, 362-393, given the check of equality.  There is an `order` if and only
if the type is ordered. -/
def prerequisites (equality : M W Bool) : Option Ordering → M W Bool
  | none => equality
  | some order => do
    if ← equality then
      if ← test (fun _ => order != .eq) then
        if ← orderingConsistency t then test fun w => if order == .lt then t.lt w .x .y else t.gt w .x .y
        else return false
      else return false
    else return false

/-- The check of an object which has been moved from, if there is a prediction. -/
def movedFrom (a : Var) : Option U → M W Unit
  | none => pure ()
  | some p => do
    let _ ← test (t.against · a p)
    return ()

/-- `do_check_move_construction`, SemanticsCheckersDetails.hpp:401-423; `expected` is the check against `y` or its equivalent.  What is returned is constructed from `w`.  Whether
there is something in it. -/
def checkMoveConstruction (from' : Var) (expected : W → Var → Bool) (moved : Option U) : M W Bool := do
  act (t.moveConstruct from' .m)
  if ← test (expected · .m) then
    movedFrom t from' moved
    act (t.moveConstruct .m .opt)
    act (t.destroy .m)
    return true
  else
    act (t.destroy .m)
    return false

/-- `do_check_move_assign`, SemanticsCheckersDetails.hpp:440-463. -/
def checkMoveAssign (to from' : Var) (expected : W → Var → Bool) (moved : Option U) : M W Unit := do
  act (t.moveAssign from' to)
  if ← test (expected · to) then movedFrom t from' moved else return ()

/-- `do_check_swap`, SemanticsCheckersDetails.hpp:481-511. -/
def checkSwap (a b : Var) (ea eb : W → Var → Bool) : M W Bool := do
  act (t.swap a b)
  let swapb ← test (ea · b)
  let swapa ← test (eb · a)
  if swapa && swapb then
    act (t.swap b b)
    test (ea · b)
  else return false

/-- `do_check_copy_assign`, RegularCheckersDetails.hpp:32-48. -/
def checkCopyAssign (to from' : Var) : M W Bool := do
  act (t.copyAssign from' to)
  if ← test (t.eq · to from') then
    act (t.copyAssign to to)
    test (t.eq · to from')
  else return false

/-- The part of `check_semantics` with the mutator, RegularCheckersDetails.hpp:101-125. -/
def checkMutation (mutator : Option (Var → W → W)) (consistentCopyAssign : Bool) : M W Unit :=
  match mutator with
  | none => pure ()
  | some mutate => if consistentCopyAssign then do
      act (t.copyConstruct .y .v)
      act (mutate .v)
      if ← test (t.ne · .v .y) then
        act (t.copyAssign .y .v)
        if ← test (t.eq · .v .y) then
          act (mutate .v)
          let _ ← test (t.ne · .v .y)
          act (t.destroy .v)
        else act (t.destroy .v)
      else act (t.destroy .v)
    else pure ()

/-- The part of `check_semantics` with move construction, RegularCheckersDetails.hpp:85-88. -/
def checkMoved (moved : Option U) (consistentCopyAssign : Bool) : M W Unit :=
  if consistentCopyAssign then do
    if ← checkMoveConstruction t .z (fun w a => t.eq w a .y) moved then act (t.destroy .opt) else return ()
  else pure ()

/-- `do_check_serialization`, SemanticsCheckersDetails.hpp:531-548, as called in RegularCheckersDetails.hpp:127-130. -/
def checkSerialization : M W Unit :=
  match t.stream with
  | none => pure ()
  | some stream => do
    act (t.copyConstruct .x .u)
    act (stream .y .u)
    let _ ← test (t.eq · .u .y)
    act (t.destroy .u)

/-- `check_semantics` for regular types, RegularCheckersDetails.hpp:57-133.  The temporary objects in the call of `check_swap` are taken to be constructed from left to right.
Destruction at the end is that of `w` and `z`. -/
def regular (order : Option Ordering) (movedConstruction movedAssignment : Option U) (mutator : Option (Var → W → W)) : M W Unit := do
  if ← prerequisites t (equalityPrerequisites t) order then
    act (t.copyConstruct .x .z)
    let consistentCopy ← test (t.eq · .z .x)
    let consistentCopyAssign ← checkCopyAssign t .z .y
    checkMoved t movedConstruction consistentCopyAssign
    if consistentCopy then
      act (t.copyConstruct .x .w)
      act (t.copyConstruct .y .ty)
      checkMoveAssign t .w .ty (fun w a => t.eq w a .y) movedAssignment
      act (t.destroy .ty)
      act (t.copyConstruct .x .sx)
      act (t.copyConstruct .y .sy)
      let _ ← checkSwap t .sx .sy (fun w a => t.eq w a .x) (fun w a => t.eq w a .y)
      act (t.destroy .sy)
      act (t.destroy .sx)
      checkMutation t mutator consistentCopyAssign
      checkSerialization t
      act (t.destroy .w)
      act (t.destroy .z)
    else act (t.destroy .z)
  else return ()

/-- The overloads with equivalents, RegularCheckers.hpp:67-93 etc.: `check_best_equivalence`, SemanticsCheckersDetails.hpp:184-191, comes first. -/
def regularWith (xe ye : U) (order : Option Ordering) (movedConstruction movedAssignment : Option U) (mutator : Option (Var → W → W)) : M W Unit := do
  let _ ← test (t.against · .x xe)
  let _ ← test (t.against · .y ye)
  regular t order movedConstruction movedAssignment mutator

/-- The part of `check_semantics` with swap and move assignment, MoveOnlyCheckersDetails.hpp:39-45. -/
def checkSwapAndAssign (xe ye : U) (moved : Option U) : M W Unit := do
  if ← checkSwap t .opt .y (fun w a => t.against w a xe) (fun w a => t.against w a ye) then
    checkMoveAssign t .y .opt (fun w a => t.against w a ye) moved
  else return ()

/-- `do_check_serialization`, SemanticsCheckersDetails.hpp:531-548, as called in MoveOnlyCheckersDetails.hpp:51-54. -/
def checkSerializationFrom (ye : U) : M W Unit :=
  match t.streamFrom with
  | none => pure ()
  | some stream => do
    act (stream ye .x)
    let _ ← test (t.against · .x ye)
    return ()

/-- `check_semantics` for types which can only be moved, MoveOnlyCheckersDetails.hpp:20-57, without the checks of equivalence made before, MoveOnlyCheckers.hpp:61-64, which are
among the prerequisites in any case. -/
def moveOnly (xe ye : U) (order : Option Ordering) (movedConstruction movedAssignment : Option U) : M W Unit := do
  if ← prerequisites t (equalityPrerequisitesWith t xe ye) order then
    if ← checkMoveConstruction t .x (fun w a => t.against w a xe) movedConstruction then
      checkSwapAndAssign t xe ye movedAssignment
      checkSerializationFrom t ye
      act (t.destroy .opt)
    else return ()
  else return ()

end

end Verif.Semantics
