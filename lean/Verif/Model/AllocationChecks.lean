import Verif.Model.Semantics
/-
Model of the checks of allocations: /repo/Source/sequoia/TestFramework/AllocationCheckers.hpp, AllocationCheckersDetails.hpp, RegularAllocationCheckers.hpp,
RegularAllocationCheckersDetails.hpp, MoveOnlyAllocationCheckers.hpp and MoveOnlyAllocationCheckersDetails.hpp, together with the checks of the semantics of types from
SemanticsCheckersDetails.hpp, RegularCheckersDetails.hpp and MoveOnlyCheckersDetails.hpp into which they are woven.

As in `Model/Semantics.lean`, a type is given by what its operations do to the state of the program, which is arbitrary.  Here comparisons and serialization have an effect on the
state, too, since they may allocate.  Counts are integers without bounds.  `allocation_count_shifter` is taken to be the primary template, which shifts nothing.
-/
namespace Verif.AllocationChecks
open Verif.Semantics

/-! ## Predictions -/

/-- `alloc_prediction`, AllocationCheckersCore.hpp:73-97. -/
structure Prediction where
  unshifted : Int
  value : Int
  deriving DecidableEq, Repr

/-- The constructor, AllocationCheckersCore.hpp:79-82. -/
def Prediction.make (unshifted : Int) (delta : Int := 0) : Prediction := ⟨unshifted, unshifted + delta⟩

/-- `convert`, AllocationCheckers.hpp:43-48. -/
def convert (p : Prediction) : Prediction := .make p.unshifted (p.value - p.unshifted)

/-- `increment_msvc_debug_count`, AllocationCheckers.hpp:183-196; `msvc` is whether this is a debug build with MSVC. -/
def increment (msvc : Bool) (p : Prediction) (val : Int) : Prediction := if msvc then .make p.unshifted val else p

/-- The predictions for an allocator: `basic_allocation_predictions`, RegularAllocationCheckers.hpp:105-176, and `basic_move_only_allocation_predictions`,
MoveOnlyAllocationCheckers.hpp:65-139.  `x` is a prediction for copying for the former, and for moving with another allocator for the latter; `copy`, `paraCopy`, `assign` and `assignNoProp`
are there only for the former. -/
structure Predictions where
  x : Prediction
  copy : Prediction
  mutation : Prediction
  paraCopy : Prediction
  paraMove : Prediction
  move : Prediction
  assignNoProp : Prediction
  assign : Prediction
  moveAssignNoProp : Prediction
  moveAssign : Prediction
  deriving DecidableEq, Repr

/-- The shortest list of predictions for a regular type: `individual_allocation_predictions`, RegularAllocationCheckers.hpp:22-27, and `assignment_allocation_predictions`, 59-63. -/
def Predictions.regular (x copy mutation assignNoProp assign : Int) : Predictions where
  x := .make x
  copy := .make copy
  mutation := .make mutation
  paraCopy := convert (.make copy)
  paraMove := convert (.make copy)
  move := .make 0
  assignNoProp := .make assignNoProp
  assign := .make assign
  moveAssignNoProp := convert (.make assignNoProp)
  moveAssign := .make 0

/-- The shortest list of predictions for a type which can only be moved: MoveOnlyAllocationCheckers.hpp:21-27 and 36-40. -/
def Predictions.moveOnly (x paraMove mutation moveAssignNoProp : Int) : Predictions where
  x := .make x
  copy := .make 0
  mutation := .make mutation
  paraCopy := .make 0
  paraMove := .make paraMove
  move := .make 0
  assignNoProp := .make 0
  assign := .make 0
  moveAssignNoProp := .make moveAssignNoProp
  moveAssign := .make 0

/-- `container_counts`, AllocationCheckers.hpp:151-161. -/
structure Counts where
  numX : Nat
  numY : Nat
  postMutation : Nat
  deriving DecidableEq, Repr

/-- `allocation_equivalence_classes`, AllocationCheckers.hpp:163-181.  For containers of pointers, whether the allocator is propagated by copy assignment, move assignment and swap. -/
inductive Class where
  | values
  | pointers (copyProp moveProp swapProp : Bool)
  deriving DecidableEq, Repr

/-- `alloc_prediction_shifter::shift(assign_prediction)`, AllocationCheckers.hpp:260-264 and 309-324. -/
def shiftAssign (msvc : Bool) (c : Counts) (p : Prediction) : Class → Prediction
  | .values => increment msvc p c.numY
  | .pointers copyProp moveProp swapProp => increment msvc p (c.numY * (if !copyProp then 1 else if moveProp then 2 else if swapProp then 1 else 3))

/-- `alloc_prediction_shifter::shift(assign_no_prop_prediction)`, AllocationCheckers.hpp:272-276 and 326-330. -/
def shiftAssignNoProp (msvc : Bool) (c : Counts) (top : Bool) (p : Prediction) : Class → Prediction
  | .values => increment msvc p (if top then 0 else c.numY)
  | .pointers _ _ _ => increment msvc p c.numY

/-- `shift`, RegularAllocationCheckers.hpp:82-103 and 160-171, MoveOnlyAllocationCheckers.hpp:46-63 and 123-134, by the functions in AllocationCheckers.hpp:228-283.  Since the
predictions a type which can only be moved lacks are not used, they are shifted as well. -/
def shift (msvc : Bool) (cls : Class) (c : Counts) (top : Bool) (p : Predictions) : Predictions where
  x := increment msvc p.x c.numX
  copy := increment msvc p.copy c.numY
  mutation := increment msvc p.mutation c.postMutation
  paraCopy := increment msvc p.paraCopy c.numY
  paraMove := increment msvc p.paraMove c.numY
  move := increment msvc p.move (if top then 1 else 0)
  assignNoProp := shiftAssignNoProp msvc c top p.assignNoProp cls
  assign := shiftAssign msvc c p.assign cls
  moveAssignNoProp := increment msvc p.moveAssignNoProp (if !top && c.numX < c.numY then c.numY else 0)
  moveAssign := increment msvc p.moveAssign (if top then 1 else 0)

/-- An allocator of a type: `allocation_info_base`, AllocationCheckers.hpp:369-416, with the traits of the allocator.  `countOf` is the number of allocations of the allocator of what is
serialized, for types which can only be moved. -/
structure Level (W U : Type) where
  count : W → Var → Int
  countOf : W → U → Int
  equal : W → Var → Var → Bool
  copyProp : Bool
  moveProp : Bool
  swapProp : Bool
  alwaysEqual : Bool

/-- An allocator with the predictions for it, after shifting: `allocation_info`, AllocationCheckers.hpp:423-468. -/
structure Info (W U : Type) extends Level W U where
  pred : Predictions

/-- What is given by the user for an allocator: `allocation_info`, AllocationCheckers.hpp:423-468, and 498-561 for `std::scoped_allocator_adaptor`, in which case `inner` has the
further levels.  `inners` are the predictions for these. -/
structure Given (W U : Type) where
  outer : Level W U
  cls : Class
  predictions : Predictions
  inner : List (Level W U)
  inners : List (Predictions × Counts)

/-- `utilities::to_array`, ArrayUtilities.hpp:53-63 and 26-42, for a type without default constructor, from the `i`th element on.  To look beyond the end of the list is undefined
unless it is further than one element. -/
def toArray {α : Type} (l : List α) : Nat → Nat → Res (List α)
  | _, 0 => .ok []
  | i, n + 1 => if l.length < i then .throws else
    match l[i]? with
    | none => .ub
    | some a => (toArray l (i + 1) n).bind fun as => .ok (a :: as)

/-- `unpack`, AllocationCheckers.hpp:523-541, for all levels, and `shift`, RegularAllocationCheckers.hpp:188-202.  The levels other than the outermost one are always taken to belong to
containers of values. -/
def unpack {W U : Type} (msvc : Bool) (g : Given W U) : Res (List (Info W U)) :=
  if g.inners.length > g.inner.length then .throws else
    (toArray g.inners 0 g.inner.length).bind fun ps => .ok
      ({ g.outer with pred := shift msvc g.cls ⟨1, 1, 0⟩ true g.predictions } ::
        List.zipWith (fun l (p : Predictions × Counts) => { l with pred := shift msvc .values p.2 false p.1 }) g.inner ps)

/-- All levels of all allocators: the `tuple_cat` in RegularAllocationCheckersDetails.hpp:104 and elsewhere. -/
def unpackAll {W U : Type} (msvc : Bool) : List (Given W U) → Res (List (Info W U))
  | [] => .ok []
  | g :: gs => (unpack msvc g).bind fun is => (unpackAll msvc gs).bind fun js => .ok (is ++ js)

/-! ## Checks -/

/-- The operators. -/
inductive Operator where
  | eq | ne | lt | le | gt | ge | threeway
  deriving DecidableEq, Repr

/-- A type with allocators: besides, there are the effects of comparisons and serialization on the state, and the constructors which copy or move from the first object to the
second one, which is new and has a new allocator. -/
structure AOps (W U : Type) extends Ops W U where
  effect : Operator → Var → Var → W → W
  effectAgainst : Var → U → W → W
  paraCopy : Var → Var → W → W
  paraMove : Var → Var → W → W
  output : Var → W → W
  outputFrom : U → W → W

section
variable {W U : Type}

/-- The state, for example to acquire the number of allocations. -/
def look : M W W := fun w => (w, [], w)

/-- A check which has an effect. -/
def testing (b : W → Bool) (f : W → W) : M W Bool := do
  let r ← test b
  act f
  return r

/-- `sentinel`: whether all checks have passed. -/
def sentry {α : Type} (m : M W α) : M W Bool := fun w =>
  let (w, log, _) := m w
  (w, log, log.all id)

/-- Something is done for all allocators. -/
def forAll (is : List (Info W U)) (f : Info W U → M W Bool) : M W Unit :=
  match is with
  | [] => pure ()
  | i :: is => do
    let _ ← f i
    forAll is f

variable (t : AOps W U) (is : List (Info W U))

/-- `check_allocation`, AllocationCheckersDetails.hpp:28-44. -/
def checkAllocation (i : Info W U) (a : Var) (previous : Int) (p : Prediction) : M W Bool :=
  test fun w => i.count w a - previous - (p.value - p.unshifted) == p.unshifted

/-- A comparison of objects, with `operator==`. -/
def equal (a b : Var) : M W Bool := testing (t.eq · a b) (t.effect .eq a b)

/-- A comparison of objects, with `operator!=`. -/
def unequal (a b : Var) : M W Bool := testing (t.ne · a b) (t.effect .ne a b)

/-- A check of an object against a prediction. -/
def against (a : Var) (u : U) : M W Bool := testing (t.against · a u) (t.effectAgainst a u)

/-- `do_check_comparison_consistency`, SemanticsCheckersDetails.hpp:242-256, with `post_comparison_action`, AllocationCheckersDetails.hpp:615-624, and `check_no_allocation`, 388-400. -/
def consistent (o : Operator) (b : W → Var → Bool) (a : Var) : M W Bool := do
  let start ← look
  if ← testing (b · a) (t.effect o a a) then sentry (forAll is fun i => checkAllocation i a (i.count start a) (.make 0)) else return false

/-- `check_comparison_consistency`, AllocationCheckersDetails.hpp:665-689. -/
def consistency (o : Operator) (b : W → Var → Bool) : M W Bool := sentry do
  let _ ← consistent t is o b .x
  consistent t is o b .y

/-- `check_equality_prerequisites`, SemanticsCheckersDetails.hpp:322-328. -/
def equalityPrerequisites : M W Bool := do
  let eq ← consistency t is .eq fun w a => t.eq w a a
  let ne ← consistency t is .ne fun w a => !t.ne w a a
  if eq && ne then unequal t .x .y else return false

/-- `check_equality_prerequisites` with equivalents, SemanticsCheckersDetails.hpp:343-358. -/
def equalityPrerequisitesWith (xe ye : U) : M W Bool := do
  if ← equalityPrerequisites t is then
    let a ← against t .x xe
    let b ← against t .y ye
    return a && b
  else return false

/-- `check_ordering_operators`, SemanticsCheckersDetails.hpp:268-285. -/
def orderingOperators : M W Bool := sentry do
  let _ ← consistency t is .lt fun w a => !t.lt w a a
  let _ ← consistency t is .le fun w a => t.le w a a
  let _ ← consistency t is .gt fun w a => !t.gt w a a
  let _ ← consistency t is .ge fun w a => t.ge w a a
  threewayCheck t.toOps fun c => consistency t is .threeway fun w a => c w a a == .eq

/-- `comp`, SemanticsCheckersDetails.hpp:293-308. -/
def comp (a b : Var) : M W Bool := sentry do
  let _ ← testing (t.gt · b a) (t.effect .gt b a)
  let _ ← testing (t.le · a b) (t.effect .le a b)
  let _ ← testing (t.ge · b a) (t.effect .ge b a)
  threewayCheck t.toOps fun c => testing (fun w => c w a b == .lt) (t.effect .threeway a b)

/-- `check_ordering_consistency`, SemanticsCheckersDetails.hpp:287-311. -/
def orderingConsistency : M W Bool := do
  if ← orderingOperators t is then
    let w ← look
    act (t.effect .lt .x .y)
    if t.lt w .x .y then comp t .x .y else comp t .y .x
  else return false

/-- `check_prerequisites`, SemanticsCheckersDetails.hpp:194-238, and `check_orderable_prerequisites`, 360-393, given the check of equality. -/
def prerequisites (equality : M W Bool) : Option Ordering → M W Bool
  | none => equality
  | some order => do
    if ← equality then
      if ← test (fun _ => order != .eq) then
        if ← orderingConsistency t is then
          if order == .lt then testing (t.lt · .x .y) (t.effect .lt .x .y) else testing (t.gt · .x .y) (t.effect .gt .x .y)
        else return false
      else return false
    else return false

/-- `post_copy_action`, RegularAllocationCheckersDetails.hpp:25-31, with `check_copy_x_allocation` and `check_copy_y_allocation`, AllocationCheckersDetails.hpp:402-428.  `start` is the
state at the very beginning. -/
def postCopy (start : W) : M W Unit := do
  forAll is fun i => checkAllocation i .z (i.count start .x) i.pred.x
  forAll is fun i => checkAllocation i .cy (i.count start .y) i.pred.copy

/-- `dual_allocation_checker::check_copy_assign_y_to_x`, AllocationCheckersDetails.hpp:103-127, of `from'` to `to`; `start` is the state before. -/
def checkCopyAssignAllocation (start : W) (to from' : Var) (i : Info W U) : M W Bool :=
  if i.copyProp then do
    let a ← checkAllocation i to (i.count start from') i.pred.assign
    let b ← checkAllocation i from' (i.count start from') (convert i.pred.assign)
    return a && b
  else do
    let a ← checkAllocation i to (i.count start to) i.pred.assignNoProp
    let b ← checkAllocation i from' (i.count start from') (.make 0)
    return a && b

/-- `do_check_copy_assign`, RegularCheckersDetails.hpp:30-48, with the action in RegularAllocationCheckersDetails.hpp:33-37 and 48-54. -/
def checkCopyAssign (to from' : Var) : M W Bool := do
  let start ← look
  act (t.copyAssign from' to)
  if ← equal t to from' then
    forAll is (checkCopyAssignAllocation start to from')
    act (t.copyAssign to to)
    equal t to from'
  else return false

/-- The check of an object which has been moved from, if there is a prediction. -/
def movedFrom (a : Var) : Option U → M W Unit
  | none => pure ()
  | some p => do
    let _ ← against t a p
    return ()

/-- `do_check_move_construction`, SemanticsCheckersDetails.hpp:399-423, with the action in AllocationCheckersDetails.hpp:626-630 and `check_move_y_allocation`, 430-442; see also 692-697. -/
def checkMoveConstruction (from' : Var) (expected : Var → M W Bool) (moved : Option U) : M W Bool := do
  let start ← look
  act (t.moveConstruct from' .m)
  if ← expected .m then
    movedFrom t from' moved
    forAll is fun i => checkAllocation i .m (i.count start from') i.pred.move
    act (t.moveConstruct .m .opt)
    act (t.destroy .m)
    return true
  else
    act (t.destroy .m)
    return false

/-- `dual_allocation_checker::check_move_assign_y_to_x`, AllocationCheckersDetails.hpp:129-145. -/
def checkMoveAssignAllocation (start : W) (to from' : Var) (i : Info W U) : M W Bool :=
  if i.equal start to from' || i.moveProp then checkAllocation i to (i.count start from') i.pred.moveAssign
  else checkAllocation i to (i.count start to) i.pred.moveAssignNoProp

/-- `check_mutation_after_move`, AllocationCheckersDetails.hpp:706-723, with `check_mutation_allocation`, 444-460. -/
def checkMutationAllocation (mutate : Var → W → W) (a : Var) : M W Unit := do
  let start ← look
  act (mutate a)
  forAll is fun i => checkAllocation i a (i.count start a) i.pred.mutation

/-- `do_check_move_assign`, SemanticsCheckersDetails.hpp:438-463, with the action in AllocationCheckersDetails.hpp:632-637; see also 699-704. -/
def checkMoveAssign (mutate : Var → W → W) (to from' : Var) (expected : Var → M W Bool) (moved : Option U) : M W Unit := do
  let start ← look
  act (t.moveAssign from' to)
  if ← expected to then
    movedFrom t from' moved
    forAll is (checkMoveAssignAllocation start to from')
    checkMutationAllocation is mutate to
  else return ()

/-- `do_swap`, AllocationCheckersDetails.hpp:231-249: whether swaps are checked. -/
def doSwap : Bool := is.all fun i => i.swapProp || i.alwaysEqual

/-- `do_check_swap`, AllocationCheckersDetails.hpp:604-610: whether it is checked that swaps do not allocate. -/
def doCheckSwap : Bool := is.all fun i => i.moveProp && i.swapProp

/-- `dual_allocation_checker::check_no_allocation`, AllocationCheckersDetails.hpp:91-101, for `a` and `b`, as called after the swap of the objects `b` and `a`. -/
def checkNoAllocation (start : W) (a b : Var) (i : Info W U) : M W Bool := do
  let p ← checkAllocation i b (i.count start a) (.make 0)
  let q ← checkAllocation i a (i.count start b) (.make 0)
  return p && q

/-- `dual_allocation_checker::check_mutation_after_swap`, AllocationCheckersDetails.hpp:147-163. -/
def checkMutationAfterSwapAllocation (start : W) (a b : Var) (i : Info W U) : M W Bool := do
  let p ← checkAllocation i a (i.count start (if i.swapProp then b else a)) i.pred.mutation
  let q ← checkAllocation i b (i.count start (if i.swapProp then a else b)) (.make 0)
  return p && q

/-- `allocation_actions::post_swap_action`, AllocationCheckersDetails.hpp:639-650. -/
def postSwap (start : W) (a b : Var) : M W Unit := if doCheckSwap is then forAll is (checkNoAllocation start a b) else pure ()

/-- `check_mutation_after_swap`, AllocationCheckersDetails.hpp:373-384. -/
def checkMutationAfterSwap (mutate : Var → W → W) (start : W) (a b : Var) : M W Unit := do
  if ← equal t a .y then
    act (mutate a)
    forAll is (checkMutationAfterSwapAllocation start a b)
    let _ ← unequal t a .y
    return ()
  else return ()

/-- `do_check_swap`, SemanticsCheckersDetails.hpp:479-511, given the action. -/
def checkSwap (a b : Var) (ea eb : Var → M W Bool) (action : W → M W Unit) : M W Bool := do
  let start ← look
  act (t.swap a b)
  let swapb ← ea b
  let swapa ← eb a
  if swapa && swapb then
    action start
    act (t.swap b b)
    ea b
  else return false

/-- The part of `check_semantics` with swap, RegularCheckersDetails.hpp:96-99, with the action in RegularAllocationCheckersDetails.hpp:39-44; see also 84-95. -/
def checkSwapRegular (mutate : Var → W → W) : M W Unit :=
  if doSwap is then do
    act (t.copyConstruct .x .sx)
    act (t.copyConstruct .y .sy)
    let _ ← checkSwap t .sx .sy (equal t · .x) (equal t · .y) fun start => do
      postSwap is start .sx .sy
      checkMutationAfterSwap t is mutate start .sx .sy
    act (t.destroy .sy)
    act (t.destroy .sx)
  else pure ()

/-- The part of `check_semantics` with the mutator, RegularCheckersDetails.hpp:101-125. -/
def checkMutation (mutate : Var → W → W) (consistentCopyAssign : Bool) : M W Unit :=
  if consistentCopyAssign then do
    act (t.copyConstruct .y .v)
    act (mutate .v)
    if ← unequal t .v .y then
      act (t.copyAssign .y .v)
      if ← equal t .v .y then
        act (mutate .v)
        let _ ← unequal t .v .y
        act (t.destroy .v)
      else act (t.destroy .v)
    else act (t.destroy .v)
  else pure ()

/-- `do_check_serialization`, SemanticsCheckersDetails.hpp:529-548, with the action in AllocationCheckersDetails.hpp:652-656 and `check_serialization_allocation`, 585-597; see
RegularCheckersDetails.hpp:127-130 and AllocationCheckersDetails.hpp:725-729. -/
def checkSerialization : M W Unit :=
  match t.stream with
  | none => pure ()
  | some stream => do
    act (t.copyConstruct .x .u)
    let start ← look
    act (t.output .y)
    forAll is fun i => checkAllocation i .y (i.count start .y) (.make 0)
    act (stream .y .u)
    let _ ← equal t .u .y
    act (t.destroy .u)

/-- The part of `check_semantics` before copy assignment, RegularCheckersDetails.hpp:73-82. -/
def checkCopy (start : W) : M W Bool := do
  act (t.copyConstruct .x .z)
  let consistentCopy ← equal t .z .x
  if consistentCopy then
    act (t.copyConstruct .y .cy)
    postCopy is start
    act (t.destroy .cy)
    return consistentCopy
  else return consistentCopy

/-- The part of `check_semantics` with move construction, RegularCheckersDetails.hpp:85-88. -/
def checkMoved (consistentCopyAssign : Bool) : M W Unit :=
  if consistentCopyAssign then do
    if ← checkMoveConstruction t is .z (equal t · .y) none then act (t.destroy .opt) else return ()
  else pure ()

/-- `check_semantics`, RegularCheckersDetails.hpp:55-133.  There are no predictions of what has been moved from, RegularAllocationCheckersDetails.hpp:143-160. -/
def semantics (order : Option Ordering) (mutate : Var → W → W) : M W Bool := sentry do
  let start ← look
  if ← prerequisites t is (equalityPrerequisites t is) order then
    let consistentCopy ← checkCopy t is start
    let consistentCopyAssign ← checkCopyAssign t is .z .y
    checkMoved t is consistentCopyAssign
    if consistentCopy then
      act (t.copyConstruct .x .w)
      act (t.copyConstruct .y .ty)
      checkMoveAssign t is mutate .w .ty (equal t · .y) none
      act (t.destroy .ty)
      checkSwapRegular t is mutate
      checkMutation t mutate consistentCopyAssign
      checkSerialization t is
      act (t.destroy .w)
      act (t.destroy .z)
    else act (t.destroy .z)
  else return ()

/-- `check_para_constructor_allocations`, RegularAllocationCheckersDetails.hpp:56-82, with `check_para_copy_y_allocation` and `check_para_move_allocation`,
AllocationCheckersDetails.hpp:462-530.  What is put into the `optional` is a copy. -/
def checkPara (mutate : Var → W → W) : M W Unit := do
  act (t.paraCopy .y .pc)
  if ← equal t .pc .y then
    forAll is fun i => checkAllocation i .pc 0 i.pred.paraCopy
    act (t.copyConstruct .pc .po)
    act (t.destroy .pc)
    act (t.paraMove .po .pm)
    if ← equal t .pm .y then
      forAll is fun i => checkAllocation i .pm 0 i.pred.paraMove
      checkMutationAllocation is mutate .pm
      act (t.destroy .pm)
    else act (t.destroy .pm)
    act (t.destroy .po)
  else act (t.destroy .pc)

/-- `check_semantics` for regular types with allocators, RegularAllocationCheckersDetails.hpp:97-108. -/
def regular (order : Option Ordering) (mutate : Var → W → W) : M W Unit := do
  if ← semantics t is order mutate then checkPara t is mutate else return ()

/-- `check_init_allocations`, AllocationCheckersDetails.hpp:532-582; `y` is the prediction for the second object. -/
def checkInit (y : Predictions → Prediction) : M W Unit := forAll is fun i => do
  let a ← checkAllocation i .x 0 i.pred.x
  let b ← checkAllocation i .y 0 (y i.pred)
  return a && b

/-- `check_semantics` with functions which make the objects, RegularAllocationCheckersDetails.hpp:110-133. -/
def regularMade (makeX makeY : W → W) (order : Option Ordering) (mutate : Var → W → W) : M W Unit := do
  act makeX
  act makeY
  checkInit is Predictions.copy
  regular t is order mutate

/-- `check_para_constructor_allocations` for one object of a type which can only be moved, MoveOnlyAllocationCheckersDetails.hpp:34-69.  `b` is the variable `v`, and `res` what is
in the object which is returned. -/
def checkParaOne (a b res : Var) (ze : U) (pred : Predictions → Prediction) : M W Bool := do
  if ← against t a ze then
    act (t.paraMove a b)
    forAll is fun i => checkAllocation i b 0 (pred i.pred)
    if ← against t b ze then
      act (t.moveConstruct b res)
      if ← against t res ze then
        act (t.destroy b)
        return true
      else
        act (t.destroy b)
        return false
    else
      act (t.destroy b)
      return false
  else return false

/-- The part of `check_semantics` with swap and move assignment, MoveOnlyCheckersDetails.hpp:39-49; see also MoveOnlyAllocationCheckersDetails.hpp:27-32. -/
def checkSwapAndAssign (mutate : Var → W → W) (xe ye : U) (moved : Option U) : M W Unit :=
  if doSwap is then do
    if ← checkSwap t .opt .y (against t · xe) (against t · ye) fun start => postSwap is start .opt .y then
      checkMoveAssign t is mutate .y .opt (against t · ye) moved
    else return ()
  else checkMoveAssign t is mutate .opt .y (against t · ye) moved

/-- `do_check_serialization`, SemanticsCheckersDetails.hpp:529-548, as called in MoveOnlyCheckersDetails.hpp:51-54. -/
def checkSerializationFrom (ye : U) : M W Unit :=
  match t.streamFrom with
  | none => pure ()
  | some stream => do
    let start ← look
    act (t.outputFrom ye)
    forAll is fun i => test fun w => i.countOf w ye - i.countOf start ye == 0
    act (stream ye .x)
    let _ ← against t .x ye
    return ()

/-- `check_semantics` for types which can only be moved, MoveOnlyCheckersDetails.hpp:18-57. -/
def moveSemantics (xe ye : U) (order : Option Ordering) (movedConstruction movedAssignment : Option U) (mutate : Var → W → W) : M W Unit := do
  if ← prerequisites t is (equalityPrerequisitesWith t is xe ye) order then
    if ← checkMoveConstruction t is .x (against t · xe) movedConstruction then
      checkSwapAndAssign t is mutate xe ye movedAssignment
      checkSerializationFrom t is ye
      act (t.destroy .opt)
    else return ()
  else return ()

/-- `check_semantics` for types which can only be moved and have allocators, MoveOnlyAllocationCheckersDetails.hpp:85-115, and 71-83.  The objects given by the user are `ux` and `uy`. -/
def moveOnly (xe ye : U) (order : Option Ordering) (movedConstruction movedAssignment : Option U) (mutate : Var → W → W) : M W Unit := do
  let x ← checkParaOne t is .ux .vx .x xe Predictions.x
  let y ← checkParaOne t is .uy .vy .y ye Predictions.paraMove
  if x && y then moveSemantics t is xe ye order movedConstruction movedAssignment mutate else return ()

end

end Verif.AllocationChecks
