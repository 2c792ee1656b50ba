import Verif.Model.AllocationChecks
import Verif.Spec.Semantics
/-
What a check of allocations demands, and types which allocate a known number of times.
-/
namespace Verif.Spec.AllocationChecks
open Verif.Semantics Verif.AllocationChecks

/-- An experiment: what is done to the state, what is demanded, and what is found. -/
abbrev Experiment (W α : Type) := W → W × Prop × α

instance {W : Type} : Monad (Experiment W) where
  pure a := fun w => (w, True, a)
  bind e f := fun w => ((f (e w).2.2 (e w).1).1, (e w).2.1 ∧ (f (e w).2.2 (e w).1).2.1, (f (e w).2.2 (e w).1).2.2)

/-- All demands are met. -/
def Meets {W α : Type} (e : Experiment W α) (w : W) : Prop := (e w).2.1

section
variable {W U : Type}

def perform (f : W → W) : Experiment W Unit := fun w => (f w, True, ())
def demand (p : W → Prop) : Experiment W Unit := fun w => (w, p w, ())
def observe : Experiment W W := fun w => (w, True, w)

variable (t : AOps W U) (is : List (Info W U))

/-- Two objects compare equal, or unequal. -/
def same (a b : Var) : Experiment W Unit := do
  demand (t.eq · a b = true)
  perform (t.effect .eq a b)

def different (a b : Var) : Experiment W Unit := do
  demand (t.ne · a b = true)
  perform (t.effect .ne a b)

/-- An object is as predicted. -/
def asPredicted (a : Var) (u : U) : Experiment W Unit := do
  demand (t.against · a u = true)
  perform (t.effectAgainst a u)

/-- Each allocator of `b` has been used, since the state was `start`, the predicted number of times more often than that of `a` had been used then. -/
def allocated (start : W) (a b : Var) (p : Info W U → Int) : Experiment W Unit := demand fun w => ∀ i ∈ is, i.count w b = i.count start a + p i

/-- A comparison of an object with itself has the right result, and does not allocate. -/
def quiet (o : Operator) (b : W → Var → Bool) (a : Var) : Experiment W Unit := do
  let start ← observe
  demand (b · a = true)
  perform (t.effect o a a)
  allocated is start a a fun _ => 0

/-- This is so for both objects. -/
def quietBoth (o : Operator) (b : W → Var → Bool) : Experiment W Unit := do
  quiet t is o b .x
  quiet t is o b .y

/-- The objects are different, and equal to themselves. -/
def equality : Experiment W Unit := do
  quietBoth t is .eq fun w a => t.eq w a a
  quietBoth t is .ne fun w a => !t.ne w a a
  different t .x .y

/-- Besides, they are as predicted. -/
def equalityWith (xe ye : U) : Experiment W Unit := do
  equality t is
  asPredicted t .x xe
  asPredicted t .y ye

/-- All operators other than `operator<` agree that the first object is less than the second. -/
def less (a b : Var) : Experiment W Unit := do
  demand (t.gt · b a = true)
  perform (t.effect .gt b a)
  demand (t.le · a b = true)
  perform (t.effect .le a b)
  demand (t.ge · b a = true)
  perform (t.effect .ge b a)
  match t.threeway with
  | none => pure ()
  | some c => do
    demand fun w => c w a b = .lt
    perform (t.effect .threeway a b)

/-- No object is less or greater than itself. -/
def reflexiveOrder : Experiment W Unit := do
  quietBoth t is .lt fun w a => !t.lt w a a
  quietBoth t is .le fun w a => t.le w a a
  quietBoth t is .gt fun w a => !t.gt w a a
  quietBoth t is .ge fun w a => t.ge w a a
  match t.threeway with
  | none => pure ()
  | some c => quietBoth t is .threeway fun w a => c w a a == .eq

/-- The order is as claimed. -/
def ordered : Option Ordering → Experiment W Unit
  | none => pure ()
  | some order => do
    demand fun _ => order ≠ .eq
    reflexiveOrder t is
    let w ← observe
    perform (t.effect .lt .x .y)
    (if t.lt w .x .y then less t .x .y else less t .y .x)
    if order = .lt then do
      demand (t.lt · .x .y = true)
      perform (t.effect .lt .x .y)
    else do
      demand (t.gt · .x .y = true)
      perform (t.effect .gt .x .y)

/-- Copies of both objects are equal to the original or, for the second object, at least made, and both use their allocators as often as predicted.  `start` is the state before anything has
been done. -/
def copies (start : W) : Experiment W Unit := do
  perform (t.copyConstruct .x .z)
  same t .z .x
  perform (t.copyConstruct .y .cy)
  allocated is start .x .z fun i => i.pred.x.value
  allocated is start .y .cy fun i => i.pred.copy.value
  perform (t.destroy .cy)

/-- If the second object is assigned to a copy of the first one, then the latter becomes equal, and the allocators are used as often as predicted; the allocator of the second object is
not used unless it is propagated.  Moreover, assignment of an object to itself does not change its value. -/
def copyAssignment : Experiment W Unit := do
  let start ← observe
  perform (t.copyAssign .y .z)
  same t .z .y
  demand fun w => ∀ i ∈ is, if i.copyProp then i.count w .z = i.count start .y + i.pred.assign.value ∧ i.count w .y = i.count start .y + i.pred.assign.value
    else i.count w .z = i.count start .z + i.pred.assignNoProp.value ∧ i.count w .y = i.count start .y
  perform (t.copyAssign .z .z)
  same t .z .y

/-- An object which has been moved from is as predicted, if there is a prediction. -/
def moved (a : Var) : Option U → Experiment W Unit
  | none => pure ()
  | some p => asPredicted t a p

/-- What is constructed from a moved object is as expected, and uses the allocator as often as predicted. -/
def moveConstruction (a : Var) (expected : Var → Experiment W Unit) (p : Option U) : Experiment W Unit := do
  let start ← observe
  perform (t.moveConstruct a .m)
  expected .m
  moved t a p
  allocated is start a .m fun i => i.pred.move.value
  perform (t.moveConstruct .m .opt)
  perform (t.destroy .m)

/-- To mutate an object uses its allocator as often as predicted. -/
def mutationAllocations (mutate : Var → W → W) (a : Var) : Experiment W Unit := do
  let start ← observe
  perform (mutate a)
  allocated is start a a fun i => i.pred.mutation.value

/-- What a moved object is assigned to becomes as expected, and the allocators are used as often as predicted, also by a mutation thereafter. -/
def moveAssignment (mutate : Var → W → W) (a b : Var) (expected : Var → Experiment W Unit) (p : Option U) : Experiment W Unit := do
  let start ← observe
  perform (t.moveAssign b a)
  expected a
  moved t b p
  demand fun w => ∀ i ∈ is, if i.equal start a b = true ∨ i.moveProp = true then i.count w a = i.count start b + i.pred.moveAssign.value
    else i.count w a = i.count start a + i.pred.moveAssignNoProp.value
  mutationAllocations is mutate a

/-- If all allocators are propagated by swap, as well as by move assignment, then a swap uses no allocator; `start` is the state before the objects are swapped. -/
def swapAllocations (start : W) (a b : Var) : Experiment W Unit :=
  demand fun w => (∀ i ∈ is, i.moveProp = true ∧ i.swapProp = true) → ∀ i ∈ is, i.count w b = i.count start a ∧ i.count w a = i.count start b

/-- Whether all allocators are propagated by swap, or always equal: only then swaps are tried. -/
def Swaps : Prop := ∀ i ∈ is, i.swapProp = true ∨ i.alwaysEqual = true

instance : Decidable (Swaps is) := inferInstanceAs (Decidable (∀ i ∈ is, i.swapProp = true ∨ i.alwaysEqual = true))

/-- Swapped objects get each other's value, and to swap an object with itself does not change it. -/
def swapping (a b : Var) (ea eb : Var → Experiment W Unit) (action : W → Experiment W Unit) : Experiment W Unit := do
  let start ← observe
  perform (t.swap a b)
  ea b
  eb a
  action start
  perform (t.swap b b)
  ea b

/-- The swap of copies of the objects, after which one of them is mutated. -/
def swapCopies (mutate : Var → W → W) : Experiment W Unit :=
  if Swaps is then do
    perform (t.copyConstruct .x .sx)
    perform (t.copyConstruct .y .sy)
    swapping t .sx .sy (same t · .x) (same t · .y) fun start => do
      swapAllocations is start .sx .sy
      same t .sx .y
      perform (mutate .sx)
      demand fun w => ∀ i ∈ is, if i.swapProp then i.count w .sx = i.count start .sy + i.pred.mutation.value ∧ i.count w .sy = i.count start .sx
        else i.count w .sx = i.count start .sx + i.pred.mutation.value ∧ i.count w .sy = i.count start .sy
      different t .sx .y
    perform (t.destroy .sy)
    perform (t.destroy .sx)
  else pure ()

/-- Mutation of a copy, and of what has been assigned, changes the copy but not that from which it was made. -/
def mutation (mutate : Var → W → W) : Experiment W Unit := do
  perform (t.copyConstruct .y .v)
  perform (mutate .v)
  different t .v .y
  perform (t.copyAssign .y .v)
  same t .v .y
  perform (mutate .v)
  different t .v .y
  perform (t.destroy .v)

/-- What is serialized and then deserialized stays the same, and to serialize an object does not use its allocators. -/
def serialization : Option (Var → Var → W → W) → Experiment W Unit
  | none => pure ()
  | some stream => do
    perform (t.copyConstruct .x .u)
    let start ← observe
    perform (t.output .y)
    allocated is start .y .y fun _ => 0
    perform (stream .y .u)
    same t .u .y
    perform (t.destroy .u)

/-- What is constructed from the second object with another allocator, by copying or moving, is equal to the second object, and the new allocator is used as often as predicted. -/
def paraConstruction (mutate : Var → W → W) : Experiment W Unit := do
  perform (t.paraCopy .y .pc)
  same t .pc .y
  demand fun w => ∀ i ∈ is, i.count w .pc = i.pred.paraCopy.value
  perform (t.copyConstruct .pc .po)
  perform (t.destroy .pc)
  perform (t.paraMove .po .pm)
  same t .pm .y
  demand fun w => ∀ i ∈ is, i.count w .pm = i.pred.paraMove.value
  mutationAllocations is mutate .pm

/-- The experiment for regular types. -/
def regularExperiment (order : Option Ordering) (mutate : Var → W → W) : Experiment W Unit := do
  let start ← observe
  equality t is
  ordered t is order
  copies t is start
  copyAssignment t is
  moveConstruction t is .z (same t · .y) none
  perform (t.destroy .opt)
  perform (t.copyConstruct .x .w)
  perform (t.copyConstruct .y .ty)
  moveAssignment t is mutate .w .ty (same t · .y) none
  perform (t.destroy .ty)
  swapCopies t is mutate
  mutation t mutate
  serialization t is t.stream
  perform (t.destroy .w)
  perform (t.destroy .z)
  paraConstruction t is mutate

/-- What is constructed with another allocator from a moved object, and then moved again, is as predicted, and the new allocator is used as often as predicted. -/
def paraMove (a b c : Var) (u : U) (p : Info W U → Int) : Experiment W Unit := do
  asPredicted t a u
  perform (t.paraMove a b)
  demand fun w => ∀ i ∈ is, i.count w b = p i
  asPredicted t b u
  perform (t.moveConstruct b c)
  asPredicted t c u
  perform (t.destroy b)

/-- Swap, if it is tried, and move assignment. -/
def swapAndAssign (mutate : Var → W → W) (xe ye : U) (p : Option U) : Experiment W Unit :=
  if Swaps is then do
    swapping t .opt .y (asPredicted t · xe) (asPredicted t · ye) fun start => swapAllocations is start .opt .y
    moveAssignment t is mutate .y .opt (asPredicted t · ye) p
  else moveAssignment t is mutate .opt .y (asPredicted t · ye) p

/-- What is deserialized is what has been serialized, and to serialize an object does not use its allocators. -/
def serializationFrom (ye : U) : Option (U → Var → W → W) → Experiment W Unit
  | none => pure ()
  | some stream => do
    let start ← observe
    perform (t.outputFrom ye)
    demand fun w => ∀ i ∈ is, i.countOf w ye = i.countOf start ye
    perform (stream ye .x)
    asPredicted t .x ye

/-- The experiment for types which can only be moved. -/
def moveOnlyExperiment (xe ye : U) (order : Option Ordering) (movedConstruction movedAssignment : Option U) (mutate : Var → W → W) : Experiment W Unit := do
  paraMove t is .ux .vx .x xe fun i => i.pred.x.value
  paraMove t is .uy .vy .y ye fun i => i.pred.paraMove.value
  equalityWith t is xe ye
  ordered t is order
  moveConstruction t is .x (asPredicted t · xe) movedConstruction
  swapAndAssign t is mutate xe ye movedAssignment
  serializationFrom t is ye t.streamFrom

end

/-! ## Types which allocate a known number of times -/

/-- The books of an allocator: which allocator an object has, how often it has been used, and how often an operation uses it, given the values of the objects. -/
structure Books (W V A : Type) where
  allocator : W → Var → A
  used : W → A → Int
  copy : V → Int
  move : V → Int
  paraCopy : V → Int
  paraMove : V → Int
  mutate : V → Int
  /-- assignment to an object with the first value, of one with the second value, for propagated allocators and others -/
  assignProp : V → V → Int
  assignNoProp : V → V → Int
  /-- the same for move assignment, for propagated or equal allocators and others -/
  moveAssignProp : V → V → Int
  moveAssignNoProp : V → V → Int
  /-- by swap, for the allocators the first and the second object have before -/
  swapFirst : V → V → Int
  swapSecond : V → V → Int

section
variable {W U V A : Type}

/-- A type which can be moved behaves well with respect to its values, as in C68; besides, comparisons have no effect on values, nor on how
objects compare with predictions, and construction with another allocator transfers values. -/
structure MovesValued (t : AOps W U) (val : W → Var → V) : Prop extends Verif.Spec.Semantics.Moves t.toOps val where
  effect : ∀ o w a b c, val (t.effect o a b w) c = val w c
  effectAgainst : ∀ w a u c, val (t.effectAgainst a u w) c = val w c
  against_effect : ∀ w a u c u', t.against (t.effectAgainst a u w) c u' = t.against w c u'
  paraMove : ∀ w a b, a ≠ b → val (t.paraMove a b w) b = val w a
  paraMove_other : ∀ w a b c, c ≠ a → c ≠ b → val (t.paraMove a b w) c = val w c

/-- This is so for a regular type; here serialization has no effect on values either. -/
structure Valued (t : AOps W U) (val : W → Var → V) : Prop extends MovesValued t val, Verif.Spec.Semantics.WellBehaved t.toOps val where
  output : ∀ w a c, val (t.output a w) c = val w c
  paraCopy : ∀ w a b, a ≠ b → val (t.paraCopy a b w) b = val w a
  paraCopy_other : ∀ w a b c, c ≠ b → val (t.paraCopy a b w) c = val w c

/-- The books of a type which can be moved are in order: operations use allocators as often as stated there, and allocators are handed on as they should be.  Comparisons do not allocate,
and whether allocators are equal is found out only by comparing them. -/
structure MovesInOrder [DecidableEq A] (t : AOps W U) (val : W → Var → V) (mutator : Var → W → W) (i : Level W U) (b : Books W V A) : Prop where
  count : ∀ w a, i.count w a = b.used w (b.allocator w a)
  equal : ∀ w a c, i.equal w a c = true ↔ b.allocator w a = b.allocator w c
  notAlways : i.alwaysEqual = false
  effect_allocator : ∀ o w a c d, b.allocator (t.effect o a c w) d = b.allocator w d
  effect_used : ∀ o w a c α, b.used (t.effect o a c w) α = b.used w α
  against_allocator : ∀ w a u d, b.allocator (t.effectAgainst a u w) d = b.allocator w d
  against_used : ∀ w a u α, b.used (t.effectAgainst a u w) α = b.used w α
  destroy_allocator : ∀ w a d, d ≠ a → b.allocator (t.destroy a w) d = b.allocator w d
  destroy_used : ∀ w a α, b.used (t.destroy a w) α = b.used w α
  /-- what is constructed from a moved object gets its allocator -/
  move_allocator : ∀ w a c d, b.allocator (t.moveConstruct a c w) d = if d = c then b.allocator w a else b.allocator w d
  move_used : ∀ w a c α, b.used (t.moveConstruct a c w) α = b.used w α + if α = b.allocator w a then b.move (val w a) else 0
  /-- what is assigned to gets the allocator of what is assigned if it is propagated -/
  moveAssign_allocator : ∀ w a c d, b.allocator (t.moveAssign a c w) d = if d = c ∧ i.moveProp = true then b.allocator w a else b.allocator w d
  moveAssign_used : ∀ w a c α, a ≠ c → b.used (t.moveAssign a c w) α = b.used w α + if α = b.allocator (t.moveAssign a c w) c then
    (if i.moveProp = true ∨ b.allocator w a = b.allocator w c then b.moveAssignProp (val w c) (val w a) else b.moveAssignNoProp (val w c) (val w a)) else 0
  /-- swapped objects get each other's allocator if it is propagated -/
  swap_allocator : ∀ w a c d, i.swapProp = true → b.allocator (t.swap a c w) d = if d = a then b.allocator w c else if d = c then b.allocator w a else b.allocator w d
  swap_used : ∀ w a c α, a ≠ c → i.swapProp = true → b.used (t.swap a c w) α =
    b.used w α + (if α = b.allocator w a then b.swapFirst (val w a) (val w c) else 0) + if α = b.allocator w c then b.swapSecond (val w a) (val w c) else 0
  mutate_allocator : ∀ w a d, b.allocator (mutator a w) d = b.allocator w d
  mutate_used : ∀ w a α, b.used (mutator a w) α = b.used w α + if α = b.allocator w a then b.mutate (val w a) else 0
  /-- other allocators are new, and so have not been used before -/
  paraMove_used : ∀ w a c, b.used (t.paraMove a c w) (b.allocator (t.paraMove a c w) c) = b.paraMove (val w a)
  paraMove_new : ∀ w a c d, d ≠ c → b.allocator (t.paraMove a c w) c ≠ b.allocator w d
  paraMove_allocator : ∀ w a c d, d ≠ c → b.allocator (t.paraMove a c w) d = b.allocator w d

/-- The books of a regular type are in order; here serialization does not allocate either. -/
structure InOrder [DecidableEq A] (t : AOps W U) (val : W → Var → V) (mutator : Var → W → W) (i : Level W U) (b : Books W V A) : Prop extends MovesInOrder t val mutator i b where
  output_allocator : ∀ w a d, b.allocator (t.output a w) d = b.allocator w d
  output_used : ∀ w a α, b.used (t.output a w) α = b.used w α
  /-- copies get the allocator of the original -/
  copy_allocator : ∀ w a c d, b.allocator (t.copyConstruct a c w) d = if d = c then b.allocator w a else b.allocator w d
  copy_used : ∀ w a c α, b.used (t.copyConstruct a c w) α = b.used w α + if α = b.allocator w a then b.copy (val w a) else 0
  /-- what is assigned to gets the allocator of what is assigned if it is propagated -/
  assign_allocator : ∀ w a c d, b.allocator (t.copyAssign a c w) d = if d = c ∧ i.copyProp = true then b.allocator w a else b.allocator w d
  assign_used : ∀ w a c α, a ≠ c → b.used (t.copyAssign a c w) α = b.used w α +
    if α = b.allocator (t.copyAssign a c w) c then (if i.copyProp then b.assignProp (val w c) (val w a) else b.assignNoProp (val w c) (val w a)) else 0
  paraCopy_used : ∀ w a c, b.used (t.paraCopy a c w) (b.allocator (t.paraCopy a c w) c) = b.paraCopy (val w a)

/-- The predictions for a regular type are right, as far as they are relevant; `vx` and `vy` are the values of the objects, and `swaps` is whether swaps are tried. -/
structure Right (swaps : Prop) (vx vy : V) (i : Info W U) (b : Books W V A) : Prop where
  copyX : b.copy vx = i.pred.x.value
  copyY : b.copy vy = i.pred.copy.value
  assignProp : i.copyProp = true → b.assignProp vx vy = i.pred.assign.value
  assignNoProp : i.copyProp = false → b.assignNoProp vx vy = i.pred.assignNoProp.value
  move : b.move vy = i.pred.move.value
  moveAssignProp : i.moveProp = true → b.moveAssignProp vx vy = i.pred.moveAssign.value
  moveAssignNoProp : i.moveProp = false → b.moveAssignNoProp vx vy = i.pred.moveAssignNoProp.value
  mutate : b.mutate vy = i.pred.mutation.value
  paraCopy : b.paraCopy vy = i.pred.paraCopy.value
  paraMove : b.paraMove vy = i.pred.paraMove.value
  swap : swaps → b.swapFirst vx vy = 0 ∧ b.swapSecond vx vy = 0

/-- The same for a type which can only be moved.  The prediction for moving is about the first object here; `swaps` is whether the
allocations of swaps are checked. -/
structure MovesRight (swaps : Prop) (vx vy : V) (i : Info W U) (b : Books W V A) : Prop where
  paraMoveX : b.paraMove vx = i.pred.x.value
  paraMoveY : b.paraMove vy = i.pred.paraMove.value
  move : b.move vx = i.pred.move.value
  moveAssignProp : i.moveProp = true → b.moveAssignProp vx vy = i.pred.moveAssign.value
  moveAssignNoProp : i.moveProp = false → b.moveAssignNoProp vx vy = i.pred.moveAssignNoProp.value
  mutate : b.mutate vy = i.pred.mutation.value
  swap : swaps → b.swapFirst vx vy = 0 ∧ b.swapSecond vx vy = 0

end

end Verif.Spec.AllocationChecks
