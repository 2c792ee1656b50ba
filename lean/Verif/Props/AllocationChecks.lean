import Verif.Lemmas.AllocationCosts
import Verif.Lemmas.AllocationStops
/-
Properties of the checks of allocations.
-/
namespace Verif.Props
open Verif.Semantics Verif.AllocationChecks Verif.Spec.AllocationChecks
open Verif.Spec.Semantics (Passes WellOrdered Claimed Mutates)

namespace AllocationChecksExamples

/-- Vectors: their elements and allocators, and how often each allocator has been used. -/
structure Memory where
  elements : Var → List Nat
  allocator : Var → Nat
  used : Nat → Int

/-- To allocate memory, or not. -/
def need (l : List Nat) : Int := if l = [] then 0 else 1

/-- Memory is needed if a vector gets longer. -/
def grow (l l' : List Nat) : Int := if l.length < l'.length then 1 else 0

/-- An allocator which no object has yet. -/
def fresh (w : Memory) : Nat :=
  1 + w.allocator .x + w.allocator .y + w.allocator .z + w.allocator .m + w.allocator .opt + w.allocator .w + w.allocator .ty + w.allocator .sx + w.allocator .sy + w.allocator .v + w.allocator .u +
    w.allocator .cy + w.allocator .pc + w.allocator .po + w.allocator .pm + w.allocator .ux + w.allocator .uy + w.allocator .vx + w.allocator .vy

theorem fresh_new (w : Memory) (a : Var) : fresh w ≠ w.allocator a := by
  unfold fresh
  cases a <;> omega

def put {α : Type} (f : Var → α) (a : Var) (x : α) : Var → α := fun c => if c = a then x else f c

def use (w : Memory) (α : Nat) (n : Int) : Nat → Int := fun β => w.used β + if β = α then n else 0

/-- The operations of vectors; `copyProp`, `moveProp` and `swapProp` are the traits of the allocator.  `broken` is whether move construction copies, which takes an allocation. -/
def vector (copyProp moveProp broken : Bool) : AOps Memory (List Nat) where
  eq w a b := w.elements a == w.elements b
  ne w a b := w.elements a != w.elements b
  lt _ _ _ := false
  le _ _ _ := false
  gt _ _ _ := false
  ge _ _ _ := false
  threeway := none
  against w a u := w.elements a == u
  copyConstruct a b w := ⟨put w.elements b (w.elements a), put w.allocator b (w.allocator a), use w (w.allocator a) (need (w.elements a))⟩
  moveConstruct a b w := ⟨put (put w.elements a []) b (w.elements a), put w.allocator b (w.allocator a), use w (w.allocator a) (if broken then need (w.elements a) else 0)⟩
  copyAssign a b w :=
    let allocator := if copyProp then put w.allocator b (w.allocator a) else w.allocator
    ⟨put w.elements b (w.elements a), allocator, use w (allocator b) (if a = b then 0 else if copyProp then need (w.elements a) else grow (w.elements b) (w.elements a))⟩
  moveAssign a b w :=
    let allocator := if moveProp then put w.allocator b (w.allocator a) else w.allocator
    ⟨put (put w.elements a []) b (w.elements a), allocator,
      use w (allocator b) (if moveProp = true ∨ w.allocator a = w.allocator b then 0 else grow (w.elements b) (w.elements a))⟩
  swap a b w := ⟨fun c => if c = a then w.elements b else if c = b then w.elements a else w.elements c,
    fun c => if c = a then w.allocator b else if c = b then w.allocator a else w.allocator c, w.used⟩
  destroy _ w := w
  stream := some fun a b w => ⟨put w.elements b (w.elements a), w.allocator, w.used⟩
  streamFrom := some fun u b w => ⟨put w.elements b u, w.allocator, w.used⟩
  effect _ _ _ w := w
  effectAgainst _ _ w := w
  paraCopy a b w := ⟨put w.elements b (w.elements a), put w.allocator b (fresh w), fun α => if α = fresh w then need (w.elements a) else w.used α⟩
  paraMove a b w := ⟨put (put w.elements a []) b (w.elements a), put w.allocator b (fresh w), fun α => if α = fresh w then need (w.elements a) else w.used α⟩
  output _ w := w
  outputFrom _ w := w

/-- To add an element. -/
def push (a : Var) (w : Memory) : Memory := ⟨put w.elements a (0 :: w.elements a), w.allocator, use w (w.allocator a) 1⟩

/-- The allocator, with predictions. -/
def info (copyProp moveProp swapProp : Bool) (p : Predictions) : Info Memory (List Nat) where
  count w a := w.used (w.allocator a)
  countOf _ _ := 0
  equal w a b := w.allocator a == w.allocator b
  copyProp := copyProp
  moveProp := moveProp
  swapProp := swapProp
  alwaysEqual := false
  pred := p

/-- What the operations cost. -/
def costs (broken : Bool) : Books Memory (List Nat) Nat where
  allocator := Memory.allocator
  used := Memory.used
  copy := need
  move := fun l => if broken then need l else 0
  paraCopy := need
  paraMove := need
  mutate _ := 1
  assignProp _ l := need l
  assignNoProp := grow
  moveAssignProp _ _ := 0
  moveAssignNoProp := grow
  swapFirst _ _ := 0
  swapSecond _ _ := 0

theorem vector_movesValued (c m b : Bool) : MovesValued (vector c m b) Memory.elements where
  eq w a b := by simp [vector]
  ne w a b := by simp [vector]
  moveConstruct w a b h := by simp [vector, put]
  moveConstruct_other w a b c h h' := by simp [vector, put, h, h']
  moveAssign w a b h := by simp [vector, put]
  moveAssign_other w a b c h h' := by simp [vector, put, h, h']
  swap_left w a b := by simp [vector]
  swap_right w a b := by simp only [vector]; split <;> simp_all
  swap_other w a b c h h' := by simp [vector, h, h']
  destroy_other w a c h := rfl
  effect o w a b c := rfl
  effectAgainst w a u c := rfl
  against_effect w a u c u' := rfl
  paraMove w a b h := by simp [vector, put]
  paraMove_other w a b c h h' := by simp [vector, put, h, h']

theorem vector_valued (c m b : Bool) : Valued (vector c m b) Memory.elements where
  toMovesValued := vector_movesValued c m b
  copyConstruct w a b h := by simp [vector, put]
  copyConstruct_other w a b c h := by simp [vector, put, h]
  copyAssign w a b := by simp [vector, put]
  copyAssign_other w a b c h := by simp [vector, put, h]
  stream f hf w a b h := by cases hf; simp [put]
  stream_other f hf w a b c h := by cases hf; simp [put, h]
  output w a c := rfl
  paraCopy w a b h := by simp [vector, put]
  paraCopy_other w a b c h := by simp [vector, put, h]

theorem vector_movesInOrder (c m b s : Bool) (p : Predictions) : MovesInOrder (vector c m b) Memory.elements push (info c m s p).toLevel (costs b) where
  count w a := rfl
  equal w a c := by simp [info, costs]
  notAlways := rfl
  effect_allocator o w a c d := rfl
  effect_used o w a c α := rfl
  against_allocator w a u d := rfl
  against_used w a u α := rfl
  destroy_allocator w a d h := rfl
  destroy_used w a α := rfl
  move_allocator w a c d := by simp [vector, costs, put]
  move_used w a c α := rfl
  moveAssign_allocator w a c d := by cases m <;> simp [vector, costs, put, info]
  moveAssign_used w a c α h := by cases m <;> simp [vector, costs, put, info, use]
  swap_allocator w a c d h := by simp [vector, costs]
  swap_used w a c α h h' := by
    show w.used α = w.used α + (if α = w.allocator a then 0 else 0) + if α = w.allocator c then 0 else 0
    simp
  mutate_allocator w a d := by simp [push, costs]
  mutate_used w a α := rfl
  paraMove_used w a c := by simp [vector, costs, put]
  paraMove_new w a c d h := by simpa [vector, costs, put] using fresh_new w d
  paraMove_allocator w a c d h := by simp [vector, costs, put, h]

theorem vector_inOrder (c m b s : Bool) (p : Predictions) : InOrder (vector c m b) Memory.elements push (info c m s p).toLevel (costs b) where
  toMovesInOrder := vector_movesInOrder c m b s p
  output_allocator w a d := rfl
  output_used w a α := rfl
  copy_allocator w a c d := by simp [vector, costs, put]
  copy_used w a c α := rfl
  assign_allocator w a d e := by cases c <;> simp [vector, costs, put, info]
  assign_used w a d α h := by cases c <;> simp [vector, costs, put, info, use, h]
  paraCopy_used w a c := by simp [vector, costs, put]

theorem push_mutates (l : List Nat) : Mutates Memory.elements l push where
  changes w a h := by simp [push, put, h]
  other w a c h := by simp [push, put, h]

/-- An empty vector and one with two elements, with different allocators. -/
def vectors : Memory where
  elements a := if a = .y ∨ a = .uy then [1, 2] else []
  allocator a := if a = .y ∨ a = .uy then 1 else 0
  used _ := 1

/-- The same, but with the same allocator. -/
def shared : Memory := { vectors with allocator := fun _ => 0 }

/-- The predictions for these vectors. -/
def predictions : Predictions := .regular 0 1 1 1 1

def moveOnlyPredictions : Predictions := .moveOnly 0 1 1 1

/-- Comparisons which allocate. -/
def wasteful : AOps Memory (List Nat) := { vector true true false with effect := fun _ a _ w => { w with used := use w (w.allocator a) 1 } }

/-- Serialization which allocates. -/
def wastefulOutput : AOps Memory (List Nat) := { vector true true false with output := fun a w => { w with used := use w (w.allocator a) 1 } }

/-- Three levels of allocators. -/
def given (n : Nat) : Given Memory (List Nat) where
  outer := (info true true true predictions).toLevel
  cls := .values
  predictions := predictions
  inner := [(info true true true predictions).toLevel, (info true true true predictions).toLevel]
  inners := List.replicate n (predictions, ⟨0, 2, 1⟩)

end AllocationChecksExamples
open AllocationChecksExamples

section
variable {W U V A : Type} [DecidableEq A] {t : AOps W U} {is : List (Info W U)} {val : W → Var → V} {mutator : Var → W → W} {books : Info W U → Books W V A}

/-- **C86** The check of a regular type with allocators passes if and only if all demands of the experiment are met: those of the check of semantics, and besides that each allocator has
been used as often as predicted after each operation, and neither by comparisons of objects with themselves nor by serialization.  Checks which are left out after a failure do not matter. -/
theorem C86_regular (t : AOps W U) (is : List (Info W U)) (order : Option Ordering) (mutator : Var → W → W) (w : W) :
    Passes (regular t is order mutator) w ↔ Meets (regularExperiment t is order mutator) w := passes_regular order mutator w

/-- **C86** The same for types which can only be moved. -/
theorem C86_move_only (t : AOps W U) (is : List (Info W U)) (xe ye : U) (order : Option Ordering) (movedConstruction movedAssignment : Option U) (mutator : Var → W → W) (w : W) :
    Passes (moveOnly t is xe ye order movedConstruction movedAssignment mutator) w ↔ Meets (moveOnlyExperiment t is xe ye order movedConstruction movedAssignment mutator) w :=
  passes_moveOnly xe ye order movedConstruction movedAssignment mutator w

/-- **C86** Consider a type which behaves well with respect to values, and whose operations use allocators as often as recorded in books.  If the two objects have different values
and allocators, the order is as claimed and the mutator changes the second object, then the check passes if and only if each prediction which is relevant is what the books say: each mistake in
a prediction is found, and right ones are accepted. -/
theorem C86_predictions {lt : V → V → Prop} (hv : Valued t val) (hb : ∀ i ∈ is, InOrder t val mutator i.toLevel (books i)) {order : Option Ordering} {w : W} (hxy : val w .x ≠ val w .y)
    (hd : ∀ i ∈ is, (books i).allocator w .x ≠ (books i).allocator w .y) (ho : order ≠ none → WellOrdered t.toOps val lt) (hc : Claimed lt (val w .x) (val w .y) order)
    (hm : Mutates val (val w .y) mutator) :
    Passes (regular t is order mutator) w ↔ ∀ i ∈ is, Right (Swaps is) (val w .x) (val w .y) i (books i) := by
  rw [C86_regular]
  exact meets_regular hv hb hm ho ⟨rfl, rfl, hd⟩ hxy hc

/- The predictions for vectors are right, whatever the traits of the allocator. -/
theorem passes_vector (c m s : Bool) : Passes (regular (vector c m false) [info c m s predictions] none push) vectors := by
  refine (C86_predictions (lt := fun _ _ => True) (books := fun _ => costs false) (val := Memory.elements) (vector_valued c m false) ?_ (by simp [vectors]) ?_ (fun h => absurd rfl h) trivial (push_mutates _)).2 ?_
  · simp only [List.mem_singleton, forall_eq]
    exact vector_inOrder c m false s predictions
  · simp [costs, vectors]
  · simp only [List.mem_singleton, forall_eq]
    constructor <;> simp [costs, vectors, info, predictions, need, grow, Predictions.regular, Prediction.make, convert]

/- If move construction copies, then this is found. -/
example : ¬ Passes (regular (vector true true true) [info true true true predictions] none push) vectors := by
  rw [C86_predictions (lt := fun _ _ => True) (books := fun _ => costs true) (val := Memory.elements) (vector_valued true true true)
    (by simp only [List.mem_singleton, forall_eq]; exact vector_inOrder true true true true predictions) (by simp [vectors]) (by simp [costs, vectors]) (fun h => absurd rfl h) trivial (push_mutates _)]
  intro h
  have := (h _ (List.mem_singleton_self _)).move
  simp [costs, vectors, info, predictions, need, Predictions.regular, Prediction.make] at this

/-- **C86** The same for types which can only be moved, provided that the predictions of what has been moved from are right, that what is deserialized is what has been serialized, and that
serialization does not allocate.  Here the allocators are different in any case.  The allocations of swaps are found only if all allocators are propagated by swap and by move assignment. -/
theorem C86_predictions_move_only {lt : V → V → Prop} (hv : MovesValued t val) (hb : ∀ i ∈ is, MovesInOrder t val mutator i.toLevel (books i)) {order : Option Ordering} {w : W} {xe ye : U}
    {movedConstruction movedAssignment : Option U} (hxy : val w .ux ≠ val w .uy) (ho : order ≠ none → WellOrdered t.toOps val lt) (hc : Claimed lt (val w .ux) (val w .uy) order)
    (hx : ∀ v a, t.against v a xe = true ↔ val v a = val w .ux) (hy : ∀ v a, t.against v a ye = true ↔ val v a = val w .uy)
    (hmc : ∀ u, movedConstruction = some u → ∀ v a b, a ≠ b → val v a = val w .ux → t.against (t.moveConstruct a b v) a u = true)
    (hma : ∀ u, movedAssignment = some u → ∀ v a b, a ≠ b → val v a = val w .uy → t.against (t.moveAssign a b v) a u = true)
    (hs : ∀ f, t.streamFrom = some f → ∀ v a, val (f ye a v) a = val w .uy) (hout : ∀ i ∈ is, ∀ v, i.countOf (t.outputFrom ye v) ye = i.countOf v ye) :
    Passes (moveOnly t is xe ye order movedConstruction movedAssignment mutator) w ↔
      ∀ i ∈ is, MovesRight (∀ j ∈ is, j.moveProp = true ∧ j.swapProp = true) (val w .ux) (val w .uy) i (books i) := by
  rw [C86_move_only]
  exact meets_moveOnly hv hb ho rfl rfl hxy hc hx hy hmc hma hs hout

example (c m s : Bool) : Passes (moveOnly (vector c m false) [info c m s moveOnlyPredictions] [] [1, 2] none (some []) (some []) push) vectors := by
  refine (C86_predictions_move_only (lt := fun _ _ => True) (books := fun _ => costs false) (val := Memory.elements) (vector_movesValued c m false) ?_ (by simp [vectors]) (fun h => absurd rfl h) trivial
    (fun v a => by simp [vector, vectors]) (fun v a => by simp [vector, vectors]) ?_ ?_ ?_ ?_).2 ?_
  · simp only [List.mem_singleton, forall_eq]
    exact vector_movesInOrder c m false s moveOnlyPredictions
  · rintro u hu v a b hab -
    cases hu
    simp [vector, put, hab]
  · rintro u hu v a b hab -
    cases hu
    simp [vector, put, hab]
  · intro f hf v a
    cases hf
    simp [put, vectors]
  · intro i _ v
    rfl
  · simp only [List.mem_singleton, forall_eq]
    constructor <;> simp [costs, vectors, info, moveOnlyPredictions, need, grow, Predictions.moveOnly, Prediction.make]

/-- **C86** If only the shortest list of predictions is given, then the check passes if and only if these are right and, besides, construction with another allocator allocates as often as
copying does, moves and move assignments do not allocate or, without propagation, as often as copy assignment was predicted to do, and swaps do not allocate. -/
theorem C86_defaults {lt : V → V → Prop} {i : Info W U} {b : Books W V A} (hv : Valued t val) (hb : InOrder t val mutator i.toLevel b) {order : Option Ordering} {w : W} (hxy : val w .x ≠ val w .y)
    (hd : b.allocator w .x ≠ b.allocator w .y) (ho : order ≠ none → WellOrdered t.toOps val lt) (hc : Claimed lt (val w .x) (val w .y) order) (hm : Mutates val (val w .y) mutator)
    {x copy mutation assignNoProp assign : Int} (hp : i.pred = .regular x copy mutation assignNoProp assign) :
    Passes (regular t [i] order mutator) w ↔ b.copy (val w .x) = x ∧ b.copy (val w .y) = copy ∧ b.paraCopy (val w .y) = copy ∧ b.paraMove (val w .y) = copy ∧ b.mutate (val w .y) = mutation ∧
      b.move (val w .y) = 0 ∧ (if i.copyProp then b.assignProp (val w .x) (val w .y) = assign else b.assignNoProp (val w .x) (val w .y) = assignNoProp) ∧
      (if i.moveProp then b.moveAssignProp (val w .x) (val w .y) = 0 else b.moveAssignNoProp (val w .x) (val w .y) = assignNoProp) ∧
      (i.swapProp = true → b.swapFirst (val w .x) (val w .y) = 0 ∧ b.swapSecond (val w .x) (val w .y) = 0) := by
  have hsw : Swaps [i] ↔ i.swapProp = true := by simp [Swaps, hb.notAlways]
  rw [C86_predictions (books := fun _ => b) hv (by simpa using hb) hxy (by simpa using hd) ho hc hm, hsw]
  simp only [List.mem_singleton, forall_eq]
  constructor
  · rintro ⟨h1, h2, h3, h4, h5, h6, h7, h8, h9, h10, h11⟩
    simp only [hp, Predictions.regular, Prediction.make, convert, Int.add_zero, Int.sub_self] at h1 h2 h3 h4 h5 h6 h7 h8 h9 h10
    refine ⟨h1, h2, h9, h10, h8, h5, ?_, ?_, h11⟩
    · cases h : i.copyProp with
      | true => simpa using h3 h
      | false => simpa using h4 h
    · cases h : i.moveProp with
      | true => simpa using h6 h
      | false => simpa using h7 h
  · rintro ⟨h1, h2, h3, h4, h5, h6, h7, h8, h9⟩
    constructor <;> (try simp only [hp, Predictions.regular, Prediction.make, convert, Int.add_zero, Int.sub_self]) <;> try assumption
    · intro h; simpa [h] using h7
    · intro h; simpa [h] using h7
    · intro h; simpa [h] using h8
    · intro h; simpa [h] using h8

/-- **C86** If what is demanded of the objects as they are given is not fulfilled, then no operation of the type is called other than comparisons: if those change nothing, then the state of
the program is as before. -/
theorem C86_stops (he : ∀ o a b w, t.effect o a b w = w) (order : Option Ordering) (mutator : Var → W → W) (w : W) (h : ¬ Meets (do equality t is; ordered t is order) w) :
    (regular t is order mutator w).1 = w := by
  have hp : ¬ Passes (prerequisites t is (equalityPrerequisites t is) order) w := fun hp => h (((follows_prerequisites follows_equality order) w).1.1 hp)
  have hr : (prerequisites t is (equalityPrerequisites t is) order w).2.2 = false := by
    rw [Bool.eq_false_iff]
    exact fun hr => hp (honest_prerequisites honest_equality order w hr)
  have hu : (prerequisites t is (equalityPrerequisites t is) order w).1 = w := idle_prerequisites he (idle_equality he) order w
  have hs : (semantics t is order mutator w).1 = w ∧ (semantics t is order mutator w).2.2 = false := by
    have e : semantics t is order mutator w = sentry (prerequisites t is (equalityPrerequisites t is) order >>= fun r => if r = true then _ else return ()) w := rfl
    constructor
    · rw [e]
      show ((if (prerequisites t is (equalityPrerequisites t is) order w).2.2 = true then _ else _ : M W Unit) (prerequisites t is (equalityPrerequisites t is) order w).1).1 = w
      rw [hr, hu]
      rfl
    · rw [Bool.eq_false_iff, e]
      intro hl
      have := honest_sentry _ w hl
      exact hp fun b hb => this b (List.mem_append_left _ hb)
  unfold AllocationChecks.regular
  show ((if (semantics t is order mutator w).2.2 = true then _ else _ : M W Unit) (semantics t is order mutator w).1).1 = w
  rw [hs.2, hs.1]
  rfl

/-- **C86** The same for types which can only be moved, once the objects have been constructed with other allocators; here the equivalents belong to what is demanded. -/
theorem C86_stops_move_only (he : ∀ o a b w, t.effect o a b w = w) (ha : ∀ a u w, t.effectAgainst a u w = w) (xe ye : U) (order : Option Ordering)
    (movedConstruction movedAssignment : Option U) (mutator : Var → W → W) (w : W) (h : ¬ Meets (do equalityWith t is xe ye; ordered t is order) w) :
    (moveSemantics t is xe ye order movedConstruction movedAssignment mutator w).1 = w := by
  have hp : ¬ Passes (prerequisites t is (equalityPrerequisitesWith t is xe ye) order) w := fun hp => h (((follows_prerequisites (follows_equalityWith xe ye) order) w).1.1 hp)
  have hr : (prerequisites t is (equalityPrerequisitesWith t is xe ye) order w).2.2 = false := by
    rw [Bool.eq_false_iff]
    exact fun hr => hp (honest_prerequisites (honest_equalityWith xe ye) order w hr)
  have hu : (prerequisites t is (equalityPrerequisitesWith t is xe ye) order w).1 = w := idle_prerequisites he (idle_equalityWith he ha xe ye) order w
  unfold moveSemantics
  show ((if (prerequisites t is (equalityPrerequisitesWith t is xe ye) order w).2.2 = true then _ else _ : M W Unit) (prerequisites t is (equalityPrerequisitesWith t is xe ye) order w).1).1 = w
  rw [hr, hu]
  rfl

/-- Vectors which are equal are not given to the checks in vain: nothing happens to them. -/
example (m : Memory) (h : m.elements .x = m.elements .y) : (regular (vector true true false) [info true true true predictions] none push m).1 = m :=
  C86_stops (fun _ _ _ _ => rfl) _ _ _ fun hm => by
    have h1 := (meets_bind _ _ _).1 hm
    have h2 : (vector true true false).ne m .x .y = true := h1.1.2.2.1
    simp [vector, h] at h2

example (m : Memory) (h : m.elements .x ≠ [1]) : (moveSemantics (vector true true false) [info true true true predictions] [1] [2] none none none push m).1 = m :=
  C86_stops_move_only (fun _ _ _ _ => rfl) (fun _ _ _ => rfl) _ _ _ _ _ _ _ fun hm => by
    have h1 := (meets_bind _ _ _).1 hm
    have h2 : (vector true true false).against m .x [1] = true := h1.1.2.1.1
    simp [vector, h] at h2

/-- **C86** Comparisons which allocate are detected, whatever else the type does: `operator==` and `operator!=` in any case, and the others, except for `operator<=>`, if an order is claimed. -/
theorem C86_comparisons {order : Option Ordering} {o : Operator} (ho : o = .eq ∨ o = .ne ∨ order ≠ none ∧ (o = .lt ∨ o = .le ∨ o = .gt ∨ o = .ge)) {i : Info W U} (hi : i ∈ is)
    (h : ∀ w a, i.count (t.effect o a a w) a ≠ i.count w a) (w : W) : ¬ Passes (regular t is order mutator) w := by
  rw [C86_regular]
  exact not_meets_noisy ho hi h w

example : ¬ Passes (regular wasteful [info true true true predictions] none push) vectors :=
  C86_comparisons (o := .eq) (.inl rfl) (List.mem_singleton_self _) (fun w a => by simp only [wasteful, info, use, if_true]; omega) _

/-- **C86** So is serialization which allocates. -/
theorem C86_serialization {order : Option Ordering} (hs : t.stream ≠ none) {i : Info W U} (hi : i ∈ is) (h : ∀ w a, i.count (t.output a w) a ≠ i.count w a) (w : W) :
    ¬ Passes (regular t is order mutator) w := by
  rw [C86_regular]
  exact not_meets_output hs hi h w

example : ¬ Passes (regular wastefulOutput [info true true true predictions] none push) vectors :=
  C86_serialization (by simp [wastefulOutput, vector]) (List.mem_singleton_self _) (fun w a => by simp only [wastefulOutput, info, use, if_true]; omega) _

/-- **C86** If the objects are made by functions, then besides their allocators have to have been used, once both objects are there, as often as predicted for copies. -/
theorem C86_init (t : AOps W U) (is : List (Info W U)) (makeX makeY : W → W) (order : Option Ordering) (mutator : Var → W → W) (w : W) : Passes (regularMade t is makeX makeY order mutator) w ↔
    (∀ i ∈ is, i.count (makeY (makeX w)) .x = i.pred.x.value ∧ i.count (makeY (makeX w)) .y = i.pred.copy.value) ∧ Passes (regular t is order mutator) (makeY (makeX w)) :=
  passes_init makeX makeY order w

example : Passes (regularMade (vector true true false) [info true true true predictions] id (fun _ => { vectors with used := fun α => if α = 1 then 1 else 0 }) none push) vectors := by
  rw [C86_init]
  refine ⟨by simp [info, vectors, predictions, Predictions.regular, Prediction.make], ?_⟩
  refine (C86_predictions (lt := fun _ _ => True) (books := fun _ => costs false) (val := Memory.elements) (vector_valued true true false) ?_ (by simp [vectors]) ?_ (fun h => absurd rfl h) trivial (push_mutates _)).2 ?_
  · simp only [List.mem_singleton, forall_eq]
    exact vector_inOrder true true false true predictions
  · simp [costs, vectors]
  · simp only [List.mem_singleton, forall_eq]
    constructor <;> simp [costs, vectors, info, predictions, need, grow, Predictions.regular, Prediction.make, convert]

/-- **C86 (violated)** One would expect right predictions to be accepted also if the two objects share an allocator.  They are not, if copying the second object allocates: its copy is made before
the allocations of the copy of the first object are counted. -/
theorem C86_shared_violated (hv : Valued t val) (hb : ∀ i ∈ is, InOrder t val mutator i.toLevel (books i)) (order : Option Ordering) {w : W} {i : Info W U} (hi : i ∈ is)
    (hs : (books i).allocator w .x = (books i).allocator w .y) (hr : Right (Swaps is) (val w .x) (val w .y) i (books i)) (hn : (books i).copy (val w .y) ≠ 0) :
    ¬ Passes (regular t is order mutator) w := by
  rw [C86_regular]
  intro h
  have h1 := meets_shared hv hb h hi hs
  have h2 := hr.copyX
  omega

example : ¬ Passes (regular (vector true true false) [info true true true predictions] none push) shared := by
  refine C86_shared_violated (books := fun _ => costs false) (val := Memory.elements) (vector_valued true true false) ?_ none (List.mem_singleton_self _) rfl ?_ (by simp [costs, shared, vectors, need])
  · simp only [List.mem_singleton, forall_eq]
    exact vector_inOrder true true false true predictions
  · constructor <;> simp [costs, shared, vectors, info, predictions, need, grow, Predictions.regular, Prediction.make, convert]

end

section
variable {W U : Type}

/-- **C86** For a scoped allocator there is one put of predictions for each level, in order; except for debug builds with MSVC they are those given by the user. -/
theorem C86_levels (g : Given W U) (h : g.inners.length = g.inner.length) : ∃ is : List (Info W U), unpack false g = .ok is ∧ is.map Info.toLevel = g.outer :: g.inner ∧
    is.map Info.pred = g.predictions :: g.inners.map Prod.fst := by
  refine ⟨{ g.outer with pred := g.predictions } :: List.zipWith (fun l (p : Predictions × Counts) => { l with pred := p.1 }) g.inner g.inners, ?_, ?_, ?_⟩
  · rw [unpack, if_neg (by omega), toArray_ok _ _ _ (by omega)]
    simp only [Res.bind, shift_false, List.drop_zero, ← h, List.take_length]
  · rw [List.map_cons, List.map_zipWith]
    congr 1
    generalize g.inner = l at h ⊢
    generalize g.inners = m at h ⊢
    induction l generalizing m with
    | nil => cases m <;> rfl
    | cons a l ih =>
      cases m with
      | nil => cases h
      | cons b m => exact congrArg (a :: ·) (ih m (by simpa using h))
  · rw [List.map_cons, List.map_zipWith]
    congr 1
    generalize g.inner = l at h ⊢
    generalize g.inners = m at h ⊢
    induction l generalizing m with
    | nil => cases m with
      | nil => rfl
      | cons b m => cases h
    | cons a l ih =>
      cases m with
      | nil => cases h
      | cons b m => exact congrArg (b.1 :: ·) (ih m (by simpa using h))

example : (given 2).inners.length = (given 2).inner.length := rfl

/-- **C86** If there are several allocators then the levels of all of them are checked, in order, with the predictions given for them. -/
theorem C86_all_levels : ∀ (gs : List (Given W U)), (∀ g ∈ gs, g.inners.length = g.inner.length) → ∃ is : List (Info W U), unpackAll false gs = .ok is ∧
    is.map Info.toLevel = gs.flatMap (fun g => g.outer :: g.inner) ∧ is.map Info.pred = gs.flatMap fun g => g.predictions :: g.inners.map Prod.fst
  | [], _ => ⟨[], rfl, rfl, rfl⟩
  | g :: gs, h => by
    obtain ⟨is, h1, h2, h3⟩ := C86_levels g (h g (by simp))
    obtain ⟨js, h4, h5, h6⟩ := C86_all_levels gs fun g hg => h g (by simp [hg])
    refine ⟨is ++ js, by simp [unpackAll, h1, h4, Res.bind], ?_, ?_⟩
    · rw [List.map_append, h2, h5, List.flatMap_cons]
    · rw [List.map_append, h3, h6, List.flatMap_cons]

example : ∀ g ∈ [given 2, given 2], g.inners.length = g.inner.length := by simp [given]

/-- **C86** In debug builds with MSVC the shifted predictions differ from those given by numbers which depend only on the numbers of containers, the level and the kind of container, and
the check is as for predictions of the sums. -/
theorem C86_shift (cls : Class) (c : Counts) (top : Bool) (p : Predictions) :
    (shift true cls c top p).x.value = p.x.unshifted + c.numX ∧ (shift true cls c top p).copy.value = p.copy.unshifted + c.numY ∧
    (shift true cls c top p).mutation.value = p.mutation.unshifted + c.postMutation ∧ (shift true cls c top p).paraCopy.value = p.paraCopy.unshifted + c.numY ∧
    (shift true cls c top p).paraMove.value = p.paraMove.unshifted + c.numY ∧ (shift true cls c top p).move.value = p.move.unshifted + (if top then 1 else 0) ∧
    (shift true cls c top p).moveAssign.value = p.moveAssign.unshifted + (if top then 1 else 0) ∧
    (shift true cls c top p).moveAssignNoProp.value = p.moveAssignNoProp.unshifted + (if top = false ∧ c.numX < c.numY then (c.numY : Int) else 0) ∧
    (shift true .values c top p).assign.value = p.assign.unshifted + c.numY ∧ (shift true .values c top p).assignNoProp.value = p.assignNoProp.unshifted + (if top then 0 else (c.numY : Int)) := by
  refine ⟨rfl, rfl, rfl, rfl, rfl, rfl, rfl, ?_, rfl, rfl⟩
  cases top <;> simp [shift, increment, Prediction.make]

/-- **C86** For containers of pointers each container takes part once in an assignment, but with propagation it does so twice if the allocator is propagated by move assignment, too, and three
times if it is propagated neither by move assignment nor by swap. -/
theorem C86_shift_pointers (c : Counts) (top : Bool) (p : Predictions) (move swap : Bool) :
    (∀ copy, (shift true (.pointers copy move swap) c top p).assignNoProp.value = p.assignNoProp.unshifted + c.numY) ∧
    (shift true (.pointers false move swap) c top p).assign.value = p.assign.unshifted + c.numY ∧
    (shift true (.pointers true true swap) c top p).assign.value = p.assign.unshifted + 2 * c.numY ∧
    (shift true (.pointers true false true) c top p).assign.value = p.assign.unshifted + c.numY ∧
    (shift true (.pointers true false false) c top p).assign.value = p.assign.unshifted + 3 * c.numY := by
  refine ⟨fun _ => rfl, ?_, ?_, ?_, ?_⟩ <;> simp [shift, shiftAssign, increment, Prediction.make, Int.mul_comm]

/-- **C86 (violated)** One would expect it to be reported if there are not enough predictions for the levels of a scoped allocator.  There is undefined behaviour instead; only if there are
too many there is an exception. -/
theorem C86_levels_violated (msvc : Bool) (g : Given W U) : (g.inners.length < g.inner.length → unpack msvc g = .ub) ∧ (g.inner.length < g.inners.length → unpack msvc g = .throws) := by
  refine ⟨fun h => ?_, fun h => ?_⟩
  · rw [unpack, if_neg (by omega), toArray_ub _ _ _ (by omega) (by omega)]
    rfl
  · rw [unpack, if_pos h]

example : (given 1).inners.length < (given 1).inner.length := by decide
example : (given 2).inner.length < (given 3).inners.length := by decide

end

end Verif.Props
