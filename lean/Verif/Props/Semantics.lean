import Verif.Lemmas.Semantics
/-
Properties of the checks of the semantics of types.
-/
namespace Verif.Props
open Verif.Semantics Verif.Spec.Semantics

namespace SemanticsExamples

/-- Integers; the value moved from is zero. -/
def int : Ops (Var → Int) Int where
  eq w a b := w a == w b
  ne w a b := w a != w b
  lt w a b := decide (w a < w b)
  le w a b := decide (w a ≤ w b)
  gt w a b := decide (w a > w b)
  ge w a b := decide (w a ≥ w b)
  threeway := some fun w a b => compare (w a) (w b)
  against w a u := w a == u
  copyConstruct a b w := fun c => if c = b then w a else w c
  moveConstruct a b w := fun c => if c = b then w a else if c = a then 0 else w c
  copyAssign a b w := fun c => if c = b then w a else w c
  moveAssign a b w := fun c => if c = b then w a else if c = a then 0 else w c
  swap a b w := fun c => if c = a then w b else if c = b then w a else w c
  destroy _ w := w
  stream := some fun a b w c => if c = b then w a else w c
  streamFrom := some fun u b w c => if c = b then u else w c

/-- To add one. -/
def increment (a : Var) (w : Var → Int) : Var → Int := fun c => if c = a then w a + 1 else w c

/-- The values of the objects given by the user; the others do not exist yet. -/
def start : Var → Int := fun a => if a = .x then 3 else if a = .y then 5 else 0

theorem int_moves : Moves int fun w a => w a where
  eq w a b := by simp [int]
  ne w a b := by simp [int]
  moveConstruct w a b h := by simp [int]
  moveConstruct_other w a b c h h' := by simp [int, h, h']
  moveAssign w a b h := by simp [int]
  moveAssign_other w a b c h h' := by simp [int, h, h']
  swap_left w a b := by simp [int]
  swap_right w a b := by simp only [int]; split <;> simp_all
  swap_other w a b c h h' := by simp [int, h, h']
  destroy_other w a c h := rfl

theorem int_wellBehaved : WellBehaved int fun w a => w a where
  toMoves := int_moves
  copyConstruct w a b h := by simp [int]
  copyConstruct_other w a b c h := by simp [int, h]
  copyAssign w a b := by simp [int]
  copyAssign_other w a b c h := by simp [int, h]
  stream f hf w a b h := by cases hf; simp
  stream_other f hf w a b c h := by cases hf; simp [h]

theorem int_wellOrdered : WellOrdered int (fun w a => w a) (· < ·) where
  irrefl a := by omega
  trans a b c h h' := by omega
  less w a b := by simp [int]
  greater w a b := by simp [int]
  lessEqual w a b := by simp only [int, decide_eq_true_eq]; omega
  greaterEqual w a b := by simp only [int, decide_eq_true_eq]; omega
  threeway_eq c hc w a := by cases hc; simp
  threeway_lt c hc w a b h := by cases hc; simp only [compare, compareOfLessAndEq]; rw [if_pos h]

theorem increment_mutates (v : Int) : Mutates (fun (w : Var → Int) a => w a) v increment where
  changes w a h := by simp only [increment, if_true]; omega
  other w a c h := by simp [increment, h]

/-- Handles to integers in memory, copies of which are shallow. -/
def handle : Ops ((Var → Nat) × (Nat → Int)) Int where
  eq w a b := w.2 (w.1 a) == w.2 (w.1 b)
  ne w a b := w.2 (w.1 a) != w.2 (w.1 b)
  lt _ _ _ := false
  le _ _ _ := false
  gt _ _ _ := false
  ge _ _ _ := false
  threeway := none
  against w a u := w.2 (w.1 a) == u
  copyConstruct a b w := (fun c => if c = b then w.1 a else w.1 c, w.2)
  moveConstruct a b w := (fun c => if c = b then w.1 a else w.1 c, w.2)
  copyAssign a b w := (fun c => if c = b then w.1 a else w.1 c, w.2)
  moveAssign a b w := (fun c => if c = b then w.1 a else w.1 c, w.2)
  swap a b w := (fun c => if c = a then w.1 b else if c = b then w.1 a else w.1 c, w.2)
  destroy _ w := w
  stream := none
  streamFrom := none

/-- To add one to what is in memory. -/
def incrementMemory (a : Var) (w : (Var → Nat) × (Nat → Int)) : (Var → Nat) × (Nat → Int) := (w.1, fun n => if n = w.1 a then w.2 n + 1 else w.2 n)

end SemanticsExamples
open SemanticsExamples

attribute [local irreducible] Meets

section
variable {W U V : Type} {t : Ops W U} {val : W → Var → V}

/-- **C68** The check of the semantics of a regular type passes if and only if all expectations in the experiment are met.  Checks which are left out after a failure do not matter;
nothing which is part of the experiment is forgotten, and nothing else is demanded. -/
theorem C68_regular (t : Ops W U) (order : Option Ordering) (movedConstruction movedAssignment : Option U) (mutator : Option (Var → W → W)) (w : W) :
    Passes (regular t order movedConstruction movedAssignment mutator) w ↔ Meets (regularExperiment t order movedConstruction movedAssignment mutator) w :=
  passes_regular order movedConstruction movedAssignment mutator w

/-- **C68** If equivalents are given for the objects, then besides these have to be equivalent. -/
theorem C68_regular_equivalents (t : Ops W U) (xe ye : U) (order : Option Ordering) (movedConstruction movedAssignment : Option U) (mutator : Option (Var → W → W)) (w : W) :
    Passes (regularWith t xe ye order movedConstruction movedAssignment mutator) w ↔
      t.against w .x xe = true ∧ t.against w .y ye = true ∧ Meets (regularExperiment t order movedConstruction movedAssignment mutator) w :=
  passes_regularWith xe ye order movedConstruction movedAssignment mutator w

/-- **C68** The same holds for the check of the semantics of a type which can only be moved. -/
theorem C68_move_only (t : Ops W U) (xe ye : U) (order : Option Ordering) (movedConstruction movedAssignment : Option U) (w : W) :
    Passes (moveOnly t xe ye order movedConstruction movedAssignment) w ↔ Meets (moveOnlyExperiment t xe ye order movedConstruction movedAssignment) w :=
  passes_moveOnly xe ye order movedConstruction movedAssignment w

/- Both sides may hold, and both may fail. -/
example : (∀ b ∈ (regular int (some .lt) (some 0) (some 0) (some increment) start).2.1, b = true) ∧ (regular int (some .lt) (some 0) (some 0) (some increment) start).2.1.length = 35 := by decide +kernel
example : false ∈ (regular int (some .gt) none none none start).2.1 := by decide +kernel

/-- **C68** A well behaved type passes, if the objects are different, the order is as claimed, the predictions of what has been moved from are right and the mutator changes the second
object. -/
theorem C68_passes {lt : V → V → Prop} (h : WellBehaved t val) {order : Option Ordering} {movedConstruction movedAssignment : Option U} {mutator : Option (Var → W → W)} {w : W}
    (hxy : val w .x ≠ val w .y) (ho : order ≠ none → WellOrdered t val lt) (hc : Claimed lt (val w .x) (val w .y) order)
    (hmc : ∀ p, movedConstruction = some p → ∀ v a b, a ≠ b → val v a = val w .y → t.against (t.moveConstruct a b v) a p = true)
    (hma : ∀ p, movedAssignment = some p → ∀ v a b, a ≠ b → val v a = val w .y → t.against (t.moveAssign a b v) a p = true)
    (hmut : ∀ f, mutator = some f → Mutates val (val w .y) f) : Passes (regular t order movedConstruction movedAssignment mutator) w := by
  rw [C68_regular]
  refine meets_regular h hxy ?_ hmc hma hmut
  cases order with
  | none => exact meets_ordered_none _
  | some o => exact meets_ordered (ho (by simp)) hc

example : Passes (regular int (some .lt) (some 0) (some 0) (some increment)) start :=
  C68_passes (lt := (· < ·)) int_wellBehaved (by decide) (fun _ => int_wellOrdered) (show (3 : Int) < 5 by decide)
    (fun p hp v a b hab _ => by cases hp; simp [int, hab]) (fun p hp v a b hab _ => by cases hp; simp [int, hab]) (fun f hf => by cases hf; exact increment_mutates _)

/-- **C68** The same holds for types which can only be moved. -/
theorem C68_passes_move_only {lt : V → V → Prop} (h : Moves t val) {xe ye : U} {order : Option Ordering} {movedConstruction movedAssignment : Option U} {w : W}
    (hxy : val w .x ≠ val w .y) (hx : ∀ v a, t.against v a xe = true ↔ val v a = val w .x) (hy : ∀ v a, t.against v a ye = true ↔ val v a = val w .y)
    (ho : order ≠ none → WellOrdered t val lt) (hc : Claimed lt (val w .x) (val w .y) order)
    (hmc : ∀ p, movedConstruction = some p → ∀ v a b, a ≠ b → val v a = val w .x → t.against (t.moveConstruct a b v) a p = true)
    (hma : ∀ p, movedAssignment = some p → ∀ v a b, a ≠ b → val v a = val w .y → t.against (t.moveAssign a b v) a p = true)
    (hs : ∀ f, t.streamFrom = some f → ∀ v a, val (f ye a v) a = val w .y) : Passes (moveOnly t xe ye order movedConstruction movedAssignment) w := by
  rw [C68_move_only]
  refine meets_moveOnly h hxy hx hy ?_ hmc hma hs
  cases order with
  | none => exact meets_ordered_none _
  | some o => exact meets_ordered (ho (by simp)) hc

example : Passes (moveOnly int 3 5 (some .lt) (some 0) (some 0)) start :=
  C68_passes_move_only (lt := (· < ·)) int_moves (by decide) (fun v a => by simp [int, start]) (fun v a => by simp [int, start]) (fun _ => int_wellOrdered) (show (3 : Int) < 5 by decide)
    (fun p hp v a b hab _ => by cases hp; simp [int, hab]) (fun p hp v a b hab _ => by cases hp; simp [int, hab]) (fun f hf v a => by cases hf; simp [start])

/-- **C68** If `operator==` and `operator!=` tell the truth, then a defective type is detected, whatever the order, the predictions and the objects: be it defective copies,
assignments, assignments to itself, moves, swaps or serialization, or be it a copy which shares its value with the original. -/
theorem C68_defects (h : Truthful t val) (order : Option Ordering) (movedConstruction movedAssignment : Option U) {mutator : Option (Var → W → W)} (hd : Defective t val mutator) (w : W) :
    ¬ Passes (regular t order movedConstruction movedAssignment mutator) w := by
  rw [C68_regular]
  exact not_meets_defective h hd w

example : Defective handle (fun w a => w.2 (w.1 a)) (some incrementMemory) := .shallowCopy fun w a b => by simp [handle, incrementMemory]
example : Truthful handle (fun w a => w.2 (w.1 a)) := ⟨fun w a b => by simp [handle], fun w a b => by simp [handle]⟩
/- Without a mutator this is not detected. -/
example : ∀ b ∈ (regular handle none none none none (fun a => if a = .x then 0 else 1, fun n => n)).2.1, b = true := by decide +kernel

/-- **C68** An object which has been moved from and which is not as predicted is detected. -/
theorem C68_moved (order : Option Ordering) {movedConstruction movedAssignment : Option U} {mutator : Option (Var → W → W)} {p : U}
    (hp : (movedConstruction = some p ∧ ∀ w a b, a ≠ b → t.against (t.moveConstruct a b w) a p = false) ∨ (movedAssignment = some p ∧ ∀ w a b, a ≠ b → t.against (t.moveAssign a b w) a p = false)) (w : W) :
    ¬ Passes (regular t order movedConstruction movedAssignment mutator) w := by
  rw [C68_regular]
  exact not_meets_moved hp w

example : ∀ w a b, a ≠ b → int.against (int.moveConstruct a b w) a 7 = false := fun w a b h => by simp [int, h]

end

/-- **C68 (violated)** That equal objects are demanded to be equal would let one expect that a copy which is not equal to the original is detected.  It is not if `operator==` always
says that objects are equal, since this is never found out, even if `operator!=` tells the truth: the check passes whatever the operations of the type do. -/
theorem C68_equality_violated :
    (∀ (W U V : Type) (t : Ops W U) (val : W → Var → V), (∀ w a b, t.eq w a b = true) → (∀ w a b, t.ne w a b = true ↔ val w a ≠ val w b) →
      ∀ w, val w .x ≠ val w .y → Passes (regular t none none none none) w) ∧
    ∃ (t : Ops (Var → Int) Int), (∀ w a b, t.eq w a b = true) ∧ (∀ w a b, t.ne w a b = true ↔ w a ≠ w b) ∧ (∀ w a b, t.copyConstruct a b w b = 7) ∧ (∀ w a b, t.copyAssign a b w b = 7) ∧
      start .x ≠ start .y ∧ Passes (regular t none none none none) start := by
  have key : ∀ (W U V : Type) (t : Ops W U) (val : W → Var → V), (∀ w a b, t.eq w a b = true) → (∀ w a b, t.ne w a b = true ↔ val w a ≠ val w b) →
      ∀ w, val w .x ≠ val w .y → Passes (regular t none none none none) w := fun W U V t val he hn w hxy => by
    rw [C68_regular]
    exact meets_of_eq he (fun w a => by rw [Bool.eq_false_iff]; intro e; exact (hn _ _ _).1 e rfl) ((hn _ _ _).2 hxy)
  refine ⟨key, { int with eq := fun _ _ _ => true, copyConstruct := fun _ b w c => if c = b then 7 else w c, copyAssign := fun _ b w c => if c = b then 7 else w c },
    fun _ _ _ => rfl, fun w a b => by simp [int], fun w a b => by simp, fun w a b => by simp, by decide, ?_⟩
  exact key _ _ _ _ (fun w a => w a) (fun _ _ _ => rfl) (fun w a b => by simp [int]) _ (by decide)

/-- **C68 (violated)** Operators which are inconsistent are not always found out.  If the type is otherwise well behaved, then `operator<=` and `operator>=` may always return true;
and, if the first object is said to be the greater one, `operator<` may always return false. -/
theorem C68_order_violated {W U V : Type} {t : Ops W U} {val : W → Var → V} {lt : V → V → Prop} (h : WellBehaved t val) (ht : WellOrdered t val lt) {w : W} (hxy : val w .x ≠ val w .y) :
    (∀ order, Claimed lt (val w .x) (val w .y) order → Passes (regular (reorder t t.lt (fun _ _ _ => true) (fun _ _ _ => true)) order none none none) w) ∧
    (lt (val w .y) (val w .x) → Passes (regular (reorder t (fun _ _ _ => false) t.le t.ge) (some .gt) none none none) w) := by
  constructor
  · intro order ho
    rw [C68_regular]
    exact meets_regular (wellBehaved_reorder h _ _ _) hxy (meets_ordered_always (meets_ordered ht ho)) (fun p hp => nomatch hp) (fun p hp => nomatch hp) (fun p hp => nomatch hp)
  · intro ho
    rw [C68_regular]
    exact meets_regular (wellBehaved_reorder h _ _ _) hxy (meets_ordered_never ht ho) (fun p hp => nomatch hp) (fun p hp => nomatch hp) (fun p hp => nomatch hp)

example : start .x < start .y ∧ int.le start .y .x = false := by decide
example : (5 : Int) < 9 ∧ int.lt (fun a => if a = .x then 9 else 5) .y .x = true := by decide

section
variable {W U : Type} (t : Ops W U)

/-- What is demanded before anything is done with the objects: each is equal to itself, they are not equal to one another, and the order is as claimed, according to all operators. -/
def Prerequisites (order : Option Ordering) (w : W) : Prop :=
  Meets (Spec.Semantics.reflexive t .x ++ Spec.Semantics.reflexive t .y ++ [.expect (t.ne · .x .y)] ++ Spec.Semantics.ordered t order) w

theorem unchanged_test (b : W → Bool) (w : W) : (test b w).1 = w := rfl

theorem unchanged_bind {α β : Type} {m : M W α} {k : α → M W β} (hm : ∀ w, (m w).1 = w) (hk : ∀ a w, (k a w).1 = w) (w : W) : ((m >>= k) w).1 = w := by
  show (k (m w).2.2 (m w).1).1 = w
  rw [hm, hk]

theorem unchanged_consistency (f : W → Var → Bool) (w : W) : (comparisonConsistency f w).1 = w := rfl

theorem unchanged_threeway (f : (W → Var → Var → Ordering) → M W Bool) (h : ∀ c w, (f c w).1 = w) (w : W) : (threewayCheck t f w).1 = w := by
  unfold threewayCheck
  cases t.threeway with
  | none => rfl
  | some c => exact h c w

theorem unchanged_equality (w : W) : (equalityPrerequisites t w).1 = w := by
  unfold equalityPrerequisites
  refine unchanged_bind (unchanged_consistency _) (fun a => unchanged_bind (unchanged_consistency _) fun b w => ?_) w
  split <;> rfl

theorem unchanged_comp (a b : Var) (w : W) : (comp t a b w).1 = w := by
  unfold comp
  exact unchanged_bind (unchanged_test _) (fun _ => unchanged_bind (unchanged_test _) fun _ => unchanged_bind (unchanged_test _) fun _ =>
    unchanged_bind (unchanged_threeway t _ fun _ _ => rfl) fun _ _ => rfl) w

theorem unchanged_operators (w : W) : (orderingOperators t w).1 = w := by
  unfold orderingOperators
  exact unchanged_bind (unchanged_consistency _) (fun _ => unchanged_bind (unchanged_consistency _) fun _ => unchanged_bind (unchanged_consistency _) fun _ =>
    unchanged_bind (unchanged_consistency _) fun _ => unchanged_bind (unchanged_threeway t _ fun _ _ => rfl) fun _ _ => rfl) w

theorem unchanged_ordering (w : W) : (orderingConsistency t w).1 = w := by
  unfold orderingConsistency
  refine unchanged_bind (unchanged_operators t) (fun a w => ?_) w
  cases a with
  | false => rfl
  | true =>
    show (if t.lt w .x .y = true then comp t .x .y w else comp t .y .x w).1 = w
    split <;> exact unchanged_comp t _ _ _

theorem unchanged_prerequisites {e : M W Bool} (he : ∀ w, (e w).1 = w) (order : Option Ordering) (w : W) : (prerequisites t e order w).1 = w := by
  cases order with
  | none => exact he w
  | some o =>
    unfold prerequisites
    refine unchanged_bind he (fun a w => ?_) w
    split
    · refine unchanged_bind (unchanged_test _) (fun b w => ?_) w
      split
      · refine unchanged_bind (unchanged_ordering t) (fun c w => ?_) w
        split <;> rfl
      · rfl
    · rfl

/-- A check which, whenever it returns `true`, has logged no failure. -/
def Honest (m : M W Bool) : Prop := ∀ w, (m w).2.2 = true → Passes m w

theorem honest_test (b : W → Bool) : Honest (test b) := fun w h => by
  intro c hc
  simp only [test, List.mem_singleton] at hc h
  rw [hc, h]

theorem honest_bind {m : M W Bool} {k : Bool → M W Bool} (hm : Honest m) (h1 : Honest (k true)) (h0 : ∀ w, (k false w).2.2 = false) : Honest (m >>= k) := fun w h => by
  rw [passes_bind]
  have h' : (k (m w).2.2 (m w).1).2.2 = true := h
  cases hr : (m w).2.2 with
  | false => rw [hr, h0] at h'; cases h'
  | true => exact ⟨hm w hr, by rw [hr] at h'; exact h1 _ h'⟩

theorem honest_consistency (f : W → Var → Bool) : Honest (comparisonConsistency f) := fun w h => by
  intro c hc
  have h' : (f w .x && f w .y) = true := h
  have hc' : c ∈ [f w .x] ++ ([f w .y] ++ []) := hc
  simp at hc' h'
  rcases hc' with rfl | rfl
  · exact h'.1
  · exact h'.2

theorem honest_equality : Honest (equalityPrerequisites t) := by
  unfold equalityPrerequisites
  refine honest_bind (honest_consistency _) (honest_bind (honest_consistency _) ?_ fun w => rfl) fun w => rfl
  exact honest_test _

theorem honest_equalityWith (xe ye : U) : Honest (equalityPrerequisitesWith t xe ye) := by
  unfold equalityPrerequisitesWith
  refine honest_bind (honest_equality t) ?_ fun w => rfl
  intro w h
  have h' : (t.against w .x xe && t.against w .y ye) = true := h
  intro c hc
  have hc' : c ∈ [t.against w .x xe] ++ ([t.against w .y ye] ++ []) := hc
  simp at hc' h'
  rcases hc' with rfl | rfl
  · exact h'.1
  · exact h'.2

theorem honest_pure_true : Honest (pure true : M W Bool) := fun _ _ _ h => nomatch h

theorem honest_threeway {f : (W → Var → Var → Ordering) → M W Bool} (h : ∀ c, Honest (f c)) : Honest (threewayCheck t f) := by
  unfold threewayCheck
  cases t.threeway with
  | none => exact honest_pure_true
  | some c => exact h c

theorem honest_operators : Honest (orderingOperators t) := by
  unfold orderingOperators
  refine honest_bind (honest_consistency _) (honest_bind (honest_consistency _) (honest_bind (honest_consistency _) (honest_bind (honest_consistency _)
    (honest_bind (honest_threeway t fun c => honest_consistency _) honest_pure_true fun w => rfl) fun w => rfl) fun w => rfl) fun w => rfl) fun w => rfl

theorem honest_comp (a b : Var) : Honest (comp t a b) := by
  unfold comp
  refine honest_bind (honest_test _) (honest_bind (honest_test _) (honest_bind (honest_test _) (honest_bind (honest_threeway t fun c => honest_test _) honest_pure_true fun w => rfl) fun w => rfl) fun w => rfl) fun w => rfl

theorem honest_ordering : Honest (orderingConsistency t) := by
  unfold orderingConsistency
  refine honest_bind (honest_operators t) ?_ fun w => rfl
  intro w h
  have h' : (if t.lt w .x .y = true then comp t .x .y w else comp t .y .x w).2.2 = true := h
  show ∀ b ∈ (if t.lt w .x .y = true then comp t .x .y w else comp t .y .x w).2.1, b = true
  split at h'
  · rename_i hl; rw [if_pos hl]; exact honest_comp t _ _ w h'
  · rename_i hl; rw [if_neg hl]; exact honest_comp t _ _ w h'

theorem honest_prerequisites {e : M W Bool} (he : Honest e) (order : Option Ordering) : Honest (prerequisites t e order) := by
  cases order with
  | none => exact he
  | some o =>
    unfold prerequisites
    exact honest_bind he (honest_bind (honest_test _) (honest_bind (honest_ordering t) (honest_test _) fun w => rfl) fun w => rfl) fun w => rfl

/-- **C68** If what is demanded of the objects as they are given is not fulfilled, then no operation of the type is called at all, so that the state of the program is as before. -/
theorem C68_stops (order : Option Ordering) (movedConstruction movedAssignment : Option U) (mutator : Option (Var → W → W)) (w : W) (h : ¬ Prerequisites t order w) :
    (regular t order movedConstruction movedAssignment mutator w).1 = w := by
  have hr : (prerequisites t (equalityPrerequisites t) order w).2.2 = false := by
    rw [Bool.eq_false_iff]
    intro hr
    exact h (((tracks_prerequisites (t := t) tracks_equality order) w).1.1 (honest_prerequisites t (honest_equality t) order w hr))
  have hu := unchanged_prerequisites t (unchanged_equality t) order w
  unfold regular
  show ((if (prerequisites t (equalityPrerequisites t) order w).2.2 = true then _ else _ : M W Unit) (prerequisites t (equalityPrerequisites t) order w).1).1 = w
  rw [hr, hu]
  rfl

/-- **C68** The same for types which can only be moved; here the equivalents belong to what is demanded of the objects as they are given. -/
theorem C68_stops_move_only (xe ye : U) (order : Option Ordering) (movedConstruction movedAssignment : Option U) (w : W)
    (h : ¬ (Prerequisites t order w ∧ t.against w .x xe = true ∧ t.against w .y ye = true)) :
    (moveOnly t xe ye order movedConstruction movedAssignment w).1 = w := by
  have hr : (prerequisites t (equalityPrerequisitesWith t xe ye) order w).2.2 = false := by
    rw [Bool.eq_false_iff]
    intro hr
    have := ((tracks_prerequisites (t := t) (tracks_equalityWith xe ye) order) w).1.1 (honest_prerequisites t (honest_equalityWith t xe ye) order w hr)
    apply h
    unfold Prerequisites
    simp only [meets_append, exec_append, Spec.Semantics.reflexive, Meets, exec] at this ⊢
    simp_all
  have hu := unchanged_prerequisites t (e := equalityPrerequisitesWith t xe ye)
    (fun w => by
      unfold equalityPrerequisitesWith
      refine unchanged_bind (unchanged_equality t) (fun a w => ?_) w
      cases a <;> rfl) order w
  unfold moveOnly
  show ((if (prerequisites t (equalityPrerequisitesWith t xe ye) order w).2.2 = true then _ else _ : M W Unit) (prerequisites t (equalityPrerequisitesWith t xe ye) order w).1).1 = w
  rw [hr, hu]
  rfl

end

example : ¬ Prerequisites int (some .gt) start ∧ Prerequisites int (some .lt) start := by
  constructor
  · intro h; simp [Prerequisites, Spec.Semantics.reflexive, Spec.Semantics.ordered, Spec.Semantics.reflexiveOrder, Meets, int, start] at h
  · simp [Prerequisites, Spec.Semantics.reflexive, Spec.Semantics.ordered, Spec.Semantics.reflexiveOrder, Spec.Semantics.less, Meets, int, start, compare, compareOfLessAndEq]

end Verif.Props
