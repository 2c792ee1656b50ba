import Verif.Lemmas.AllocationChecks
/- Lemmas about checks of allocations, for types which allocate a known number of times. -/
set_option linter.unusedSectionVars false
set_option linter.unusedVariables false
set_option linter.unusedSimpArgs false

namespace Verif.AllocationChecks
open Verif.Semantics Verif.Spec.AllocationChecks
open Verif.Spec.Semantics (Passes WellOrdered Claimed Mutates)

section moves
variable {W U V A α β : Type} [DecidableEq A]

theorem run_bind (e : Experiment W α) (f : α → Experiment W β) (w : W) : ((e >>= f) w).1 = (f (e w).2.2 (e w).1).1 := rfl
theorem run_perform (f : W → W) (w : W) : (perform f w).1 = f w := rfl
theorem run_demand (p : W → Prop) (w : W) : (demand p w).1 = w := rfl
theorem run_observe (w : W) : (observe w).1 = w := rfl
theorem out_observe (w : W) : (observe w).2.2 = w := rfl
theorem run_pure (a : α) (w : W) : ((pure a : Experiment W α) w).1 = w := rfl
theorem meets_pure (a : α) (w : W) : Meets (pure a : Experiment W α) w ↔ True := Iff.rfl
theorem meets_demand (p : W → Prop) (w : W) : Meets (demand p) w ↔ p w := Iff.rfl
theorem meets_perform' (f : W → W) (w : W) : Meets (perform f) w ↔ True := Iff.rfl
theorem meets_observe_bind (f : W → Experiment W β) (w : W) : Meets (observe >>= f) w ↔ Meets (f w) w := by
  rw [meets_bind]
  exact and_iff_right trivial
theorem run_observe_bind (f : W → Experiment W β) (w : W) : ((observe >>= f) w).1 = (f w w).1 := rfl
theorem meets_observe (w : W) : Meets observe w ↔ True := Iff.rfl

variable {t : AOps W U} {is : List (Info W U)} {val : W → Var → V} {mutator : Var → W → W} {books : Info W U → Books W V A}

/-- Nothing relevant has changed. -/
def Calm (val : W → Var → V) (is : List (Info W U)) (books : Info W U → Books W V A) (w w' : W) : Prop :=
  (∀ c, val w' c = val w c) ∧ ∀ i ∈ is, (∀ d, (books i).allocator w' d = (books i).allocator w d) ∧ ∀ α, (books i).used w' α = (books i).used w α

theorem Calm.refl (w : W) : Calm val is books w w := ⟨fun _ => rfl, fun _ _ => ⟨fun _ => rfl, fun _ => rfl⟩⟩

theorem Calm.trans {a b c : W} (h : Calm val is books a b) (h' : Calm val is books b c) : Calm val is books a c :=
  ⟨fun d => (h'.1 d).trans (h.1 d), fun i hi => ⟨fun d => ((h'.2 i hi).1 d).trans ((h.2 i hi).1 d), fun α => ((h'.2 i hi).2 α).trans ((h.2 i hi).2 α)⟩⟩

/-- An experiment which changes nothing relevant. -/
def Gentle (val : W → Var → V) (is : List (Info W U)) (books : Info W U → Books W V A) (e : Experiment W α) : Prop := ∀ w, Calm val is books w (e w).1

theorem Gentle.bind {e : Experiment W α} {f : α → Experiment W β} (h : Gentle val is books e) (h' : ∀ a, Gentle val is books (f a)) : Gentle val is books (e >>= f) :=
  fun w => (h w).trans (h' _ _)

theorem gentle_demand (p : W → Prop) : Gentle val is books (demand p) := fun w => .refl w
theorem gentle_observe : Gentle val is books observe := fun w => .refl w
theorem gentle_pure (a : α) : Gentle val is books (pure a : Experiment W α) := fun w => .refl w

variable (hv : MovesValued t val) (hb : ∀ i ∈ is, MovesInOrder t val mutator i.toLevel (books i))

include hv hb

theorem gentle_effect (o : Operator) (a b : Var) : Gentle val is books (perform (t.effect o a b)) :=
  fun w => ⟨fun c => hv.effect o w a b c, fun i hi => ⟨fun d => (hb i hi).effect_allocator o w a b d, fun α => (hb i hi).effect_used o w a b α⟩⟩

theorem gentle_against (a : Var) (u : U) : Gentle val is books (perform (t.effectAgainst a u)) :=
  fun w => ⟨fun c => hv.effectAgainst w a u c, fun i hi => ⟨fun d => (hb i hi).against_allocator w a u d, fun α => (hb i hi).against_used w a u α⟩⟩

theorem gentle_different (a b : Var) : Gentle val is books (different t a b) := (gentle_demand _).bind fun _ => gentle_effect hv hb _ _ _
theorem gentle_asPredicted (a : Var) (u : U) : Gentle val is books (asPredicted t a u) := (gentle_demand _).bind fun _ => gentle_against hv hb _ _

theorem gentle_quiet (o : Operator) (b : W → Var → Bool) (a : Var) : Gentle val is books (quiet t is o b a) :=
  gentle_observe.bind fun _ => (gentle_demand _).bind fun _ => (gentle_effect hv hb _ _ _).bind fun _ => gentle_demand _

theorem gentle_quietBoth (o : Operator) (b : W → Var → Bool) : Gentle val is books (quietBoth t is o b) := (gentle_quiet hv hb _ _ _).bind fun _ => gentle_quiet hv hb _ _ _

theorem gentle_equality : Gentle val is books (equality t is) := (gentle_quietBoth hv hb _ _).bind fun _ => (gentle_quietBoth hv hb _ _).bind fun _ => gentle_different hv hb _ _

theorem gentle_equalityWith (xe ye : U) : Gentle val is books (equalityWith t is xe ye) :=
  (gentle_equality hv hb).bind fun _ => (gentle_asPredicted hv hb _ _).bind fun _ => gentle_asPredicted hv hb _ _

theorem gentle_less (a b : Var) : Gentle val is books (less t a b) := by
  unfold less
  refine (gentle_demand _).bind fun _ => (gentle_effect hv hb _ _ _).bind fun _ => (gentle_demand _).bind fun _ => (gentle_effect hv hb _ _ _).bind fun _ => (gentle_demand _).bind fun _ =>
    (gentle_effect hv hb _ _ _).bind fun _ => ?_
  cases t.threeway with
  | none => exact gentle_pure _
  | some c => exact (gentle_demand _).bind fun _ => gentle_effect hv hb _ _ _

theorem gentle_reflexive : Gentle val is books (reflexiveOrder t is) := by
  unfold reflexiveOrder
  refine (gentle_quietBoth hv hb _ _).bind fun _ => (gentle_quietBoth hv hb _ _).bind fun _ => (gentle_quietBoth hv hb _ _).bind fun _ => (gentle_quietBoth hv hb _ _).bind fun _ => ?_
  cases t.threeway with
  | none => exact gentle_pure _
  | some c => exact gentle_quietBoth hv hb _ _

theorem gentle_ordered (order : Option Ordering) : Gentle val is books (ordered t is order) := by
  cases order with
  | none => exact gentle_pure _
  | some o =>
    refine (gentle_demand _).bind fun _ => (gentle_reflexive hv hb).bind fun _ => gentle_observe.bind fun w => (gentle_effect hv hb _ _ _).bind fun _ => Gentle.bind ?_ fun _ => ?_
    · split
      · exact gentle_less hv hb _ _
      · exact gentle_less hv hb _ _
    · split
      · exact (gentle_demand _).bind fun _ => gentle_effect hv hb _ _ _
      · exact (gentle_demand _).bind fun _ => gentle_effect hv hb _ _ _

theorem meets_quiet {o : Operator} {b : W → Var → Bool} {a : Var} {w : W} : Meets (quiet t is o b a) w ↔ b w a = true := by
  simp only [quiet, allocated, meets_bind, meets_observe, run_bind, run_perform, run_demand, run_observe, out_observe, meets_demand, meets_perform', true_and]
  refine and_iff_left fun i hi => ?_
  rw [(hb i hi).count, (hb i hi).count, (hb i hi).effect_allocator, (hb i hi).effect_used]
  omega

theorem meets_quietBoth {o : Operator} {b : W → Var → Bool} {w : W} (h : ∀ v a, b v a = true) : Meets (quietBoth t is o b) w := by
  rw [quietBoth, meets_bind, meets_quiet hv hb, meets_quiet hv hb]
  exact ⟨h _ _, h _ _⟩

theorem meets_equality {w : W} (h : val w .x ≠ val w .y) : Meets (equality t is) w := by
  have hne : ∀ v a, (!t.ne v a a) = true := fun v a => by
    cases e : t.ne v a a with
    | false => rfl
    | true => exact absurd rfl ((hv.ne v a a).1 e)
  rw [equality, meets_bind, meets_bind]
  refine ⟨meets_quietBoth hv hb fun v a => (hv.eq v a a).2 rfl, meets_quietBoth hv hb hne, ?_, trivial⟩
  refine (hv.ne _ _ _).2 ?_
  rw [(gentle_quietBoth hv hb _ _ _).1, (gentle_quietBoth hv hb _ _ _).1, (gentle_quietBoth hv hb _ _ _).1, (gentle_quietBoth hv hb _ _ _).1]
  exact h

theorem meets_less {lt : V → V → Prop} (ho : WellOrdered t.toOps val lt) {a b : Var} {w : W} (h : lt (val w a) (val w b)) : Meets (less t a b) w := by
  have he : ∀ o w c d e, val (t.effect o c d w) e = val w e := hv.effect
  unfold less
  simp only [meets_bind, run_bind, run_perform, run_demand, meets_demand, meets_perform', true_and, and_true]
  refine ⟨(ho.greater _ _ _).2 h, (ho.lessEqual _ _ _).2 (.inl ?_), (ho.greaterEqual _ _ _).2 (.inl ?_), ?_⟩
  · simpa only [he] using h
  · simpa only [he] using h
  · cases e : t.threeway with
    | none => trivial
    | some c =>
      refine ⟨ho.threeway_lt c e _ _ _ ?_, trivial⟩
      simp only [run_demand, he]
      exact h

theorem meets_reflexive {lt : V → V → Prop} (ho : WellOrdered t.toOps val lt) (w : W) : Meets (reflexiveOrder t is) w := by
  have h1 : ∀ v a, (!t.lt v a a) = true := fun v a => by
    cases e : t.lt v a a with
    | false => rfl
    | true => exact absurd ((ho.less v a a).1 e) (ho.irrefl _)
  have h2 : ∀ v a, (!t.gt v a a) = true := fun v a => by
    cases e : t.gt v a a with
    | false => rfl
    | true => exact absurd ((ho.greater v a a).1 e) (ho.irrefl _)
  unfold reflexiveOrder
  rw [meets_bind, meets_bind, meets_bind, meets_bind]
  refine ⟨meets_quietBoth hv hb h1, meets_quietBoth hv hb fun v a => (ho.lessEqual _ _ _).2 (.inr rfl), meets_quietBoth hv hb h2, meets_quietBoth hv hb fun v a => (ho.greaterEqual _ _ _).2 (.inr rfl), ?_⟩
  cases e : t.threeway with
  | none => trivial
  | some c =>
    refine meets_quietBoth hv hb fun v a => ?_
    rw [ho.threeway_eq c e]
    rfl

theorem meets_ordered {lt : V → V → Prop} {order : Option Ordering} (hn : order ≠ none → WellOrdered t.toOps val lt) {w : W} (h : Claimed lt (val w .x) (val w .y) order) :
    Meets (ordered t is order) w := by
  cases order with
  | none => trivial
  | some o =>
    have ho := hn (by simp)
    clear hn
    have he : ∀ o w c d e, val (t.effect o c d w) e = val w e := hv.effect
    have hr := gentle_reflexive hv hb
    have hl := fun a b => gentle_less hv hb (t := t) a b
    unfold ordered
    rw [meets_bind, meets_bind]
    refine ⟨?_, meets_reflexive hv hb ho _, ?_⟩
    · cases o with
      | eq => exact absurd h (by simp [Claimed])
      | _ => simp [meets_demand]
    refine (?_ : ∀ w', Calm val is books w w' → Meets (_ : Experiment W Unit) w') _ (hr w)
    intro w' hc
    rw [meets_observe_bind]
    simp only [meets_bind, run_bind, run_perform, run_demand, meets_demand, meets_perform', true_and, and_true]
    cases o with
    | eq => exact absurd h (by simp [Claimed])
    | lt =>
      have h : lt (val w' .x) (val w' .y) := by rw [hc.1, hc.1]; exact h
      have h1 : t.lt w' .x .y = true := (ho.less _ _ _).2 h
      rw [if_pos h1, if_pos rfl]
      refine ⟨meets_less hv hb ho (by rw [he, he]; exact h), (ho.less _ _ _).2 ?_, trivial⟩
      rw [(hl _ _ _).1, (hl _ _ _).1, he, he]
      exact h
    | gt =>
      have h : lt (val w' .y) (val w' .x) := by rw [hc.1, hc.1]; exact h
      have h1 : ¬ t.lt w' .x .y = true := fun e => ho.irrefl _ (ho.trans _ _ _ h ((ho.less _ _ _).1 e))
      rw [if_neg h1, if_neg (by decide)]
      refine ⟨meets_less hv hb ho (by rw [he, he]; exact h), (ho.greater _ _ _).2 ?_, trivial⟩
      rw [(hl _ _ _).1, (hl _ _ _).1, he, he]
      exact h

end moves

section
variable {W U V A α β : Type} [DecidableEq A] {t : AOps W U} {is : List (Info W U)} {val : W → Var → V} {mutator : Var → W → W} {books : Info W U → Books W V A}

/-! ## Regular types -/

variable (hv : Valued t val) (hb : ∀ i ∈ is, InOrder t val mutator i.toLevel (books i)) {vx vy : V}

/-- What is known of the two objects all the time. -/
structure Known (val : W → Var → V) (is : List (Info W U)) (books : Info W U → Books W V A) (vx vy : V) (w : W) : Prop where
  x : val w .x = vx
  y : val w .y = vy
  distinct : ∀ i ∈ is, (books i).allocator w .x ≠ (books i).allocator w .y

theorem Known.calm {w w' : W} (h : Known val is books vx vy w) (hc : Calm val is books w w') : Known val is books vx vy w' :=
  ⟨by rw [hc.1, h.x], by rw [hc.1, h.y], fun i hi => by rw [(hc.2 i hi).1, (hc.2 i hi).1]; exact h.distinct i hi⟩

include hv hb

theorem meets_copies {start w : W} (hc : Calm val is books start w) (hk : Known val is books vx vy w) : Meets (copies t is start) w ↔
    (∀ i ∈ is, (books i).copy vx = i.pred.x.value) ∧ ∀ i ∈ is, (books i).copy vy = i.pred.copy.value := by
  simp only [copies, same, allocated, meets_bind, run_bind, run_perform, run_demand, meets_demand, meets_perform', true_and, and_true, hv.eq, hv.copyConstruct, hv.copyConstruct_other, ne_eq,
    reduceCtorEq, not_false_eq_true]
  refine and_congr (forall₂_congr fun i hi => ?_) (forall₂_congr fun i hi => ?_)
  all_goals
    have h := hb i hi
    have hd := hk.distinct i hi
    have hd' := hd.symm
    simp only [h.count, h.copy_allocator, h.copy_used, h.effect_allocator, h.effect_used, reduceCtorEq, if_false, if_true, hd, hd', ← (hc.2 i hi).1, ← (hc.2 i hi).2, hv.effect,
      hv.copyConstruct_other, ne_eq, not_false_eq_true, hk.x, hk.y]
    omega

theorem known_copies {start w : W} (hk : Known val is books vx vy w) :
    Known val is books vx vy (copies t is start w).1 ∧ val (copies t is start w).1 .z = vx ∧ ∀ i ∈ is, (books i).allocator (copies t is start w).1 .z = (books i).allocator (copies t is start w).1 .x := by
  simp only [copies, same, allocated, run_bind, run_perform, run_demand]
  refine ⟨⟨?_, ?_, fun i hi => ?_⟩, ?_, fun i hi => ?_⟩
  · simp [hv.copyConstruct_other, hv.destroy_other, hv.effect, hk.x]
  · simp [hv.copyConstruct_other, hv.destroy_other, hv.effect, hk.y]
  · simp [(hb i hi).destroy_allocator, (hb i hi).copy_allocator, (hb i hi).effect_allocator, hk.distinct i hi]
  · simp [hv.copyConstruct, hv.copyConstruct_other, hv.destroy_other, hv.effect, hk.x]
  · simp [(hb i hi).destroy_allocator, (hb i hi).copy_allocator, (hb i hi).effect_allocator]

theorem meets_copyAssignment {w : W} (hk : Known val is books vx vy w) (hz : val w .z = vx) (ha : ∀ i ∈ is, (books i).allocator w .z = (books i).allocator w .x) :
    Meets (copyAssignment t is) w ↔ ∀ i ∈ is, (i.copyProp = true → (books i).assignProp vx vy = i.pred.assign.value) ∧ (i.copyProp = false → (books i).assignNoProp vx vy = i.pred.assignNoProp.value) := by
  rw [copyAssignment, meets_observe_bind]
  simp only [same, meets_bind, run_bind, run_perform, run_demand, meets_demand, meets_perform', true_and, and_true, hv.eq, hv.copyAssign, hv.copyAssign_other, hv.effect, ne_eq, reduceCtorEq,
    not_false_eq_true]
  refine forall₂_congr fun i hi => ?_
  have h := hb i hi
  have hd := hk.distinct i hi
  have hd' := hd.symm
  simp only [h.count, h.effect_allocator, h.effect_used]
  rw [h.assign_used _ _ _ _ (by decide), h.assign_used _ _ _ _ (by decide)]
  cases hp : i.copyProp with
  | true =>
    simp only [h.assign_allocator, hp, reduceCtorEq, if_false, if_true, and_true, and_false, hk.y, hz, true_imp_iff, false_imp_iff, false_and, ite_true]
    omega
  | false =>
    simp only [h.assign_allocator, hp, reduceCtorEq, if_false, if_true, and_true, and_false, hk.y, hz, true_imp_iff, false_imp_iff, false_and, ha i hi, hd, hd', Bool.false_eq_true, true_and]
    omega

theorem known_copyAssignment {w : W} (hk : Known val is books vx vy w) : Known val is books vx vy (copyAssignment t is w).1 ∧ val (copyAssignment t is w).1 .z = vy := by
  simp only [copyAssignment, same, run_bind, run_perform, run_demand, run_observe, out_observe]
  refine ⟨⟨?_, ?_, fun i hi => ?_⟩, ?_⟩
  · simp [hv.copyAssign_other, hv.effect, hk.x]
  · simp [hv.copyAssign_other, hv.effect, hk.y]
  · simp [(hb i hi).assign_allocator, (hb i hi).effect_allocator, hk.distinct i hi]
  · simp [hv.copyAssign, hv.copyAssign_other, hv.effect, hk.y]

theorem meets_moveConstruction {w : W} (hk : Known val is books vx vy w) (hz : val w .z = vy) :
    Meets (moveConstruction t is .z (same t · .y) none) w ↔ ∀ i ∈ is, (books i).move vy = i.pred.move.value := by
  rw [moveConstruction, meets_observe_bind]
  simp only [same, moved, allocated, meets_bind, run_bind, run_perform, run_demand, run_pure, meets_pure, meets_demand, meets_perform', true_and, and_true, hv.eq, hv.moveConstruct, hv.moveConstruct_other, hv.effect,
    ne_eq, reduceCtorEq, not_false_eq_true, hz, hk.y]
  refine forall₂_congr fun i hi => ?_
  have h := hb i hi
  simp only [h.count, h.effect_allocator, h.effect_used, h.move_allocator, h.move_used, if_true, hz]
  omega

theorem known_moveConstruction {w : W} (hk : Known val is books vx vy w) : Known val is books vx vy (t.destroy .opt (moveConstruction t is .z (same t · .y) none w).1) := by
  simp only [moveConstruction, same, moved, allocated, run_bind, run_perform, run_demand, run_pure, run_observe, out_observe]
  refine ⟨?_, ?_, fun i hi => ?_⟩
  · simp [hv.moveConstruct_other, hv.destroy_other, hv.effect, hk.x]
  · simp [hv.moveConstruct_other, hv.destroy_other, hv.effect, hk.y]
  · simp [(hb i hi).destroy_allocator, (hb i hi).move_allocator, (hb i hi).effect_allocator, hk.distinct i hi]

variable (hm : Mutates val vy mutator)
include hm

theorem meets_moveAssignment {w : W} (hk : Known val is books vx vy w) :
    Meets (moveAssignment t is mutator .w .ty (same t · .y) none) (t.copyConstruct .y .ty (t.copyConstruct .x .w w)) ↔
      (∀ i ∈ is, (i.moveProp = true → (books i).moveAssignProp vx vy = i.pred.moveAssign.value) ∧ (i.moveProp = false → (books i).moveAssignNoProp vx vy = i.pred.moveAssignNoProp.value)) ∧
      ∀ i ∈ is, (books i).mutate vy = i.pred.mutation.value := by
  rw [moveAssignment, meets_observe_bind]
  simp only [same, moved, mutationAllocations, allocated, meets_bind, run_bind, run_perform, run_demand, run_pure, run_observe, out_observe, meets_observe, meets_pure, meets_demand, meets_perform', true_and,
    and_true, hv.eq, hv.moveAssign, hv.moveAssign_other, hv.copyConstruct, hv.copyConstruct_other, hv.effect, ne_eq, reduceCtorEq, not_false_eq_true]
  refine and_congr (forall₂_congr fun i hi => ?_) (forall₂_congr fun i hi => ?_)
  all_goals
    have h := hb i hi
    have hd := hk.distinct i hi
    have hd' := hd.symm
  · simp only [h.count, h.equal, h.effect_allocator, h.effect_used]
    rw [h.moveAssign_used _ _ _ _ (by decide)]
    cases hp : i.moveProp with
    | true =>
      simp only [h.moveAssign_allocator, h.copy_allocator, h.copy_used, hp, reduceCtorEq, if_false, if_true, and_true, and_false, hk.x, hk.y, true_imp_iff, false_imp_iff, false_and, or_true, true_or,
        hv.copyConstruct, hv.copyConstruct_other, ne_eq, not_false_eq_true]
      omega
    | false =>
      simp only [h.moveAssign_allocator, h.copy_allocator, h.copy_used, hp, reduceCtorEq, if_false, if_true, and_true, and_false, hk.x, hk.y, true_imp_iff, false_imp_iff, false_and, or_false, false_or,
        hv.copyConstruct, hv.copyConstruct_other, ne_eq, not_false_eq_true, hd, hd', Bool.false_eq_true, true_and]
      omega
  · simp only [h.count, h.mutate_allocator, h.mutate_used, if_true, hv.effect, hv.moveAssign, hv.copyConstruct, hv.copyConstruct_other, ne_eq, reduceCtorEq, not_false_eq_true, hk.y]
    omega

theorem known_moveAssignment {w : W} (hk : Known val is books vx vy w) :
    Known val is books vx vy (t.destroy .ty (moveAssignment t is mutator .w .ty (same t · .y) none (t.copyConstruct .y .ty (t.copyConstruct .x .w w))).1) := by
  simp only [moveAssignment, mutationAllocations, same, moved, allocated, run_bind, run_perform, run_demand, run_pure, run_observe, out_observe]
  refine ⟨?_, ?_, fun i hi => ?_⟩
  · simp [hm.other, hv.moveAssign_other, hv.copyConstruct_other, hv.destroy_other, hv.effect, hk.x]
  · simp [hm.other, hv.moveAssign_other, hv.copyConstruct_other, hv.destroy_other, hv.effect, hk.y]
  · simp [(hb i hi).destroy_allocator, (hb i hi).mutate_allocator, (hb i hi).copy_allocator, (hb i hi).moveAssign_allocator, (hb i hi).effect_allocator, hk.distinct i hi]

theorem meets_swapping {w : W} (hk : Known val is books vx vy w) (hx : val w .sx = vx) (hy : val w .sy = vy) (hd : ∀ i ∈ is, (books i).allocator w .sx ≠ (books i).allocator w .sy)
    (hsp : ∀ i ∈ is, i.swapProp = true) (hmu : ∀ i ∈ is, (books i).mutate vy = i.pred.mutation.value) :
    Meets (swapping t .sx .sy (same t · .x) (same t · .y) fun start => do
      swapAllocations is start .sx .sy
      same t .sx .y
      perform (mutator .sx)
      demand fun w => ∀ i ∈ is, if i.swapProp then i.count w .sx = i.count start .sy + i.pred.mutation.value ∧ i.count w .sy = i.count start .sx
        else i.count w .sx = i.count start .sx + i.pred.mutation.value ∧ i.count w .sy = i.count start .sy
      different t .sx .y) w ↔ ∀ i ∈ is, (books i).swapFirst vx vy = 0 ∧ (books i).swapSecond vx vy = 0 := by
  have hch : ∀ w, val w .sx = vy → ¬ val (mutator .sx w) .sx = vy := fun w h => hm.changes w .sx h
  rw [swapping, meets_observe_bind]
  simp only [swapAllocations, same, different, meets_bind, run_bind, run_perform, run_demand, meets_demand, meets_perform', true_and, and_true, hv.eq, hv.ne, hv.swap_left, hv.swap_right, hv.swap_other,
    hv.effect, hm.other, ne_eq, reduceCtorEq, not_false_eq_true, hk.x, hk.y, hx, hy, hch]
  constructor
  · rintro ⟨-, h⟩ i hi
    have h := h i hi
    have hb' := hb i hi
    rw [if_pos (hsp i hi)] at h
    have hd := hd i hi
    have hd' := hd.symm
    have hsw := hb'.swap_allocator w .sx .sy .sx (hsp i hi)
    have hsw' := hb'.swap_allocator w .sx .sy .sy (hsp i hi)
    simp only [reduceCtorEq, if_false, if_true] at hsw hsw'
    simp only [hb'.count, hb'.mutate_allocator, hb'.mutate_used, hb'.effect_allocator, hb'.effect_used, hb'.swap_used _ _ _ _ (by decide : Var.sx ≠ Var.sy) (hsp i hi), hsw, hsw', hx, hy, hd, hd', if_false, if_true,
      hv.effect, hv.swap_left, hmu i hi] at h
    omega
  · intro h
    refine ⟨fun _ i hi => ?_, fun i hi => ?_⟩
    · have hb' := hb i hi
      have hd := hd i hi
      have hd' := hd.symm
      have hsw := hb'.swap_allocator w .sx .sy .sx (hsp i hi)
      have hsw' := hb'.swap_allocator w .sx .sy .sy (hsp i hi)
      simp only [reduceCtorEq, if_false, if_true] at hsw hsw'
      simp only [hb'.count, hb'.effect_allocator, hb'.effect_used, hb'.swap_used _ _ _ _ (by decide : Var.sx ≠ Var.sy) (hsp i hi), hsw, hsw', hx, hy, hd, hd', if_false, if_true]
      have := h i hi
      omega
    · have hb' := hb i hi
      have hd := hd i hi
      have hd' := hd.symm
      have hsw := hb'.swap_allocator w .sx .sy .sx (hsp i hi)
      have hsw' := hb'.swap_allocator w .sx .sy .sy (hsp i hi)
      simp only [reduceCtorEq, if_false, if_true] at hsw hsw'
      rw [if_pos (hsp i hi)]
      simp only [hb'.count, hb'.mutate_allocator, hb'.mutate_used, hb'.effect_allocator, hb'.effect_used, hb'.swap_used _ _ _ _ (by decide : Var.sx ≠ Var.sy) (hsp i hi), hsw, hsw', hx, hy, hd, hd', if_false, if_true,
        hv.effect, hv.swap_left, hmu i hi]
      have := h i hi
      omega

theorem meets_swapCopies {w : W} (hk : Known val is books vx vy w) (hmu : ∀ i ∈ is, (books i).mutate vy = i.pred.mutation.value) :
    Meets (swapCopies t is mutator) w ↔ ∀ i ∈ is, Swaps is → (books i).swapFirst vx vy = 0 ∧ (books i).swapSecond vx vy = 0 := by
  rw [swapCopies]
  by_cases hs : Swaps is
  · have hsp : ∀ i ∈ is, i.swapProp = true := fun i hi => (hs i hi).resolve_right (by rw [(hb i hi).notAlways]; decide)
    rw [if_pos hs, meets_bind, meets_bind, meets_bind]
    simp only [meets_perform', run_perform, true_and, hs, true_imp_iff]
    rw [meets_bind]
    simp only [meets_perform', and_true]
    refine meets_swapping hv hb hm ⟨?_, ?_, fun i hi => ?_⟩ ?_ ?_ (fun i hi => ?_) hsp hmu
    · simp [hv.copyConstruct_other, hk.x]
    · simp [hv.copyConstruct_other, hk.y]
    · simp [(hb i hi).copy_allocator, hk.distinct i hi]
    · simp [hv.copyConstruct, hv.copyConstruct_other, hk.x]
    · simp [hv.copyConstruct, hv.copyConstruct_other, hk.y]
    · simp [(hb i hi).copy_allocator, hk.distinct i hi]
  · rw [if_neg hs]
    simp [meets_pure, hs]

/-- After swaps, which may have an effect on other copies only, the objects are as before. -/
theorem values_swapCopies {w : W} (hk : Known val is books vx vy w) : val (swapCopies t is mutator w).1 .x = vx ∧ val (swapCopies t is mutator w).1 .y = vy := by
  rw [swapCopies]
  by_cases hs : Swaps is
  · rw [if_pos hs]
    simp only [swapping, swapAllocations, same, different, run_bind, run_perform, run_demand, run_observe, out_observe]
    refine ⟨?_, ?_⟩
    · simp [hv.destroy_other, hv.effect, hv.swap_other, hm.other, hv.copyConstruct_other, hk.x]
    · simp [hv.destroy_other, hv.effect, hv.swap_other, hm.other, hv.copyConstruct_other, hk.y]
  · rw [if_neg hs]
    exact ⟨hk.x, hk.y⟩

omit hb in
theorem meets_mutation {w : W} (hy : val w .y = vy) : Meets (mutation t mutator) w ∧ val (mutation t mutator w).1 .y = vy := by
  have hch : ∀ w, val w .v = vy → ¬ val (mutator .v w) .v = vy := fun w h => hm.changes w .v h
  simp only [mutation, same, different, meets_bind, run_bind, run_perform, run_demand, meets_demand, meets_perform', true_and, and_true, hv.eq, hv.ne, hv.copyConstruct, hv.copyConstruct_other, hv.copyAssign,
    hv.copyAssign_other, hv.destroy_other, hv.effect, hm.other, ne_eq, reduceCtorEq, not_false_eq_true, hy, hch]

omit hm in
theorem meets_serialization {w : W} (hy : val w .y = vy) : Meets (serialization t is t.stream) w ∧ val (serialization t is t.stream w).1 .y = vy := by
  cases e : t.stream with
  | none => exact ⟨trivial, hy⟩
  | some f =>
    have h1 := hv.stream f e
    have h2 := hv.stream_other f e
    simp only [serialization, same, allocated, meets_bind, run_bind, run_perform, run_demand, run_observe, out_observe, meets_observe, meets_demand, meets_perform', true_and, and_true, hv.eq, hv.copyConstruct_other,
      hv.destroy_other, hv.effect, hv.output, h1, h2, ne_eq, reduceCtorEq, not_false_eq_true, hy]
    refine fun i hi => ?_
    simp only [(hb i hi).count, (hb i hi).output_allocator, (hb i hi).output_used]
    omega

omit hm in
theorem meets_paraConstruction {w : W} (hy : val w .y = vy) : Meets (paraConstruction t is mutator) w ↔ (∀ i ∈ is, (books i).paraCopy vy = i.pred.paraCopy.value) ∧
    (∀ i ∈ is, (books i).paraMove vy = i.pred.paraMove.value) ∧ ∀ i ∈ is, (books i).mutate vy = i.pred.mutation.value := by
  simp only [paraConstruction, mutationAllocations, allocated, same, meets_bind, run_bind, run_perform, run_demand, run_observe, out_observe, meets_observe, meets_demand, meets_perform', true_and, and_true,
    hv.eq, hv.paraCopy, hv.paraCopy_other, hv.paraMove, hv.paraMove_other, hv.copyConstruct, hv.copyConstruct_other, hv.destroy_other, hv.effect, ne_eq, reduceCtorEq, not_false_eq_true, hy]
  refine and_congr (forall₂_congr fun i hi => ?_) (and_congr (forall₂_congr fun i hi => ?_) (forall₂_congr fun i hi => ?_))
  all_goals have h := hb i hi
  · simp only [h.count, h.effect_allocator, h.effect_used, h.paraCopy_used, hy]
  · simp only [h.count, h.effect_allocator, h.effect_used, h.paraMove_used, hy, hv.paraCopy, hv.paraCopy_other, hv.copyConstruct, hv.copyConstruct_other, hv.destroy_other, hv.effect, ne_eq, reduceCtorEq, not_false_eq_true]
  · simp only [h.count, h.mutate_allocator, h.mutate_used, if_true, hy, hv.paraCopy, hv.paraCopy_other, hv.paraMove, hv.paraMove_other, hv.copyConstruct, hv.copyConstruct_other, hv.destroy_other, hv.effect, ne_eq,
      reduceCtorEq, not_false_eq_true]
    omega

/-- For a type with known costs: the experiment is met if and only if the predictions are right. -/
theorem meets_regular {lt : V → V → Prop} {order : Option Ordering} (ho : order ≠ none → WellOrdered t.toOps val lt) {w : W} (hk : Known val is books vx vy w) (hxy : vx ≠ vy)
    (hc : Claimed lt vx vy order) : Meets (regularExperiment t is order mutator) w ↔ ∀ i ∈ is, Right (Swaps is) vx vy i (books i) := by
  have hv' := hv.toMovesValued
  have hb' := fun i hi => (hb i hi).toMovesInOrder
  have hq : Meets (equality t is) w := meets_equality hv' hb' (by rw [hk.x, hk.y]; exact hxy)
  have c1 := gentle_equality hv' hb' w
  have k1 := hk.calm c1
  have ho' : Meets (ordered t is order) (equality t is w).1 := meets_ordered hv' hb' ho (by rw [k1.x, k1.y]; exact hc)
  have c2 := c1.trans (gentle_ordered hv' hb' order (equality t is w).1)
  rw [regularExperiment, meets_observe_bind, meets_bind, meets_bind]
  rw [show Meets (equality t is) w ∧ _ ↔ _ from and_iff_right hq, show Meets (ordered t is order) _ ∧ _ ↔ _ from and_iff_right ho']
  generalize (ordered t is order (equality t is w).1).1 = w2 at c2 ⊢
  have k2 := hk.calm c2
  rw [meets_bind, meets_copies hv hb c2 k2]
  obtain ⟨k3, z3, a3⟩ := known_copies hv hb (start := w) k2
  generalize (copies t is w w2).1 = w3 at k3 z3 a3 ⊢
  rw [meets_bind, meets_copyAssignment hv hb k3 z3 a3]
  obtain ⟨k4, z4⟩ := known_copyAssignment hv hb k3
  generalize (copyAssignment t is w3).1 = w4 at k4 z4 ⊢
  rw [meets_bind, meets_moveConstruction hv hb k4 z4, meets_bind, meets_perform', true_and, run_perform]
  have k5 := known_moveConstruction hv hb (w := w4) k4
  generalize t.destroy .opt (moveConstruction t is .z (same t · .y) none w4).1 = w5 at k5 ⊢
  rw [meets_bind, meets_perform', true_and, run_perform, meets_bind, meets_perform', true_and, run_perform, meets_bind, meets_moveAssignment hv hb hm k5, meets_bind, meets_perform', true_and, run_perform]
  have k6 := known_moveAssignment hv hb hm k5
  generalize t.destroy .ty (moveAssignment t is mutator .w .ty (same t · .y) none (t.copyConstruct .y .ty (t.copyConstruct .x .w w5))).1 = w6 at k6 ⊢
  have k7 := values_swapCopies hv hb hm k6
  have hrest : ∀ {w}, val w .y = vy → (Meets (do
      mutation t mutator
      serialization t is t.stream
      perform (t.destroy .w)
      perform (t.destroy .z)
      paraConstruction t is mutator) w ↔ (∀ i ∈ is, (books i).paraCopy vy = i.pred.paraCopy.value) ∧
    (∀ i ∈ is, (books i).paraMove vy = i.pred.paraMove.value) ∧ ∀ i ∈ is, (books i).mutate vy = i.pred.mutation.value) := by
    intro w hw
    obtain ⟨h1, hw1⟩ := meets_mutation hv hm hw
    obtain ⟨h2, hw2⟩ := meets_serialization hv hb hw1
    rw [meets_bind, meets_bind, meets_bind, meets_bind]
    simp only [h1, h2, meets_perform', true_and, run_perform]
    exact meets_paraConstruction hv hb (by simp [hv.destroy_other, hw2])
  rw [meets_bind, hrest k7.2]
  constructor
  · rintro ⟨⟨a1, a2⟩, b, c, ⟨d1, d2⟩, e, f1, f2, f3⟩ i hi
    rw [meets_swapCopies hv hb hm k6 d2] at e
    exact ⟨a1 i hi, a2 i hi, (b i hi).1, (b i hi).2, c i hi, (d1 i hi).1, (d1 i hi).2, d2 i hi, f1 i hi, f2 i hi, e i hi⟩
  · intro h
    have hmu : ∀ i ∈ is, (books i).mutate vy = i.pred.mutation.value := fun i hi => (h i hi).mutate
    rw [meets_swapCopies hv hb hm k6 hmu]
    exact ⟨⟨fun i hi => (h i hi).copyX, fun i hi => (h i hi).copyY⟩, fun i hi => ⟨(h i hi).assignProp, (h i hi).assignNoProp⟩, fun i hi => (h i hi).move,
      ⟨fun i hi => ⟨(h i hi).moveAssignProp, (h i hi).moveAssignNoProp⟩, hmu⟩, fun i hi => (h i hi).swap, fun i hi => (h i hi).paraCopy, fun i hi => (h i hi).paraMove, hmu⟩

end

/-! ## Types which can only be moved -/

section
variable {W U V A α β : Type} [DecidableEq A] {t : AOps W U} {is : List (Info W U)} {val : W → Var → V} {mutator : Var → W → W} {books : Info W U → Books W V A}
variable (hv : MovesValued t val) (hb : ∀ i ∈ is, MovesInOrder t val mutator i.toLevel (books i)) {vx vy : V}
include hv hb

theorem meets_paraMove {a b c : Var} {u : U} {p : Info W U → Int} {w : W} {va : V} (hab : a ≠ b) (hbc : b ≠ c) (hu : ∀ v d, t.against v d u = true ↔ val v d = va) (ha : val w a = va) :
    (Meets (paraMove t is a b c u p) w ↔ ∀ i ∈ is, (books i).paraMove va = p i) ∧ val (paraMove t is a b c u p w).1 c = va ∧
      (∀ d, d ≠ a → d ≠ b → d ≠ c → val (paraMove t is a b c u p w).1 d = val w d) ∧
      ∀ i ∈ is, ∀ d, d ≠ b → d ≠ c → (books i).allocator (paraMove t is a b c u p w).1 d = (books i).allocator w d ∧ (books i).allocator (paraMove t is a b c u p w).1 c ≠ (books i).allocator w d := by
  simp only [paraMove, asPredicted, meets_bind, run_bind, run_perform, run_demand, meets_demand, meets_perform', true_and, and_true, hu, hv.effectAgainst, hv.paraMove _ _ _ hab, hv.moveConstruct _ _ _ hbc,
    hv.destroy_other _ _ _ hbc.symm, ha]
  refine ⟨forall₂_congr fun i hi => ?_, fun d hda hdb hdc => ?_, fun i hi d hdb hdc => ?_⟩
  · rw [(hb i hi).count, (hb i hi).paraMove_used, hv.effectAgainst, ha]
  · rw [hv.destroy_other _ _ _ hdb, hv.effectAgainst, hv.moveConstruct_other _ _ _ _ hdb hdc, hv.effectAgainst, hv.paraMove_other _ _ _ _ hda hdb, hv.effectAgainst]
  · have h := hb i hi
    have := h.paraMove_new (t.effectAgainst a u w) a b d hdb
    simp only [h.destroy_allocator _ _ _ hdb, h.destroy_allocator _ _ _ hbc.symm, h.against_allocator, h.move_allocator, if_neg hdc, if_true, h.paraMove_allocator _ _ _ _ hdb]
    rw [h.against_allocator] at this
    exact ⟨trivial, this⟩

theorem meets_equalityWith {xe ye : U} {w : W} (hk : Known val is books vx vy w) (hxy : vx ≠ vy) (hx : ∀ v a, t.against v a xe = true ↔ val v a = vx)
    (hy : ∀ v a, t.against v a ye = true ↔ val v a = vy) : Meets (equalityWith t is xe ye) w := by
  have k1 := hk.calm (gentle_equality hv hb w)
  have k2 := k1.calm (gentle_asPredicted hv hb .x xe _)
  rw [equalityWith, meets_bind, meets_bind]
  exact ⟨meets_equality hv hb (by rw [hk.x, hk.y]; exact hxy), ⟨(hx _ _).2 k1.x, trivial⟩, (hy _ _).2 k2.y, trivial⟩

theorem gentle_moved (a : Var) (p : Option U) : Gentle val is books (moved t a p) := by
  cases p with
  | none => exact gentle_pure _
  | some p => exact gentle_asPredicted hv hb a p

omit hb in
theorem meets_moved {a : Var} {p : Option U} {w : W} (h : ∀ u, p = some u → t.against w a u = true) : Meets (moved t a p) w := by
  cases p with
  | none => trivial
  | some p => exact ⟨h p rfl, trivial⟩

theorem meets_moveConstruction' {xe : U} {p : Option U} {w : W} (hk : Known val is books vx vy w) (hx : ∀ v a, t.against v a xe = true ↔ val v a = vx)
    (hmc : ∀ u, p = some u → ∀ v a b, a ≠ b → val v a = vx → t.against (t.moveConstruct a b v) a u = true) :
    (Meets (moveConstruction t is .x (asPredicted t · xe) p) w ↔ ∀ i ∈ is, (books i).move vx = i.pred.move.value) ∧
      val (moveConstruction t is .x (asPredicted t · xe) p w).1 .opt = vx ∧ val (moveConstruction t is .x (asPredicted t · xe) p w).1 .y = vy ∧
      ∀ i ∈ is, (books i).allocator (moveConstruction t is .x (asPredicted t · xe) p w).1 .opt ≠ (books i).allocator (moveConstruction t is .x (asPredicted t · xe) p w).1 .y := by
  rw [moveConstruction, meets_observe_bind, run_observe_bind]
  have hmv : Meets (moved t .x p) (t.effectAgainst .m xe (t.moveConstruct .x .m w)) := meets_moved hv fun u hu => by
    rw [hv.against_effect]
    exact hmc u hu _ _ _ (by decide) hk.x
  have hg := gentle_moved hv hb .x p (t.effectAgainst .m xe (t.moveConstruct .x .m w))
  simp only [asPredicted, allocated, meets_bind, run_bind, run_perform, run_demand, meets_demand, meets_perform', true_and, and_true, hx, hv.moveConstruct, ne_eq, reduceCtorEq, not_false_eq_true, hk.x, hmv,
    hv.destroy_other, hv.moveConstruct_other, hg.1, hv.effectAgainst, hk.y]
  refine ⟨forall₂_congr fun i hi => ?_, fun i hi => ?_⟩
  · have h := hb i hi
    simp only [h.count, (hg.2 i hi).1, (hg.2 i hi).2, h.against_allocator, h.against_used, h.move_allocator, h.move_used, if_true, hk.x]
    omega
  · have h := hb i hi
    simp only [h.destroy_allocator, ne_eq, reduceCtorEq, not_false_eq_true, (hg.2 i hi).1, h.against_allocator, h.move_allocator, if_true, if_false]
    exact hk.distinct i hi

theorem meets_moveAssignment' {a b : Var} {ye : U} {p : Option U} {w : W} (hab : b ≠ a) (ha : val w a = vx) (hbv : val w b = vy) (hd : ∀ i ∈ is, (books i).allocator w a ≠ (books i).allocator w b)
    (hy : ∀ v a, t.against v a ye = true ↔ val v a = vy) (hma : ∀ u, p = some u → ∀ v a b, a ≠ b → val v a = vy → t.against (t.moveAssign a b v) a u = true) :
    Meets (moveAssignment t is mutator a b (asPredicted t · ye) p) w ↔
      (∀ i ∈ is, (i.moveProp = true → (books i).moveAssignProp vx vy = i.pred.moveAssign.value) ∧ (i.moveProp = false → (books i).moveAssignNoProp vx vy = i.pred.moveAssignNoProp.value)) ∧
      ∀ i ∈ is, (books i).mutate vy = i.pred.mutation.value := by
  rw [moveAssignment, meets_observe_bind]
  have hmv : Meets (moved t b p) (t.effectAgainst a ye (t.moveAssign b a w)) := meets_moved hv fun u hu => by
    rw [hv.against_effect]
    exact hma u hu _ _ _ hab hbv
  have hg := gentle_moved hv hb b p (t.effectAgainst a ye (t.moveAssign b a w))
  simp only [asPredicted, mutationAllocations, allocated, meets_bind, run_bind, run_perform, run_demand, run_observe, out_observe, meets_observe, meets_demand, meets_perform', true_and, and_true, hy,
    hv.moveAssign _ _ _ hab, hbv, hmv]
  refine and_congr (forall₂_congr fun i hi => ?_) (forall₂_congr fun i hi => ?_)
  all_goals
    have h := hb i hi
    have hd := hd i hi
    have hd' := hd.symm
  · simp only [h.count, h.equal, (hg.2 i hi).1, (hg.2 i hi).2, h.against_allocator, h.against_used]
    rw [h.moveAssign_used _ _ _ _ hab]
    cases hp : i.moveProp with
    | true =>
      simp only [h.moveAssign_allocator, hp, if_true, and_true, ha, hbv, true_imp_iff, false_imp_iff, or_true, true_or, reduceCtorEq]
      omega
    | false =>
      simp only [h.moveAssign_allocator, hp, if_true, if_false, and_true, and_false, ha, hbv, true_imp_iff, false_imp_iff, or_false, false_or, reduceCtorEq, hd, hd', Bool.false_eq_true, true_and]
      omega
  · simp only [h.count, h.mutate_allocator, h.mutate_used, if_true, hg.1, hv.effectAgainst, hv.moveAssign _ _ _ hab, hbv]
    omega

theorem meets_swapping' {xe ye : U} {w : W} (ho : val w .opt = vx) (hyv : val w .y = vy) (hd : ∀ i ∈ is, (books i).allocator w .opt ≠ (books i).allocator w .y) (hsp : ∀ i ∈ is, i.swapProp = true)
    (hx : ∀ v a, t.against v a xe = true ↔ val v a = vx) (hy : ∀ v a, t.against v a ye = true ↔ val v a = vy) {e : Experiment W Unit}
    (he : e = swapping t .opt .y (asPredicted t · xe) (asPredicted t · ye) fun start => swapAllocations is start .opt .y) :
    (Meets e w ↔ ((∀ i ∈ is, i.moveProp = true ∧ i.swapProp = true) → ∀ i ∈ is, (books i).swapFirst vx vy = 0 ∧ (books i).swapSecond vx vy = 0)) ∧
      val (e w).1 .opt = vy ∧ val (e w).1 .y = vx ∧ ∀ i ∈ is, (books i).allocator (e w).1 .y ≠ (books i).allocator (e w).1 .opt := by
  subst he
  rw [swapping, meets_observe_bind, run_observe_bind]
  simp only [swapAllocations, asPredicted, meets_bind, run_bind, run_perform, run_demand, meets_demand, meets_perform', true_and, and_true, hx, hy, hv.swap_left, hv.swap_right, hv.swap_other, hv.effectAgainst, ne_eq,
    reduceCtorEq, not_false_eq_true, ho, hyv]
  refine ⟨forall_congr' fun _ => forall₂_congr fun i hi => ?_, fun i hi => ?_⟩
  all_goals
    have h := hb i hi
    have hd := hd i hi
    have hd' := hd.symm
    have hsw := fun w d => h.swap_allocator w .opt .y d (hsp i hi)
    have hsw' := fun w d => h.swap_allocator w .y .y d (hsp i hi)
  · simp only [h.count, h.against_allocator, h.against_used, hsw, hsw', h.swap_used _ _ _ _ (by decide : Var.opt ≠ Var.y) (hsp i hi), reduceCtorEq, if_false, if_true, ho, hyv, hd, hd']
    omega
  · simp only [h.against_allocator, hsw, hsw', reduceCtorEq, if_false, if_true]
    exact hd

/-- For a type with known costs which can only be moved. -/
theorem meets_moveOnly {lt : V → V → Prop} {order : Option Ordering} (ho : order ≠ none → WellOrdered t.toOps val lt) {w : W} (hux : val w .ux = vx) (huy : val w .uy = vy) (hxy : vx ≠ vy)
    (hc : Claimed lt vx vy order) {xe ye : U} {mc ma : Option U} (hx : ∀ v a, t.against v a xe = true ↔ val v a = vx) (hy : ∀ v a, t.against v a ye = true ↔ val v a = vy)
    (hmc : ∀ u, mc = some u → ∀ v a b, a ≠ b → val v a = vx → t.against (t.moveConstruct a b v) a u = true)
    (hma : ∀ u, ma = some u → ∀ v a b, a ≠ b → val v a = vy → t.against (t.moveAssign a b v) a u = true)
    (hs : ∀ f, t.streamFrom = some f → ∀ v a, val (f ye a v) a = vy) (hout : ∀ i ∈ is, ∀ v, i.countOf (t.outputFrom ye v) ye = i.countOf v ye) :
    Meets (moveOnlyExperiment t is xe ye order mc ma mutator) w ↔ ∀ i ∈ is, MovesRight (∀ j ∈ is, j.moveProp = true ∧ j.swapProp = true) vx vy i (books i) := by
  obtain ⟨p1, v1, o1, a1⟩ := meets_paraMove hv hb (a := .ux) (b := .vx) (c := .x) (p := fun i => i.pred.x.value) (by decide) (by decide) hx hux
  rw [moveOnlyExperiment, meets_bind, p1]
  have huy1 := (o1 .uy (by decide) (by decide) (by decide)).trans huy
  generalize (paraMove t is .ux .vx .x xe (fun i => i.pred.x.value) w).1 = w1 at v1 huy1 ⊢
  obtain ⟨p2, v2, o2, a2⟩ := meets_paraMove hv hb (a := .uy) (b := .vy) (c := .y) (p := fun i => i.pred.paraMove.value) (by decide) (by decide) hy huy1
  rw [meets_bind, p2]
  have k2 : Known val is books vx vy (paraMove t is .uy .vy .y ye (fun i => i.pred.paraMove.value) w1).1 :=
    ⟨(o2 .x (by decide) (by decide) (by decide)).trans v1, v2, fun i hi => by rw [(a2 i hi .x (by decide) (by decide)).1]; exact (a2 i hi .x (by decide) (by decide)).2.symm⟩
  generalize (paraMove t is .uy .vy .y ye (fun i => i.pred.paraMove.value) w1).1 = w2 at k2 ⊢
  have k3 := k2.calm (gentle_equalityWith hv hb xe ye w2)
  rw [meets_bind, show Meets (equalityWith t is xe ye) w2 ∧ _ ↔ _ from and_iff_right (meets_equalityWith hv hb k2 hxy hx hy)]
  generalize (equalityWith t is xe ye w2).1 = w3 at k3 ⊢
  have k4 := k3.calm (gentle_ordered hv hb order w3)
  rw [meets_bind, show Meets (ordered t is order) w3 ∧ _ ↔ _ from and_iff_right (meets_ordered hv hb ho (by rw [k3.x, k3.y]; exact hc))]
  generalize (ordered t is order w3).1 = w4 at k4 ⊢
  obtain ⟨m5, o5, y5, d5⟩ := meets_moveConstruction' hv hb k4 hx hmc
  rw [meets_bind, m5]
  generalize (moveConstruction t is .x (asPredicted t · xe) mc w4).1 = w5 at o5 y5 d5 ⊢
  have hser : ∀ w, Meets (serializationFrom t is ye t.streamFrom) w := by
    intro w
    cases e : t.streamFrom with
    | none => trivial
    | some f =>
      rw [serializationFrom, meets_observe_bind]
      simp only [asPredicted, meets_bind, run_bind, run_perform, run_demand, meets_demand, meets_perform', true_and, and_true, hy, hs f e]
      exact fun i hi => hout i hi w
  rw [meets_bind, show (Meets (swapAndAssign t is mutator xe ye ma) w5 ∧ _ ↔ _) from and_iff_left (hser _), swapAndAssign]
  have hiff : Meets (if Swaps is then (do
      swapping t .opt .y (asPredicted t · xe) (asPredicted t · ye) fun start => swapAllocations is start .opt .y
      moveAssignment t is mutator .y .opt (asPredicted t · ye) ma) else moveAssignment t is mutator .opt .y (asPredicted t · ye) ma) w5 ↔
      ((∀ i ∈ is, i.moveProp = true ∧ i.swapProp = true) → ∀ i ∈ is, (books i).swapFirst vx vy = 0 ∧ (books i).swapSecond vx vy = 0) ∧
      (∀ i ∈ is, (i.moveProp = true → (books i).moveAssignProp vx vy = i.pred.moveAssign.value) ∧ (i.moveProp = false → (books i).moveAssignNoProp vx vy = i.pred.moveAssignNoProp.value)) ∧
      ∀ i ∈ is, (books i).mutate vy = i.pred.mutation.value := by
    by_cases hsw : Swaps is
    · have hsp : ∀ i ∈ is, i.swapProp = true := fun i hi => (hsw i hi).resolve_right (by rw [(hb i hi).notAlways]; decide)
      obtain ⟨m6, o6, y6, d6⟩ := meets_swapping' hv hb o5 y5 d5 hsp hx hy rfl
      rw [if_pos hsw, meets_bind, m6, meets_moveAssignment' hv hb (by decide) y6 o6 d6 hy hma]
    · rw [if_neg hsw, meets_moveAssignment' hv hb (by decide) o5 y5 d5 hy hma]
      refine (and_iff_right fun h => absurd (fun i hi => .inl (h i hi).2) hsw).symm
  rw [hiff]
  constructor
  · rintro ⟨a, b, c, d, e, f⟩ i hi
    exact ⟨a i hi, b i hi, c i hi, (e i hi).1, (e i hi).2, f i hi, fun h => d h i hi⟩
  · intro h
    exact ⟨fun i hi => (h i hi).paraMoveX, fun i hi => (h i hi).paraMoveY, fun i hi => (h i hi).move, fun hsw i hi => (h i hi).swap hsw, fun i hi => ⟨(h i hi).moveAssignProp, (h i hi).moveAssignNoProp⟩,
      fun i hi => (h i hi).mutate⟩

end

/-! ## Further lemmas -/

section
variable {W U V A : Type} [DecidableEq A] {t : AOps W U} {is : List (Info W U)} {val : W → Var → V} {mutator : Var → W → W} {books : Info W U → Books W V A} {vx vy : V}

theorem not_meets_quietBoth {o : Operator} {b : W → Var → Bool} {i : Info W U} (hi : i ∈ is) (h : ∀ w a, i.count (t.effect o a a w) a ≠ i.count w a) (w : W) : ¬ Meets (quietBoth t is o b) w := by
  intro hm
  have : i.count (t.effect o .x .x w) .x = i.count w .x + 0 := hm.1.2.2.2 i hi
  exact h w .x (by simpa using this)

theorem not_meets_reflexive {o : Operator} (ho : o = .lt ∨ o = .le ∨ o = .gt ∨ o = .ge) {i : Info W U} (hi : i ∈ is) (h : ∀ w a, i.count (t.effect o a a w) a ≠ i.count w a) (w : W) :
    ¬ Meets (reflexiveOrder t is) w := by
  rw [reflexiveOrder, meets_bind, meets_bind, meets_bind, meets_bind]
  rintro ⟨h1, h2, h3, h4, -⟩
  rcases ho with rfl | rfl | rfl | rfl
  · exact not_meets_quietBoth hi h _ h1
  · exact not_meets_quietBoth hi h _ h2
  · exact not_meets_quietBoth hi h _ h3
  · exact not_meets_quietBoth hi h _ h4

/-- The parts of the experiment. -/
theorem regular_parts {order : Option Ordering} {w : W} (h : Meets (regularExperiment t is order mutator) w) :
    Meets (equality t is) w ∧ (∃ v, Meets (ordered t is order) v) ∧ Meets (copies t is w) (ordered t is order (equality t is w).1).1 ∧ ∃ v, Meets (serialization t is t.stream) v := by
  rw [regularExperiment, meets_observe_bind] at h
  simp only [meets_bind] at h
  obtain ⟨h1, h2, h3, -, -, -, -, -, -, -, -, -, h4, -⟩ := h
  exact ⟨h1, ⟨_, h2⟩, h3, ⟨_, h4⟩⟩

theorem not_meets_noisy {order : Option Ordering} {o : Operator} (ho : o = .eq ∨ o = .ne ∨ order ≠ none ∧ (o = .lt ∨ o = .le ∨ o = .gt ∨ o = .ge)) {i : Info W U} (hi : i ∈ is)
    (h : ∀ w a, i.count (t.effect o a a w) a ≠ i.count w a) (w : W) : ¬ Meets (regularExperiment t is order mutator) w := by
  intro hm
  obtain ⟨h1, ⟨v, h2⟩, -⟩ := regular_parts hm
  rw [equality, meets_bind, meets_bind] at h1
  rcases ho with rfl | rfl | ⟨hn, ho⟩
  · exact not_meets_quietBoth hi h _ h1.1
  · exact not_meets_quietBoth hi h _ h1.2.1
  · cases order with
    | none => exact hn rfl
    | some p =>
      rw [ordered, meets_bind, meets_bind] at h2
      exact not_meets_reflexive ho hi h _ h2.2.1

theorem not_meets_output {order : Option Ordering} (hs : t.stream ≠ none) {i : Info W U} (hi : i ∈ is) (h : ∀ w a, i.count (t.output a w) a ≠ i.count w a) (w : W) :
    ¬ Meets (regularExperiment t is order mutator) w := by
  intro hm
  obtain ⟨-, -, -, v, h4⟩ := regular_parts hm
  cases e : t.stream with
  | none => exact hs e
  | some f =>
    rw [e] at h4
    simp only [serialization, allocated, meets_bind, run_bind, run_perform, run_demand, run_observe, out_observe, meets_observe, meets_demand, meets_perform', true_and] at h4
    have := h4.1 i hi
    exact h _ .y (by simpa using this)

/-- If the objects share an allocator, then the first prediction has to account for both copies. -/
theorem meets_shared (hv : Valued t val) (hb : ∀ i ∈ is, InOrder t val mutator i.toLevel (books i)) {order : Option Ordering} {w : W} (h : Meets (regularExperiment t is order mutator) w)
    {i : Info W U} (hi : i ∈ is) (hs : (books i).allocator w .x = (books i).allocator w .y) : (books i).copy (val w .x) + (books i).copy (val w .y) = i.pred.x.value := by
  have hv' := hv.toMovesValued
  have hb' := fun i hi => (hb i hi).toMovesInOrder
  obtain ⟨-, -, h3, -⟩ := regular_parts h
  have c := (gentle_equality hv' hb' w).trans (gentle_ordered hv' hb' order (equality t is w).1)
  generalize (ordered t is order (equality t is w).1).1 = w' at c h3
  simp only [copies, same, allocated, meets_bind, run_bind, run_perform, run_demand, meets_demand, meets_perform', true_and, and_true] at h3
  have h3 := h3.2.1 i hi
  have h := hb i hi
  simp only [h.count, h.copy_allocator, h.copy_used, h.effect_allocator, h.effect_used, reduceCtorEq, if_false, if_true, (c.2 i hi).1, (c.2 i hi).2, c.1, hv.effect, hv.copyConstruct_other, ne_eq,
    not_false_eq_true, hs] at h3
  omega

theorem passes_init (makeX makeY : W → W) (order : Option Ordering) (w : W) : Passes (regularMade t is makeX makeY order mutator) w ↔
    (∀ i ∈ is, i.count (makeY (makeX w)) .x = i.pred.x.value ∧ i.count (makeY (makeX w)) .y = i.pred.copy.value) ∧ Passes (regular t is order mutator) (makeY (makeX w)) := by
  have key : Follows (checkInit is Predictions.copy) (demand fun w => ∀ i ∈ is, i.count w .x = i.pred.x.value ∧ i.count w .y = i.pred.copy.value) id := by
    refine (follows_forAll (fun i => follows_allocation_two rfl) is).eq ?_
    simp only [Int.zero_add]
  show Passes (act makeX >>= fun _ => act makeY >>= fun _ => checkInit is Predictions.copy >>= fun _ => regular t is order mutator) w ↔ _
  rw [passes_bind, passes_bind, passes_bind]
  have h1 : ∀ (f : W → W) w, Passes (act f) w := fun f w b hb => nomatch hb
  have h2 := key (makeY (makeX w))
  constructor
  · rintro ⟨-, -, h3, h4⟩
    obtain ⟨e1, -⟩ := h2.2 h3
    refine ⟨h2.1.1 h3, ?_⟩
    have h4 : Passes (regular t is order mutator) (checkInit is Predictions.copy (makeY (makeX w))).1 := h4
    rw [e1] at h4
    exact h4
  · rintro ⟨h3, h4⟩
    have h3' := h2.1.2 h3
    obtain ⟨e1, -⟩ := h2.2 h3'
    refine ⟨h1 _ _, h1 _ _, h3', ?_⟩
    show Passes _ ((checkInit is Predictions.copy) (makeY (makeX w))).1
    rw [e1]
    exact h4

theorem toArray_ok {α : Type} (l : List α) : ∀ (n i : Nat), i + n ≤ l.length → toArray l i n = .ok ((l.drop i).take n)
  | 0, i, _ => rfl
  | n + 1, i, h => by
    have hi : i < l.length := by omega
    rw [toArray, if_neg (by omega), List.getElem?_eq_getElem hi]
    simp only [toArray_ok l n (i + 1) (by omega), Res.bind]
    rw [List.drop_eq_getElem_cons hi]
    rfl

theorem toArray_ub {α : Type} (l : List α) : ∀ (n i : Nat), i ≤ l.length → l.length < i + n → toArray l i n = .ub
  | 0, i, h, h' => by omega
  | n + 1, i, h, h' => by
    rw [toArray, if_neg (by omega)]
    by_cases hi : i < l.length
    · rw [List.getElem?_eq_getElem hi]
      simp only [toArray_ub l n (i + 1) (by omega) (by omega), Res.bind]
    · rw [List.getElem?_eq_none (by omega)]

theorem increment_false (p : Prediction) (n : Int) : increment false p n = p := rfl

theorem shift_false (cls : Class) (c : Counts) (top : Bool) (p : Predictions) : shift false cls c top p = p := by
  cases cls <;> rfl

end

end Verif.AllocationChecks
