import Verif.Spec.AllocationChecks
import Verif.Lemmas.Semantics
/- Lemmas about the checks of allocations. -/
set_option linter.unusedSectionVars false
set_option linter.unusedVariables false
set_option linter.unusedSimpArgs false

namespace Verif.AllocationChecks
open Verif.Semantics Verif.Spec.AllocationChecks
open Verif.Spec.Semantics (Passes)

section
variable {W U α β γ δ : Type}

theorem experiment_bind (e : Experiment W α) (f : α → Experiment W β) (w : W) :
    (e >>= f) w = ((f (e w).2.2 (e w).1).1, (e w).2.1 ∧ (f (e w).2.2 (e w).1).2.1, (f (e w).2.2 (e w).1).2.2) := rfl

theorem experiment_assoc (e : Experiment W α) (f : α → Experiment W β) (g : β → Experiment W γ) : e >>= f >>= g = e >>= fun a => f a >>= g := by
  funext w
  simp only [experiment_bind, and_assoc]

theorem experiment_pure (a : α) (f : α → Experiment W β) : pure a >>= f = f a := by
  funext w
  show ((f a w).1, True ∧ (f a w).2.1, (f a w).2.2) = f a w
  rw [true_and]

theorem experiment_bind_unit (e : Experiment W Unit) : (e >>= fun _ => pure ()) = e := by
  funext w
  show ((e w).1, (e w).2.1 ∧ True, ()) = e w
  rw [and_true]

theorem meets_bind (e : Experiment W α) (f : α → Experiment W β) (w : W) : Meets (e >>= f) w ↔ Meets e w ∧ Meets (f (e w).2.2) (e w).1 := Iff.rfl

/-- A check makes an experiment. -/
def Follows (m : M W α) (e : Experiment W β) (r : β → α) : Prop := ∀ w, (Passes m w ↔ Meets e w) ∧ (Passes m w → (m w).1 = (e w).1 ∧ (m w).2.2 = r (e w).2.2)

theorem follows_look : Follows (look : M W W) observe id := fun w => ⟨⟨fun _ => trivial, fun _ b hb => nomatch hb⟩, fun _ => ⟨rfl, rfl⟩⟩

theorem follows_act (f : W → W) : Follows (act f) (perform f) id := fun w => ⟨⟨fun _ => trivial, fun _ b hb => nomatch hb⟩, fun _ => ⟨rfl, rfl⟩⟩

theorem follows_pure (a : α) : Follows (pure a : M W α) (pure ()) fun _ => a := fun w => ⟨⟨fun _ => trivial, fun _ b hb => nomatch hb⟩, fun _ => ⟨rfl, rfl⟩⟩

theorem follows_test {b : W → Bool} {p : W → Prop} (h : ∀ w, b w = true ↔ p w) : Follows (test b) (demand p) fun _ => true := fun w => by
  refine ⟨?_, fun hp => ⟨rfl, hp (b w) (by simp [test])⟩⟩
  rw [show Meets (demand p) w ↔ p w from Iff.rfl, ← h]
  simp [Passes, test]

theorem Follows.bind {m : M W α} {k : α → M W β} {e : Experiment W γ} {f : γ → Experiment W δ} {r : γ → α} {q : δ → β} (h : Follows m e r) (h' : ∀ c, Follows (k (r c)) (f c) q) :
    Follows (m >>= k) (e >>= f) q := fun w => by
  have hs : (Passes (m >>= k) w ↔ Meets (e >>= f) w) := by
    rw [passes_bind, meets_bind, ← (h w).1]
    refine and_congr_right fun hp => ?_
    obtain ⟨e1, e2⟩ := (h w).2 hp
    rw [e1, e2]
    exact (h' _ _).1
  refine ⟨hs, fun hp => ?_⟩
  rw [passes_bind] at hp
  obtain ⟨e1, e2⟩ := (h w).2 hp.1
  have h2 := hp.2
  rw [e1, e2] at h2
  obtain ⟨f1, f2⟩ := (h' _ _).2 h2
  show (k (m w).2.2 (m w).1).1 = _ ∧ (k (m w).2.2 (m w).1).2.2 = _
  rw [e1, e2]
  exact ⟨f1, f2⟩

/-- The result is turned into another one at the end. -/
theorem Follows.ret {m : M W α} {k : α → M W β} {e : Experiment W Unit} {a : α} {b : β} (h : Follows m e fun _ => a) (hk : k a = pure b) : Follows (m >>= k) e fun _ => b := by
  have := h.bind (k := k) (f := fun _ => pure ()) (q := fun _ => b) fun _ => by rw [hk]; exact follows_pure _
  rwa [experiment_bind_unit] at this

theorem Follows.eq {m : M W α} {e e' : Experiment W β} {r : β → α} (h : Follows m e r) (he : e = e') : Follows m e' r := he ▸ h

theorem Follows.iff {m : M W α} {e : Experiment W β} {r : β → α} (h : Follows m e r) (w : W) : Passes m w ↔ Meets e w := (h w).1

theorem follows_sentry {m : M W α} {e : Experiment W Unit} {r : Unit → α} (h : Follows m e r) : Follows (sentry m) e fun _ => true := fun w => by
  refine ⟨(h w).1, fun hp => ⟨((h w).2 hp).1, ?_⟩⟩
  show (m w).2.1.all id = true
  rw [List.all_eq_true]
  exact hp

theorem follows_testing {b : W → Bool} {p : W → Prop} (f : W → W) (h : ∀ w, b w = true ↔ p w) : Follows (testing b f) (do demand p; perform f) fun _ => true :=
  (follows_test h).bind fun _ => (follows_act f).ret rfl

variable {t : AOps W U} {is : List (Info W U)}

/-- The state is not changed. -/
def Still (e : Experiment W Unit) (p : W → Prop) : Prop := e = demand p

theorem follows_forAll {f : Info W U → M W Bool} {p : Info W U → W → Prop} (h : ∀ i, Follows (f i) (demand (p i)) fun _ => true) (is : List (Info W U)) :
    Follows (forAll is f) (demand fun w => ∀ i ∈ is, p i w) id := by
  induction is with
  | nil =>
    refine (follows_pure ()).eq ?_
    funext w
    show (w, True, ()) = (w, _, ())
    simp
  | cons i is ih =>
    refine Follows.eq ((h i).bind fun _ => ih) ?_
    funext w
    show (w, p i w ∧ ∀ j ∈ is, p j w, ()) = (w, _, ())
    simp [List.forall_mem_cons]

theorem follows_allocation (i : Info W U) (a : Var) (previous : Int) (p : Prediction) :
    Follows (checkAllocation i a previous p) (demand fun w => i.count w a = previous + p.value) fun _ => true :=
  follows_test fun w => by simp only [beq_iff_eq]; omega

theorem demand_and (p q : W → Prop) : (do demand p; demand q) = demand fun w => p w ∧ q w := rfl

theorem follows_allocation_two {i : Info W U} {a a' : Var} {previous previous' : Int} {p p' : Prediction} {k : Bool → Bool → Bool} (hk : k true true = true) :
    Follows (do let c ← checkAllocation i a previous p; let d ← checkAllocation i a' previous' p'; return k c d)
      (demand fun w => i.count w a = previous + p.value ∧ i.count w a' = previous' + p'.value) fun _ => true := by
  have := (follows_allocation i a previous p).bind (k := fun c => do let d ← checkAllocation i a' previous' p'; return k c d) (q := fun _ => true) fun _ =>
    ((follows_allocation i a' previous' p').ret (k := fun b => pure (k true b)) (b := true) (by rw [hk]))
  rwa [demand_and] at this

theorem follows_allocated (start : W) (a b : Var) (p : Info W U → Prediction) :
    Follows (forAll is fun i => checkAllocation i b (i.count start a) (p i)) (allocated is start a b fun i => (p i).value) id :=
  follows_forAll (fun i => follows_allocation i b (i.count start a) (p i)) is

theorem follows_equal (a b : Var) : Follows (equal t a b) (same t a b) fun _ => true := follows_testing _ fun w => Iff.rfl

theorem follows_unequal (a b : Var) : Follows (unequal t a b) (different t a b) fun _ => true := follows_testing _ fun w => Iff.rfl

theorem follows_against (a : Var) (u : U) : Follows (against t a u) (asPredicted t a u) fun _ => true := follows_testing _ fun w => Iff.rfl

theorem follows_consistent (o : Operator) (b : W → Var → Bool) (a : Var) : Follows (consistent t is o b a) (quiet t is o b a) fun _ => true := by
  have key : Follows (consistent t is o b a) (observe >>= fun start => (do demand (b · a = true); perform (t.effect o a a)) >>= fun _ => allocated is start a a fun _ => 0) fun _ => true :=
    follows_look.bind fun start => (follows_testing _ fun w => Iff.rfl).bind fun _ => follows_sentry (follows_allocated start a a fun _ => .make 0)
  refine key.eq ?_
  simp only [experiment_assoc, quiet]

theorem follows_consistency (o : Operator) (b : W → Var → Bool) : Follows (consistency t is o b) (quietBoth t is o b) fun _ => true :=
  follows_sentry ((follows_consistent o b .x).bind fun _ => follows_consistent o b .y)

theorem follows_equality : Follows (equalityPrerequisites t is) (equality t is) fun _ => true :=
  (follows_consistency _ _).bind fun _ => (follows_consistency _ _).bind fun _ => follows_unequal _ _

theorem follows_equalityWith (xe ye : U) : Follows (equalityPrerequisitesWith t is xe ye) (equalityWith t is xe ye) fun _ => true :=
  follows_equality.bind fun _ => (follows_against _ _).bind fun _ => (follows_against _ _).ret rfl

theorem follows_threeway {f : (W → Var → Var → Ordering) → M W Bool} {e : (W → Var → Var → Ordering) → Experiment W Unit} (h : ∀ c, Follows (f c) (e c) fun _ => true) :
    Follows (threewayCheck t.toOps f) (match t.threeway with | none => pure () | some c => e c) fun _ => true := by
  unfold threewayCheck
  cases t.threeway with
  | none => exact follows_pure _
  | some c => exact h c

theorem follows_orderingOperators : Follows (orderingOperators t is) (reflexiveOrder t is) fun _ => true := by
  unfold orderingOperators reflexiveOrder
  exact follows_sentry ((follows_consistency _ _).bind fun _ => (follows_consistency _ _).bind fun _ => (follows_consistency _ _).bind fun _ => (follows_consistency _ _).bind fun _ =>
    follows_threeway fun c => follows_consistency _ _)

theorem follows_comp (a b : Var) : Follows (comp t a b) (less t a b) fun _ => true := by
  have key : Follows (comp t a b) ((do demand (t.gt · b a = true); perform (t.effect .gt b a)) >>= fun _ => (do demand (t.le · a b = true); perform (t.effect .le a b)) >>= fun _ =>
      (do demand (t.ge · b a = true); perform (t.effect .ge b a)) >>= fun _ =>
      (match t.threeway with | none => pure () | some c => (do demand (fun w => c w a b = .lt); perform (t.effect .threeway a b)))) fun _ => true := by
    unfold comp
    exact follows_sentry ((follows_testing _ fun w => Iff.rfl).bind fun _ => (follows_testing _ fun w => Iff.rfl).bind fun _ => (follows_testing _ fun w => Iff.rfl).bind fun _ =>
      follows_threeway fun c => follows_testing _ fun w => by simp)
  refine key.eq ?_
  unfold less
  cases t.threeway <;> simp only [experiment_assoc]

theorem follows_ite {c : Prop} [Decidable c] {m m' : M W α} {e e' : Experiment W β} {r : β → α} (h : c → Follows m e r) (h' : ¬ c → Follows m' e' r) :
    Follows (if c then m else m') (if c then e else e') r := by
  by_cases hc : c
  · rw [if_pos hc, if_pos hc]; exact h hc
  · rw [if_neg hc, if_neg hc]; exact h' hc

theorem follows_true {m m' : M W α} {e : Experiment W β} {r : β → α} (h : Follows m e r) : Follows (if true = true then m else m') e r := h

theorem follows_orderingConsistency : Follows (orderingConsistency t is)
    (do reflexiveOrder t is; let w ← observe; perform (t.effect .lt .x .y); if t.lt w .x .y then less t .x .y else less t .y .x) fun _ => true :=
  follows_orderingOperators.bind fun _ => follows_look.bind fun w => (follows_act _).bind fun _ => follows_ite (fun _ => follows_comp _ _) fun _ => follows_comp _ _

theorem follows_prerequisites {m : M W Bool} {e : Experiment W Unit} (h : Follows m e fun _ => true) (order : Option Ordering) :
    Follows (prerequisites t is m order) (do e; ordered t is order) fun _ => true := by
  cases order with
  | none => exact h.eq (experiment_bind_unit e).symm
  | some o =>
    have key : Follows (prerequisites t is m (some o)) (e >>= fun _ => (demand fun _ => o ≠ .eq) >>= fun _ =>
        (do reflexiveOrder t is; let w ← observe; perform (t.effect .lt .x .y); if t.lt w .x .y then less t .x .y else less t .y .x) >>= fun _ =>
        if (o == .lt) = true then (do demand (t.lt · .x .y = true); perform (t.effect .lt .x .y)) else (do demand (t.gt · .x .y = true); perform (t.effect .gt .x .y))) fun _ => true :=
      h.bind fun _ => (follows_test fun w => by simp).bind fun _ => follows_orderingConsistency.bind fun _ =>
        follows_true (follows_ite (fun _ => follows_testing _ fun w => Iff.rfl) fun _ => follows_testing _ fun w => Iff.rfl)
    refine key.eq ?_
    simp only [ordered, experiment_assoc, beq_iff_eq]

theorem follows_postCopy (start : W) : Follows (postCopy is start) (do allocated is start .x .z fun i => i.pred.x.value; allocated is start .y .cy fun i => i.pred.copy.value) id :=
  (follows_allocated _ _ _ _).bind fun _ => follows_allocated _ _ _ _

theorem follows_copies (start : W) : Follows (checkCopy t is start) (copies t is start) fun _ => true := by
  have key : Follows (checkCopy t is start) (perform (t.copyConstruct .x .z) >>= fun _ => same t .z .x >>= fun _ => perform (t.copyConstruct .y .cy) >>= fun _ =>
      (do allocated is start .x .z fun i => i.pred.x.value; allocated is start .y .cy fun i => i.pred.copy.value) >>= fun _ => perform (t.destroy .cy)) fun _ => true :=
    (follows_act _).bind fun _ => (follows_equal _ _).bind fun _ => (follows_act _).bind fun _ => (follows_postCopy start).bind fun _ => (follows_act _).ret rfl
  refine key.eq ?_
  simp only [copies, experiment_assoc]

theorem follows_copyAssign : Follows (checkCopyAssign t is .z .y) (copyAssignment t is) fun _ => true := by
  refine follows_look.bind fun start => (follows_act _).bind fun _ => (follows_equal _ _).bind fun _ => Follows.bind (r := id) (follows_forAll (fun i => ?_) is) fun _ =>
    (follows_act _).bind fun _ => follows_equal _ _
  unfold checkCopyAssignAllocation
  by_cases h : i.copyProp = true
  · rw [if_pos h]
    refine (follows_allocation_two rfl).eq ?_
    simp only [id, h, if_true, convert, Prediction.make]
    have e : ∀ a b : Int, a + (b - a) = b := fun a b => by omega
    simp only [e]
  · rw [if_neg h]
    refine (follows_allocation_two rfl).eq ?_
    simp [id, h, Prediction.make]

theorem follows_moved (a : Var) (p : Option U) : Follows (movedFrom t a p) (moved t a p) fun _ => () := by
  cases p with
  | none => exact follows_pure _
  | some p => exact (follows_against _ _).ret rfl

theorem follows_moveConstruction (a : Var) {ex : Var → M W Bool} {e : Var → Experiment W Unit} (h : ∀ a, Follows (ex a) (e a) fun _ => true) (p : Option U) :
    Follows (checkMoveConstruction t is a ex p) (moveConstruction t is a e p) fun _ => true :=
  follows_look.bind fun start => (follows_act _).bind fun _ => (h _).bind fun _ => (follows_moved _ _).bind fun _ =>
    (follows_allocated _ _ _ _).bind fun _ => (follows_act _).bind fun _ => (follows_act _).ret rfl

theorem follows_mutationAllocations (mutate : Var → W → W) (a : Var) : Follows (checkMutationAllocation is mutate a) (mutationAllocations is mutate a) id :=
  follows_look.bind fun start => (follows_act _).bind fun _ => follows_allocated _ _ _ _

theorem follows_moveAssign (mutate : Var → W → W) (a b : Var) {ex : Var → M W Bool} {e : Var → Experiment W Unit} (h : ∀ a, Follows (ex a) (e a) fun _ => true) (p : Option U) :
    Follows (checkMoveAssign t is mutate a b ex p) (moveAssignment t is mutate a b e p) id := by
  refine follows_look.bind fun start => (follows_act _).bind fun _ => (h _).bind fun _ => (follows_moved _ _).bind fun _ =>
    Follows.bind (r := id) (follows_forAll (fun i => ?_) is) fun _ => follows_mutationAllocations _ _
  unfold checkMoveAssignAllocation
  by_cases hc : (i.equal start a b || i.moveProp) = true
  · have hc' : i.equal start a b = true ∨ i.moveProp = true := by simpa using hc
    simp only [id, if_pos hc, if_pos hc']
    exact follows_allocation _ _ _ _
  · have hc' : ¬ (i.equal start a b = true ∨ i.moveProp = true) := by simpa using hc
    simp only [id, if_neg hc, if_neg hc']
    exact follows_allocation _ _ _ _

theorem follows_postSwap (start : W) (a b : Var) : Follows (postSwap is start a b) (swapAllocations is start a b) id := by
  unfold postSwap swapAllocations
  have hd : doCheckSwap is = true ↔ ∀ i ∈ is, i.moveProp = true ∧ i.swapProp = true := by simp [doCheckSwap, List.all_eq_true]
  by_cases h : doCheckSwap is = true
  · rw [if_pos h]
    refine (follows_forAll (fun i => follows_allocation_two rfl) is).eq ?_
    funext w
    simp only [demand, hd.1 h, Prediction.make, Int.add_zero]
    have := hd.1 h
    simp only [eq_iff_iff, Prod.mk.injEq, true_and, and_true]
    exact ⟨fun h _ => h, fun h => h this⟩
  · rw [if_neg h]
    refine (follows_pure ()).eq ?_
    funext w
    show (w, True, ()) = (w, _, ())
    have : ¬ ∀ i ∈ is, i.moveProp = true ∧ i.swapProp = true := fun h' => h (hd.2 h')
    simp only [eq_iff_iff, Prod.mk.injEq, true_and, and_true, true_iff]
    exact fun h' => absurd h' this

theorem follows_swapping (a b : Var) {ma mb : Var → M W Bool} {ea eb : Var → Experiment W Unit} {action : W → M W Unit} {e : W → Experiment W Unit}
    (ha : ∀ a, Follows (ma a) (ea a) fun _ => true) (hb : ∀ a, Follows (mb a) (eb a) fun _ => true) (h : ∀ w, Follows (action w) (e w) fun _ => ()) :
    Follows (checkSwap t a b ma mb action) (swapping t a b ea eb e) fun _ => true :=
  follows_look.bind fun start => (follows_act _).bind fun _ => (ha _).bind fun _ => (hb _).bind fun _ => (h _).bind fun _ => (follows_act _).bind fun _ => ha _

theorem doSwap_iff : doSwap is = true ↔ Swaps is := by simp [doSwap, Swaps, List.all_eq_true]

theorem follows_swapCopies (mutate : Var → W → W) : Follows (checkSwapRegular t is mutate) (swapCopies t is mutate) fun _ => () := by
  unfold checkSwapRegular swapCopies
  by_cases h : doSwap is = true
  · rw [if_pos h, if_pos (doSwap_iff.1 h)]
    refine (follows_act _).bind fun _ => (follows_act _).bind fun _ => Follows.bind (r := fun _ => true) (follows_swapping _ _ (fun _ => follows_equal _ _) (fun _ => follows_equal _ _) fun start => ?_)
      fun _ => (follows_act _).bind fun _ => follows_act _
    refine (follows_postSwap _ _ _).bind fun _ => (follows_equal _ _).bind fun _ => (follows_act _).bind fun _ => Follows.bind (r := id) (follows_forAll (fun i => ?_) is) fun _ =>
      (follows_unequal _ _).ret rfl
    unfold checkMutationAfterSwapAllocation
    refine (follows_allocation_two rfl).eq ?_
    by_cases hs : i.swapProp = true <;> simp [hs, Prediction.make]
  · rw [if_neg h, if_neg fun h' => h (doSwap_iff.2 h')]
    exact follows_pure ()

theorem follows_mutation (mutate : Var → W → W) : Follows (checkMutation t mutate true) (mutation t mutate) id :=
  (follows_act _).bind fun _ => (follows_act _).bind fun _ => (follows_unequal _ _).bind fun _ => (follows_act _).bind fun _ => (follows_equal _ _).bind fun _ => (follows_act _).bind fun _ =>
    (follows_unequal _ _).bind fun _ => follows_act _

theorem follows_serialization : Follows (checkSerialization t is) (serialization t is t.stream) fun _ => () := by
  unfold checkSerialization
  cases t.stream with
  | none => exact follows_pure ()
  | some f =>
    exact (follows_act _).bind fun _ => follows_look.bind fun start => (follows_act _).bind fun _ => (follows_allocated start .y .y fun _ => .make 0).bind fun _ => (follows_act _).bind fun _ =>
      (follows_equal _ _).bind fun _ => follows_act _

theorem follows_checkMoved : Follows (checkMoved t is true) (do moveConstruction t is .z (same t · .y) none; perform (t.destroy .opt)) id :=
  (follows_moveConstruction _ (fun _ => follows_equal _ _) _).bind fun _ => follows_act _

theorem follows_semantics (order : Option Ordering) (mutate : Var → W → W) : Follows (semantics t is order mutate) (do
    let start ← observe
    equality t is
    ordered t is order
    copies t is start
    copyAssignment t is
    moveConstruction t is .z (same t · .y) none
    perform (t.destroy .opt)
    perform (t.copyConstruct .x .w)
    perform (t.copyConstruct .y .ty)
    moveAssignment t is mutate .w .ty (same t · .y) none
    perform (t.destroy .ty)
    swapCopies t is mutate
    mutation t mutate
    serialization t is t.stream
    perform (t.destroy .w)
    perform (t.destroy .z)) fun _ => true := by
  refine Follows.eq (m := semantics t is order mutate) (follows_sentry (r := id) (follows_look.bind fun start => (follows_prerequisites (t := t) (is := is) follows_equality order).bind fun _ => (follows_copies start).bind fun _ =>
    follows_copyAssign.bind fun _ => follows_checkMoved.bind fun _ => (follows_act (t.copyConstruct .x .w)).bind fun _ => (follows_act (t.copyConstruct .y .ty)).bind fun _ =>
    (follows_moveAssign mutate .w .ty (fun _ => follows_equal _ .y) none).bind fun _ => (follows_act (t.destroy .ty)).bind fun _ => (follows_swapCopies mutate).bind fun _ =>
    (follows_mutation mutate).bind fun _ => follows_serialization.bind fun _ => (follows_act (t.destroy .w)).bind fun _ => follows_act (t.destroy .z))) ?_
  simp only [experiment_assoc, id]

theorem follows_para (mutate : Var → W → W) : Follows (checkPara t is mutate) (do paraConstruction t is mutate; perform (t.destroy .pm); perform (t.destroy .po)) id := by
  have hs : ∀ (a : Var) (p : Info W U → Prediction), Follows (forAll is fun i => checkAllocation i a 0 (p i)) (demand fun w => ∀ i ∈ is, i.count w a = (p i).value) id := by
    intro a p
    refine (follows_forAll (fun i => follows_allocation i a 0 (p i)) is).eq ?_
    simp only [Int.zero_add]
  have key : Follows (checkPara t is mutate) _ id := (follows_act (t.paraCopy .y .pc)).bind fun _ => (follows_equal .pc .y).bind fun _ => (hs .pc fun i => i.pred.paraCopy).bind fun _ =>
    (follows_act (t.copyConstruct .pc .po)).bind fun _ => (follows_act (t.destroy .pc)).bind fun _ => (follows_act (t.paraMove .po .pm)).bind fun _ => (follows_equal .pm .y).bind fun _ =>
    (hs .pm fun i => i.pred.paraMove).bind fun _ => (follows_mutationAllocations mutate .pm).bind fun _ => (follows_act (t.destroy .pm)).bind fun _ => follows_act (t.destroy .po)
  refine key.eq ?_
  simp only [paraConstruction, experiment_assoc]

theorem meets_perform (e : Experiment W Unit) (f : W → W) (w : W) : Meets (do e; perform f) w ↔ Meets e w := by
  rw [meets_bind]
  exact and_iff_left trivial

theorem passes_regular (order : Option Ordering) (mutate : Var → W → W) (w : W) : Passes (regular t is order mutate) w ↔ Meets (regularExperiment t is order mutate) w := by
  have key : Follows (regular t is order mutate) _ id := (follows_semantics order mutate).bind fun _ => follows_para mutate
  rw [key.iff, ← meets_perform (regularExperiment t is order mutate) (t.destroy .pm), ← meets_perform (regularExperiment t is order mutate >>= fun _ => perform (t.destroy .pm)) (t.destroy .po)]
  simp only [regularExperiment, experiment_assoc]

theorem follows_paraMove (a b c : Var) (u : U) (p : Predictions → Prediction) : Follows (checkParaOne t is a b c u p) (paraMove t is a b c u fun i => (p i.pred).value) fun _ => true := by
  have hs : Follows (forAll is fun i => checkAllocation i b 0 (p i.pred)) (demand fun w => ∀ i ∈ is, i.count w b = (p i.pred).value) id := by
    refine (follows_forAll (fun i => follows_allocation i b 0 (p i.pred)) is).eq ?_
    simp only [Int.zero_add]
  exact (follows_against _ _).bind fun _ => (follows_act _).bind fun _ => hs.bind fun _ => (follows_against _ _).bind fun _ => (follows_act _).bind fun _ => (follows_against _ _).bind fun _ =>
    (follows_act _).ret rfl

theorem follows_swapAndAssign (mutate : Var → W → W) (xe ye : U) (p : Option U) : Follows (checkSwapAndAssign t is mutate xe ye p) (swapAndAssign t is mutate xe ye p) id := by
  unfold checkSwapAndAssign swapAndAssign
  by_cases h : doSwap is = true
  · rw [if_pos h, if_pos (doSwap_iff.1 h)]
    exact (follows_swapping _ _ (fun _ => follows_against _ _) (fun _ => follows_against _ _) fun start => follows_postSwap _ _ _).bind fun _ =>
      follows_moveAssign _ _ _ (fun _ => follows_against _ _) _
  · rw [if_neg h, if_neg fun h' => h (doSwap_iff.2 h')]
    exact follows_moveAssign _ _ _ (fun _ => follows_against _ _) _

theorem follows_serializationFrom (ye : U) : Follows (checkSerializationFrom t is ye) (serializationFrom t is ye t.streamFrom) fun _ => () := by
  unfold checkSerializationFrom
  cases t.streamFrom with
  | none => exact follows_pure ()
  | some f =>
    refine follows_look.bind fun start => (follows_act _).bind fun _ => Follows.bind (r := id) (follows_forAll (fun i => follows_test fun w => ?_) is) fun _ => (follows_act _).bind fun _ =>
      (follows_against _ _).ret rfl
    simp only [id, beq_iff_eq]
    omega

theorem passes_moveOnly (xe ye : U) (order : Option Ordering) (mc ma : Option U) (mutate : Var → W → W) (w : W) :
    Passes (moveOnly t is xe ye order mc ma mutate) w ↔ Meets (moveOnlyExperiment t is xe ye order mc ma mutate) w := by
  have key : Follows (moveOnly t is xe ye order mc ma mutate) _ id := (follows_paraMove .ux .vx .x xe Predictions.x).bind fun _ =>
    (follows_paraMove .uy .vy .y ye Predictions.paraMove).bind fun _ => (follows_prerequisites (follows_equalityWith xe ye) order).bind fun _ =>
    (follows_moveConstruction .x (fun _ => follows_against _ _) mc).bind fun _ => (follows_swapAndAssign mutate xe ye ma).bind fun _ =>
    (follows_serializationFrom ye).bind fun _ => follows_act (t.destroy .opt)
  rw [key.iff, ← meets_perform (moveOnlyExperiment t is xe ye order mc ma mutate) (t.destroy .opt)]
  simp only [moveOnlyExperiment, equalityWith, experiment_assoc]

end

end Verif.AllocationChecks
