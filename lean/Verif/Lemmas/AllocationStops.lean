import Verif.Lemmas.AllocationChecks
/- Lemmas about checks of allocations which stop early. -/
set_option linter.unusedSectionVars false

namespace Verif.AllocationChecks
open Verif.Semantics Verif.Spec.AllocationChecks
open Verif.Spec.Semantics (Passes)

section
variable {W U α β : Type} {t : AOps W U} {is : List (Info W U)}

/-- A check which returns `true` only if it has logged no failure. -/
def Honest (m : M W Bool) : Prop := ∀ w, (m w).2.2 = true → Passes m w

/-- A check which leaves everything as it is. -/
def Idle (m : M W α) : Prop := ∀ w, (m w).1 = w

theorem honest_sentry (m : M W α) : Honest (sentry m) := fun w h => by
  have h' : (m w).2.1.all id = true := h
  rw [List.all_eq_true] at h'
  exact h'

theorem honest_testing (b : W → Bool) (f : W → W) : Honest (testing b f) := fun w h => by
  intro c hc
  have h' : b w = true := h
  have hc' : c ∈ [b w] ++ ([] ++ []) := hc
  simp only [List.append_nil, List.mem_singleton] at hc'
  rw [hc', h']

theorem honest_test (b : W → Bool) : Honest (test b) := fun w h => by
  intro c hc
  simp only [test, List.mem_singleton] at hc h
  rw [hc, h]

theorem honest_bind {m : M W Bool} {k : Bool → M W Bool} (hm : Honest m) (h1 : Honest (k true)) (h0 : ∀ w, (k false w).2.2 = false) : Honest (m >>= k) := fun w h => by
  rw [passes_bind]
  have h' : (k (m w).2.2 (m w).1).2.2 = true := h
  cases hr : (m w).2.2 with
  | false => rw [hr, h0] at h'; cases h'
  | true => exact ⟨hm w hr, by rw [hr] at h'; exact h1 _ h'⟩

theorem honest_after {m : M W α} {k : α → M W Bool} (hm : ∀ w, Passes m w) (hk : ∀ a, Honest (k a)) : Honest (m >>= k) := fun w h => by
  rw [passes_bind]
  exact ⟨hm w, hk _ _ h⟩

theorem honest_equality : Honest (equalityPrerequisites t is) := by
  unfold equalityPrerequisites
  exact honest_bind (honest_sentry _) (honest_bind (honest_sentry _) (honest_testing _ _) fun _ => rfl) fun _ => rfl

theorem honest_equalityWith (xe ye : U) : Honest (equalityPrerequisitesWith t is xe ye) := by
  unfold equalityPrerequisitesWith
  refine honest_bind honest_equality ?_ fun _ => rfl
  refine honest_bind (honest_testing _ _) (honest_bind (honest_testing _ _) (fun w _ c hc => nomatch hc) fun _ => rfl) fun w => rfl

theorem honest_ordering : Honest (orderingConsistency t is) := by
  unfold orderingConsistency
  refine honest_bind (honest_sentry _) ?_ fun _ => rfl
  refine honest_after (fun w c hc => nomatch hc) fun w => honest_after (fun w c hc => nomatch hc) fun _ => ?_
  split <;> exact honest_sentry _

theorem honest_prerequisites {e : M W Bool} (he : Honest e) (order : Option Ordering) : Honest (prerequisites t is e order) := by
  cases order with
  | none => exact he
  | some o =>
    unfold prerequisites
    refine honest_bind he (honest_bind (honest_test _) (honest_bind honest_ordering ?_ fun _ => rfl) fun _ => rfl) fun _ => rfl
    cases o <;> exact honest_testing _ _

theorem idle_bind {m : M W α} {k : α → M W β} (hm : Idle m) (hk : ∀ a, Idle (k a)) : Idle (m >>= k) := fun w => by
  show (k (m w).2.2 (m w).1).1 = w
  rw [hk, hm]

theorem idle_sentry {m : M W α} (hm : Idle m) : Idle (sentry m) := hm

theorem idle_pure (a : α) : Idle (pure a : M W α) := fun _ => rfl

theorem idle_testing (b : W → Bool) {f : W → W} (hf : ∀ w, f w = w) : Idle (testing b f) := hf

theorem idle_ite {m m' : M W α} (b : Bool) (h : Idle m) (h' : Idle m') : Idle (if b = true then m else m') := by
  cases b
  · exact h'
  · exact h

theorem idle_forAll {f : Info W U → M W Bool} (h : ∀ i, Idle (f i)) (is : List (Info W U)) : Idle (forAll is f) := by
  induction is with
  | nil => exact idle_pure ()
  | cons i is ih => exact idle_bind (h i) fun _ => ih

variable (he : ∀ o a b w, t.effect o a b w = w)
include he

theorem idle_consistency (o : Operator) (b : W → Var → Bool) : Idle (consistency t is o b) := by
  have h (a) : Idle (consistent t is o b a) :=
    idle_bind (fun _ => rfl) fun start => idle_bind (idle_testing _ (he _ _ _)) fun r => idle_ite r (idle_sentry (idle_forAll (fun i _ => rfl) is)) (idle_pure _)
  exact idle_sentry (idle_bind (h .x) fun _ => h .y)

theorem idle_threeway {f : (W → Var → Var → Ordering) → M W Bool} (h : ∀ c, Idle (f c)) : Idle (threewayCheck t.toOps f) := by
  unfold threewayCheck
  cases t.threeway with
  | none => exact idle_pure _
  | some c => exact h c

theorem idle_equality : Idle (equalityPrerequisites t is) :=
  idle_bind (idle_consistency he _ _) fun _ => idle_bind (idle_consistency he _ _) fun _ => idle_ite _ (idle_testing _ (he _ _ _)) (idle_pure _)

theorem idle_equalityWith (ha : ∀ a u w, t.effectAgainst a u w = w) (xe ye : U) : Idle (equalityPrerequisitesWith t is xe ye) :=
  idle_bind (idle_equality he) fun _ => idle_ite _ (idle_bind (idle_testing _ (ha _ _)) fun _ => idle_bind (idle_testing _ (ha _ _)) fun _ => idle_pure _) (idle_pure _)

theorem idle_ordering : Idle (orderingConsistency t is) := by
  have hc (a b) : Idle (comp t a b) := idle_sentry (idle_bind (idle_testing _ (he _ _ _)) fun _ => idle_bind (idle_testing _ (he _ _ _)) fun _ =>
    idle_bind (idle_testing _ (he _ _ _)) fun _ => idle_threeway he fun c => idle_testing _ (he _ _ _))
  refine idle_bind (idle_sentry (idle_bind (idle_consistency he _ _) fun _ => idle_bind (idle_consistency he _ _) fun _ => idle_bind (idle_consistency he _ _) fun _ =>
    idle_bind (idle_consistency he _ _) fun _ => idle_threeway he fun c => idle_consistency he _ _)) fun r => idle_ite r ?_ (idle_pure _)
  exact idle_bind (fun _ => rfl) fun w => idle_bind (he _ _ _) fun _ => idle_ite _ (hc _ _) (hc _ _)

theorem idle_prerequisites {e : M W Bool} (h : Idle e) (order : Option Ordering) : Idle (prerequisites t is e order) := by
  cases order with
  | none => exact h
  | some o =>
    exact idle_bind h fun _ => idle_ite _ (idle_bind (fun _ => rfl) fun _ => idle_ite _ (idle_bind (idle_ordering he) fun _ => idle_ite _
      (idle_ite _ (idle_testing _ (he _ _ _)) (idle_testing _ (he _ _ _))) (idle_pure _)) (idle_pure _)) (idle_pure _)

end

end Verif.AllocationChecks
