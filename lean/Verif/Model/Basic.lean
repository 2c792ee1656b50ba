/-
Outcomes of calls, shared by all models.
-/
namespace Verif

/-- The outcome of evaluating an expression: a value, an exception, or undefined behaviour. -/
inductive Res (α : Type) where
  | ok (a : α)
  | throws
  | ub
  deriving DecidableEq, Repr

namespace Res

/-- Sequencing: an exception or undefined behaviour ends the evaluation. -/
def bind {α β : Type} : Res α → (α → Res β) → Res β
  | ok a, f => f a
  | throws, _ => throws
  | ub, _ => ub

instance : Monad Res where
  pure := ok
  bind := bind

@[simp] theorem ok_bind {α β : Type} (a : α) (f : α → Res β) : (ok a >>= f) = f a := rfl
@[simp] theorem throws_bind {α β : Type} (f : α → Res β) : ((throws : Res α) >>= f) = throws := rfl
@[simp] theorem ub_bind {α β : Type} (f : α → Res β) : ((ub : Res α) >>= f) = ub := rfl
@[simp] theorem pure_eq {α : Type} (a : α) : (pure a : Res α) = ok a := rfl

end Res

/-- The outcome of an operation on an object: it returns a value and leaves a state, it throws and leaves a state, or
its behaviour is undefined. -/
inductive Outcome (σ β : Type) where
  | ret (s : σ) (b : β)
  | threw (s : σ)
  | ub
  deriving DecidableEq, Repr

/-- A history of operations.  The result is the final state together with what each call showed to its caller: the
value returned, or `none` for an exception.  `none` overall means that some call had undefined behaviour. -/
def run {σ op β : Type} (step : σ → op → Outcome σ β) : σ → List op → Option (σ × List (Option β))
  | s, [] => some (s, [])
  | s, o :: os =>
    match step s o with
    | .ret s' b => (run step s' os).map fun r => (r.1, some b :: r.2)
    | .threw s' => (run step s' os).map fun r => (r.1, none :: r.2)
    | .ub => none

/-- Related outcomes: the same thing is shown to the caller and the states left are related. -/
def OutRel {σ τ β : Type} (R : σ → τ → Prop) : Outcome σ β → Outcome τ β → Prop
  | .ret s b, .ret t c => R s t ∧ b = c
  | .threw s, .threw t => R s t
  | .ub, .ub => True
  | _, _ => False

/-- Step-wise simulation lifts to histories. -/
theorem run_sim {σ τ op β : Type} {R : σ → τ → Prop} {f : σ → op → Outcome σ β} {g : τ → op → Outcome τ β}
    (h : ∀ s t o, R s t → OutRel R (f s o) (g t o)) (s : σ) (t : τ) (hst : R s t) (ops : List op) :
    (run f s ops = none ∧ run g t ops = none) ∨
    ∃ s' t' outs, run f s ops = some (s', outs) ∧ run g t ops = some (t', outs) ∧ R s' t' := by
  induction ops generalizing s t with
  | nil => exact .inr ⟨s, t, [], rfl, rfl, hst⟩
  | cons o os ih =>
    have ho := h s t o hst
    unfold run
    revert ho
    cases f s o <;> cases g t o <;> simp only [OutRel, false_imp_iff, true_imp_iff, and_imp]
    · intro hR hb
      subst hb
      rcases ih _ _ hR with ⟨h1, h2⟩ | ⟨s', t', outs, h1, h2, h3⟩
      · left; simp [h1, h2]
      · right; exact ⟨s', t', _ :: outs, by rw [h1]; rfl, by rw [h2]; rfl, h3⟩
    · intro hR
      rcases ih _ _ hR with ⟨h1, h2⟩ | ⟨s', t', outs, h1, h2, h3⟩
      · left; simp [h1, h2]
      · right; exact ⟨s', t', _ :: outs, by rw [h1]; rfl, by rw [h2]; rfl, h3⟩
    · left; trivial

end Verif

namespace Verif

/-- The outcome on the left refines the one on the right: whatever the right shows, the left shows too; if the right
is outside its contract nothing is claimed. -/
def OutRef {σ τ β : Type} (R : σ → τ → Prop) : Outcome σ β → Outcome τ β → Prop
  | .ret s b, .ret t c => R s t ∧ b = c
  | .threw s, .threw t => R s t
  | _, .ub => True
  | _, _ => False

/-- Step-wise refinement lifts to histories. -/
theorem run_ref {σ τ op β : Type} {R : σ → τ → Prop} {f : σ → op → Outcome σ β} {g : τ → op → Outcome τ β}
    (h : ∀ s t o, R s t → OutRef R (f s o) (g t o)) (s : σ) (t : τ) (hst : R s t) (ops : List op) (t' : τ)
    (outs : List (Option β)) (hg : run g t ops = some (t', outs)) :
    ∃ s', run f s ops = some (s', outs) ∧ R s' t' := by
  induction ops generalizing s t outs with
  | nil => simp [run] at hg; obtain ⟨rfl, rfl⟩ := hg; exact ⟨s, rfl, hst⟩
  | cons o os ih =>
    have ho := h s t o hst
    unfold run at hg ⊢
    revert ho hg
    cases f s o <;> cases g t o <;>
      simp only [OutRef, false_imp_iff, and_imp, implies_true, reduceCtorEq]
    · intro hR hb hg
      subst hb
      simp only [Option.map_eq_some_iff, Prod.mk.injEq] at hg
      obtain ⟨⟨a, b⟩, hr, ht, ho⟩ := hg
      obtain ⟨s', h1, h2⟩ := ih _ _ hR b (by rw [hr]; simp at ht; rw [ht])
      exact ⟨s', by rw [h1]; simp [← ho], h2⟩
    · intro hR hg
      simp only [Option.map_eq_some_iff, Prod.mk.injEq] at hg
      obtain ⟨⟨a, b⟩, hr, ht, ho⟩ := hg
      obtain ⟨s', h1, h2⟩ := ih _ _ hR b (by rw [hr]; simp at ht; rw [ht])
      exact ⟨s', by rw [h1]; simp [← ho], h2⟩

end Verif

namespace Verif

/-- Every call of a history satisfies `P` in the state in which it is made. -/
def Within {σ op β : Type} (step : σ → op → Outcome σ β) (P : σ → op → Prop) : σ → List op → Prop
  | _, [] => True
  | s, o :: os => P s o ∧ match step s o with
    | .ret s' _ => Within step P s' os
    | .threw s' => Within step P s' os
    | .ub => True

/-- An invariant which calls within `P` maintain, without undefined behaviour, holds after every history of such
calls. -/
theorem run_invariant {σ op β : Type} {step : σ → op → Outcome σ β} {P : σ → op → Prop} {Inv : σ → Prop}
    (h : ∀ s o, Inv s → P s o → (∃ s' b, step s o = .ret s' b ∧ Inv s') ∨ ∃ s', step s o = .threw s' ∧ Inv s')
    (s : σ) (hs : Inv s) (ops : List op) (hw : Within step P s ops) :
    ∃ s' outs, run step s ops = some (s', outs) ∧ Inv s' := by
  induction ops generalizing s with
  | nil => exact ⟨s, [], rfl, hs⟩
  | cons o os ih =>
    unfold Within at hw
    unfold run
    rcases h s o hs hw.1 with ⟨s', b, h1, h2⟩ | ⟨s', h1, h2⟩
    · rw [h1] at hw ⊢
      obtain ⟨t, outs, h3, h4⟩ := ih s' h2 hw.2
      exact ⟨t, some b :: outs, by simp only; rw [h3]; rfl, h4⟩
    · rw [h1] at hw ⊢
      obtain ⟨t, outs, h3, h4⟩ := ih s' h2 hw.2
      exact ⟨t, none :: outs, by simp only; rw [h3]; rfl, h4⟩

end Verif
