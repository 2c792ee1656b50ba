import Verif.Lemmas.Checkers
import Verif.Props.Logger
set_option linter.unusedSectionVars false
set_option linter.unusedVariables false
/-
C66: the checks of the test framework.
-/
namespace Verif.Props
open Verif.Logger Verif.LoggerSpec Verif.Checkers Verif.CheckersSpec

namespace Checkers
open Verif.CheckersLemmas

variable {C : Nat → Type} {E : Env C}

theorem proper (hn : Nested E) (φ : Flavour) (T : Ty) (x y : T.Val C) : Proper (check E φ T x y) := proper_ops (proper_all hn T) φ x y

theorem meaning (hh : Honest E) (hn : Nested E) (φ : Flavour) (T : Ty) (h : checkable E φ T = true) (x y : T.Val C) :
    (check E φ T x y).2 = true ↔ Means E φ T x y :=
  (sem_ops (proper_all hn T) (sem_all hh hn T) φ h x y).trans (pick_means φ T x y)

theorem failureCount_zero {b : List Event} : failureCount b = 0 ↔ failed b = false := by
  rw [failed_false_iff, ← Logger.failureCount_pos]
  omega

theorem same_refl : ∀ (T : Ty) (x : T.Val C), Same T x x
  | .cls _, _ => rfl
  | .str, _ => rfl
  | .range _ e, x => by
    simp only [Same]
    exact List.forall₂_same.mpr fun a _ => same_refl e a
  | .pair s t, x => ⟨same_refl s x.1, same_refl t x.2⟩
  | .tup n ts, x => fun i => same_refl (ts i) (x i)
  | .var n ts, ⟨i, x⟩ => ⟨i, x, x, rfl, rfl, same_refl (ts i) x⟩
  | .opt t, none => trivial
  | .opt t, some x => same_refl t x
  | .ptr t, none => trivial
  | .ptr t, some x => rfl
  | .smart t, none => trivial
  | .smart t, some x => rfl
  | .weak t, none => trivial
  | .weak t, some x => rfl
  | .fn, _ => rfl
  | .time _ _, _ => rfl

theorem best_refl : ∀ (T : Ty) (x : T.Val C), Best E T x x
  | .cls _, _ => rfl
  | .str, _ => rfl
  | .range _ e, x => by
    simp only [Best]
    exact List.forall₂_same.mpr fun a _ => best_refl e a
  | .pair s t, x => ⟨fun _ => same_refl (.pair s t) x, best_refl s x.1, best_refl t x.2⟩
  | .tup n ts, x => ⟨fun _ => same_refl (.tup n ts) x, fun i => best_refl (ts i) (x i)⟩
  | .var n ts, ⟨i, x⟩ => ⟨fun _ => same_refl (.var n ts) ⟨i, x⟩, i, x, x, rfl, rfl, best_refl (ts i) x⟩
  | .opt t, none => ⟨fun _ => trivial, trivial⟩
  | .opt t, some x => ⟨fun _ => same_refl (.opt t) (some x), best_refl t x⟩
  | .ptr t, none => trivial
  | .ptr t, some x => best_refl t x.2
  | .smart t, none => trivial
  | .smart t, some x => rfl
  | .weak t, none => trivial
  | .weak t, some x => rfl
  | .fn, _ => Iff.rfl
  | .time _ _, _ => rfl

theorem forall₂_zip {α β : Type} {R S : α → β → Prop} : ∀ {x : List α} {y : List β}, List.Forall₂ R x y → (∀ p ∈ x.zip y, R p.1 p.2 → S p.1 p.2) → List.Forall₂ S x y
  | _, _, .nil, _ => .nil
  | _, _, .cons h t, hp => .cons (hp (_, _) (by simp) h) (forall₂_zip t fun p hm => hp p (by simp [hm]))

theorem pointees {t : Ty} (x y : Option (Nat × t.Val C)) (h : SameAddress x y) (hc : ∀ p q, x = some p → y = some q → p.1 = q.1 → p.2 = q.2) :
    Pointees (Best E t) x y := by
  rcases x with _ | x <;> rcases y with _ | y
  · trivial
  · exact h
  · exact h
  · have := hc x y rfl rfl h
    show Best E t x.2 y.2
    rw [this]
    exact best_refl t y.2

theorem same_best : ∀ (T : Ty) (x y : T.Val C), Coherent T x y → Same T x y → Best E T x y
  | .cls _, _, _, _, h => h
  | .str, _, _, _, h => h
  | .range _ e, x, y, hc, h => forall₂_zip h fun p hp => same_best e p.1 p.2 (hc p hp)
  | .pair s t, x, y, hc, h => ⟨fun _ => h, same_best s _ _ hc.1 h.1, same_best t _ _ hc.2 h.2⟩
  | .tup n ts, x, y, hc, h => ⟨fun _ => h, fun i => same_best (ts i) _ _ (hc i) (h i)⟩
  | .var n ts, x, y, hc, ⟨i, a, b, hx, hy, h⟩ => ⟨fun _ => ⟨i, a, b, hx, hy, h⟩, i, a, b, hx, hy, same_best (ts i) a b (hc i a b hx hy) h⟩
  | .opt t, none, none, hc, h => ⟨fun _ => h, trivial⟩
  | .opt t, some x, some y, hc, h => ⟨fun _ => h, same_best t x y (hc x y rfl rfl) h⟩
  | .opt t, none, some y, hc, h => False.elim h
  | .opt t, some x, none, hc, h => False.elim h
  | .ptr t, x, y, hc, h => pointees x y h hc
  | .smart t, x, y, hc, h => h
  | .weak t, x, y, hc, h => h
  | .fn, x, y, _, h => by rw [show x = y from h]; exact Iff.rfl
  | .time _ _, _, _, _, h => h

theorem same_alike : ∀ (T : Ty) (x y : T.Val C), Coherent T x y → Same T x y → Alike E T x y
  | .cls _, _, _, _, h => h
  | .str, _, _, _, h => h
  | .range _ e, x, y, hc, h => forall₂_zip h fun p hp => same_alike e p.1 p.2 (hc p hp)
  | .pair s t, x, y, hc, h => ⟨same_alike s _ _ hc.1 h.1, same_alike t _ _ hc.2 h.2⟩
  | .tup n ts, x, y, hc, h => fun i => same_alike (ts i) _ _ (hc i) (h i)
  | .var n ts, x, y, hc, ⟨i, a, b, hx, hy, h⟩ => ⟨i, a, b, hx, hy, same_alike (ts i) a b (hc i a b hx hy) h⟩
  | .opt t, none, none, hc, h => trivial
  | .opt t, some x, some y, hc, h => same_alike t x y (hc x y rfl rfl) h
  | .opt t, none, some y, hc, h => False.elim h
  | .opt t, some x, none, hc, h => False.elim h
  | .ptr t, x, y, hc, h => pointees x y h hc
  | .smart t, x, y, hc, h => pointees x y h hc
  | .weak t, x, y, hc, h => pointees x y h hc
  | .fn, x, y, _, h => by rw [show x = y from h]; exact Iff.rfl
  | .time _ _, _, _, _, h => h

theorem best_same : ∀ (T : Ty) (x y : T.Val C), NoRawPointers T → Best E T x y → Same T x y
  | .cls _, _, _, _, h => h
  | .str, _, _, _, h => h
  | .range _ e, x, y, hc, h => forall₂_zip h fun p hp => best_same e p.1 p.2 hc
  | .pair s t, x, y, hc, h => ⟨best_same s _ _ hc.1 h.2.1, best_same t _ _ hc.2 h.2.2⟩
  | .tup n ts, x, y, hc, h => fun i => best_same (ts i) _ _ (hc i) (h.2 i)
  | .var n ts, x, y, hc, ⟨_, i, a, b, hx, hy, h⟩ => ⟨i, a, b, hx, hy, best_same (ts i) a b (hc i) h⟩
  | .opt t, none, none, hc, h => trivial
  | .opt t, some x, some y, hc, h => best_same t x y hc h.2
  | .opt t, none, some y, hc, h => False.elim h.2
  | .opt t, some x, none, hc, h => False.elim h.2
  | .smart t, x, y, hc, h => h
  | .weak t, x, y, hc, h => h
  | .time _ _, _, _, _, h => h

/-! An environment for the examples: all classes are natural numbers with the usual comparison. -/

open Classical in
noncomputable def plain : Env fun _ => Nat where
  comparable _ := true
  eq _ x y := decide (x = y)
  reportable _ := true
  tester _ _ := none
  rangeComparable _ := true
  rangeEq _ e x y := decide (List.Forall₂ (Same e) x y)

theorem plain_honest : Honest plain where
  eq n _ x y := by simp [plain]
  tester n φ t h := by simp [plain] at h
  range n e _ _ x y := by simp [plain]

theorem plain_nested : Nested plain := fun n φ t h => by simp [plain] at h

end Checkers

open Checkers Verif.CheckersLemmas

variable {C : Nat → Type}

/-- **C66** Whatever the operators and testers of users do, as long as the latter nest sentinels properly: a check made on its own counts as one top-level check, and it returns `true`
if and only if no failure was logged meanwhile; in the standard mode the check counts as failed if and only if it returned `false`, unless something critical happened. -/
theorem C66_logged (E : Env C) (hn : Nested E) (φ : Flavour) (T : Ty) (x y : T.Val C) (mode : Mode) (r : Results) :
    ∃ r', runEvents mode ⟨r, []⟩ (check E φ T x y).1 = .ok ⟨r', []⟩ ∧
      r'.topLevelChecks = r.topLevelChecks + 1 ∧
      ((check E φ T x y).2 = true ↔ r'.failures = r.failures) ∧
      (mode = .standard → .critical ∉ (check E φ T x y).1 → r'.topLevelFailures = r.topLevelFailures + if (check E φ T x y).2 then 0 else 1) := by
  obtain ⟨b, hb, e⟩ := proper hn φ T x y
  rw [e]
  obtain ⟨r', h, c⟩ := Logger.run_block mode r hb []
  refine ⟨r', by simpa [guarded, runEvents] using h, c.topLevelChecks, ?_, ?_⟩
  · rw [guarded_passes, c.failures, ← failureCount_zero]
    omega
  · rintro rfl hc
    rw [c.topLevelFailures]
    have hnc : ¬ Critical b := fun h => hc (by simp only [guarded]; exact List.mem_cons_of_mem _ (List.mem_append_left _ h))
    have : Failed .standard b ↔ SomethingFailed b := by simp [Failed, hnc]
    by_cases hs : SomethingFailed b
    · rw [if_pos (this.mpr hs)]
      have := failed_iff.mpr hs
      simp [guarded, this]
    · rw [if_neg (fun h => hs (this.mp h))]
      have := failed_false_iff.mpr hs
      simp [guarded, this]

/-- **C66** Likewise a check made within another one returns `true` if and only if no failure was logged meanwhile, and leaves the enclosing checks as they were. -/
theorem C66_detected (E : Env C) (hn : Nested E) (φ : Flavour) (T : Ty) (x y : T.Val C) (mode : Mode) (r : Results) (t : Sentinel) (ts : List Sentinel) :
    ∃ r', runEvents mode ⟨r, t :: ts⟩ (check E φ T x y).1 = .ok ⟨r', t :: ts⟩ ∧ r'.topLevelChecks = r.topLevelChecks ∧ r'.topLevelFailures = r.topLevelFailures ∧
      ((check E φ T x y).2 = true ↔ r'.failures = r.failures) := by
  have hp := proper hn φ T x y
  have h := Logger.run_body mode hp.balanced r t ts []
  rw [List.append_nil] at h
  have c := Logger.leafs_counts mode (check E φ T x y).1 r
  refine ⟨_, h, c.topLevelChecks, c.topLevelFailures, ?_⟩
  rw [c.failures, ← hp.passes, ← failureCount_zero]
  omega

/-- **C66** If the operators and testers tell the truth, then a check passes if and only if the values are related as this kind of check is meant to establish. -/
theorem C66_meaning (E : Env C) (hh : Honest E) (hn : Nested E) (φ : Flavour) (T : Ty) (h : checkable E φ T = true) (x y : T.Val C) :
    (check E φ T x y).2 = true ↔ Means E φ T x y := meaning hh hn φ T h x y

/-- **C66** If moreover no pointers and no functions are involved, then a check of any kind passes if and only if the values are equal. -/
theorem C66_equality (E : Env C) (hh : Honest E) (hn : Nested E) (φ : Flavour) (T : Ty) (hp : PointerFree T) (h : checkable E φ T = true) (x y : T.Val C) :
    (check E φ T x y).2 = true ↔ x = y := by
  rw [meaning hh hn φ T h]
  cases φ
  · exact same_eq T hp x y
  · exact same_eq T hp x y
  · exact alike_eq T hp x y
  · exact alike_eq T hp x y
  · exact best_eq T hp x y
  · exact best_eq T hp x y

/-- **C66** A range passes only if it has as many elements as predicted and each of them passes, whatever the `operator==` of the range says; for equality, this must also say that the
ranges are equal.  For minimal reporting see `C66_minimal_violated`. -/
theorem C66_elements (E : Env C) (hn : Nested E) (φ : Flavour) (hφ : φ ≠ .minimal) (n : Nat) (e : Ty) (h : checkable E φ e = true) (x y : List (e.Val C)) :
    (check E φ (.range n e) x y).2 = true ↔
      (x.length = y.length ∧ ∀ (i : Nat) (a b : e.Val C), x[i]? = some a → y[i]? = some b → (check E φ e a b).2 = true) ∧
        (φ = .equality → HasEq E (.range n e) → E.rangeEq n e x y = true) ∧ (φ = .simple → E.rangeEq n e x y = true) := by
  have hs : supports (ops E e) φ = true := by
    simp only [checkable, instantiable, Bool.and_eq_true] at h
    exact h.1
  have hr : (ops E (.range n e)).range φ = some fun (x y : List (e.Val C)) => checkRange (checkOps (ops E e) φ) x y := if_pos hs
  have hp := range_passes (R := fun a b => (check E φ e a b).2 = true) (chk := checkOps (ops E e) φ) (fun _ _ => Iff.rfl) x y
  have hpr := proper_range (proper_ops (proper_all hn e) φ) x y
  have hF : List.Forall₂ (fun a b => (check E φ e a b).2 = true) x y ↔ x.length = y.length ∧ ∀ (i : Nat) (a b : e.Val C), x[i]? = some a → y[i]? = some b → (check E φ e a b).2 = true := by
    rw [List.forall₂_iff_get]
    refine and_congr_right fun hl => ⟨fun g i a b ha hb => ?_, fun g i h1 h2 => ?_⟩
    · obtain ⟨h1, rfl⟩ := List.getElem?_eq_some_iff.mp ha
      obtain ⟨h2, rfl⟩ := List.getElem?_eq_some_iff.mp hb
      exact g i h1 h2
    · exact g i _ _ (List.getElem?_eq_getElem h1) (List.getElem?_eq_getElem h2)
  rw [← hF, ← hp]
  cases φ
  · show (checkEquality (ops E (.range n e)) x y).2 = true ↔ _
    simp only [checkEquality, guarded_passes, failed_append, Bool.or_eq_false_iff, failed_cond, detail]
    rw [hr]
    rw [show (ops E (.range n e)).tester .equality = none from rfl]
    simp only [hpr.passes, comparable_iff, true_implies, reduceCtorEq, false_implies, and_true]
    exact and_comm
  · show (checkSimple (ops E (.range n e)) x y).2 = true ↔ _
    simp only [checkSimple, guarded_passes, failed_append, Bool.or_eq_false_iff, failed_binary]
    rw [hr]
    simp only [hpr.passes, true_implies, reduceCtorEq, false_implies, true_and, Bool.not_eq_false']
    exact and_comm
  · show (checkEquivalence (ops E (.range n e)) x y).2 = true ↔ _
    simp only [checkEquivalence]
    rw [hr, show (ops E (.range n e)).tester .equivalence = none from rfl]
    simp
  · show (checkWeak (ops E (.range n e)) x y).2 = true ↔ _
    simp only [checkWeak]
    rw [hr, show (ops E (.range n e)).tester .weak = none from rfl]
    simp
  · show (checkBest (ops E (.range n e)) x y).2 = true ↔ _
    simp only [checkBest]
    rw [hr, show (ops E (.range n e)).tester .best = none from rfl, show (ops E (.range n e)).tester .equality = none from rfl,
      show (ops E (.range n e)).tester .equivalence = none from rfl, show (ops E (.range n e)).tester .weak = none from rfl]
    simp
  · exact absurd rfl hφ

/-- **C66** Ranges of different sizes fail without their elements being looked at: of these the outcome of a check of equivalence is independent. -/
theorem C66_sizes (E : Env C) (φ : Flavour) (hφ : φ = .equivalence ∨ φ = .weak ∨ φ = .best) (n : Nat) (e : Ty) (h : checkable E φ e = true) (x y : List (e.Val C))
    (hl : x.length ≠ y.length) : check E φ (.range n e) x y = ([.enter, .enter, .check, .failure, .leave, .leave], false) := by
  have hs : supports (ops E e) φ = true := by
    simp only [checkable, instantiable, Bool.and_eq_true] at h
    exact h.1
  have hr : (ops E (.range n e)).range φ = some fun (x y : List (e.Val C)) => checkRange (checkOps (ops E e) φ) x y := if_pos hs
  have hc : checkRange (checkOps (ops E e) φ) x y = ([.enter, .enter, .check, .failure, .leave, .leave], false) := by
    simp [checkRange, checkScalar, guarded, binary, failed, hl]
  rcases hφ with rfl | rfl | rfl
  · show checkEquivalence (ops E (.range n e)) x y = _
    simp only [checkEquivalence]
    rw [hr, show (ops E (.range n e)).tester .equivalence = none from rfl]
    exact hc
  · show checkWeak (ops E (.range n e)) x y = _
    simp only [checkWeak]
    rw [hr, show (ops E (.range n e)).tester .weak = none from rfl]
    exact hc
  · show checkBest (ops E (.range n e)) x y = _
    simp only [checkBest]
    rw [hr, show (ops E (.range n e)).tester .best = none from rfl, show (ops E (.range n e)).tester .equality = none from rfl,
      show (ops E (.range n e)).tester .equivalence = none from rfl, show (ops E (.range n e)).tester .weak = none from rfl]
    exact hc

/-- **C66** What passes a check of equality passes every other check there is, provided that pointers with the same address point to the same thing. -/
theorem C66_weaker (E : Env C) (hh : Honest E) (hn : Nested E) (φ : Flavour) (T : Ty) (hq : checkable E .equality T = true) (h : checkable E φ T = true) (x y : T.Val C)
    (hc : Coherent T x y) (hp : (check E .equality T x y).2 = true) : (check E φ T x y).2 = true := by
  rw [meaning hh hn _ T hq] at hp
  rw [meaning hh hn _ T h]
  cases φ
  · exact hp
  · exact hp
  · exact same_alike T x y hc hp
  · exact same_alike T x y hc hp
  · exact same_best T x y hc hp
  · exact same_best T x y hc hp

/-- **C66 (part)** The best available check is at least as strong as that of equality, if this is available.  What is missing: types with ordinary pointers, see
`C66_strongest_violated`; for functions there is no check of equality. -/
theorem C66_strongest_partial (E : Env C) (hh : Honest E) (hn : Nested E) (T : Ty) (hr : NoRawPointers T) (hb : checkable E .best T = true)
    (hq : checkable E .equality T = true) (x y : T.Val C) (hp : (check E .best T x y).2 = true) : (check E .equality T x y).2 = true := by
  rw [meaning hh hn _ T hb] at hp
  rw [meaning hh hn _ T hq]
  exact best_same T x y hr hp

/-- **C66 (violated)** For ordinary pointers `with_best_available` is not the strongest check: two pointers to equal objects pass, whereas the check of equality, which is available,
fails; smart pointers, which hold the very same addresses, fail. -/
theorem C66_strongest_violated (E : Env C) (hh : Honest E) (hn : Nested E) (t : Ty) (h : checkable E .best t = true) (v : t.Val C) (a b : Nat) (hab : a ≠ b) :
    (check E .best (.ptr t) (some (a, v)) (some (b, v))).2 = true ∧
      checkable E .equality (.ptr t) = true ∧ (check E .equality (.ptr t) (some (a, v)) (some (b, v))).2 = false ∧
      (check E .best (.smart t) (some (a, v)) (some (b, v))).2 = false := by
  have hb : checkable E .best (.ptr t) = true := h
  have hq : checkable E .equality (.ptr t) = true := rfl
  have hs : checkable E .best (.smart t) = true := by
    have h1 : supportsEquality (ops E (.smart t)) = true := by
      simp only [supportsEquality, Bool.or_eq_true]
      exact Or.inl (Or.inr rfl)
    have h2 : supportsBest (ops E (.smart t)) = true := by simp [supportsBest, h1]
    have h3 : bestOk (ops E (.smart t)) = true := rfl
    simp only [checkable, instantiable, supports, wellFormed, h2, h3, Bool.and_true]
  refine ⟨(meaning hh hn _ _ hb _ _).mpr (best_refl t v), hq, ?_, ?_⟩
  · exact Bool.eq_false_iff.mpr fun hc => hab ((meaning hh hn _ _ hq _ _).mp hc)
  · exact Bool.eq_false_iff.mpr fun hc => hab ((meaning hh hn _ _ hs _ _).mp hc)

/-- **C66 (part)** For classes, strings and ranges, if the constraints of a check are satisfied, then its body is well-formed; in particular the best available check does not end in
`static_assert(false)`.  What is missing: simple equality, and pairs, tuples, variants, optionals and pointers, see `C66_constraints_violated`; and minimal
reporting, see `C66_minimal_violated`. -/
theorem C66_constraints_partial (E : Env C) (φ : Flavour) (hφ : φ ≠ .simple ∧ φ ≠ .minimal) : ∀ T : Ty, Ranges T → supports (ops E T) φ = true → wellFormed (ops E T) φ = true := by
  have key : ∀ T : Ty, Ranges T → ∀ φ : Flavour, φ ≠ .simple ∧ φ ≠ .minimal → supports (ops E T) φ = true → wellFormed (ops E T) φ = true := by
    intro T
    induction T with
    | cls n =>
      intro _ φ hφ hs
      have hr : ∀ φ, (ops E (.cls n)).range φ = none := fun _ => rfl
      have hb : ∀ φ, (ops E (.cls n)).bodyOk φ = true := fun _ => rfl
      generalize ops E (.cls n) = o at hs hr hb ⊢
      obtain ⟨c, q, p, i, t, r, k⟩ := o
      dsimp only at hr hb
      obtain rfl : r = fun _ => none := funext hr
      obtain rfl : k = fun _ => true := funext hb
      cases φ <;> simp only [supports, supportsEquality, supportsEquivalence, supportsWeak, supportsBest, supportsSimple, wellFormed, equalityOk, simpleOk, equivalenceOk, weakOk, bestOk] at *
        <;> revert hs
        <;> generalize (t .equality).isSome = e1 <;> generalize (t .equivalence).isSome = e2 <;> generalize (t .weak).isSome = e3 <;> generalize (t .best).isSome = e4
        <;> revert c p i e1 e2 e3 e4 <;> (try simp only [Option.isSome_none, Bool.false_eq_true, if_false]) <;> first | decide | exact absurd rfl hφ.1 | exact absurd rfl hφ.2
    | str => intro _ φ hφ _; cases φ <;> rfl
    | range n e ih =>
      intro hR φ hφ hs
      have ih' : ∀ φ, φ ≠ .simple ∧ φ ≠ .minimal → ((ops E (.range n e)).range φ).isSome = true → (ops E (.range n e)).bodyOk φ = true := by
        intro φ hφ h
        refine ih hR φ hφ ?_
        cases hq : supports (ops E e) φ with
        | true => rfl
        | false =>
          have : (ops E (.range n e)).range φ = none := if_neg (by rw [hq]; decide)
          rw [this] at h
          cases h
      have hsb : ((ops E (.range n e)).range .simple).isSome = true → ((ops E (.range n e)).range .best).isSome = true := by
        intro h
        have hq : supports (ops E e) .simple = true := by
          cases hq : supports (ops E e) .simple with
          | true => rfl
          | false =>
            have : (ops E (.range n e)).range .simple = none := if_neg (by rw [hq]; decide)
            rw [this] at h
            cases h
        have hb : supports (ops E e) .best = true := by
          simp only [supports] at hq ⊢
          simp [supportsBest, hq]
        have : (ops E (.range n e)).range .best = some _ := if_pos hb
        rw [this]
        rfl
      have hwb : ∀ φ, φ ≠ .minimal → ((ops E (.range n e)).range φ).isSome = true → ((ops E (.range n e)).range .best).isSome = true := by
        intro φ hm h
        have hq : supports (ops E e) φ = true := by
          cases hq : supports (ops E e) φ with
          | true => rfl
          | false =>
            have : (ops E (.range n e)).range φ = none := if_neg (by rw [hq]; decide)
            rw [this] at h
            cases h
        have hb : supports (ops E e) .best = true := by
          cases φ <;> simp only [supports] at hq ⊢ <;> first | exact hq | exact absurd rfl hm | simp [supportsBest, hq]
        have : (ops E (.range n e)).range .best = some _ := if_pos hb
        rw [this]
        rfl
      have ht : ∀ φ, (ops E (.range n e)).tester φ = none := fun _ => rfl
      have hi : (ops E (.range n e)).isRange = true := rfl
      have g1 := ih' .equality (by decide)
      have g2 := ih' .equivalence (by decide)
      have g3 := ih' .weak (by decide)
      have g4 := ih' .best (by decide)
      have w1 := hwb .equality (by decide)
      have w2 := hwb .equivalence (by decide)
      have w3 := hwb .weak (by decide)
      clear ih ih' hwb
      generalize ops E (.range n e) = o at *
      obtain ⟨c, q, p, i, t, r, k⟩ := o
      dsimp only at *
      obtain rfl : t = fun _ => none := funext ht
      subst hi
      cases φ <;> simp only [supports, supportsEquality, supportsEquivalence, supportsWeak, supportsBest, supportsSimple, wellFormed, equalityOk, simpleOk, equivalenceOk, weakOk, bestOk] at *
        <;> revert hs g1 g2 g3 g4 w1 w2 w3 hsb
        <;> generalize (r .equality).isSome = e1 <;> generalize (r .equivalence).isSome = e2 <;> generalize (r .weak).isSome = e3 <;> generalize (r .best).isSome = e4
        <;> generalize (r .simple).isSome = e5 <;> generalize k .equality = k1 <;> generalize k .equivalence = k2 <;> generalize k .weak = k3 <;> generalize k .best = k4
        <;> generalize k .simple = k5
        <;> revert c p e1 e2 e3 e4 e5 k1 k2 k3 k4 k5 <;> (try simp only [Option.isSome_none, Bool.false_eq_true, if_false]) <;> first | exact absurd rfl hφ.1 | exact absurd rfl hφ.2 | decide | (intro c p e1 e2 e3 e4; cases e4 <;> cases c <;> cases p <;> simp <;> intros <;> simp_all)
    | pair _ _ _ _ => intro h; exact False.elim h
    | tup _ _ _ => intro h; exact False.elim h
    | var _ _ _ => intro h; exact False.elim h
    | opt _ _ => intro h; exact False.elim h
    | ptr _ _ => intro h; exact False.elim h
    | smart _ _ => intro h; exact False.elim h
    | weak _ _ => intro h; exact False.elim h
    | fn => intro h; exact False.elim h
    | time _ _ => intro h; exact False.elim h
  exact fun T hR => key T hR φ hφ

/-- **C66 (violated)** The constraints of a check may be satisfied although its body is ill-formed, so that a compilation error arises where the check should have been unavailable: for
pairs, optionals and pointers if there is no check of what they hold, and for the simple equality of a range without `operator==` whose elements have one. -/
theorem C66_constraints_violated :
    (∀ (E : Env C) (n : Nat), E.comparable n = false → (∀ φ, E.tester n φ = none) →
      supports (ops E (.cls n)) .equality = false ∧
      (∀ φ, φ ≠ .simple → supports (ops E (.pair (.cls n) .str)) φ = true ∧ wellFormed (ops E (.pair (.cls n) .str)) φ = false) ∧
      (∀ φ, φ ≠ .simple → supports (ops E (.opt (.cls n))) φ = true ∧ wellFormed (ops E (.opt (.cls n))) φ = false) ∧
      supports (ops E (.ptr (.cls n))) .equivalence = true ∧ wellFormed (ops E (.ptr (.cls n))) .equivalence = false) ∧
    (∀ (E : Env C) (m : Nat), E.rangeComparable m = false →
      supports (ops E (.range m .str)) .simple = true ∧ wellFormed (ops E (.range m .str)) .simple = false) := by
  constructor
  · intro E n hc ht
    have h0 : ∀ φ, supports (ops E (.cls n)) φ = false := by
      intro φ
      have hr : ∀ φ, (ops E (.cls n)).range φ = none := fun _ => rfl
      have hcc : (ops E (.cls n)).comparable = false := hc
      have htt : ∀ φ, (ops E (.cls n)).tester φ = none := ht
      cases φ <;> simp [supports, supportsEquality, supportsSimple, supportsEquivalence, supportsWeak, supportsBest, supportsMinimal, hr, hcc, htt]
    have hi : ∀ φ, instantiable (ops E (.cls n)) φ = false := fun φ => by simp [instantiable, h0]
    have hpair : ∀ φ, ((ops E (.pair (.cls n) .str)).tester φ).isSome = true := fun _ => rfl
    have hopt : ∀ φ, ((ops E (.opt (.cls n))).tester φ).isSome = true := fun _ => rfl
    have hbp : ∀ φ, (ops E (.pair (.cls n) .str)).bodyOk φ = false := fun φ => by
      show (instantiable (ops E (.cls n)) φ && _) = false
      rw [hi]; rfl
    have hbo : ∀ φ, (ops E (.opt (.cls n))).bodyOk φ = false := hi
    refine ⟨h0 _, ?_, ?_, ?_, ?_⟩
    · intro φ hφ
      generalize ops E (.pair (.cls n) .str) = o at hpair hbp
      cases φ <;> first | exact absurd rfl hφ |
        simp [supports, supportsEquality, supportsSimple, supportsEquivalence, supportsWeak, supportsBest, supportsMinimal, wellFormed, equalityOk, equivalenceOk, weakOk, bestOk, minimalOk, hpair, hbp]
    · intro φ hφ
      generalize ops E (.opt (.cls n)) = o at hopt hbo
      cases φ <;> first | exact absurd rfl hφ |
        simp [supports, supportsEquality, supportsSimple, supportsEquivalence, supportsWeak, supportsBest, supportsMinimal, wellFormed, equalityOk, equivalenceOk, weakOk, bestOk, minimalOk, hopt, hbo]
    · rfl
    · exact hi .best
  · intro E m hm
    have hc : (ops E (.range m .str)).comparable = false := by simp [ops, hm]
    constructor
    · simp only [supports, supportsSimple, hc, Bool.false_and, Bool.false_or]
      rfl
    · simp [wellFormed, simpleOk, hc]

/-- **C66 (violated)** Where minimal reporting is permitted, a class with an `operator==` may be checked even if its values cannot be reported; but the constraints are satisfied, too,
for ranges of such a class and for pairs, though not for the checks of the elements, which are those without minimal reporting: there is an error of compilation, although the operators
would do. -/
theorem C66_minimal_violated (E : Env C) (n m : Nat) (hc : E.comparable n = true) (hr : E.reportable (.cls n) = false) (ht : ∀ φ, E.tester n φ = none) :
    checkable E .minimal (.cls n) = true ∧ (∀ x y, (check E .minimal (.cls n) x y).2 = E.eq n x y) ∧
      (supports (ops E (.range m (.cls n))) .minimal = true ∧ wellFormed (ops E (.range m (.cls n))) .minimal = false) ∧
      (∀ t, supports (ops E (.pair (.cls n) t)) .minimal = true ∧ wellFormed (ops E (.pair (.cls n) t)) .minimal = false) := by
  have hcc : (ops E (.cls n)).comparable = true := hc
  have hrr : (ops E (.cls n)).reportable = false := hr
  have htt : ∀ φ, (ops E (.cls n)).tester φ = none := ht
  have hg : ∀ φ, (ops E (.cls n)).range φ = none := fun _ => rfl
  have hm : supports (ops E (.cls n)) .minimal = true := by simp [supports, supportsMinimal, hcc]
  have hb : supports (ops E (.cls n)) .best = false := by
    simp [supports, supportsBest, supportsEquality, supportsSimple, supportsEquivalence, supportsWeak, hrr, htt, hg]
  refine ⟨?_, fun x y => ?_, ⟨?_, ?_⟩, fun t => ⟨?_, ?_⟩⟩
  · simp [checkable, instantiable, hm, wellFormed, minimalOk, htt, hg, hrr, hcc]
  · show (checkMinimal (ops E (.cls n)) x y).2 = _
    rw [Bool.eq_iff_iff, ← scalar_passes (E.eq n x y) true]
    simp only [checkMinimal, htt, hg, hrr, Option.isSome_none, Bool.and_false, Bool.false_eq_true, if_false]
    exact Iff.rfl
  · have : ((ops E (.range m (.cls n))).range .minimal).isSome = true := by
      rw [show (ops E (.range m (.cls n))).range .minimal = some _ from if_pos hm]
      rfl
    simp [supports, supportsMinimal, this]
  · have h1 : ((ops E (.range m (.cls n))).range .minimal).isSome = true := by
      rw [show (ops E (.range m (.cls n))).range .minimal = some _ from if_pos hm]
      rfl
    have h2 : (ops E (.range m (.cls n))).range .best = none := if_neg (by rw [hb]; decide)
    have h3 : ∀ φ, (ops E (.range m (.cls n))).tester φ = none := fun _ => rfl
    simp [wellFormed, minimalOk, h1, h2, h3]
  · have : ((ops E (.pair (.cls n) t)).tester .minimal).isSome = true := rfl
    simp [supports, supportsMinimal, this]
  · have h1 : ((ops E (.pair (.cls n) t)).tester .minimal).isSome = true := rfl
    have h2 : (ops E (.pair (.cls n) t)).bodyOk .best = false := by
      show (instantiable (ops E (.cls n)) .best && _) = false
      simp [instantiable, hb]
    simp [wellFormed, minimalOk, h1, h2]

/-- **C66** The check of a `std::any` against a value passes if and only if it holds a value of the same type, which passes the best available check. -/
theorem C66_any (E : Env C) (hh : Honest E) (hn : Nested E) (T : Ty) (h : checkable E .best T = true) (x : Held (T.Val C)) (y : T.Val C) :
    ((checkAny E T x y).2 = true ↔ ∃ a, x = .value a ∧ Best E T a y) ∧ (SomethingFailed (checkAny E T x y).1 ↔ (checkAny E T x y).2 = false) := by
  have hp : Proper (checkAny E T x y) := by
    cases x with
    | nothing => exact proper_guarded (proper_scalar _ _).balanced
    | other => exact proper_guarded (Balanced.append (proper_scalar _ _).balanced (proper_scalar _ _).balanced)
    | value a => exact proper_guarded (Balanced.append (proper_scalar _ _).balanced (proper hn _ _ _ _).balanced)
  constructor
  · cases x with
    | nothing => simp [checkAny, guarded_passes, scalar_failed]
    | other => simp [checkAny, guarded_passes, failed_append, scalar_failed]
    | value a =>
      simp only [checkAny, guarded_passes, failed_append, Bool.or_eq_false_iff, scalar_failed, true_and, Held.value.injEq, exists_eq_left']
      rw [(proper hn _ _ _ _).passes]
      exact meaning hh hn .best T h a y
  · rw [← failed_iff, hp.failed]
    simp

/-- **C66** `check_exception_thrown<E>` returns `true` if and only if the function throws something which a handler of `E` catches; it logs a failure if and only if it returns
`false`. -/
theorem C66_exception {X : Type} (isA : X → X → Bool) (expected stdException : X) (thrown : Option X) :
    ((checkException isA expected stdException thrown).2 = true ↔ ∃ t, thrown = some t ∧ isA t expected = true) ∧
      (SomethingFailed (checkException isA expected stdException thrown).1 ↔ (checkException isA expected stdException thrown).2 = false) ∧
      (Event.caught ∈ (checkException isA expected stdException thrown).1 ↔ (checkException isA expected stdException thrown).2 = true) := by
  rcases thrown with _ | t
  · simp [checkException, SomethingFailed]
  · simp only [checkException, Option.some.injEq, exists_eq_left']
    split
    · simp_all [SomethingFailed]
    · split <;> simp_all [SomethingFailed]

/-- **C66** A check by means of a function object for a class is available exactly for objects of the class and ranges thereof, nested to any depth, and it passes if and only if the
ranges have the same shape and the function relates all elements. -/
theorem C66_comparator (n : Nat) (cmp : C n → C n → Bool) (T : Ty) :
    ((checkWith n cmp T).isSome = true ↔ RangesOf n T) ∧
      ∀ chk, checkWith n cmp T = some chk → ∀ x y : T.Val C, ((chk x y).2 = true ↔ Throughout n (fun a b => cmp a b = true) T x y) := by
  have key : ∀ T : Ty, ((checkWith n cmp T).isSome = true ↔ RangesOf n T) ∧
      ∀ chk, checkWith n cmp T = some chk → ∀ x y : T.Val C, Proper (chk x y) ∧ ((chk x y).2 = true ↔ Throughout n (fun a b => cmp a b = true) T x y) := by
    intro T
    induction T with
    | cls m =>
      by_cases h : m = n
      · subst h
        constructor
        · rw [checkWith, dif_pos rfl]
          exact ⟨fun _ => rfl, fun _ => rfl⟩
        · intro chk hc x y
          rw [checkWith, dif_pos rfl] at hc
          cases hc
          refine ⟨proper_guarded (balanced_binary _), ?_⟩
          rw [guarded_passes, failed_binary]
          constructor
          · intro h; exact ⟨rfl, by simpa using h⟩
          · rintro ⟨_, h⟩; simpa using h
      · constructor
        · simp [checkWith, RangesOf, h]
        · intro chk hc
          simp [checkWith, h] at hc
    | range k e ih =>
      constructor
      · refine Iff.trans ?_ ih.1
        simp only [checkWith]
        cases checkWith n cmp e <;> exact Iff.rfl
      · intro chk hc x y
        simp only [checkWith] at hc
        cases hw : checkWith n cmp e with
        | none => rw [hw] at hc; cases hc
        | some c =>
          rw [hw] at hc
          cases hc
          have hp := proper_range (fun a b => (ih.2 c hw a b).1) x y
          refine ⟨proper_guarded hp.balanced, ?_⟩
          rw [guarded_passes, hp.passes]
          exact range_passes (fun a b => (ih.2 c hw a b).2) x y
    | str => exact ⟨by simp [checkWith, RangesOf], fun chk hc => by simp [checkWith] at hc⟩
    | pair _ _ _ _ => exact ⟨by simp [checkWith, RangesOf], fun chk hc => by simp [checkWith] at hc⟩
    | tup _ _ _ => exact ⟨by simp [checkWith, RangesOf], fun chk hc => by simp [checkWith] at hc⟩
    | var _ _ _ => exact ⟨by simp [checkWith, RangesOf], fun chk hc => by simp [checkWith] at hc⟩
    | opt _ _ => exact ⟨by simp [checkWith, RangesOf], fun chk hc => by simp [checkWith] at hc⟩
    | ptr _ _ => exact ⟨by simp [checkWith, RangesOf], fun chk hc => by simp [checkWith] at hc⟩
    | smart _ _ => exact ⟨by simp [checkWith, RangesOf], fun chk hc => by simp [checkWith] at hc⟩
    | weak _ _ => exact ⟨by simp [checkWith, RangesOf], fun chk hc => by simp [checkWith] at hc⟩
    | fn => exact ⟨by simp [checkWith, RangesOf], fun chk hc => by simp [checkWith] at hc⟩
    | time _ _ => exact ⟨by simp [checkWith, RangesOf], fun chk hc => by simp [checkWith] at hc⟩
  exact ⟨(key T).1, fun chk hc x y => ((key T).2 chk hc x y).2⟩

/-! ### Examples -/

namespace Checkers

/-- A range of pairs of a number and an optional string. -/
abbrev sample : Ty := .range 0 (.pair (.cls 0) (.opt .str))

theorem sample_checkable (φ : Flavour) : checkable plain φ sample = true := by cases φ <;> rfl

def sample₁ : sample.Val fun _ => Nat := ([(3, some [1, 2]), (4, none)] : List (Nat × Option (List Nat)))

def sample₂ : sample.Val fun _ => Nat := ([(3, some [1, 3]), (4, none)] : List (Nat × Option (List Nat)))

example : (check plain .equality sample sample₁ sample₁).2 = true :=
  (C66_equality plain plain_honest plain_nested _ sample ⟨trivial, trivial⟩ (sample_checkable _) _ _).mpr rfl

theorem sample_ne : sample₁ ≠ sample₂ := by
  intro h
  revert h
  exact fun h => absurd (show ([(3, some [1, 2]), (4, none)] : List (Nat × Option (List Nat))) = [(3, some [1, 3]), (4, none)] from h) (by simp)

example : (check plain .best sample sample₁ sample₂).2 = false :=
  Bool.eq_false_iff.mpr fun h => sample_ne ((C66_equality plain plain_honest plain_nested _ sample ⟨trivial, trivial⟩ (sample_checkable _) _ _).mp h)

abbrev pointers : Ty := .range 0 (.smart (.cls 0))

def pointers₁ : pointers.Val fun _ => Nat := ([some (7, 1), none] : List (Option (Nat × Nat)))

def pointers₂ : pointers.Val fun _ => Nat := ([some (7, 1), some (9, 2)] : List (Option (Nat × Nat)))

/-- The hypotheses of `C66_weaker` and `C66_strongest_partial`. -/
example : Coherent pointers pointers₁ pointers₂ ∧ NoRawPointers pointers ∧ ∀ φ, checkable plain φ pointers = true := by
  refine ⟨?_, trivial, fun φ => by cases φ <;> rfl⟩
  rintro p (_ | ⟨_, (_ | ⟨_, h⟩)⟩)
  · rintro p q ⟨⟩ ⟨⟩ _; rfl
  · rintro p q ⟨⟩
  · cases h

/-- A range of tuples of a number, a point of time, and a variant of a number, a string and a weak pointer; of this no pointers are followed by a check of equality. -/
abbrev mixed : Ty := .range 0 (.tup 3 fun i => if i = 0 then .cls 0 else if i = 1 then .time 1 1000 else .var 3 fun j => if j = 0 then .cls 1 else if j = 1 then .str else .weak (.cls 0))

theorem mixed_checkable : checkable plain .equality mixed = true ∧ checkable plain .best mixed = true ∧ NoRawPointers mixed := by
  refine ⟨rfl, rfl, ?_⟩
  intro i
  match i with
  | 0 => trivial
  | 1 => trivial
  | 2 =>
    intro j
    match j with
    | 0 => trivial
    | 1 => trivial
    | 2 => trivial

/-- Points of time which are different, though they are the same when expressed in nanoseconds: the check nevertheless fails. -/
example : nanoseconds 1 1000 1 = nanoseconds 1 1000 2 ∧ (check plain .equality (.time 1 1000) (1 : Int) (2 : Int)).2 = false ∧
    (check plain .equality (.time 1 1000) (2 : Int) (2 : Int)).2 = true := by
  refine ⟨rfl, ?_, ?_⟩
  · exact Bool.eq_false_iff.mpr fun h => absurd (show (1 : Int) = 2 from (C66_meaning plain plain_honest plain_nested .equality (.time 1 1000) rfl _ _).mp h) (by decide)
  · exact (C66_meaning plain plain_honest plain_nested .equality (.time 1 1000) rfl _ _).mpr rfl

/-- Functions: only whether they are empty matters. -/
example : checkable plain .equality .fn = false ∧ (check plain .best .fn (some 1) (some 2)).2 = true ∧ (check plain .best .fn (some 1) none).2 = false := by
  refine ⟨rfl, ?_, ?_⟩
  · exact (C66_meaning plain plain_honest plain_nested .best .fn rfl _ _).mpr (by simp [Means, Best, BothEmpty])
  · refine Bool.eq_false_iff.mpr fun h => ?_
    have := (C66_meaning plain plain_honest plain_nested .best .fn rfl _ _).mp h
    simp [Means, Best, BothEmpty] at this

/-- The hypotheses of `C66_any`, and a `std::any` which holds a string. -/
example : (checkAny plain .str (.value [1, 2]) [1, 2]).2 = true ∧ (checkAny plain .str .other [1, 2]).2 = false := by
  refine ⟨(C66_any plain plain_honest plain_nested .str rfl _ _).1.mpr ⟨_, rfl, rfl⟩, Bool.eq_false_iff.mpr fun h => ?_⟩
  obtain ⟨a, h, _⟩ := (C66_any plain plain_honest plain_nested .str rfl _ _).1.mp h
  cases h

/-- An environment in which the comparison of ranges is always true: unequal elements nevertheless are found. -/
def blind : Env fun _ => Nat where
  comparable _ := true
  eq _ x y := decide (x = y)
  reportable _ := true
  tester _ _ := none
  rangeComparable _ := true
  rangeEq _ _ _ _ := true

example : check blind .equality (.range 0 (.cls 0)) ([1, 2] : List Nat) ([1, 3] : List Nat) =
    ([.enter, .check, .enter, .enter, .check, .leave, .enter, .check, .leave, .enter, .check, .failure, .leave, .leave, .leave], false) := by decide +kernel

/-- An environment in which classes have no `operator==`, but a tester of equivalence, which makes a check itself. -/
def tested : Env fun _ => Nat where
  comparable _ := false
  eq _ _ _ := true
  reportable _ := true
  tester _ φ := if φ = .equivalence then some fun x y => (checkScalar x y).1 else none
  rangeComparable _ := false
  rangeEq _ _ _ _ := true

example : Nested tested ∧ Honest tested ∧ checkable tested .best (.range 0 (.cls 0)) = true ∧ checkable tested .equality (.range 0 (.cls 0)) = false := by
  have key : ∀ n φ t, tested.tester n φ = some t → t = fun (x y : Nat) => (checkScalar x y).1 := by
    intro n φ t h
    simp only [tested] at h
    split at h
    · cases h; rfl
    · cases h
  refine ⟨fun n φ t h x y => ?_, ⟨⟨fun n h => by simp [tested] at h, fun n φ t h x y => ?_⟩, fun n e h => by simp [tested] at h⟩, rfl, rfl⟩
  · rw [key n φ t h]
    exact (proper_scalar x y).balanced
  · rw [key n φ t h, ← failed_false_iff]
    exact scalar_failed x y

/-- A class with an `operator==` whose values cannot be reported: the hypotheses of `C66_minimal_violated`. -/
def silent : Env fun _ => Nat where
  comparable _ := true
  eq _ x y := decide (x = y)
  reportable _ := false
  tester _ _ := none
  rangeComparable _ := true
  rangeEq _ _ _ _ := true

example : wellFormed (ops silent (.range 0 (.cls 0))) .minimal = false := (C66_minimal_violated silent 0 0 rfl rfl fun _ => rfl).2.2.1.2

/-- A class with neither an `operator==` nor testers. -/
def mute : Env fun _ => Nat where
  comparable _ := false
  eq _ _ _ := true
  reportable _ := true
  tester _ _ := none
  rangeComparable _ := false
  rangeEq _ _ _ _ := true

example : supports (ops mute (.opt (.cls 0))) .equality = true ∧ wellFormed (ops mute (.opt (.cls 0))) .equality = false :=
  ((C66_constraints_violated.1 mute 0 rfl fun _ => rfl).2.2.1) .equality (by decide)

example : ((checkWith (C := fun _ => Nat) 0 (fun (a b : Nat) => decide (a ≤ b + 1 ∧ b ≤ a + 1)) (.range 0 (.cls 0))).map fun c => (c ([1, 5] : List Nat) ([2, 5] : List Nat)).2) = some true := by decide +kernel

end Checkers

end Verif.Props
