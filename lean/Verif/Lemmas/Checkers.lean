import Verif.Spec.Checkers
set_option linter.unusedSectionVars false
/-
Lemmas for C66.
-/
namespace Verif.CheckersLemmas
open Verif.Logger Verif.LoggerSpec Verif.Checkers Verif.CheckersSpec

theorem failed_iff {b : List Event} : failed b = true ↔ SomethingFailed b := by
  simp only [failed, List.any_eq_true, SomethingFailed, Bool.or_eq_true, decide_eq_true_eq]
  constructor
  · rintro ⟨e, he, h | h⟩
    · exact Or.inl (h ▸ he)
    · exact Or.inr (h ▸ he)
  · rintro (h | h)
    · exact ⟨_, h, Or.inl rfl⟩
    · exact ⟨_, h, Or.inr rfl⟩

theorem failed_false_iff {b : List Event} : failed b = false ↔ ¬ SomethingFailed b := by
  rw [← failed_iff]; simp

theorem failed_append (a b : List Event) : failed (a ++ b) = (failed a || failed b) := by simp [failed]

theorem failed_cons_enter (b : List Event) : failed (.enter :: b) = failed b := by simp [failed]

theorem failed_leave (b : List Event) : failed (b ++ [.leave]) = failed b := by simp [failed]

theorem failed_nil : failed [] = false := rfl

theorem Balanced.append {a b : List Event} (ha : Balanced a) (hb : Balanced b) : Balanced (a ++ b) := by
  induction ha with
  | nil => exact hb
  | leaf h1 h2 _ ih => exact .leaf h1 h2 ih
  | @nest c l hc _ _ ih => rw [List.cons_append, List.append_assoc, List.cons_append]; exact .nest hc ih

theorem Balanced_wrap {b : List Event} (hb : Balanced b) : Balanced (.enter :: (b ++ [.leave])) := .nest hb .nil

theorem balanced_binary (c : Bool) : Balanced (binary c) := by
  cases c
  · exact .leaf (by decide) (by decide) (.leaf (by decide) (by decide) .nil)
  · exact .leaf (by decide) (by decide) .nil

theorem failed_binary (c : Bool) : failed (binary c) = !c := by cases c <;> rfl

/-- A check which owns a sentinel and returns whether nothing failed. -/
def Proper (c : List Event × Bool) : Prop := ∃ b, Balanced b ∧ c = guarded b

theorem Proper.balanced {c : List Event × Bool} (h : Proper c) : Balanced c.1 := by
  obtain ⟨b, hb, rfl⟩ := h
  exact Balanced_wrap hb

theorem Proper.failed {c : List Event × Bool} (h : Proper c) : Checkers.failed c.1 = !c.2 := by
  obtain ⟨b, hb, rfl⟩ := h
  simp only [guarded, failed_cons_enter, failed_leave, Bool.not_not]

theorem Proper.passes {c : List Event × Bool} (h : Proper c) : Checkers.failed c.1 = false ↔ c.2 = true := by
  rw [h.failed]; simp

theorem guarded_passes {b : List Event} : (guarded b).2 = true ↔ failed b = false := by simp [guarded]

theorem proper_guarded {b : List Event} (hb : Balanced b) : Proper (guarded b) := ⟨b, hb, rfl⟩

theorem proper_scalar {α : Type} [DecidableEq α] (x y : α) : Proper (checkScalar x y) := proper_guarded (balanced_binary _)

theorem scalar_passes {α : Type} [DecidableEq α] (x y : α) : (checkScalar x y).2 = true ↔ x = y := by
  simp [checkScalar, guarded_passes, failed_binary]

theorem scalar_failed {α : Type} [DecidableEq α] (x y : α) : failed (checkScalar x y).1 = false ↔ x = y := by
  rw [(proper_scalar x y).passes, scalar_passes]

section
variable {α β : Type} {chk : α → β → List Event × Bool}

theorem balanced_flatMap {l : List (List Event × Bool)} (h : ∀ c ∈ l, Proper c) : Balanced (l.flatMap (·.1)) := by
  induction l with
  | nil => exact .nil
  | cons c l ih =>
    rw [List.flatMap_cons]
    exact Balanced.append (h c (by simp)).balanced (ih fun d hd => h d (by simp [hd]))

theorem failed_flatMap {l : List (List Event × Bool)} (h : ∀ c ∈ l, Proper c) : failed (l.flatMap (·.1)) = !l.all (·.2) := by
  induction l with
  | nil => rfl
  | cons c l ih =>
    rw [List.flatMap_cons, failed_append, (h c (by simp)).failed, ih fun d hd => h d (by simp [hd]), List.all_cons, Bool.not_and]

theorem proper_zip (hc : ∀ x y, Proper (chk x y)) (xs : List α) (ys : List β) : ∀ c ∈ List.zipWith chk xs ys, Proper c := by
  induction xs generalizing ys with
  | nil => simp
  | cons x xs ih =>
    cases ys with
    | nil => simp
    | cons y ys =>
      intro c h
      rw [List.zipWith_cons_cons, List.mem_cons] at h
      rcases h with rfl | h
      · exact hc x y
      · exact ih ys c h

theorem proper_range (hc : ∀ x y, Proper (chk x y)) (xs : List α) (ys : List β) : Proper (checkRange chk xs ys) := by
  have hz := proper_zip hc xs ys
  have hs := proper_scalar xs.length ys.length
  unfold checkRange
  dsimp only
  split
  · rename_i h
    refine ⟨_, Balanced.append hs.balanced (balanced_flatMap hz), ?_⟩
    simp only [guarded, failed_append, hs.failed, failed_flatMap hz, h, Bool.not_true, Bool.false_or, Bool.not_not]
  · rename_i h
    refine ⟨_, hs.balanced, ?_⟩
    simp only [guarded, hs.failed]
    simp at h
    simp [h]

theorem all_zip_iff {R : α → β → Prop} (hc : ∀ x y, (chk x y).2 = true ↔ R x y) : ∀ (xs : List α) (ys : List β),
    xs.length = ys.length ∧ (List.zipWith chk xs ys).all (·.2) = true ↔ List.Forall₂ R xs ys
  | [], [] => by simp
  | [], _ :: _ => by simp
  | _ :: _, [] => by simp
  | x :: xs, y :: ys => by
    rw [List.forall₂_cons, ← all_zip_iff hc xs ys, ← hc]
    simp only [List.length_cons, Nat.add_right_cancel_iff, List.zipWith_cons_cons, List.all_cons, Bool.and_eq_true]
    exact and_left_comm

theorem range_passes {R : α → β → Prop} (hc : ∀ x y, (chk x y).2 = true ↔ R x y) (xs : List α) (ys : List β) :
    (checkRange chk xs ys).2 = true ↔ List.Forall₂ R xs ys := by
  rw [← all_zip_iff hc]
  unfold checkRange
  dsimp only
  split
  · rename_i h
    rw [scalar_passes] at h
    simp [h]
  · rename_i h
    rw [scalar_passes] at h
    simp [h]

end

section
variable {α : Type} {o : Ops α}

/-- The tests and checks of ranges are properly nested. -/
structure OpsProper (o : Ops α) : Prop where
  tester : ∀ φ t, o.tester φ = some t → ∀ x y, Balanced (t x y)
  range : ∀ φ r, o.range φ = some r → ∀ x y, Proper (r x y)

theorem balanced_detail (h : OpsProper o) (φ : Flavour) (x y : α) : Balanced (detail o φ x y) := by
  unfold detail
  split
  · exact h.tester _ _ ‹_› x y
  · split
    · exact (h.range _ _ ‹_› x y).balanced
    · exact .nil

theorem balanced_cond (c d : Bool) : Balanced (if c then binary d else []) := by
  cases c
  · exact .nil
  · exact balanced_binary d

theorem proper_equality (h : OpsProper o) (x y : α) : Proper (checkEquality o x y) :=
  proper_guarded (Balanced.append (balanced_cond _ _) (balanced_detail h _ _ _))

theorem proper_simple (h : OpsProper o) (x y : α) : Proper (checkSimple o x y) := by
  refine proper_guarded (Balanced.append (balanced_binary _) ?_)
  split
  · exact (h.range _ _ ‹_› x y).balanced
  · exact .nil

theorem proper_equivalence (h : OpsProper o) (x y : α) : Proper (checkEquivalence o x y) := by
  unfold checkEquivalence
  split
  · exact proper_guarded (h.tester _ _ ‹_› x y)
  · split
    · exact h.range _ _ ‹_› x y
    · exact proper_equality h x y

theorem proper_weak (h : OpsProper o) (x y : α) : Proper (checkWeak o x y) := by
  unfold checkWeak
  split
  · exact proper_guarded (h.tester _ _ ‹_› x y)
  · split
    · exact h.range _ _ ‹_› x y
    · exact proper_equivalence h x y

theorem proper_best (h : OpsProper o) (x y : α) : Proper (checkBest o x y) := by
  unfold checkBest
  split
  · exact proper_guarded (Balanced.append (balanced_cond _ _) (h.tester _ _ ‹_› x y))
  · split
    · exact proper_equality h x y
    · split
      · exact proper_equivalence h x y
      · split
        · exact proper_weak h x y
        · split
          · exact h.range _ _ ‹_› x y
          · exact proper_simple h x y

theorem proper_minimal (h : OpsProper o) (x y : α) : Proper (checkMinimal o x y) := by
  unfold checkMinimal
  split
  · refine proper_guarded (Balanced.append (balanced_cond _ _) ?_)
    split
    · exact h.tester _ _ ‹_› x y
    · exact .nil
  · split
    · exact proper_equality h x y
    · split
      · exact proper_equivalence h x y
      · split
        · exact proper_weak h x y
        · split
          · split
            · exact h.range _ _ ‹_› x y
            · exact proper_guarded .nil
          · split
            · exact proper_simple h x y
            · exact proper_scalar _ _

theorem proper_ops (h : OpsProper o) (φ : Flavour) (x y : α) : Proper (checkOps o φ x y) := by
  cases φ
  · exact proper_equality h x y
  · exact proper_simple h x y
  · exact proper_equivalence h x y
  · exact proper_weak h x y
  · exact proper_best h x y
  · exact proper_minimal h x y

/-- What the parts of a check establish. -/
structure Sem (o : Ops α) (S A B : α → α → Prop) : Prop where
  eq : o.comparable = true → ∀ x y, o.eq x y = true ↔ S x y
  testEquality : ∀ t, o.tester .equality = some t → o.bodyOk .equality = true → ∀ x y, ((o.comparable = true → S x y) ∧ failed (t x y) = false) ↔ S x y
  testEquivalence : ∀ t, o.tester .equivalence = some t → o.bodyOk .equivalence = true → ∀ x y, failed (t x y) = false ↔ A x y
  testWeak : ∀ t, o.tester .weak = some t → o.bodyOk .weak = true → ∀ x y, failed (t x y) = false ↔ A x y
  testBest : ∀ t, o.tester .best = some t → o.bodyOk .best = true → ∀ x y, ((o.comparable = true → S x y) ∧ failed (t x y) = false) ↔ B x y
  rangeEquality : ∀ r, o.range .equality = some r → o.bodyOk .equality = true → o.tester .equality = none → ∀ x y, (r x y).2 = true ↔ S x y
  rangeSimple : ∀ r, o.range .simple = some r → o.bodyOk .simple = true → ∀ x y, (r x y).2 = true ↔ S x y
  rangeEquivalence : ∀ r, o.range .equivalence = some r → o.bodyOk .equivalence = true → o.tester .equivalence = none → ∀ x y, (r x y).2 = true ↔ A x y
  rangeWeak : ∀ r, o.range .weak = some r → o.bodyOk .weak = true → o.tester .weak = none → ∀ x y, (r x y).2 = true ↔ A x y
  rangeBest : ∀ r, o.range .best = some r → o.bodyOk .best = true → o.tester .equality = none → ∀ x y, (r x y).2 = true ↔ B x y
  fallback : o.tester .equivalence = none → o.range .equivalence = none → supportsEquality o = true → ∀ x y, S x y ↔ A x y
  bestEquality : o.tester .best = none → (o.tester .equality).isSome = true → ∀ x y, S x y ↔ B x y
  bestEquivalence : o.tester .best = none → o.tester .equality = none → (o.tester .equivalence).isSome = true → ∀ x y, A x y ↔ B x y
  bestWeak : o.tester .best = none → o.tester .equality = none → o.tester .equivalence = none → (o.tester .weak).isSome = true → ∀ x y, A x y ↔ B x y
  bestSimple : o.tester .best = none → o.tester .equality = none → o.tester .equivalence = none → o.tester .weak = none → o.range .best = none → o.comparable = true → ∀ x y, S x y ↔ B x y
  minimalRange : o.range .minimal = none → o.comparable = true → o.range .best = none
  minimalTester : o.tester .minimal = none → o.tester .best = none ∨ ((∀ x y, S x y ↔ B x y) ∧ ∀ x y, A x y ↔ B x y)

theorem failed_cond (c d : Bool) : failed (if c then binary d else []) = false ↔ (c = true → d = true) := by
  cases c <;> simp [failed_binary, failed_nil]

variable {S A B : α → α → Prop}

theorem sem_equality (p : OpsProper o) (s : Sem o S A B) (hs : supportsEquality o = true) (hw : equalityOk o = true) (x y : α) :
    (checkEquality o x y).2 = true ↔ S x y := by
  rw [checkEquality, guarded_passes, failed_append, Bool.or_eq_false_iff, failed_cond]
  have key : ∀ {Q : Prop}, (Q ↔ S x y) → (((o.comparable = true → o.eq x y = true) ∧ Q) ↔ S x y) := by
    intro Q hQ
    rw [hQ]
    exact ⟨fun h => h.2, fun h => ⟨fun hc => (s.eq hc x y).mpr h, h⟩⟩
  unfold equalityOk at hw
  rw [Bool.and_eq_true] at hw
  cases ht : o.tester .equality with
  | some t =>
    simp only [detail, ht]
    rw [← s.testEquality t ht (by simpa [ht] using hw.2) x y]
    refine and_congr_left fun _ => ⟨fun h hc => (s.eq hc x y).mp (h hc), fun h hc => (s.eq hc x y).mpr (h hc)⟩
  | none =>
    cases hr : o.range .equality with
    | some r =>
      simp only [detail, ht, hr, (p.range _ _ hr x y).passes]
      exact key (s.rangeEquality r hr (by simpa [hr] using hw.2) ht x y)
    | none =>
      simp only [detail, ht, hr, failed_nil, and_true]
      have hc : o.comparable = true := by
        simp [supportsEquality, ht, hr] at hs
        exact hs.1
      rw [s.eq hc]
      simp [hc]

theorem sem_simple (p : OpsProper o) (s : Sem o S A B) (hw : simpleOk o = true) (x y : α) : (checkSimple o x y).2 = true ↔ S x y := by
  unfold simpleOk at hw
  simp only [Bool.and_eq_true] at hw
  rw [checkSimple, guarded_passes, failed_append, Bool.or_eq_false_iff, failed_binary]
  rw [show ((!o.eq x y) = false) = (o.eq x y = true) by simp, s.eq hw.1.1]
  split
  · rename_i r hr
    rw [(p.range _ _ hr x y).passes, s.rangeSimple r hr (by simpa [hr] using hw.2) x y, and_self_iff]
  · simp [failed_nil]

theorem sem_equivalence (p : OpsProper o) (s : Sem o S A B) (hw : equivalenceOk o = true) (x y : α) : (checkEquivalence o x y).2 = true ↔ A x y := by
  unfold equivalenceOk at hw
  unfold checkEquivalence
  cases ht : o.tester .equivalence with
  | some t =>
    simp only [guarded_passes]
    exact s.testEquivalence t ht (by simpa [ht] using hw) x y
  | none =>
    cases hr : o.range .equivalence with
    | some r => exact s.rangeEquivalence r hr (by simpa [hr] using hw) ht x y
    | none =>
      simp [ht, hr] at hw
      exact (sem_equality p s hw.1 hw.2 x y).trans (s.fallback ht hr hw.1 x y)

theorem sem_weak (p : OpsProper o) (s : Sem o S A B) (hw : weakOk o = true) (x y : α) : (checkWeak o x y).2 = true ↔ A x y := by
  unfold weakOk at hw
  unfold checkWeak
  cases ht : o.tester .weak with
  | some t =>
    simp only [guarded_passes]
    exact s.testWeak t ht (by simpa [ht] using hw) x y
  | none =>
    cases hr : o.range .weak with
    | some r => exact s.rangeWeak r hr (by simpa [hr] using hw) ht x y
    | none =>
      simp [ht, hr] at hw
      exact sem_equivalence p s hw.2 x y

theorem sem_best (p : OpsProper o) (s : Sem o S A B) (hw : bestOk o = true) (x y : α) : (checkBest o x y).2 = true ↔ B x y := by
  unfold bestOk at hw
  unfold checkBest
  cases hb : o.tester .best with
  | some t =>
    simp [hb] at hw
    simp only [guarded_passes, failed_append, Bool.or_eq_false_iff, failed_cond]
    rw [← s.testBest t hb hw]
    refine and_congr_left fun _ => ?_
    exact ⟨fun h hc => (s.eq hc x y).mp (h hc), fun h hc => (s.eq hc x y).mpr (h hc)⟩
  | none =>
    simp only [hb, Option.isSome_none, Bool.false_eq_true, if_false] at hw ⊢
    cases hq : o.tester .equality with
    | some t =>
      simp only [hq, Option.isSome_some, if_true] at hw ⊢
      exact (sem_equality p s (by simp [supportsEquality, hq]) hw x y).trans (s.bestEquality hb (by simp [hq]) x y)
    | none =>
      simp only [hq, Option.isSome_none, Bool.false_eq_true, if_false] at hw ⊢
      cases hv : o.tester .equivalence with
      | some t =>
        simp only [hv, Option.isSome_some, if_true] at hw ⊢
        exact (sem_equivalence p s hw x y).trans (s.bestEquivalence hb hq (by simp [hv]) x y)
      | none =>
        simp only [hv, Option.isSome_none, Bool.false_eq_true, if_false] at hw ⊢
        cases hk : o.tester .weak with
        | some t =>
          simp only [hk, Option.isSome_some, if_true] at hw ⊢
          exact (sem_weak p s hw x y).trans (s.bestWeak hb hq hv (by simp [hk]) x y)
        | none =>
          simp only [hk, Option.isSome_none, Bool.false_eq_true, if_false] at hw ⊢
          cases hr : o.range .best with
          | some r =>
            simp only [hr, Option.isSome_some, if_true] at hw ⊢
            exact s.rangeBest r hr hw hq x y
          | none =>
            simp only [hr, Option.isSome_none, Bool.false_eq_true, if_false] at hw ⊢
            split at hw
            · rename_i hc
              rw [Bool.and_eq_true] at hc
              exact (sem_simple p s hw x y).trans (s.bestSimple hb hq hv hk hr hc.1 x y)
            · cases hw

theorem sem_minimal (p : OpsProper o) (s : Sem o S A B) (hw : minimalOk o = true) (x y : α) : (checkMinimal o x y).2 = true ↔ B x y := by
  unfold minimalOk at hw
  unfold checkMinimal
  cases hm : o.tester .minimal with
  | some t' =>
    simp only [hm, Option.isSome_some, if_true, Bool.and_eq_true] at hw ⊢
    obtain ⟨hb, hw⟩ := hw
    obtain ⟨t, hb⟩ := Option.isSome_iff_exists.mp hb
    simp only [hb, guarded_passes, failed_append, Bool.or_eq_false_iff, failed_cond]
    rw [← s.testBest t hb hw]
    refine and_congr_left fun _ => ?_
    exact ⟨fun h hc => (s.eq hc x y).mp (h hc), fun h hc => (s.eq hc x y).mpr (h hc)⟩
  | none =>
    simp only [hm, Option.isSome_none, Bool.false_eq_true, if_false] at hw ⊢
    have ht := s.minimalTester hm
    cases hq : o.tester .equality with
    | some t =>
      simp only [hq, Option.isSome_some, if_true] at hw ⊢
      refine (sem_equality p s (by simp [supportsEquality, hq]) hw x y).trans ?_
      rcases ht with hb | ht
      · exact s.bestEquality hb (by simp [hq]) x y
      · exact ht.1 x y
    | none =>
      simp only [hq, Option.isSome_none, Bool.false_eq_true, if_false] at hw ⊢
      cases hv : o.tester .equivalence with
      | some t =>
        simp only [hv, Option.isSome_some, if_true] at hw ⊢
        refine (sem_equivalence p s hw x y).trans ?_
        rcases ht with hb | ht
        · exact s.bestEquivalence hb hq (by simp [hv]) x y
        · exact ht.2 x y
      | none =>
        simp only [hv, Option.isSome_none, Bool.false_eq_true, if_false] at hw ⊢
        cases hk : o.tester .weak with
        | some t =>
          simp only [hk, Option.isSome_some, if_true] at hw ⊢
          refine (sem_weak p s hw x y).trans ?_
          rcases ht with hb | ht
          · exact s.bestWeak hb hq hv (by simp [hk]) x y
          · exact ht.2 x y
        | none =>
          simp only [hk, Option.isSome_none, Bool.false_eq_true, if_false] at hw ⊢
          cases hr : o.range .minimal with
          | some r' =>
            simp only [hr, Option.isSome_some, if_true, Bool.and_eq_true] at hw ⊢
            obtain ⟨r, hb⟩ := Option.isSome_iff_exists.mp hw.1
            simp only [hb]
            exact s.rangeBest r hb hw.2 hq x y
          | none =>
            simp only [hr, Option.isSome_none, Bool.false_eq_true, if_false] at hw ⊢
            have hSB : o.comparable = true → (S x y ↔ B x y) := fun hc => by
              rcases ht with hb | ht
              · exact s.bestSimple hb hq hv hk (s.minimalRange hr hc) hc x y
              · exact ht.1 x y
            split at hw
            · rename_i hc
              rw [if_pos hc]
              rw [Bool.and_eq_true] at hc
              exact (sem_simple p s hw x y).trans (hSB hc.1)
            · rename_i hc
              rw [if_neg hc, scalar_passes]
              exact (s.eq hw x y).trans (hSB hw)

/-- The relation which a check of the given kind establishes. -/
def pick (S A B : α → α → Prop) : Flavour → α → α → Prop
  | .equality => S
  | .simple => S
  | .equivalence => A
  | .weak => A
  | .best => B
  | .minimal => B

theorem sem_ops (p : OpsProper o) (s : Sem o S A B) (φ : Flavour) (hi : instantiable o φ = true) (x y : α) :
    (checkOps o φ x y).2 = true ↔ pick S A B φ x y := by
  unfold instantiable at hi
  rw [Bool.and_eq_true] at hi
  cases φ
  · exact sem_equality p s hi.1 hi.2 x y
  · exact sem_simple p s hi.2 x y
  · exact sem_equivalence p s hi.2 x y
  · exact sem_weak p s hi.2 x y
  · exact sem_best p s hi.2 x y
  · exact sem_minimal p s hi.2 x y

end

/-! ### Tests -/

theorem balanced_string (m n : Nat) : ∀ x y : List Nat, Balanced (testString m n x y)
  | [], [] => .nil
  | [], _ :: _ => (proper_scalar m n).balanced
  | _ :: _, [] => (proper_scalar m n).balanced
  | a :: x, b :: y => by
    unfold testString
    split
    · exact balanced_string m n x y
    · exact (proper_scalar a b).balanced

theorem string_passes : ∀ (m n : Nat) (x y : List Nat), (m = n ↔ x.length = y.length) → (failed (testString m n x y) = false ↔ x = y)
  | m, n, [], [], _ => by simp [testString, failed_nil]
  | m, n, [], _ :: _, h => by simp at h; simp [testString, scalar_failed, h]
  | m, n, _ :: _, [], h => by simp at h; simp [testString, scalar_failed, h]
  | m, n, a :: x, b :: y, h => by
    unfold testString
    split
    · rename_i hab
      rw [string_passes m n x y (by simpa using h)]
      simp [hab]
    · rename_i hab
      rw [scalar_failed]
      simp [hab]

section
variable {n : Nat} {A : Fin n → Type} {chk : (i : Fin n) → A i → A i → List Event × Bool}

theorem balanced_parts : ∀ (l : List (Fin n)) (f : Fin n → List Event × Bool), (∀ i, Proper (f i)) → Balanced (l.flatMap fun i => (f i).1)
  | [], _, _ => .nil
  | i :: l, f, h => by
    rw [List.flatMap_cons]
    exact Balanced.append (h i).balanced (balanced_parts l f h)

theorem failed_parts : ∀ (l : List (Fin n)) (f : Fin n → List Event × Bool), (∀ i, Proper (f i)) →
    (failed (l.flatMap fun i => (f i).1) = false ↔ ∀ i ∈ l, (f i).2 = true)
  | [], _, _ => by simp [failed_nil]
  | i :: l, f, h => by
    rw [List.flatMap_cons, failed_append, Bool.or_eq_false_iff, (h i).passes, failed_parts l f h]
    simp

theorem balanced_tuple (hc : ∀ i x y, Proper (chk i x y)) (x y : (i : Fin n) → A i) : Balanced (testTuple chk x y) :=
  balanced_parts _ (fun i => chk i (x i) (y i)) fun i => hc i _ _

theorem tuple_passes {R : (i : Fin n) → A i → A i → Prop} (hp : ∀ i x y, Proper (chk i x y)) (hc : ∀ i x y, (chk i x y).2 = true ↔ R i x y) (x y : (i : Fin n) → A i) :
    failed (testTuple chk x y) = false ↔ ∀ i, R i (x i) (y i) := by
  refine (failed_parts _ (fun i => chk i (x i) (y i)) fun i => hp i _ _).trans ?_
  simp [List.mem_finRange, hc]

theorem balanced_variant (hc : ∀ i x y, Proper (chk i x y)) (x y : (i : Fin n) × A i) : Balanced (testVariant chk x y) := by
  unfold testVariant
  refine Balanced.append (proper_scalar _ _).balanced ?_
  split
  · exact (hc _ _ _).balanced
  · exact .nil

theorem alternatives_same {R : (i : Fin n) → A i → A i → Prop} {i : Fin n} {a b : A i} : Alternatives R ⟨i, a⟩ ⟨i, b⟩ ↔ R i a b := by
  constructor
  · rintro ⟨j, c, d, h1, h2, h⟩
    cases h1; cases h2
    exact h
  · exact fun h => ⟨i, a, b, rfl, rfl, h⟩

theorem alternatives_ne {R : (i : Fin n) → A i → A i → Prop} {i j : Fin n} {a : A i} {b : A j} (hij : i ≠ j) : ¬ Alternatives R ⟨i, a⟩ ⟨j, b⟩ := by
  rintro ⟨k, c, d, h1, h2, _⟩
  cases h1; cases h2
  exact hij rfl

theorem variant_passes {R : (i : Fin n) → A i → A i → Prop} (hp : ∀ i x y, Proper (chk i x y)) (hc : ∀ i x y, (chk i x y).2 = true ↔ R i x y) (x y : (i : Fin n) × A i) :
    failed (testVariant chk x y) = false ↔ Alternatives R x y := by
  obtain ⟨i, x⟩ := x
  obtain ⟨j, y⟩ := y
  unfold testVariant
  rw [failed_append, Bool.or_eq_false_iff, scalar_failed]
  by_cases h : i = j
  · subst h
    simp only [dif_pos, true_and]
    rw [(hp _ _ _).passes, hc, alternatives_same]
  · refine ⟨fun g => (h (Fin.ext g.1)).elim, fun g => (alternatives_ne h g).elim⟩

end

section
variable {α β : Type} {ca : α → α → List Event × Bool}

theorem balanced_nullable (hc : ∀ x y, Proper (ca x y)) (x y : Option α) : Balanced (testNullable ca x y) := by
  unfold testNullable
  split
  · exact (hc _ _).balanced
  · exact (proper_scalar _ _).balanced

theorem nullable_passes {R : α → α → Prop} (hp : ∀ x y, Proper (ca x y)) (hc : ∀ x y, (ca x y).2 = true ↔ R x y) (x y : Option α) :
    failed (testNullable ca x y) = false ↔ Both R x y := by
  cases x <;> cases y <;> simp [testNullable, scalar_failed, Both, (hp _ _).passes, hc]

theorem samePointer_iff (x y : Option (Nat × α)) : samePointer x y = true ↔ SameAddress x y := by
  cases x <;> cases y <;> simp [samePointer, SameAddress, Both]

end

/-! ### Types -/

section
variable {C : Nat → Type} {E : Env C}

theorem proper_raw {α : Type} {o : Ops α} (h : OpsProper o) (b : Bool) : OpsProper (rawOps o b) where
  tester φ t ht x y := by
    cases φ <;> simp [rawOps] at ht
    subst ht
    exact balanced_nullable (fun a b => proper_best h a.2 b.2) x y
  range φ r hr := by simp [rawOps] at hr

theorem proper_smart {α : Type} {o : Ops α} (h : OpsProper o) (b : Bool) : OpsProper (smartOps o b) where
  tester φ t ht x y := by
    cases φ <;> simp [smartOps] at ht <;> subst ht
    · exact (proper_equality (proper_raw h true) _ _).balanced
    · exact balanced_nullable (fun a b => proper_best h a.2 b.2) x y
  range φ r hr := by simp [smartOps] at hr

theorem proper_weakPointer {α : Type} {o : Ops α} (h : OpsProper o) (b : Bool) : OpsProper (weakOps o b) where
  tester φ t ht x y := by
    cases φ <;> simp [weakOps] at ht <;> subst ht
    · exact (proper_ops (proper_smart h true) .equality _ _).balanced
    · exact (proper_ops (proper_smart h true) .equivalence _ _).balanced
  range φ r hr := by simp [weakOps] at hr

theorem proper_all (h : Nested E) : ∀ T : Ty, OpsProper (ops E T)
  | .cls n => by
    refine ⟨fun φ t ht => h n φ t ht, fun φ r hr => ?_⟩
    simp [ops] at hr
  | .str => by
    constructor
    · intro φ t ht x y
      simp only [ops] at ht
      split at ht
      · cases ht; exact balanced_string _ _ _ _
      · cases ht
    · intro φ r hr x y
      simp only [ops] at hr
      cases hr
      exact proper_range proper_scalar _ _
  | .range n e => by
    constructor
    · intro φ t ht
      simp [ops] at ht
    · intro φ r hr x y
      simp only [ops] at hr
      split at hr
      · cases hr; exact proper_range (proper_ops (proper_all h e) φ) _ _
      · cases hr
  | .pair s t => by
    constructor
    · intro φ u hu x y
      simp only [ops] at hu
      cases hu
      exact Balanced.append (proper_ops (proper_all h s) φ _ _).balanced (proper_ops (proper_all h t) φ _ _).balanced
    · intro φ r hr
      simp [ops] at hr
  | .tup n ts => by
    constructor
    · intro φ u hu x y
      simp only [ops] at hu
      cases hu
      exact balanced_tuple (fun i => proper_ops (proper_all h (ts i)) φ) _ _
    · intro φ r hr
      simp [ops] at hr
  | .var n ts => by
    constructor
    · intro φ u hu x y
      simp only [ops] at hu
      cases hu
      exact balanced_variant (fun i => proper_ops (proper_all h (ts i)) φ) _ _
    · intro φ r hr
      simp [ops] at hr
  | .opt t => by
    constructor
    · intro φ u hu x y
      simp only [ops] at hu
      cases hu
      exact balanced_nullable (proper_ops (proper_all h t) φ) _ _
    · intro φ r hr
      simp [ops] at hr
  | .ptr t => proper_raw (proper_all h t) true
  | .smart t => proper_smart (proper_all h t) _
  | .weak t => proper_weakPointer (proper_all h t) _
  | .fn => by
    constructor
    · intro φ u hu x y
      simp only [ops] at hu
      split at hu
      · cases hu; exact (proper_scalar _ _).balanced
      · cases hu
    · intro φ r hr
      simp [ops] at hr
  | .time num den => by
    constructor
    · intro φ u hu x y
      simp only [ops] at hu
      split at hu
      · cases hu; exact (proper_scalar _ _).balanced
      · cases hu
    · intro φ r hr
      simp [ops] at hr

theorem comparable_iff : ∀ T : Ty, (ops E T).comparable = true ↔ HasEq E T
  | .cls n => Iff.rfl
  | .str => by simp [ops, HasEq]
  | .range n e => by simp [ops, HasEq, comparable_iff e]
  | .pair s t => by simp [ops, HasEq, comparable_iff s, comparable_iff t]
  | .tup n ts => by
    simp only [ops, HasEq, List.all_eq_true, List.mem_finRange, true_implies]
    exact forall_congr' fun i => comparable_iff (ts i)
  | .var n ts => by
    simp only [ops, HasEq, List.all_eq_true, List.mem_finRange, true_implies]
    exact forall_congr' fun i => comparable_iff (ts i)
  | .opt t => by simp only [ops, HasEq]; exact comparable_iff t
  | .ptr t => by simp [ops, HasEq, rawOps]
  | .smart t => by simp [ops, HasEq, smartOps]
  | .weak t => by simp [ops, HasEq, weakOps]
  | .fn => by simp [ops, HasEq]
  | .time _ _ => by simp [ops, HasEq]

/-! ### Types without pointers -/

theorem alternatives_eq {n : Nat} {A : Fin n → Type} {R : (i : Fin n) → A i → A i → Prop} (hR : ∀ i a b, R i a b ↔ a = b) (x y : (i : Fin n) × A i) :
    Alternatives R x y ↔ x = y := by
  constructor
  · rintro ⟨i, a, b, rfl, rfl, h⟩
    rw [(hR i a b).mp h]
  · rintro rfl
    exact ⟨x.1, x.2, x.2, rfl, rfl, (hR _ _ _).mpr rfl⟩

theorem both_eq {α : Type} {R : α → α → Prop} (hR : ∀ a b, R a b ↔ a = b) (x y : Option α) : Both R x y ↔ x = y := by
  rcases x with _ | x <;> rcases y with _ | y <;> simp [Both, hR]

theorem same_eq : ∀ T : Ty, PointerFree T → ∀ x y : T.Val C, Same T x y ↔ x = y
  | .cls _, _, _, _ => Iff.rfl
  | .str, _, _, _ => Iff.rfl
  | .range _ e, h, x, y => by
    have : (Same e : e.Val C → e.Val C → Prop) = Eq := by funext a b; exact propext (same_eq e h a b)
    simp only [Same, this]
    exact List.forall₂_eq_eq_eq ▸ Iff.rfl
  | .pair s t, h, x, y => by
    simp only [Same, same_eq s h.1, same_eq t h.2]
    exact Prod.ext_iff.symm
  | .tup n ts, h, x, y => by
    refine Iff.trans (forall_congr' fun i => same_eq (ts i) (h i) (x i) (y i)) ?_
    exact ⟨fun g => funext g, fun g i => by rw [g]⟩
  | .var n ts, h, x, y => alternatives_eq (fun i => same_eq (ts i) (h i)) x y
  | .opt t, h, x, y => both_eq (same_eq t h) x y
  | .time _ _, _, _, _ => Iff.rfl

theorem alike_eq : ∀ T : Ty, PointerFree T → ∀ x y : T.Val C, Alike E T x y ↔ x = y
  | .cls _, _, _, _ => Iff.rfl
  | .str, _, _, _ => Iff.rfl
  | .range _ e, h, x, y => by
    have : (Alike E e : e.Val C → e.Val C → Prop) = Eq := by funext a b; exact propext (alike_eq e h a b)
    simp only [Alike, this]
    exact List.forall₂_eq_eq_eq ▸ Iff.rfl
  | .pair s t, h, x, y => by
    simp only [Alike, alike_eq s h.1, alike_eq t h.2]
    exact Prod.ext_iff.symm
  | .tup n ts, h, x, y => by
    refine Iff.trans (forall_congr' fun i => alike_eq (ts i) (h i) (x i) (y i)) ?_
    exact ⟨fun g => funext g, fun g i => by rw [g]⟩
  | .var n ts, h, x, y => alternatives_eq (fun i => alike_eq (ts i) (h i)) x y
  | .opt t, h, x, y => both_eq (alike_eq t h) x y
  | .time _ _, _, _, _ => Iff.rfl

theorem best_eq : ∀ T : Ty, PointerFree T → ∀ x y : T.Val C, Best E T x y ↔ x = y
  | .cls _, _, _, _ => Iff.rfl
  | .str, _, _, _ => Iff.rfl
  | .range _ e, h, x, y => by
    have : (Best E e : e.Val C → e.Val C → Prop) = Eq := by funext a b; exact propext (best_eq e h a b)
    simp only [Best, this]
    exact List.forall₂_eq_eq_eq ▸ Iff.rfl
  | .pair s t, h, x, y => by
    simp only [Best, best_eq s h.1, best_eq t h.2, same_eq (.pair s t) h]
    exact ⟨fun g => Prod.ext g.2.1 g.2.2, fun g => ⟨fun _ => g, by rw [g], by rw [g]⟩⟩
  | .tup n ts, h, x, y => by
    simp only [Best, same_eq (.tup n ts) h]
    have key : (∀ i, Best E (ts i) (x i) (y i)) ↔ x = y := by
      refine Iff.trans (forall_congr' fun i => best_eq (ts i) (h i) (x i) (y i)) ?_
      exact ⟨fun g => funext g, fun g i => by rw [g]⟩
    exact ⟨fun g => key.mp g.2, fun g => ⟨fun _ => g, key.mpr g⟩⟩
  | .var n ts, h, x, y => by
    simp only [Best, same_eq (.var n ts) h]
    have key := alternatives_eq (fun i => best_eq (ts i) (h i)) x y
    exact ⟨fun g => key.mp g.2, fun g => ⟨fun _ => g, key.mpr g⟩⟩
  | .opt t, h, x, y => by
    simp only [Best, same_eq (.opt t) h]
    exact ⟨fun g => (both_eq (best_eq t h) x y).mp g.2, fun g => ⟨fun _ => g, (both_eq (best_eq t h) x y).mpr g⟩⟩
  | .time _ _, _, _, _ => Iff.rfl

/-! ### What the checks establish -/

theorem pointerFree_of_unsupported : ∀ T : Ty, HasEq E T → supportsEquivalence (ops E T) = false → PointerFree T
  | .cls _, _, _ => trivial
  | .str, _, _ => trivial
  | .range n e, hq, h => by
    refine pointerFree_of_unsupported e hq.2 ?_
    cases hs : supportsEquivalence (ops E e) with
    | false => rfl
    | true =>
      have : ((ops E (.range n e)).range .equivalence).isSome = true := by simp only [ops, supports, hs, if_true]; rfl
      simp [supportsEquivalence, this] at h
  | .pair s t, _, h => by simp [supportsEquivalence, ops] at h
  | .tup n ts, _, h => by simp [supportsEquivalence, ops] at h
  | .var n ts, _, h => by simp [supportsEquivalence, ops] at h
  | .opt t, _, h => by simp [supportsEquivalence, ops] at h
  | .ptr t, _, h => by cases h
  | .smart t, _, h => by cases h
  | .time _ _, _, _ => trivial

theorem supportsBest_of_equivalence {α : Type} {o : Ops α} (h : supportsEquivalence o = true) : supportsBest o = true := by
  simp [supportsBest, h]

theorem unsupported_of_none {n : Nat} {e : Ty} {φ : Flavour} (h : (ops E (.range n e)).range φ = none) : supports (ops E e) φ = false := by
  cases hs : supports (ops E e) φ with
  | false => rfl
  | true =>
    have g : (if supports (ops E e) φ = true then some (fun (x y : List (e.Val C)) => checkRange (checkOps (ops E e) φ) x y) else none) = none := h
    rw [if_pos hs] at g
    cases g

theorem sem_raw {α : Type} {o : Ops α} (hp : OpsProper o) {B : α → α → Prop} (hB : instantiable o .best = true → ∀ x y, (checkOps o .best x y).2 = true ↔ B x y) (b : Bool) :
    Sem (rawOps o b) SameAddress (Pointees B) (Pointees B) where
  eq _ := samePointer_iff
  testEquality _ h := by simp [rawOps] at h
  testEquivalence t h hb x y := by
    simp only [rawOps, Option.some.injEq] at h
    subst h
    exact nullable_passes (fun a b => proper_ops hp .best a.2 b.2) (fun a b => hB hb a.2 b.2) x y
  testWeak _ h := by simp [rawOps] at h
  testBest _ h := by simp [rawOps] at h
  rangeEquality _ h := by simp [rawOps] at h
  rangeSimple _ h := by simp [rawOps] at h
  rangeEquivalence _ h := by simp [rawOps] at h
  rangeWeak _ h := by simp [rawOps] at h
  rangeBest _ h := by simp [rawOps] at h
  fallback h := by simp [rawOps] at h
  bestEquality _ h := by simp [rawOps] at h
  bestEquivalence _ _ _ _ _ := Iff.rfl
  bestWeak _ _ h := by simp [rawOps] at h
  bestSimple _ _ h := by simp [rawOps] at h
  minimalRange _ _ := rfl
  minimalTester _ := Or.inl rfl

theorem sem_smart {α : Type} {o : Ops α} (hp : OpsProper o) {B : α → α → Prop} (hB : instantiable o .best = true → ∀ x y, (checkOps o .best x y).2 = true ↔ B x y) (b : Bool) :
    Sem (smartOps o b) SameAddress (Pointees B) SameAddress where
  eq _ := samePointer_iff
  testEquality t h _ x y := by
    simp only [smartOps, Option.some.injEq] at h
    subst h
    rw [(proper_ops (proper_raw hp true) .equality x y).passes,
      sem_ops (proper_raw hp true) (sem_raw hp hB true) .equality (by simp [instantiable, supports, supportsEquality, wellFormed, equalityOk, rawOps]) x y]
    exact ⟨fun h => h.2, fun h => ⟨fun _ => h, h⟩⟩
  testEquivalence t h hb x y := by
    simp only [smartOps, Option.some.injEq] at h
    subst h
    have hi : instantiable o .best = true := by simpa [smartOps] using hb
    exact nullable_passes (fun a b => proper_ops hp .best a.2 b.2) (fun a b => hB hi a.2 b.2) x y
  testWeak _ h := by simp [smartOps] at h
  testBest _ h := by simp [smartOps] at h
  rangeEquality _ h := by simp [smartOps] at h
  rangeSimple _ h := by simp [smartOps] at h
  rangeEquivalence _ h := by simp [smartOps] at h
  rangeWeak _ h := by simp [smartOps] at h
  rangeBest _ h := by simp [smartOps] at h
  fallback h := by simp [smartOps] at h
  bestEquality _ _ _ _ := Iff.rfl
  bestEquivalence _ h := by simp [smartOps] at h
  bestWeak _ h := by simp [smartOps] at h
  bestSimple _ h := by simp [smartOps] at h
  minimalRange _ _ := rfl
  minimalTester _ := Or.inl rfl

theorem sem_weakPointer {α : Type} {o : Ops α} (hp : OpsProper o) {B : α → α → Prop} (hB : instantiable o .best = true → ∀ x y, (checkOps o .best x y).2 = true ↔ B x y)
    (b : Bool) : Sem (weakOps o b) SameAddress (Pointees B) SameAddress where
  eq h := by simp [weakOps] at h
  testEquality t h _ x y := by
    simp only [weakOps, Option.some.injEq] at h
    subst h
    rw [(proper_ops (proper_smart hp true) .equality x y).passes,
      sem_ops (proper_smart hp true) (sem_smart hp hB true) .equality (by simp [instantiable, supports, supportsEquality, wellFormed, equalityOk, smartOps]) x y]
    exact ⟨fun h => h.2, fun h => ⟨fun _ => h, h⟩⟩
  testEquivalence t h hb x y := by
    simp only [weakOps, Option.some.injEq] at h
    subst h
    have hi : instantiable (smartOps o true) .equivalence = true := by simpa [weakOps] using hb
    rw [(proper_ops (proper_smart hp true) .equivalence x y).passes]
    exact sem_ops (proper_smart hp true) (sem_smart hp hB true) .equivalence hi x y
  testWeak _ h := by simp [weakOps] at h
  testBest _ h := by simp [weakOps] at h
  rangeEquality _ h := by simp [weakOps] at h
  rangeSimple _ h := by simp [weakOps] at h
  rangeEquivalence _ h := by simp [weakOps] at h
  rangeWeak _ h := by simp [weakOps] at h
  rangeBest _ h := by simp [weakOps] at h
  fallback h := by simp [weakOps] at h
  bestEquality _ _ _ _ := Iff.rfl
  bestEquivalence _ h := by simp [weakOps] at h
  bestWeak _ h := by simp [weakOps] at h
  bestSimple _ h := by simp [weakOps] at h
  minimalRange _ _ := rfl
  minimalTester _ := Or.inl rfl

theorem sem_fn : Sem (ops E .fn) (Same .fn) (Alike E .fn) (Best E .fn) := by
  exact {
    eq := fun h => by simp [ops] at h
    testEquality := fun t h => by simp [ops] at h
    testEquivalence := fun t h => by simp [ops] at h
    testWeak := fun t h _ (x y : Option Nat) => by
      simp only [ops, if_true] at h
      cases h
      rw [scalar_failed]
      show _ ↔ BothEmpty x y
      rcases x with _ | x <;> rcases y with _ | y <;> simp [BothEmpty]
    testBest := fun t h => by simp [ops] at h
    rangeEquality := fun r h => by simp [ops] at h
    rangeSimple := fun r h => by simp [ops] at h
    rangeEquivalence := fun r h => by simp [ops] at h
    rangeWeak := fun r h => by simp [ops] at h
    rangeBest := fun r h => by simp [ops] at h
    fallback := fun _ _ h => by simp [supportsEquality, ops] at h
    bestEquality := fun _ h => by simp [ops] at h
    bestEquivalence := fun _ _ h => by simp [ops] at h
    bestWeak := fun _ _ _ _ _ _ => Iff.rfl
    bestSimple := fun _ _ _ h => by simp [ops] at h
    minimalRange := fun _ _ => rfl
    minimalTester := fun _ => Or.inl rfl }

theorem sem_time (num den : Nat) : Sem (ops E (.time num den)) (Same (.time num den)) (Alike E (.time num den)) (Best E (.time num den)) := by
  have he : (ops E (.time num den)).tester .equality = none → False := by simp [ops]
  exact {
    eq := fun _ x y => by simp [ops, Same]
    testEquality := fun t h _ (x y : Int) => by
      simp only [ops, if_true] at h
      cases h
      rw [scalar_failed]
      refine ⟨fun g => g.1 rfl, fun g => ⟨fun _ => g, ?_⟩⟩
      rw [show x = y from g]
    testEquivalence := fun t h => by simp [ops] at h
    testWeak := fun t h => by simp [ops] at h
    testBest := fun t h => by simp [ops] at h
    rangeEquality := fun r h => by simp [ops] at h
    rangeSimple := fun r h => by simp [ops] at h
    rangeEquivalence := fun r h => by simp [ops] at h
    rangeWeak := fun r h => by simp [ops] at h
    rangeBest := fun r h => by simp [ops] at h
    fallback := fun _ _ _ _ _ => Iff.rfl
    bestEquality := fun _ _ _ _ => Iff.rfl
    bestEquivalence := fun _ h => (he h).elim
    bestWeak := fun _ h => (he h).elim
    bestSimple := fun _ h => (he h).elim
    minimalRange := fun _ _ => rfl
    minimalTester := fun _ => Or.inl rfl }

theorem sem_str : Sem (ops E .str) (Same .str) (Alike E .str) (Best E .str) := by
  have ht : ∀ (φ : Flavour) t, (ops E .str).tester φ = some t → ∀ x y : Ty.Val C .str, failed (t x y) = false ↔ x = y := by
    intro φ t h x y
    simp only [ops] at h
    split at h
    · cases h
      exact string_passes _ _ _ _ Iff.rfl
    · cases h
  have hr : ∀ (φ : Flavour) r, (ops E .str).range φ = some r → ∀ x y : Ty.Val C .str, (r x y).2 = true ↔ x = y := by
    intro φ r h x y
    simp only [ops] at h
    cases h
    refine (range_passes (R := Eq) scalar_passes _ _).trans ?_
    exact List.forall₂_eq_eq_eq ▸ Iff.rfl
  have he : (ops E .str).tester .equality = none → False := by simp [ops]
  exact {
    eq := fun _ x y => by simp [ops, Same]
    testEquality := fun t h _ x y => by
      rw [ht _ t h]
      exact ⟨fun g => g.2, fun g => ⟨fun _ => g, g⟩⟩
    testEquivalence := fun t h _ => ht _ t h
    testWeak := fun t h _ => ht _ t h
    testBest := fun t h => by simp [ops] at h
    rangeEquality := fun r h _ _ => hr _ r h
    rangeSimple := fun r h _ => hr _ r h
    rangeEquivalence := fun r h _ _ => hr _ r h
    rangeWeak := fun r h _ _ => hr _ r h
    rangeBest := fun r h _ _ => hr _ r h
    fallback := fun _ _ _ _ _ => Iff.rfl
    bestEquality := fun _ _ _ _ => Iff.rfl
    bestEquivalence := fun _ h => (he h).elim
    bestWeak := fun _ h => (he h).elim
    bestSimple := fun _ h => (he h).elim
    minimalRange := fun h => by simp [ops] at h
    minimalTester := fun _ => Or.inl (by simp [ops]) }

theorem sem_cls (hh : HonestClasses E) (n : Nat) : Sem (ops E (.cls n)) (Same (.cls n)) (Alike E (.cls n)) (Best E (.cls n)) := by
  have ht : ∀ (φ : Flavour) t, (ops E (.cls n)).tester φ = some t → ∀ x y : Ty.Val C (.cls n), failed (t x y) = false ↔ x = y :=
    fun φ t h x y => failed_false_iff.trans (hh.tester n φ t h x y)
  have hr : ∀ (φ : Flavour) r, (ops E (.cls n)).range φ = some r → False := by intro φ r h; simp [ops] at h
  exact {
    eq := hh.eq n
    testEquality := fun t h _ x y => by
      rw [ht _ t h]
      exact ⟨fun g => g.2, fun g => ⟨fun _ => g, g⟩⟩
    testEquivalence := fun t h _ => ht _ t h
    testWeak := fun t h _ => ht _ t h
    testBest := fun t h _ x y => by
      rw [ht _ t h]
      exact ⟨fun g => g.2, fun g => ⟨fun _ => g, g⟩⟩
    rangeEquality := fun r h => (hr _ r h).elim
    rangeSimple := fun r h => (hr _ r h).elim
    rangeEquivalence := fun r h => (hr _ r h).elim
    rangeWeak := fun r h => (hr _ r h).elim
    rangeBest := fun r h => (hr _ r h).elim
    fallback := fun _ _ _ _ _ => Iff.rfl
    bestEquality := fun _ _ _ _ => Iff.rfl
    bestEquivalence := fun _ _ _ _ _ => Iff.rfl
    bestWeak := fun _ _ _ _ _ _ => Iff.rfl
    bestSimple := fun _ _ _ _ _ _ _ _ => Iff.rfl
    minimalRange := fun _ _ => rfl
    minimalTester := fun _ => Or.inr ⟨fun _ _ => Iff.rfl, fun _ _ => Iff.rfl⟩ }

theorem sem_range (hh : Honest E) (hn : Nested E) (n : Nat) (e : Ty) (ih : Sem (ops E e) (Same e) (Alike E e) (Best E e)) :
    Sem (ops E (.range n e)) (Same (.range n e)) (Alike E (.range n e)) (Best E (.range n e)) := by
  have hr : ∀ (φ : Flavour) r, (ops E (.range n e)).range φ = some r → (ops E (.range n e)).bodyOk φ = true → ∀ x y : List (e.Val C),
      (r x y).2 = true ↔ List.Forall₂ (pick (Same e) (Alike E e) (Best E e) φ) x y := by
    intro φ r h hb x y
    simp only [ops] at h
    split at h
    · rename_i hs
      cases h
      exact range_passes (sem_ops (proper_all hn e) ih φ (by simp only [instantiable, hs, Bool.true_and]; exact hb)) _ _
    · cases h
  have ht : ∀ φ, (ops E (.range n e)).tester φ = none := fun φ => by simp [ops]
  have hf : (ops E (.range n e)).range .equivalence = none → supportsEquality (ops E (.range n e)) = true → PointerFree (.range n e) := by
    intro h hs
    have hu : supportsEquivalence (ops E e) = false := unsupported_of_none h
    have hc : (ops E (.range n e)).comparable = true := by
      have hq : supports (ops E e) .equality = false := by
        cases hq : supports (ops E e) .equality with
        | false => rfl
        | true =>
          simp only [supports] at hq
          simp [supportsEquivalence, hq] at hu
      have hr : (ops E (.range n e)).range .equality = none := if_neg (by rw [hq]; decide)
      simp only [supportsEquality, ht, hr, Option.isSome_none, Bool.or_false, Bool.and_eq_true] at hs
      exact hs.1
    exact pointerFree_of_unsupported e ((comparable_iff (E := E) (.range n e)).mp hc).2 hu
  exact {
    eq := fun hc x y => by
      have := (comparable_iff (E := E) (.range n e)).mp hc
      exact hh.range n e this.1 this.2 x y
    testEquality := fun t h => by rw [ht] at h; cases h
    testEquivalence := fun t h => by rw [ht] at h; cases h
    testWeak := fun t h => by rw [ht] at h; cases h
    testBest := fun t h => by rw [ht] at h; cases h
    rangeEquality := fun r h hb _ => hr _ r h hb
    rangeSimple := fun r h hb => hr _ r h hb
    rangeEquivalence := fun r h hb _ => hr _ r h hb
    rangeWeak := fun r h hb _ => hr _ r h hb
    rangeBest := fun r h hb _ => hr _ r h hb
    fallback := fun _ h hs x y => (same_eq _ (hf h hs) x y).trans (alike_eq _ (hf h hs) x y).symm
    bestEquality := fun _ h => by rw [ht] at h; cases h
    bestEquivalence := fun _ _ h => by rw [ht] at h; cases h
    bestWeak := fun _ _ _ h => by rw [ht] at h; cases h
    minimalRange := fun h hc => by
      have hm : supportsMinimal (ops E e) = false := unsupported_of_none h
      have hce := (comparable_iff e).mpr ((comparable_iff (E := E) (.range n e)).mp hc).2
      simp [supportsMinimal, hce] at hm
    minimalTester := fun _ => Or.inl (ht _)
    bestSimple := fun _ _ _ _ h hc x y => by
      have hp : PointerFree (.range n e) := by
        refine pointerFree_of_unsupported (E := E) e ((comparable_iff (E := E) (.range n e)).mp hc).2 ?_
        cases hq : supportsEquivalence (ops E e) with
        | false => rfl
        | true =>
          have hs : supportsBest (ops E e) = false := unsupported_of_none h
          rw [supportsBest_of_equivalence hq] at hs
          cases hs
      exact (same_eq _ hp x y).trans (best_eq _ hp x y).symm }

theorem sem_compound {α : Type} {o : Ops α} {S A B D : α → α → Prop} (ht : ∀ φ, (o.tester φ).isSome = true) (hr : ∀ φ, o.range φ = none)
    (heq : o.comparable = true → ∀ x y, o.eq x y = true ↔ S x y)
    (h : ∀ φ t, o.tester φ = some t → o.bodyOk φ = true → ∀ x y, failed (t x y) = false ↔ pick S A D φ x y)
    (hB : ∀ x y, ((o.comparable = true → S x y) ∧ D x y) ↔ B x y) : Sem o S A B := by
  have hn : ∀ {φ}, o.tester φ = none → False := fun {φ} g => by have := ht φ; rw [g] at this; cases this
  have hm : ∀ {φ} {r}, o.range φ = some r → False := fun {φ} {r} g => by rw [hr] at g; cases g
  exact {
    eq := heq
    testEquality := fun t ht hb x y => by
      rw [h .equality t ht hb]
      exact ⟨fun g => g.2, fun g => ⟨fun _ => g, g⟩⟩
    testEquivalence := fun t ht hb => h .equivalence t ht hb
    testWeak := fun t ht hb => h .weak t ht hb
    testBest := fun t ht hb x y => by rw [h .best t ht hb]; exact hB x y
    rangeEquality := fun r h => (hm h).elim
    rangeSimple := fun r h => (hm h).elim
    rangeEquivalence := fun r h => (hm h).elim
    rangeWeak := fun r h => (hm h).elim
    rangeBest := fun r h => (hm h).elim
    fallback := fun h => (hn h).elim
    bestEquality := fun h => (hn h).elim
    bestEquivalence := fun h => (hn h).elim
    bestWeak := fun h => (hn h).elim
    bestSimple := fun h => (hn h).elim
    minimalRange := fun _ _ => hr _
    minimalTester := fun h => (hn h).elim }

theorem sem_all (hh : Honest E) (hn : Nested E) : ∀ T : Ty, Sem (ops E T) (Same T) (Alike E T) (Best E T)
  | .cls n => sem_cls hh.toHonestClasses n
  | .str => sem_str
  | .range n e => sem_range hh hn n e (sem_all hh hn e)
  | .pair s t => by
    have hs := sem_all hh hn s
    have ht := sem_all hh hn t
    refine sem_compound (D := fun (x y : s.Val C × t.Val C) => Best E s x.1 y.1 ∧ Best E t x.2 y.2) (fun φ => rfl) (fun φ => rfl) ?_ ?_ ?_
    · intro hc x y
      simp only [ops, Bool.and_eq_true] at hc
      exact (Bool.and_eq_true _ _).to_iff.trans (and_congr (hs.eq hc.1 _ _) (ht.eq hc.2 _ _))
    · intro φ u hu hb x y
      simp only [ops, Bool.and_eq_true] at hb
      simp only [ops] at hu
      cases hu
      rw [failed_append, Bool.or_eq_false_iff, (proper_ops (proper_all hn s) φ _ _).passes, (proper_ops (proper_all hn t) φ _ _).passes,
        sem_ops (proper_all hn s) hs φ hb.1, sem_ops (proper_all hn t) ht φ hb.2]
      cases φ <;> exact Iff.rfl
    · intro x y
      rw [comparable_iff]
      exact Iff.rfl
  | .tup n ts => by
    have hs := fun i => sem_all hh hn (ts i)
    refine sem_compound (D := fun (x y : (i : Fin n) → (ts i).Val C) => ∀ i, Best E (ts i) (x i) (y i)) (fun φ => rfl) (fun φ => rfl) ?_ ?_ ?_
    · intro hc x y
      simp only [ops, List.all_eq_true, List.mem_finRange, true_implies] at hc ⊢
      exact forall_congr' fun i => (hs i).eq (hc i) _ _
    · intro φ u hu hb x y
      simp only [ops, List.all_eq_true, List.mem_finRange, true_implies] at hb
      simp only [ops] at hu
      cases hu
      refine (tuple_passes (fun i => proper_ops (proper_all hn (ts i)) φ) (fun i => sem_ops (proper_all hn (ts i)) (hs i) φ (hb i)) x y).trans ?_
      cases φ <;> exact Iff.rfl
    · intro x y
      rw [comparable_iff]
      exact Iff.rfl
  | .var n ts => by
    have hs := fun i => sem_all hh hn (ts i)
    refine sem_compound (D := fun (x y : (i : Fin n) × (ts i).Val C) => Alternatives (fun i => Best E (ts i)) x y) (fun φ => rfl) (fun φ => rfl) ?_ ?_ ?_
    · rintro hc ⟨i, x⟩ ⟨j, y⟩
      simp only [ops, List.all_eq_true, List.mem_finRange, true_implies] at hc ⊢
      by_cases h : i = j
      · subst h
        simp only [dif_pos]
        exact ((hs i).eq (hc i) _ _).trans (alternatives_same (R := fun i => Same (ts i))).symm
      · rw [dif_neg h]
        exact ⟨fun g => (Bool.false_ne_true g).elim, fun g => (alternatives_ne h g).elim⟩
    · intro φ u hu hb x y
      simp only [ops, List.all_eq_true, List.mem_finRange, true_implies] at hb
      simp only [ops] at hu
      cases hu
      refine (variant_passes (fun i => proper_ops (proper_all hn (ts i)) φ) (fun i => sem_ops (proper_all hn (ts i)) (hs i) φ (hb i)) x y).trans ?_
      cases φ <;> exact Iff.rfl
    · intro x y
      rw [comparable_iff]
      exact Iff.rfl
  | .opt t => by
    have ht := sem_all hh hn t
    refine sem_compound (D := fun (x y : Option (t.Val C)) => Both (Best E t) x y) (fun φ => rfl) (fun φ => rfl) ?_ ?_ ?_
    · intro hc x y
      simp only [ops] at hc
      rcases x with _ | x <;> rcases y with _ | y
      · exact ⟨fun _ => trivial, fun _ => rfl⟩
      · exact ⟨fun h => (Bool.false_ne_true h).elim, fun h => False.elim h⟩
      · exact ⟨fun h => (Bool.false_ne_true h).elim, fun h => False.elim h⟩
      · exact ht.eq hc x y
    · intro φ u hu hb x y
      simp only [ops] at hb hu
      cases hu
      refine (nullable_passes (proper_ops (proper_all hn t) φ) (sem_ops (proper_all hn t) ht φ hb) x y).trans ?_
      cases φ <;> exact Iff.rfl
    · intro x y
      rw [comparable_iff]
      exact Iff.rfl
  | .ptr t => sem_raw (proper_all hn t) (sem_ops (proper_all hn t) (sem_all hh hn t) .best) true
  | .smart t => sem_smart (proper_all hn t) (sem_ops (proper_all hn t) (sem_all hh hn t) .best) _
  | .weak t => sem_weakPointer (proper_all hn t) (sem_ops (proper_all hn t) (sem_all hh hn t) .best) _
  | .fn => sem_fn
  | .time num den => sem_time num den

theorem pick_means (φ : Flavour) (T : Ty) (x y : T.Val C) : pick (Same T) (Alike E T) (Best E T) φ x y ↔ Means E φ T x y := by
  cases φ <;> exact Iff.rfl

end

end Verif.CheckersLemmas
