import Mathlib.Tactic.FieldSimp
import Mathlib.Tactic.NormNum
import Mathlib.Tactic.Ring
import Mathlib.Tactic.Linarith
import Mathlib.Tactic.Positivity
import Verif.Spec.RoundedConvert
import Verif.Lemmas.Convert

set_option linter.unusedSectionVars false

namespace Verif.Rounded
open Verif.Convert Verif.Spec Verif.Spec.Rounded

/-! ### Positive ratios -/

section
variable {A : Arith} (hA : Faithful A)
include hA

theorem lift_pos {a : Val ℚ} (h : 0 < a.toK) : 0 < lift A a := by
  cases a with
  | int z => exact hA.R_pos _ h
  | fp x => exact h

theorem reducedC_pos {n d : Val ℚ} (hn : 0 < n.toK) (hd : 0 < d.toK) : 0 < (reducedC A n d).1.toK ∧ 0 < (reducedC A n d).2.toK := by
  cases n with
  | int n =>
    cases d with
    | int d =>
      have hn' : (0 : ℤ) < n := by exact_mod_cast (show (0 : ℚ) < n from hn)
      have hd' : (0 : ℤ) < d := by exact_mod_cast (show (0 : ℚ) < d from hd)
      have hg : (0 : ℤ) < (Int.gcd n d : ℤ) := by exact_mod_cast Int.gcd_pos_of_ne_zero_left d hn'.ne'
      have key : ∀ m : ℤ, 0 < m → (Int.gcd n d : ℤ) ∣ m → 0 < m.tdiv (Int.gcd n d) := by
        intro m hm hdvd
        obtain ⟨k, hk⟩ := hdvd
        rw [hk, Int.mul_tdiv_cancel_left _ hg.ne']
        by_contra hc
        have : (Int.gcd n d : ℤ) * k ≤ 0 := Int.mul_nonpos_of_nonneg_of_nonpos hg.le (by omega)
        omega
      simp only [reducedC, Val.toK]
      exact ⟨by exact_mod_cast key n hn' (Int.gcd_dvd_left ..), by exact_mod_cast key d hd' (Int.gcd_dvd_right ..)⟩
    | fp d => simp only [reducedC]; split <;> simp_all [Val.toK]
  | fp n =>
    cases d with
    | int d => simp only [reducedC]; split <;> simp_all [Val.toK]
    | fp d => simp only [reducedC]; split <;> simp_all [Val.toK]

theorem timesC_pos {m n : Val ℚ} (hm : 0 < m.toK) (hn : 0 < n.toK) : 0 < (timesC A m n).toK := by
  unfold timesC
  split
  · simp [Val.toK]
  split
  · exact hn
  split
  · exact hm
  split
  · rename_i a b _ _ _
    split
    · exact hA.R_pos _ (mul_pos (hA.R_pos _ hm) (hA.R_pos _ hn))
    · have : (0 : ℚ) < a * b := mul_pos hm hn
      simpa [Val.toK] using this
  · exact hA.R_pos _ (mul_pos (lift_pos hA hm) (lift_pos hA hn))

/-- The ratio of a transform is positive. -/
def PosT (t : Transform ℚ) : Prop := 0 < t.num.toK ∧ 0 < t.den.toK

theorem inverseC_pos {t : Transform ℚ} (h : PosT t) : PosT (inverseC A t) := ⟨h.2, h.1⟩

theorem productC_pos {l r : Transform ℚ} (hl : PosT l) (hr : PosT r) : PosT (productC A l r) := by
  obtain ⟨h1, h2⟩ := reducedC_pos hA hl.1 hl.2
  obtain ⟨h3, h4⟩ := reducedC_pos hA hr.1 hr.2
  obtain ⟨h5, h6⟩ := reducedC_pos hA h1 h4
  obtain ⟨h7, h8⟩ := reducedC_pos hA h3 h2
  exact ⟨timesC_pos hA h5 h7, timesC_pos hA h6 h8⟩

variable {N : Type}

theorem rootC_pos : ∀ s : Simple N ℚ, Positive s → PosT (rootC A s)
  | .base _ _, _ => by simp [rootC, Transform.identity, PosT, Val.toK]
  | .derived _ (.base _ _) t, h => h.2
  | .derived _ (.derived n w t') t, h => productC_pos hA h.2 (rootC_pos (.derived n w t') h.1)

theorem conversionC_pos {u w : Simple N ℚ} (hu : Positive u) (hw : Positive w) : PosT (conversionC A u w) :=
  productC_pos hA (rootC_pos hA w hw) (inverseC_pos hA (rootC_pos hA u hu))

/-! ### Conversions preserve the order -/

/-- Two numbers of the same type, in order. -/
inductive Le : RVal → RVal → Prop where
  | u {x y} (h : x ≤ y) : Le (.u x) (.u y)
  | l {x y} (h : x ≤ y) : Le (.l x) (.l y)

omit hA in
theorem Le.val {x y : RVal} (h : Le x y) : x.val ≤ y.val := by cases h <;> assumption

theorem mulR_mono {x y : RVal} (h : Le x y) {c : Val ℚ} (hc : 0 < c.toK) : Le (mulR A x c) (mulR A y c) := by
  cases h with
  | u h =>
    cases c with
    | int z => exact .u (hA.U_mono _ _ (mul_le_mul_of_nonneg_right h (hA.U_pos _ hc).le))
    | fp c => exact .l (hA.R_mono _ _ (mul_le_mul_of_nonneg_right h hc.le))
  | l h => exact .l (hA.R_mono _ _ (mul_le_mul_of_nonneg_right h (lift_pos hA hc).le))

theorem divR_mono {x y : RVal} (h : Le x y) {c : Val ℚ} (hc : 0 < c.toK) : Le (divR A x c) (divR A y c) := by
  cases h with
  | u h =>
    cases c with
    | int z => exact .u (hA.U_mono _ _ (div_le_div_of_nonneg_right h (hA.U_pos _ hc).le))
    | fp c => exact .l (hA.R_mono _ _ (div_le_div_of_nonneg_right h hc.le))
  | l h => exact .l (hA.R_mono _ _ (div_le_div_of_nonneg_right h (lift_pos hA hc).le))

theorem addR_mono {x y : RVal} (h : Le x y) (c : Val ℚ) : Le (addR A x c) (addR A y c) := by
  cases h with
  | u h =>
    cases c with
    | int z => exact .u (hA.U_mono _ _ (by linarith))
    | fp c => exact .l (hA.R_mono _ _ (by linarith))
  | l h => exact .l (hA.R_mono _ _ (by linarith))

theorem addZero_mono {x y : RVal} (h : Le x y) : Le (addZero A x) (addZero A y) := by
  cases h with
  | u h => exact .u (hA.U_mono _ _ (by linarith))
  | l h => exact .l (hA.R_mono _ _ (by linarith))

theorem applyR_mono (free : Bool) {t : Transform ℚ} (ht : PosT t) {v w : ℚ} (h : v ≤ w) : applyR A free t v ≤ applyR A free t w := by
  obtain ⟨h1, h2⟩ := reducedC_pos hA ht.1 ht.2
  have h3 := divR_mono hA (mulR_mono hA (Le.u h) h1) h2
  unfold applyR
  cases free with
  | true => exact hA.U_mono _ _ (addZero_mono hA h3).val
  | false => exact hA.U_mono _ _ (addR_mono hA h3 t.disp).val

/-! ### The zero of the base unit -/

theorem lift_zero {a : Val ℚ} (h : a.toK = 0) : lift A a = 0 := by
  cases a with
  | int z => show A.R z = 0; rw [show (z : ℚ) = 0 from h]; exact hA.R_zero
  | fp x => exact h

theorem scaledC_zero (t : Transform ℚ) {a : Val ℚ} (h : a.toK = 0) : (scaledC A t a).toK = 0 := by
  have hm : ∀ c, (mulC A a c).toK = 0 := by
    intro c
    cases a with
    | int z =>
      have hz : z = 0 := by exact_mod_cast (show (z : ℚ) = 0 from h)
      subst hz
      cases c with
      | int c => simp [mulC, Val.toK]
      | fp c => simp [mulC, Val.toK, lift, hA.R_zero]
    | fp x =>
      have hx : x = 0 := h
      subst hx
      cases c <;> simp [mulC, Val.toK, lift, hA.R_zero]
  have hd : ∀ b c : Val ℚ, b.toK = 0 → (divC A b c).toK = 0 := by
    intro b c hb
    cases b with
    | int z =>
      have hz : z = 0 := by exact_mod_cast (show (z : ℚ) = 0 from hb)
      subst hz
      cases c <;> simp [divC, Val.toK, lift, hA.R_zero]
    | fp x =>
      have hx : x = 0 := hb
      subst hx
      cases c <;> simp [divC, Val.toK, lift, hA.R_zero]
  exact hd _ _ (hm _)

/-- Adding zero to a number of type `long double`, or to zero. -/
theorem addC_zero {a b : Val ℚ} (hb : b.toK = 0) (ha : (∃ x, a = .fp x ∧ A.R x = x) ∨ a.toK = 0) : (∃ x, a = .fp x ∧ addC A a b = .fp x) ∨ a.toK = 0 ∧ (addC A a b).toK = 0 := by
  rcases ha with ⟨x, rfl, hx⟩ | ha
  · refine .inl ⟨x, rfl, ?_⟩
    have h0 := lift_zero hA hb
    cases b <;> simp only [addC, lift] at h0 ⊢ <;> rw [h0, add_zero, hx]
  · refine .inr ⟨ha, ?_⟩
    have h1 := lift_zero hA ha
    have h2 := lift_zero hA hb
    cases a with
    | int z =>
      cases b with
      | int w =>
        simp only [Val.toK] at ha hb
        simp [addC, Val.toK, ha, hb]
      | fp y => simp only [addC, h1, h2, add_zero, hA.R_zero, Val.toK]
    | fp x => cases b <;> simp only [addC, h1, h2, add_zero, hA.R_zero, Val.toK]

theorem addC_comm (a b : Val ℚ) : addC A a b = addC A b a := by
  cases a <;> cases b <;> simp [addC, add_comm]

/-- A displacement which is zero or a number of type `long double`. -/
def FineC (A : Arith) (a : Val ℚ) : Prop := (∃ x, a = .fp x ∧ A.R x = x) ∨ a.toK = 0

/-- What is at the zero of the base unit. -/
theorem apply_base_zero {s : Simple N ℚ} (n : N) (v : Validator ℚ) (hf : FineC A (rootC A s).disp) :
    applyR A false (conversionC A (.base n v) s) 0 = A.U (rootC A s).disp.toK := by
  have hi : (inverseC A (rootC A (.base n v : Simple N ℚ))).disp.toK = 0 := by
    simp [rootC, Transform.identity, inverseC, reducedC, mulC, divC, Val.neg, Val.toK]
  have hz : ∀ c d : Val ℚ, (divR A (mulR A (.u 0) c) d) = .u 0 ∨ (divR A (mulR A (.u 0) c) d) = .l 0 := by
    intro c d
    have hm : mulR A (.u 0) c = .u 0 ∨ mulR A (.u 0) c = .l 0 := by
      cases c with
      | int z => left; simp [mulR, hA.U_zero]
      | fp c => right; simp [mulR, hA.R_zero]
    rcases hm with hm | hm <;> rw [hm]
    · cases d with
      | int z => left; simp [divR, hA.U_zero]
      | fp c => right; simp [divR, hA.R_zero]
    · right; simp [divR, hA.R_zero]
  have hd : (conversionC A (.base n v) s).disp = addC A (rootC A s).disp (scaledC A (rootC A s) (inverseC A (rootC A (.base n v : Simple N ℚ))).disp) := rfl
  have ha := addC_zero hA (scaledC_zero hA (rootC A s) hi) hf
  rw [← hd] at ha
  unfold applyR
  dsimp only
  generalize (conversionC A (.base n v) s).disp = δ at ha
  rcases ha with ⟨x, hx, hx'⟩ | ⟨h1, h2⟩
  · subst hx'
    rw [hx]
    have hR : A.R x = x := by
      rcases hf with ⟨y, hy, hy'⟩ | h0
      · rw [hx] at hy; cases hy; exact hy'
      · rw [hx] at h0; have : x = 0 := h0; rw [this]; exact hA.R_zero
    rcases hz (reducedC A (conversionC A (.base n v) s).num (conversionC A (.base n v) s).den).1 (reducedC A (conversionC A (.base n v) s).num (conversionC A (.base n v) s).den).2 with h | h <;> rw [h]
      <;> simp [addR, RVal.val, lift, hR, Val.toK]
  · rw [h1]
    have hl := lift_zero hA h2
    rcases hz (reducedC A (conversionC A (.base n v) s).num (conversionC A (.base n v) s).den).1 (reducedC A (conversionC A (.base n v) s).num (conversionC A (.base n v) s).den).2 with h | h <;> rw [h]
    · cases δ with
      | int z => simp only [Val.toK] at h2; simp [addR, RVal.val, h2, hA.U_zero]
      | fp y => simp only [Val.toK] at h2; simp [addR, RVal.val, h2, hA.R_zero]
    · simp only [addR, RVal.val, hl, add_zero, hA.R_zero, if_false, Bool.false_eq_true]

/-- The validator of a unit whose base unit has the validator for the half line: it is that for the half line, or the bound is the image of zero. -/
theorem validatorC_spec : ∀ s : Simple N ℚ, baseValidator s = .halfLine → Representable A s → ∀ v, validatorC A s = some v →
    (v = .halfLine ∧ (rootC A s).disp.toK = 0) ∨ ∃ x, v = .interval (some x) none ∧ (rootC A s).disp = .fp x ∧ A.R x = x
  | .base _ w, hb, _, v, hv => by
    have : v = w := by simpa [validatorC] using hv.symm
    subst this
    exact .inl ⟨hb, by simp [rootC, Transform.identity, Val.toK]⟩
  | .derived _ (.base n w) t, hb, hr, v, hv => by
    have hw : w = .halfLine := hb
    subst hw
    simp only [validatorC, Option.bind_some, synthesisedC, Validator.scaleInvariant, Validator.definesHalfLine, Bool.or_true, if_true] at hv
    split at hv
    · rename_i h0; cases hv; exact .inl ⟨rfl, h0⟩
    · simp only [Validator.translationInvariant, Bool.false_eq_true, if_false] at hv
      split at hv
      · cases hv
      · rename_i d hd; cases hv; exact .inr ⟨d, rfl, hd, hr.2 d hd⟩
  | .derived _ (.derived n w t') t, hb, hr, v, hv => by
    have ih := validatorC_spec (.derived n w t') hb hr.1
    simp only [validatorC] at hv ih
    obtain ⟨v', hv', hs⟩ := Option.bind_eq_some_iff.mp hv
    show _ ∧ (addC A t.disp (scaledC A t (rootC A (.derived n w t')).disp)).toK = 0 ∨ ∃ x, _ ∧ addC A t.disp (scaledC A t (rootC A (.derived n w t')).disp) = .fp x ∧ _
    have hfine : FineC A t.disp ∨ ∃ z, t.disp = .int z ∧ z ≠ 0 := by
      cases h : t.disp with
      | fp x => exact .inl (.inl ⟨x, rfl, hr.2 x h⟩)
      | int z =>
        by_cases hz : z = 0
        · exact .inl (.inr (by simp [Val.toK, hz]))
        · exact .inr ⟨z, rfl, hz⟩
    rcases ih v' hv' with ⟨rfl, h0⟩ | ⟨x, rfl, hx, hR⟩
    · simp only [synthesisedC, Validator.scaleInvariant, Validator.definesHalfLine, Bool.or_true, if_true] at hs
      split at hs
      · rename_i ht
        cases hs
        refine .inl ⟨rfl, ?_⟩
        rcases addC_zero hA (scaledC_zero hA t h0) (.inr ht) with ⟨x, hx, hx'⟩ | h
        · rw [hx']; rw [hx] at ht; exact ht
        · exact h.2
      · rename_i h1
        simp only [Validator.translationInvariant, Bool.false_eq_true, if_false] at hs
        split at hs
        · cases hs
        · rename_i d hd
          cases hs
          refine .inr ⟨d, rfl, ?_, hr.2 d hd⟩
          rcases addC_zero hA (scaledC_zero hA t h0) (.inl ⟨d, hd, hr.2 d hd⟩) with ⟨x, hx, hx'⟩ | h
          · rw [hx']; rw [hd] at hx; cases hx; rfl
          · exact absurd h.1 h1
    · unfold synthesisedC at hs
      by_cases hsc : (Validator.interval (some x) none : Validator ℚ).scaleInvariant = true
      · rw [if_pos hsc] at hs
        have hx0 : x = 0 := by simpa [Validator.scaleInvariant, Validator.definesIdentity, Validator.definesHalfLine] using hsc
        have h0 : (rootC A (.derived n w t')).disp.toK = 0 := by rw [hx]; exact hx0
        split at hs
        · rename_i ht
          cases hs
          refine .inr ⟨x, rfl, ?_, hR⟩
          subst hx0
          have hl : lift A t.disp = 0 := lift_zero hA ht
          rw [hx]
          have hsz := scaledC_zero hA t (a := .fp 0) rfl
          have hfp : ∃ y, scaledC A t (.fp 0) = .fp y := by
            unfold scaledC
            cases (reducedC A t.num t.den).1 <;> cases (reducedC A t.num t.den).2 <;> exact ⟨_, rfl⟩
          obtain ⟨y, hy⟩ := hfp
          rw [hy] at hsz ⊢
          have hy0 : y = 0 := hsz
          subst hy0
          cases hd : t.disp with
          | int z => rw [hd] at hl; simp only [addC, lift] at hl ⊢; rw [hl, add_zero, hA.R_zero]
          | fp z => rw [hd] at hl; simp only [addC, lift] at hl ⊢; rw [hl, add_zero, hA.R_zero]
        · rename_i h1
          simp only [Validator.translationInvariant, Bool.false_eq_true, if_false] at hs
          split at hs
          · cases hs
          · rename_i d hd
            cases hs
            refine .inr ⟨d, rfl, ?_, hr.2 d hd⟩
            rcases addC_zero hA (scaledC_zero hA t h0) (.inl ⟨d, hd, hr.2 d hd⟩) with ⟨x, hx, hx'⟩ | h
            · rw [hx']; rw [hd] at hx; cases hx; rfl
            · exact absurd h.1 h1
      · rw [if_neg hsc] at hs
        simp only [mkInterval, Option.map_some, Option.map_none] at hs
        cases hs
        have hfp : ∃ y, scaledC A t (.fp x) = .fp y := by
          unfold scaledC
          cases (reducedC A t.num t.den).1 <;> cases (reducedC A t.num t.den).2 <;> exact ⟨_, rfl⟩
        obtain ⟨y, hy⟩ := hfp
        refine .inr ⟨_, rfl, ?_, ?_⟩
        · rw [hx, addC_comm hA, boundC, hy]
          cases t.disp <;> rfl
        · rw [boundC, hy]
          cases t.disp <;> exact hA.R_idem _

theorem validatorC_fine {s : Simple N ℚ} (hb : baseValidator s = .halfLine) (hr : Representable A s) {v : Validator ℚ} (hv : validatorC A s = some v) : FineC A (rootC A s).disp := by
  rcases validatorC_spec hA s hb hr v hv with ⟨_, h⟩ | ⟨x, _, h, hx⟩
  · exact .inr h
  · exact .inl ⟨x, h, hx⟩

/-- A value is accepted exactly if it is at least the image of zero. -/
theorem accepts_iff {s : Simple N ℚ} (hb : baseValidator s = .halfLine) (hr : Representable A s) {v : Validator ℚ} (hv : validatorC A s = some v) (n : N) (v0 : Validator ℚ) (x : ℚ) :
    acceptsU A v x = true ↔ applyR A false (conversionC A (.base n v0) s) 0 ≤ x := by
  rw [apply_base_zero hA n v0 (validatorC_fine hA hb hr hv)]
  rcases validatorC_spec hA s hb hr v hv with ⟨rfl, h⟩ | ⟨y, rfl, h, hx⟩
  · rw [h, hA.U_zero]; simp [acceptsU]
  · rw [h]; simp [acceptsU, Val.toK]

end

/-! ### The relative error -/

/-- Numerator and denominator are integers. -/
def IntT (t : Transform ℚ) : Prop := ∃ n d : ℤ, t.num = .int n ∧ t.den = .int d

theorem timesC_int {A : Arith} (ho : A.overflow = fun _ _ => false) (a b : ℤ) :
    timesC A (.int a) (.int b) = ratioTimes (fun _ _ => false) (.int a) (.int b) ∧ ∃ c, timesC A (.int a) (.int b) = .int c := by
  unfold timesC ratioTimes
  split
  · exact ⟨rfl, _, rfl⟩
  split
  · exact ⟨rfl, _, rfl⟩
  split
  · exact ⟨rfl, _, rfl⟩
  · simp only [ho, Bool.false_eq_true, if_false]
    exact ⟨trivial, _, rfl⟩

theorem ratioMulC_int {A : Arith} (ho : A.overflow = fun _ _ => false) (a b c d : ℤ) :
    ratioMulC A (.int a) (.int b) (.int c) (.int d) = ratioMul (fun _ _ => false) (.int a) (.int b) (.int c) (.int d) ∧
    (∃ n, (ratioMulC A (.int a) (.int b) (.int c) (.int d)).1 = .int n) ∧ ∃ n, (ratioMulC A (.int a) (.int b) (.int c) (.int d)).2 = .int n := by
  refine ⟨?_, ?_, ?_⟩
  · simp only [ratioMulC, ratioMul, reducedC, reduced]
    rw [(timesC_int ho _ _).1, (timesC_int ho _ _).1]
  · exact (timesC_int ho _ _).2
  · exact (timesC_int ho _ _).2

/-- The ratio is the same as that without rounding. -/
def SameRatio (t t' : Transform ℚ) : Prop := t.num = t'.num ∧ t.den = t'.den ∧ IntT t

theorem productC_same {A : Arith} (ho : A.overflow = fun _ _ => false) {l l' r r' : Transform ℚ} (hl : SameRatio l l') (hr : SameRatio r r') :
    SameRatio (productC A l r) (l'.product (fun _ _ => false) r') := by
  obtain ⟨h1, h2, a, b, h3, h4⟩ := hl
  obtain ⟨h5, h6, c, d, h7, h8⟩ := hr
  obtain ⟨h9, ⟨m, h10⟩, n, h11⟩ := ratioMulC_int ho a b c d
  refine ⟨?_, ?_, m, n, ?_, ?_⟩
  · simp only [productC, Transform.product]; rw [← h1, ← h2, ← h5, ← h6, h3, h4, h7, h8, h9]
  · simp only [productC, Transform.product]; rw [← h1, ← h2, ← h5, ← h6, h3, h4, h7, h8, h9]
  · simp only [productC]; rw [h3, h4, h7, h8, h10]
  · simp only [productC]; rw [h3, h4, h7, h8, h11]

theorem inverseC_same {A : Arith} {t t' : Transform ℚ} (h : SameRatio t t') : SameRatio (inverseC A t) t'.inverse := by
  obtain ⟨h1, h2, n, d, h3, h4⟩ := h
  exact ⟨h2, h1, d, n, h4, h3⟩

variable {N : Type}

theorem rootC_same {A : Arith} (ho : A.overflow = fun _ _ => false) : ∀ s : Simple N ℚ, Integral s → SameRatio (rootC A s) (s.transform fun _ _ => false)
  | .base _ _, _ => ⟨rfl, rfl, 1, 1, rfl, rfl⟩
  | .derived _ (.base _ _) _, h => ⟨rfl, rfl, h.2⟩
  | .derived _ (.derived n w t') _, h => productC_same ho ⟨rfl, rfl, h.2⟩ (rootC_same ho (.derived n w t') h.1)

theorem conversionC_same {A : Arith} (ho : A.overflow = fun _ _ => false) {u w : Simple N ℚ} (hu : Integral u) (hw : Integral w) :
    SameRatio (conversionC A u w) ((w.transform fun _ _ => false).product (fun _ _ => false) (u.transform fun _ _ => false).inverse) :=
  productC_same ho (rootC_same ho w hw) (inverseC_same (rootC_same ho u hu))

theorem proper_of_positive : ∀ s : Simple N ℚ, Positive s → Proper s
  | .base _ _, _ => trivial
  | .derived _ w _, h => ⟨proper_of_positive w h.1, h.2.1.ne', h.2.2.ne'⟩

/-- The ratio of a conversion, computed without overflow. -/
theorem conversionC_ratio {A : Arith} {u w : Simple N ℚ} (hu : Integral u) (hw : Integral w) (hpu : Proper u) (hpw : Proper w) (h : conversionC A u w = conversionC (unlimited A) u w) :
    ∃ n d : ℤ, reducedC A (conversionC A u w).num (conversionC A u w).den = (.int n, .int d) ∧ (n : ℚ) / d = factor w * (factor u)⁻¹ ∧ (n : ℚ) ≠ 0 ∧ (d : ℚ) ≠ 0 := by
  obtain ⟨h1, h2, n, d, h3, h4⟩ := conversionC_same (A := unlimited A) rfl hu hw
  rw [← h] at h1 h2 h3 h4
  obtain ⟨h5, h6⟩ := transform_ok (fun _ _ => false) u hpu
  obtain ⟨h7, h8⟩ := transform_ok (fun _ _ => false) w hpw
  obtain ⟨h9, h10⟩ := inverse_ok h5
  obtain ⟨h11, h12⟩ := product_ok (fun _ _ => false) h7 h9
  rw [h10, h6, h8] at h12
  have hn : (Val.int n : Val ℚ).toK ≠ 0 := by rw [← h3, h1]; exact h11.1
  have hd : (Val.int d : Val ℚ).toK ≠ 0 := by rw [← h4, h2]; exact h11.2
  obtain ⟨h13, h14, h15⟩ := reduced_val (.int n : Val ℚ) (.int d) hn hd
  refine ⟨n.tdiv (Int.gcd n d), d.tdiv (Int.gcd n d), ?_, ?_, h14, h15⟩
  · rw [h3, h4]; rfl
  · have : (Val.int n : Val ℚ).toK / (Val.int d : Val ℚ).toK = factor w * (factor u)⁻¹ := by rw [← h12, Ratio, ← h1, ← h2, h3, h4]
    rw [← this, ← h13]; rfl

theorem root_unshifted {A : Arith} (hA : Faithful A) : ∀ s : Simple N ℚ, Unshifted s → (rootC A s).disp.toK = 0
  | .base _ _, _ => by simp [rootC, Transform.identity, Val.toK]
  | .derived _ (.base _ _) t, h => h.2
  | .derived _ (.derived n w t') t, h => by
    have ih := root_unshifted hA (.derived n w t') h.1
    rcases addC_zero hA (scaledC_zero hA t ih) (.inr h.2) with ⟨x, hx, hx'⟩ | h'
    · show (addC A t.disp _).toK = 0
      rw [hx']; have := h.2; rw [hx] at this; exact this
    · exact h'.2

theorem inverse_unshifted {A : Arith} (hA : Faithful A) {t : Transform ℚ} (h : t.disp.toK = 0) : (inverseC A t).disp.toK = 0 := by
  have := scaledC_zero hA ⟨t.den, t.num, t.disp⟩ h
  have h2 : (inverseC A t).disp = (scaledC A ⟨t.den, t.num, t.disp⟩ t.disp).neg := rfl
  rw [h2, toK_neg, this, neg_zero]

theorem conversionC_unshifted {A : Arith} (hA : Faithful A) {u w : Simple N ℚ} (hu : Unshifted u) (hw : Unshifted w) : (conversionC A u w).disp.toK = 0 := by
  have h1 := root_unshifted hA w hw
  have h2 := inverse_unshifted hA (root_unshifted hA u hu)
  rcases addC_zero hA (scaledC_zero hA (rootC A w) h2) (.inr h1) with ⟨x, hx, hx'⟩ | h'
  · show (addC A (rootC A w).disp _).toK = 0
    rw [hx']; rw [hx] at h1; exact h1
  · exact h'.2

/-- The operations which are done. -/
theorem applyR_int {A : Arith} (hA : Faithful A) (free : Bool) {t : Transform ℚ} {n d : ℤ} (h : reducedC A t.num t.den = (.int n, .int d)) (hf : free = true ∨ t.disp.toK = 0) (v : ℚ) :
    applyR A free t v = A.U (A.U (v * A.U n) / A.U d) := by
  unfold applyR
  rw [h]
  dsimp only [mulR, divR]
  cases free with
  | true => simp only [if_true, addZero, RVal.val, add_zero, hA.U_idem]
  | false =>
    have h0 : t.disp.toK = 0 := by simpa using hf
    simp only [Bool.false_eq_true, if_false]
    cases hd : t.disp with
    | int z => rw [hd] at h0; have : (z : ℚ) = 0 := h0; simp only [addR, RVal.val, this, hA.U_zero, add_zero, hA.U_idem]
    | fp x => rw [hd] at h0; have : x = 0 := h0; simp only [addR, RVal.val, this, add_zero, hA.R_U, hA.U_idem]

section
variable {ε : ℚ} (hε : 0 ≤ ε) (hε' : ε < 1)
include hε hε'

theorem _root_.Verif.Spec.Rounded.Near.round {A : Arith} (h : Precise A ε) (x : ℚ) : Near ε 1 x (A.U x) := by
  have h1 := h x
  by_cases hx : x = 0
  · subst hx
    have : A.U 0 = 0 := by simpa using h1
    exact ⟨1, by rw [this]; ring, by simpa using hε, by simpa using hε⟩
  · refine ⟨A.U x / x, by field_simp, ?_, ?_⟩
    all_goals
      have h2 : |A.U x / x - 1| ≤ ε := by
        rw [show A.U x / x - 1 = (A.U x - x) / x by field_simp, abs_div, div_le_iff₀ (abs_pos.mpr hx)]
        exact h1
      rw [abs_le] at h2
      rw [pow_one]
    · linarith
    · have h3 : A.U x / x ≤ 1 + ε := by linarith
      refine (mul_le_mul_of_nonneg_right h3 (by linarith)).trans ?_
      nlinarith

theorem _root_.Verif.Spec.Rounded.Near.refl (x : ℚ) : Near ε 0 x x := ⟨1, by ring, by simp, by simp⟩

theorem _root_.Verif.Spec.Rounded.Near.pos {n : ℕ} {θ : ℚ} (h : (1 - ε) ^ n ≤ θ) : 0 < θ := lt_of_lt_of_le (pow_pos (by linarith) n) h

theorem _root_.Verif.Spec.Rounded.Near.trans {m n : ℕ} {x y z : ℚ} (h1 : Near ε m x y) (h2 : Near ε n y z) : Near ε (m + n) x z := by
  obtain ⟨a, rfl, h3, h4⟩ := h1
  obtain ⟨b, rfl, h5, h6⟩ := h2
  have ha := Near.pos hε hε' h3
  have hb := Near.pos hε hε' h5
  have hm : 0 < (1 - ε) ^ m := pow_pos (by linarith) m
  have hn : 0 < (1 - ε) ^ n := pow_pos (by linarith) n
  refine ⟨a * b, by ring, ?_, ?_⟩
  · rw [pow_add]; exact mul_le_mul h3 h5 hn.le ha.le
  · rw [pow_add, show a * b * ((1 - ε) ^ m * (1 - ε) ^ n) = (a * (1 - ε) ^ m) * (b * (1 - ε) ^ n) by ring]
    exact mul_le_one₀ h4 (mul_pos hb hn).le h6

theorem _root_.Verif.Spec.Rounded.Near.mul {n : ℕ} {x y : ℚ} (h : Near ε n x y) (c : ℚ) : Near ε n (x * c) (y * c) := by
  obtain ⟨a, rfl, h1, h2⟩ := h
  exact ⟨a, by ring, h1, h2⟩

theorem _root_.Verif.Spec.Rounded.Near.inv {n : ℕ} {x y : ℚ} (h : Near ε n x y) : Near ε n x⁻¹ y⁻¹ := by
  obtain ⟨a, rfl, h1, h2⟩ := h
  have ha := Near.pos hε hε' h1
  have hn : 0 < (1 - ε) ^ n := pow_pos (by linarith) n
  refine ⟨a⁻¹, by rw [mul_inv], ?_, ?_⟩
  · rw [le_inv_comm₀ hn ha, ← one_div, le_div_iff₀ hn]; exact h2
  · rw [inv_mul_le_iff₀ ha, mul_one]; exact h1

/-- Four roundings. -/
theorem near_four {A : Arith} (h : Precise A ε) (v n d : ℚ) : Near ε 4 (v * (n / d)) (A.U (A.U (v * A.U n) / A.U d)) := by
  have h1 : Near ε 1 (v * n) (v * A.U n) := by
    have := (Near.round hε hε' h n).mul hε hε' v
    rwa [mul_comm n v, mul_comm _ v] at this
  have h2 := h1.trans hε hε' (Near.round hε hε' h (v * A.U n))
  have h3 : Near ε 1 d⁻¹ (A.U d)⁻¹ := (Near.round hε hε' h d).inv hε hε'
  have h4 : Near ε 2 (v * n * d⁻¹) (A.U (v * A.U n) * d⁻¹) := h2.mul hε hε' d⁻¹
  have h5 : Near ε 1 (A.U (v * A.U n) * d⁻¹) (A.U (v * A.U n) * (A.U d)⁻¹) := by
    have := h3.mul hε hε' (A.U (v * A.U n))
    rwa [mul_comm d⁻¹, mul_comm (A.U d)⁻¹] at this
  have h6 := (h4.trans hε hε' h5).trans hε hε' (Near.round hε hε' h _)
  rwa [show v * n * d⁻¹ = v * (n / d) by rw [div_eq_mul_inv]; ring, ← div_eq_mul_inv] at h6

theorem apply_near {A : Arith} (hA : Faithful A) (h : Precise A ε) (free : Bool) {u w : Simple N ℚ} (hu : Integral u) (hw : Integral w) (hpu : Proper u) (hpw : Proper w)
    (ho : conversionC A u w = conversionC (unlimited A) u w) (hf : free = true ∨ Unshifted u ∧ Unshifted w) (v : ℚ) :
    Near ε 4 (v * (factor w * (factor u)⁻¹)) (applyR A free (conversionC A u w) v) := by
  obtain ⟨n, d, h1, h2, _, _⟩ := conversionC_ratio hu hw hpu hpw ho
  rw [applyR_int hA free h1 (hf.imp id fun h => conversionC_unshifted hA h.1 h.2), ← h2]
  exact near_four hε hε' h v n d

theorem chain_near {A : Arith} (hA : Faithful A) (h : Precise A ε) (free : Bool) : ∀ (ws : List (Simple N ℚ)) (u : Simple N ℚ),
    (∀ w ∈ u :: ws, Integral w ∧ Proper w ∧ (free = true ∨ Unshifted w)) → NoOverflow A u ws → ∀ v,
    Near ε (4 * ws.length) (v * (factor ((u :: ws).getLast (List.cons_ne_nil u ws)) * (factor u)⁻¹)) (chain A free u ws v)
  | [], u, hw, _, v => by
    simp only [List.getLast_singleton, chain, List.length_nil]
    rw [mul_inv_cancel₀ (factor_ne u (hw u (by simp)).2.1), mul_one]
    exact Near.refl hε hε' v
  | w :: ws, u, hw, ho, v => by
    obtain ⟨h1, h2, h3⟩ := hw u (by simp)
    obtain ⟨h4, h5, h6⟩ := hw w (by simp)
    have hf : free = true ∨ Unshifted u ∧ Unshifted w := by
      rcases h3 with h3 | h3
      · exact .inl h3
      · exact h6.imp id fun h => ⟨h3, h⟩
    have a := apply_near hε hε' hA h free h1 h4 h2 h5 ho.1 hf v
    have b := chain_near hA h free ws w (fun x hx => hw x (by simp at hx ⊢; exact .inr hx)) ho.2 (applyR A free (conversionC A u w) v)
    have c := (a.mul hε hε' (factor ((w :: ws).getLast (List.cons_ne_nil w ws)) * (factor w)⁻¹)).trans hε hε' b
    have hne := factor_ne w h5
    rw [show v * (factor w * (factor u)⁻¹) * (factor ((w :: ws).getLast (List.cons_ne_nil w ws)) * (factor w)⁻¹) =
      v * (factor ((w :: ws).getLast (List.cons_ne_nil w ws)) * (factor u)⁻¹) by field_simp] at c
    simp only [List.length_cons, List.getLast_cons_cons, chain]
    rwa [Nat.mul_add, Nat.add_comm]

end
end Verif.Rounded
