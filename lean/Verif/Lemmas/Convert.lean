import Mathlib.Algebra.Order.Field.Basic
import Mathlib.Tactic.FieldSimp
import Mathlib.Tactic.Ring
import Mathlib.Tactic.Linarith
import Mathlib.Tactic.Positivity
import Mathlib.Algebra.BigOperators.Group.Finset.Basic
import Mathlib.Algebra.BigOperators.Group.Finset.Piecewise
import Verif.Spec.Convert
import Verif.Lemmas.Units
set_option linter.unusedSectionVars false
set_option linter.unusedVariables false

namespace Verif.Convert
open Verif.Spec

section
variable {K N : Type} [Field K] [CharZero K] [DecidableEq K]

theorem toK_mul (a b : Val K) : (a.mul b).toK = a.toK * b.toK := by
  cases a <;> cases b <;> simp [Val.mul, Val.toK]

theorem toK_add (a b : Val K) : (a.add b).toK = a.toK + b.toK := by
  cases a <;> cases b <;> simp [Val.add, Val.toK]

theorem toK_neg (a : Val K) : a.neg.toK = - a.toK := by
  cases a <;> simp [Val.neg, Val.toK]

/-- A floating point number or zero. -/
def Fine (a : Val K) : Prop := ∀ z, a = .int z → z = 0

theorem Fine.fp (x : K) : Fine (.fp x) := by intro z h; cases h

theorem toK_muldiv {a : Val K} (h : Fine a) (b c : Val K) : ((a.mul b).div c).toK = a.toK * b.toK / c.toK ∧ Fine ((a.mul b).div c) := by
  cases a with
  | int z =>
    have := h z rfl
    subst this
    cases b <;> cases c <;> simp [Val.mul, Val.div, Val.toK, Fine]
  | fp x => cases b <;> cases c <;> simp [Val.mul, Val.div, Val.toK, Fine]

theorem Fine.add {a b : Val K} (ha : Fine a) (hb : Fine b) : Fine (a.add b) := by
  cases a with
  | int z =>
    have := ha z rfl
    subst this
    cases b with
    | int w => have := hb w rfl; subst this; simp [Val.add, Fine]
    | fp y => simp [Val.add, Fine]
  | fp x => cases b <;> simp [Val.add, Fine]

theorem Fine.neg {a : Val K} (ha : Fine a) : Fine a.neg := by
  cases a with
  | int z => have := ha z rfl; subst this; simp [Val.neg, Fine]
  | fp x => simp [Val.neg, Fine]

theorem reduced_val (n d : Val K) (hn : n.toK ≠ 0) (hd : d.toK ≠ 0) :
    (reduced n d).1.toK / (reduced n d).2.toK = n.toK / d.toK ∧ (reduced n d).1.toK ≠ 0 ∧ (reduced n d).2.toK ≠ 0 := by
  cases n with
  | int n =>
    cases d with
    | int d =>
      have hn' : n ≠ 0 := by rintro rfl; simp [Val.toK] at hn
      have hd' : d ≠ 0 := by rintro rfl; simp [Val.toK] at hd
      obtain ⟨a, ha⟩ := Int.gcd_dvd_left (a := n) (b := d)
      obtain ⟨b, hb⟩ := Int.gcd_dvd_right (a := n) (b := d)
      have hg : ((Int.gcd n d : Nat) : Int) ≠ 0 := by
        intro h
        rw [h] at ha
        exact hn' (by simpa using ha)
      generalize hgg : ((Int.gcd n d : Nat) : Int) = g at ha hb hg
      have h1 : reduced (.int n) (.int d) = ((.int a, .int b) : Val K × Val K) := by
        simp only [reduced, hgg]
        rw [ha, hb, Int.mul_tdiv_cancel_left _ hg, Int.mul_tdiv_cancel_left _ hg]
      have ha0 : a ≠ 0 := by rintro rfl; exact hn' (by simpa using ha)
      have hb0 : b ≠ 0 := by rintro rfl; exact hd' (by simpa using hb)
      rw [h1]
      have hgK : (g : K) ≠ 0 := Int.cast_ne_zero.mpr hg
      have haK : (a : K) ≠ 0 := Int.cast_ne_zero.mpr ha0
      have hbK : (b : K) ≠ 0 := Int.cast_ne_zero.mpr hb0
      refine ⟨?_, haK, hbK⟩
      simp only [Val.toK]
      rw [ha, hb]
      push_cast
      rw [mul_div_mul_left _ _ hgK]
    | fp d =>
      simp only [reduced]
      split
      · rename_i h; simp only [Val.toK] at *; rw [h, div_self hd]; simp
      · exact ⟨rfl, hn, hd⟩
  | fp n =>
    cases d with
    | int d =>
      simp only [reduced]
      split
      · rename_i h; simp only [Val.toK] at *; rw [h, div_self hd]; simp
      · exact ⟨rfl, hn, hd⟩
    | fp d =>
      simp only [reduced]
      split
      · rename_i h; simp only [Val.toK] at *; rw [h, div_self hd]; simp
      · exact ⟨rfl, hn, hd⟩

theorem ratioTimes_val (o : Int → Int → Bool) (m n : Val K) : (ratioTimes o m n).toK = m.toK * n.toK := by
  unfold ratioTimes
  split
  · rename_i h; rw [h.1, h.2]; simp [Val.toK]
  · split
    · rename_i h; rw [h, one_mul]
    · split
      · rename_i h; rw [h, mul_one]
      · cases m <;> cases n <;> dsimp only <;> first | (split <;> simp [Val.toK]) | simp [Val.toK]

theorem ratioMul_val (o : Int → Int → Bool) {n1 d1 n2 d2 : Val K} (h1 : n1.toK ≠ 0) (h2 : d1.toK ≠ 0) (h3 : n2.toK ≠ 0) (h4 : d2.toK ≠ 0) :
    (ratioMul o n1 d1 n2 d2).1.toK / (ratioMul o n1 d1 n2 d2).2.toK = (n1.toK / d1.toK) * (n2.toK / d2.toK) ∧
    (ratioMul o n1 d1 n2 d2).1.toK ≠ 0 ∧ (ratioMul o n1 d1 n2 d2).2.toK ≠ 0 := by
  obtain ⟨r1, a1, b1⟩ := reduced_val n1 d1 h1 h2
  obtain ⟨r2, a2, b2⟩ := reduced_val n2 d2 h3 h4
  obtain ⟨r3, a3, b3⟩ := reduced_val _ _ a1 b2
  obtain ⟨r4, a4, b4⟩ := reduced_val _ _ a2 b1
  simp only [ratioMul, ratioTimes_val]
  refine ⟨?_, mul_ne_zero a3 a4, mul_ne_zero b3 b4⟩
  rw [mul_div_mul_comm, r3, r4, ← r1, ← r2]
  field_simp

/-- Numerator and denominator are not zero. -/
def Transform.Ok (t : Transform K) : Prop := t.num.toK ≠ 0 ∧ t.den.toK ≠ 0

theorem ratio_val {t : Transform K} (h : t.Ok) (x : K) : x * t.ratio.1.toK / t.ratio.2.toK = x * Ratio t := by
  obtain ⟨h1, _, _⟩ := reduced_val _ _ h.1 h.2
  rw [mul_div_assoc]
  unfold Transform.ratio Ratio
  rw [h1]

theorem Ratio_ne {t : Transform K} (h : t.Ok) : Ratio t ≠ 0 := div_ne_zero h.1 h.2

theorem inverse_ok {t : Transform K} (h : t.Ok) : t.inverse.Ok ∧ Ratio t.inverse = (Ratio t)⁻¹ := by
  refine ⟨⟨h.2, h.1⟩, ?_⟩
  simp only [Ratio, Transform.inverse, inv_div]

theorem inverse_disp {t : Transform K} (h : t.Ok) (hf : Fine t.disp) : t.inverse.disp.toK = - (t.disp.toK * (Ratio t)⁻¹) ∧ Fine t.inverse.disp := by
  obtain ⟨h1, _, _⟩ := reduced_val _ _ h.2 h.1
  obtain ⟨h2, h3⟩ := toK_muldiv hf (reduced t.den t.num).1 (reduced t.den t.num).2
  refine ⟨?_, h3.neg⟩
  simp only [Transform.inverse]
  rw [toK_neg, h2, mul_div_assoc, h1]
  simp [Ratio]

theorem product_ok (o : Int → Int → Bool) {l r : Transform K} (hl : l.Ok) (hr : r.Ok) : (l.product o r).Ok ∧ Ratio (l.product o r) = Ratio l * Ratio r := by
  obtain ⟨h1, h2, h3⟩ := ratioMul_val o hl.1 hl.2 hr.1 hr.2
  exact ⟨⟨h2, h3⟩, h1⟩

theorem product_disp (o : Int → Int → Bool) {l r : Transform K} (hl : l.Ok) (hlf : Fine l.disp) (hrf : Fine r.disp) :
    (l.product o r).disp.toK = l.disp.toK + r.disp.toK * Ratio l ∧ Fine (l.product o r).disp := by
  obtain ⟨h2, h3⟩ := toK_muldiv hrf l.ratio.1 l.ratio.2
  refine ⟨?_, hlf.add h3⟩
  simp only [Transform.product]
  rw [toK_add, h2, ratio_val hl]

theorem identity_ok : (Transform.identity : Transform K).Ok ∧ Ratio (Transform.identity : Transform K) = 1 ∧ Fine (Transform.identity : Transform K).disp ∧
    (Transform.identity : Transform K).disp.toK = 0 := by
  simp [Transform.identity, Transform.Ok, Ratio, Val.toK, Fine]

/-! ### Chains of units -/

theorem transform_ok (o : Int → Int → Bool) : ∀ s : Simple N K, Proper s → (s.transform o).Ok ∧ Ratio (s.transform o) = factor s
  | .base _ _, _ => by simpa [Simple.transform, factor] using ⟨identity_ok.1, identity_ok.2.1⟩
  | .derived _ (.base _ _) t, h => ⟨h.2, by simp [Simple.transform, factor]⟩
  | .derived _ (.derived n w t') t, h => by
    obtain ⟨h1, h2⟩ := transform_ok o (.derived n w t') h.1
    obtain ⟨h3, h4⟩ := product_ok o (l := t) h.2 h1
    simp only [Simple.transform]
    exact ⟨h3, by rw [h4, h2]; rfl⟩

theorem transform_disp (o : Int → Int → Bool) : ∀ s : Simple N K, Proper s → NotIntegral s →
    Fine (s.transform o).disp ∧ ∀ p, factor s * p + (s.transform o).disp.toK = coord s p
  | .base _ _, _, _ => by
    refine ⟨identity_ok.2.2.1, fun p => ?_⟩
    simp only [Simple.transform, factor, coord]
    rw [identity_ok.2.2.2]; ring
  | .derived _ (.base _ _) t, h, hi => by
    refine ⟨hi.2, fun p => ?_⟩
    simp [Simple.transform, factor, coord]
  | .derived _ (.derived n w t') t, h, hi => by
    obtain ⟨h1, h2⟩ := transform_disp o (.derived n w t') h.1 hi.1
    obtain ⟨h3, h4⟩ := product_disp o (l := t) h.2 hi.2 h1
    simp only [Simple.transform]
    refine ⟨h4, fun p => ?_⟩
    rw [h3]
    have h5 := h2 p
    show Ratio t * factor (.derived n w t') * p + _ = Ratio t * coord (.derived n w t') p + _
    rw [← h5]; ring

theorem factor_ne : ∀ s : Simple N K, Proper s → factor s ≠ 0
  | .base _ _, _ => one_ne_zero
  | .derived _ w t, h => mul_ne_zero (Ratio_ne h.2) (factor_ne w h.1)

theorem coord_affine : ∀ (s : Simple N K) (p : K), coord s p = factor s * p + coord s 0
  | .base _ _, p => by simp [coord, factor]
  | .derived _ w t, p => by
    simp only [coord, factor]
    rw [coord_affine w p]; ring

theorem coord_surj (s : Simple N K) (h : Proper s) (x : K) : ∃ p, coord s p = x := by
  refine ⟨(x - coord s 0) / factor s, ?_⟩
  rw [coord_affine]
  field_simp [factor_ne s h]
  ring

/-- The value of a conversion, for any transforms. -/
theorem apply_val (o : Int → Int → Bool) (free : Bool) {u w : Transform K} (hu : u.Ok) (hw : w.Ok) (x : K) :
    apply o free u w x = x * (Ratio w * (Ratio u)⁻¹) + if free then 0 else (w.product o u.inverse).disp.toK := by
  obtain ⟨h1, h2⟩ := inverse_ok hu
  obtain ⟨h3, h4⟩ := product_ok o hw h1
  simp only [apply]
  rw [toK_add, (toK_muldiv (Fine.fp x) _ _).1]
  rw [ratio_val h3, h4, h2]
  cases free <;> simp [Val.toK]

theorem apply_coord (o : Int → Int → Bool) (u w : Simple N K) (hu : Proper u) (hw : Proper w) (hui : NotIntegral u) (hwi : NotIntegral w) (p : K) :
    apply o false (u.transform o) (w.transform o) (coord u p) = coord w p := by
  obtain ⟨h1, h2⟩ := transform_ok o u hu
  obtain ⟨h3, h4⟩ := transform_ok o w hw
  obtain ⟨h5, h6⟩ := transform_disp o u hu hui
  obtain ⟨h7, h8⟩ := transform_disp o w hw hwi
  obtain ⟨h9, h10⟩ := inverse_disp h1 h5
  obtain ⟨h11, _⟩ := product_disp o h3 h7 h10
  rw [apply_val o false h1 h3, if_neg (by simp), h11, h9, h2, h4, ← h6 p, ← h8 p]
  have := factor_ne u hu
  field_simp
  ring

theorem apply_difference (o : Int → Int → Bool) (u w : Simple N K) (hu : Proper u) (hw : Proper w) (p q : K) :
    apply o true (u.transform o) (w.transform o) (coord u p - coord u q) = coord w p - coord w q := by
  obtain ⟨h1, h2⟩ := transform_ok o u hu
  obtain ⟨h3, h4⟩ := transform_ok o w hw
  rw [apply_val o true h1 h3, if_pos rfl, h2, h4, coord_affine u p, coord_affine u q, coord_affine w p, coord_affine w q]
  have := factor_ne u hu
  field_simp
  ring

/-! ### Composite units -/

theorem unshifted_fine (s : Simple N K) : Unshifted s → NotIntegral s := by
  induction s with
  | base n v => exact fun _ => trivial
  | derived n w t ih =>
    intro h
    refine ⟨ih h.1, fun z hz => ?_⟩
    have := h.2
    rw [hz] at this
    simpa [Val.toK] using this

theorem unshifted_coord (s : Simple N K) : Unshifted s → coord s 0 = 0 := by
  induction s with
  | base n v => exact fun _ => rfl
  | derived n w t ih =>
    intro h
    simp [coord, ih h.1, h.2]

theorem unshifted_disp (o : Int → Int → Bool) (s : Simple N K) (hp : Proper s) (h : Unshifted s) : Fine (s.transform o).disp ∧ (s.transform o).disp.toK = 0 := by
  obtain ⟨h1, h2⟩ := transform_disp o s hp (unshifted_fine s h)
  refine ⟨h1, ?_⟩
  have := h2 0
  rw [unshifted_coord s h] at this
  simpa using this

/-- The part of the scale which `root_transform` takes into account. -/
def partFactor (c : Simple N K × Bool) : K := if c.2 then 1 else factor c.1

theorem part_ok (o : Int → Int → Bool) (c : Simple N K × Bool) (hp : Proper c.1) :
    (partTransform o c).Ok ∧ Ratio (partTransform o c) = partFactor c ∧ (Unshifted c.1 → Fine (partTransform o c).disp ∧ (partTransform o c).disp.toK = 0) := by
  obtain ⟨s, b⟩ := c
  cases b with
  | false =>
    obtain ⟨h1, h2⟩ := transform_ok o s hp
    refine ⟨by simpa [partTransform] using h1, by simpa [partTransform, partFactor] using h2, fun h => ?_⟩
    simpa [partTransform] using unshifted_disp o s hp h
  | true =>
    obtain ⟨h1, h2, h3, h4⟩ := identity_ok (K := K)
    exact ⟨by simpa [partTransform] using h1, by simpa [partTransform, partFactor] using h2, fun _ => by simpa [partTransform] using ⟨h3, h4⟩⟩

theorem transformOf_ok (o : Int → Int → Bool) {l : List (Simple N K × Bool)} (hp : ∀ c ∈ l, Proper c.1) {t : Transform K} (ht : transformOf o l = some t) :
    t.Ok ∧ Ratio t = (l.map partFactor).prod ∧ ((∀ c ∈ l, Unshifted c.1) → Fine t.disp ∧ t.disp.toK = 0) := by
  match l, ht with
  | [c], ht =>
    simp only [transformOf, Option.some.injEq] at ht
    subst ht
    obtain ⟨h1, h2, h3⟩ := part_ok o c (hp c (by simp))
    exact ⟨h1, by simpa using h2, fun h => h3 (h c (by simp))⟩
  | [c, d], ht =>
    simp only [transformOf, Option.some.injEq] at ht
    subst ht
    obtain ⟨h1, h2, h3⟩ := part_ok o c (hp c (by simp))
    obtain ⟨g1, g2, g3⟩ := part_ok o d (hp d (by simp))
    obtain ⟨k1, k2⟩ := product_ok o h1 g1
    refine ⟨k1, by simp [k2, h2, g2], fun h => ?_⟩
    obtain ⟨a1, a2⟩ := h3 (h c (by simp))
    obtain ⟨b1, b2⟩ := g3 (h d (by simp))
    obtain ⟨m1, m2⟩ := product_disp o h1 a1 b1
    exact ⟨m2, by rw [m1, a2, b2]; ring⟩

theorem transformOf_length {o : Int → Int → Bool} {l : List (Simple N K × Bool)} {t : Transform K} (ht : transformOf o l = some t) : l.length = 1 ∨ l.length = 2 := by
  match l, ht with
  | [c], _ => exact .inl rfl
  | [c, d], _ => exact .inr rfl

variable [DecidableEq N]

/-- The product of numbers which belong to base units. -/
def weight (φ : N → K) (a : Units.Atom N) : K := φ a.name ^ (if a.isDual then (-1 : Int) else 1)

theorem weight_eq (φ : N → K) (hφ : ∀ n, φ n ≠ 0) (S : Finset N) : ∀ l : List (Units.Atom N), (∀ a ∈ l, a.name ∈ S) →
    (l.map (weight φ)).prod = ∏ n ∈ S, φ n ^ Units.expo l n
  | [], _ => by simp [Units.expo]
  | a :: l, h => by
    rw [List.map_cons, List.prod_cons, weight_eq φ hφ S l fun b hb => h b (by simp [hb])]
    have h1 : ∀ n, φ n ^ Units.expo (a :: l) n = (if a.name = n then weight φ a else 1) * φ n ^ Units.expo l n := by
      intro n
      rw [show a :: l = [a] ++ l from rfl, Units.expo_append, zpow_add₀ (hφ n), Units.expo_single]
      congr 1
      by_cases hn : a.name = n
      · rw [if_pos hn, if_pos hn, weight, hn]
      · rw [if_neg hn, if_neg hn, zpow_zero]
    simp only [h1]
    rw [Finset.prod_mul_distrib, Finset.prod_ite_eq, if_pos (h a (by simp))]

theorem weight_congr (φ : N → K) (hφ : ∀ n, φ n ≠ 0) {l m : List (Units.Atom N)} (h : ∀ n, Units.expo l n = Units.expo m n) :
    (l.map (weight φ)).prod = (m.map (weight φ)).prod := by
  rw [weight_eq φ hφ ((l.map (·.name)).toFinset ∪ (m.map (·.name)).toFinset) l (by intro a ha; simp; exact .inl ⟨a, ha, rfl⟩),
    weight_eq φ hφ ((l.map (·.name)).toFinset ∪ (m.map (·.name)).toFinset) m (by intro a ha; simp; exact .inr ⟨a, ha, rfl⟩)]
  simp only [h]

theorem built_atom (e : Units.Env N) (a : Units.Atom N) (ha : a.name ≠ e.noUnit) : Built e (.single a) (Units.expo [a]) := by
  obtain ⟨n, b⟩ := a
  cases b with
  | false =>
    have := Built.base (e := e) (n := n) ha
    convert this using 1
    funext m
    rw [Units.expo_single]
    by_cases h : n = m
    · simp [h]
    · have h' : ¬ m = n := fun h' => h h'.symm
      simp [h, h']
  | true =>
    have hd : Units.div e (.single ⟨e.noUnit, false⟩) (.single ⟨n, false⟩) = some (.single ⟨n, true⟩) := by
      have h1 : (Units.Unit.single ⟨n, false⟩ : Units.Unit N) ≠ .single ⟨e.noUnit, false⟩ := by
        intro h; injection h with h; injection h with h; exact ha h
      have h2 : (⟨n, false⟩ : Units.Atom N) ≠ ⟨e.noUnit, false⟩ := fun h => h1 (by rw [h])
      simp [Units.div, Units.Unit.dualOf, Units.dualOf, ha]
    have := Built.div (Built.none (e := e)) (Built.base (e := e) (n := n) ha) hd
    convert this using 1
    funext m
    rw [Units.expo_single]
    by_cases h : n = m
    · simp [h]
    · have h' : ¬ m = n := fun h' => h h'.symm
      simp [h, h']

theorem rootOf_built (e : Units.Env N) : ∀ (l : List (Simple N K × Bool)), (∀ c ∈ l, (partRoot c).name ≠ e.noUnit) → ∀ r, rootOf e l = some r → Built e r (Units.expo (l.map partRoot))
  | [], _, r, h => by simp [rootOf] at h
  | [c], hn, r, h => by
    simp only [rootOf, Option.some.injEq] at h
    subst h
    exact built_atom e _ (hn c (by simp))
  | c :: d :: l, hn, r, h => by
    simp only [rootOf] at h
    obtain ⟨r', h1, h2⟩ := Option.bind_eq_some_iff.mp h
    have := Built.mul (built_atom e _ (hn c (by simp))) (rootOf_built e (d :: l) (fun x hx => hn x (by simp [hx])) r' h1) h2
    convert this using 1
    funext m
    rw [List.map_cons, show partRoot c :: List.map partRoot (d :: l) = [partRoot c] ++ List.map partRoot (d :: l) from rfl, Units.expo_append]

theorem scale_split (φ : N → K) : ∀ (l : List (Simple N K × Bool)), (∀ c ∈ l, factor c.1 = φ c.1.name ∧ φ c.1.root = 1) →
    scale l = (l.map partFactor).prod * ((l.map partRoot).map (weight φ)).prod
  | [], _ => by simp [scale]
  | c :: l, h => by
    obtain ⟨h1, h2⟩ := h c (by simp)
    simp only [scale, List.map_cons, List.prod_cons]
    rw [scale_split φ l fun d hd => h d (by simp [hd])]
    obtain ⟨s, b⟩ := c
    cases b with
    | false => simp [partFactor, partRoot, weight, h2]; ring
    | true => simp [partFactor, partRoot, weight, ← h1]; ring

theorem scale_ne : ∀ (l : List (Simple N K × Bool)), (∀ c ∈ l, Proper c.1) → scale l ≠ 0
  | [], _ => one_ne_zero
  | c :: l, h => by
    simp only [scale]
    refine mul_ne_zero ?_ (scale_ne l fun d hd => h d (by simp [hd]))
    have := factor_ne c.1 (h c (by simp))
    split
    · exact inv_ne_zero this
    · exact this

end

/-! ### Validators -/

section
variable {K N : Type} [Field K] [LinearOrder K] [IsStrictOrderedRing K]

theorem accepts_iff (v : Validator K) (x : K) : v.accepts x = true ↔ Allowed v x := by
  cases v with
  | identity => simp [Validator.accepts, Allowed]
  | halfLine => simp [Validator.accepts, Allowed]
  | interval l u => cases l <;> cases u <;> simp [Validator.accepts, Allowed]

theorem bound_val {t : Transform K} (h : t.Ok) (x : K) : t.bound x = Ratio t * x + t.disp.toK := by
  rw [Transform.bound, toK_add, (toK_muldiv (Fine.fp x) _ _).1]
  rw [ratio_val h, mul_comm]
  rfl

theorem mkInterval_some {l u : Option K} {v : Validator K} (h : mkInterval l u = some v) : v = .interval l u := by
  unfold mkInterval at h
  split at h
  · split at h
    · injection h with h; exact h.symm
    · exact absurd h (by simp)
  · injection h with h; exact h.symm

theorem synthesised_allowed {v v' : Validator K} {t : Transform K} (ht : t.Ok) (hpos : 0 < Ratio t) (hv : v ≠ .interval none none) (h : synthesised v t = some v') :
    v' ≠ .interval none none ∧ ∀ x, Allowed v' (Ratio t * x + t.disp.toK) ↔ Allowed v x := by
  unfold synthesised at h
  by_cases hs : v.scaleInvariant
  · rw [if_pos hs] at h
    by_cases hd : t.disp.toK = 0
    · rw [if_pos hd, Option.some.injEq] at h
      subst h
      refine ⟨hv, fun x => ?_⟩
      rw [hd, add_zero]
      cases v with
      | identity => simp [Allowed]
      | halfLine => simp only [Allowed]; exact mul_nonneg_iff_of_pos_left hpos
      | interval l u =>
        cases l with
        | none =>
          cases u with
          | none => exact absurd rfl hv
          | some b => simp [Validator.scaleInvariant, Validator.definesIdentity, Validator.definesHalfLine] at hs
        | some a =>
          cases u with
          | none =>
            simp only [Validator.scaleInvariant, Validator.definesIdentity, Validator.definesHalfLine, Bool.false_or, decide_eq_true_eq] at hs
            subst hs
            simp only [Allowed, Option.some.injEq]
            constructor
            · rintro ⟨h, _⟩
              exact ⟨fun a ha => by subst ha; exact (mul_nonneg_iff_of_pos_left hpos).mp (h 0 rfl), by simp⟩
            · rintro ⟨h, _⟩
              exact ⟨fun a ha => by subst ha; exact (mul_nonneg_iff_of_pos_left hpos).mpr (h 0 rfl), by simp⟩
          | some b => simp [Validator.scaleInvariant, Validator.definesIdentity, Validator.definesHalfLine] at hs
    · rw [if_neg hd] at h
      by_cases hti : v.translationInvariant
      · rw [if_pos hti] at h; exact absurd h (by simp)
      · rw [if_neg hti] at h
        cases hdd : t.disp with
        | int z => rw [hdd] at h; exact absurd h (by simp)
        | fp d =>
          rw [hdd] at h
          simp only [Option.some.injEq] at h
          subst h
          refine ⟨by simp, fun x => ?_⟩
          have key : Allowed v x ↔ 0 ≤ x := by
            cases v with
            | identity => simp [Validator.translationInvariant] at hti
            | halfLine => exact Iff.rfl
            | interval l u =>
              cases l with
              | none =>
                cases u with
                | none => exact absurd rfl hv
                | some b => simp [Validator.scaleInvariant, Validator.definesIdentity, Validator.definesHalfLine] at hs
              | some a =>
                cases u with
                | none =>
                  simp only [Validator.scaleInvariant, Validator.definesIdentity, Validator.definesHalfLine, Bool.false_or, decide_eq_true_eq] at hs
                  subst hs
                  simp [Allowed]
                | some b => simp [Validator.scaleInvariant, Validator.definesIdentity, Validator.definesHalfLine] at hs
          rw [key]
          simp only [Allowed, Val.toK, Option.some.injEq, reduceCtorEq, false_implies, implies_true, and_true]
          constructor
          · intro h
            have := h d rfl
            exact (mul_nonneg_iff_of_pos_left hpos).mp (by linarith)
          · intro h a ha
            subst ha
            have := mul_nonneg hpos.le h
            linarith
  · rw [if_neg hs] at h
    cases v with
    | identity => exact absurd h (by simp)
    | halfLine => exact absurd h (by simp)
    | interval l u =>
      have := mkInterval_some h
      subst this
      refine ⟨?_, fun x => ?_⟩
      · intro heq
        simp only [Validator.interval.injEq, Option.map_eq_none_iff] at heq
        exact hv (by rw [heq.1, heq.2])
      · simp only [Allowed, Option.map_eq_some_iff]
        constructor
        · rintro ⟨h1, h2⟩
          refine ⟨fun a ha => ?_, fun b hb => ?_⟩
          · have := h1 _ ⟨a, ha, rfl⟩
            rw [bound_val ht] at this
            exact le_of_mul_le_mul_left (by linarith) hpos
          · have := h2 _ ⟨b, hb, rfl⟩
            rw [bound_val ht] at this
            exact le_of_mul_le_mul_left (by linarith) hpos
        · rintro ⟨h1, h2⟩
          refine ⟨?_, ?_⟩
          · rintro _ ⟨a, ha, rfl⟩
            rw [bound_val ht]
            have := mul_le_mul_of_nonneg_left (h1 a ha) hpos.le
            linarith
          · rintro _ ⟨b, hb, rfl⟩
            rw [bound_val ht]
            have := mul_le_mul_of_nonneg_left (h2 b hb) hpos.le
            linarith

theorem validator_allowed : ∀ (s : Simple N K), Proper s → PositiveRatios s → baseValidator s ≠ .interval none none → ∀ v, s.validator = some v →
    v ≠ .interval none none ∧ ∀ p, Allowed v (coord s p) ↔ Allowed (baseValidator s) p
  | .base n v0, _, _, hb, v, h => by
    simp only [Simple.validator, Option.some.injEq] at h
    subst h
    exact ⟨hb, fun p => Iff.rfl⟩
  | .derived n w t, hp, hr, hb, v, h => by
    simp only [Simple.validator] at h
    obtain ⟨v', h1, h2⟩ := Option.bind_eq_some_iff.mp h
    obtain ⟨h3, h4⟩ := validator_allowed w hp.1 hr.1 hb v' h1
    obtain ⟨h5, h6⟩ := synthesised_allowed hp.2 hr.2 h3 h2
    exact ⟨h5, fun p => (h6 _).trans (h4 p)⟩

end
end Verif.Convert
