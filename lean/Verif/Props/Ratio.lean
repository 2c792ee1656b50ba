import Verif.Model.Ratio
import Mathlib.Tactic.Linarith
import Mathlib.Tactic.Ring
import Mathlib.Algebra.GCDMonoid.Nat
import Mathlib.Data.Int.GCD
import Mathlib.RingTheory.Coprime.Lemmas
import Mathlib.Data.Rat.Lemmas
/-
C53: ratios.
-/
namespace Verif.Props
open Verif.Ratio

theorem conv_of_holds {t : Ty} {v : Int} (h : t.Holds v) : t.conv v = v := by
  obtain ⟨w, s⟩ := t
  obtain ⟨h1, h2⟩ := h
  cases w <;> cases s <;> simp only [Ty.min, Ty.max, Ty.bits, Ty.conv] at * <;> simp at * <;> omega

/-- C53: the common type of two types is one of them, if that one holds all values of the other; if neither does, it is the unsigned one, which is at least as wide. -/
theorem C53_common (a b : Ty) : a.common b = b.common a ∧ ((∀ v, b.Holds v → a.Holds v) → a.common b = a) ∧
    ((∃ v, b.Holds v ∧ ¬ a.Holds v) → (∃ v, a.Holds v ∧ ¬ b.Holds v) → b.signed = true → a.common b = a) := by
  obtain ⟨w, s⟩ := a
  obtain ⟨w', s'⟩ := b
  refine ⟨by cases w <;> cases w' <;> cases s <;> cases s' <;> rfl, fun h => ?_, fun ⟨v, h1, h2⟩ ⟨v', h3, h4⟩ hs => ?_⟩
  · have h1 := h (Ty.max ⟨w', s'⟩)
    have h2 := h (Ty.min ⟨w', s'⟩)
    revert h1 h2
    cases w <;> cases w' <;> cases s <;> cases s' <;> decide
  · cases hs
    revert h1 h2 h3 h4
    cases w <;> cases w' <;> cases s <;> simp [Ty.Holds, Ty.min, Ty.max, Ty.bits, Ty.common] <;> omega

example : Ty.common ⟨true, true⟩ ⟨false, false⟩ = ⟨true, true⟩ ∧ Ty.common ⟨true, false⟩ ⟨false, true⟩ = ⟨true, false⟩ ∧ Ty.common ⟨false, true⟩ ⟨false, false⟩ = ⟨false, false⟩ := by decide

/-- C53: if the numerator and the denominator, and their absolute values, are values of the common type of their types, and the denominator is not zero, then reduction
keeps the value of the fraction and leaves no common divisor.

Partial: the condition fails for negative numerators with unsigned denominators; see the violation below. -/
theorem C53_reduce_partial {tn td : Ty} {num den : Int} (h1 : (tn.common td).Holds num) (h2 : (tn.common td).Holds den)
    (h3 : (tn.common td).Holds num.natAbs) (h4 : (tn.common td).Holds den.natAbs) (h0 : den ≠ 0) :
    ∃ n d, reduce tn td num den = .ok (n, d) ∧ (n : ℚ) / d = (num : ℚ) / den ∧ d ≠ 0 ∧ Int.gcd n d = 1 ∧ (0 < d ↔ 0 < den) := by
  have hgn : Int.gcd num den ≠ 0 := by
    rw [Ne, Int.gcd_eq_zero_iff]
    exact fun h => h0 h.2
  have hg : (Int.gcd num den : Int) ≠ 0 := by exact_mod_cast hgn
  have hgp : (0 : Int) < Int.gcd num den := by omega
  have dn := Int.gcd_dvd_left num den
  have dd := Int.gcd_dvd_right num den
  have hco := Int.gcd_ediv_gcd_ediv_gcd (i := num) (j := den) (by omega)
  rw [← Int.tdiv_eq_ediv_of_dvd dn, ← Int.tdiv_eq_ediv_of_dvd dd] at hco
  have hn := Int.mul_tdiv_cancel' dn
  have hd := Int.mul_tdiv_cancel' dd
  refine ⟨num.tdiv (Int.gcd num den), den.tdiv (Int.gcd num den), ?_, ?_, ?_, hco, ?_⟩
  · simp only [reduce]
    rw [if_neg (by simp only [not_or, not_not]; exact ⟨h3, h4, hg⟩), conv_of_holds h1, conv_of_holds h2]
  · have hgq : ((Int.gcd num den : Int) : ℚ) ≠ 0 := by exact_mod_cast hg
    have e1 : ((Int.gcd num den : Int) : ℚ) * (num.tdiv (Int.gcd num den) : Int) = num := by exact_mod_cast hn
    have e2 : ((Int.gcd num den : Int) : ℚ) * (den.tdiv (Int.gcd num den) : Int) = den := by exact_mod_cast hd
    calc _ = (((Int.gcd num den : Int) : ℚ) * (num.tdiv (Int.gcd num den) : Int)) / (((Int.gcd num den : Int) : ℚ) * (den.tdiv (Int.gcd num den) : Int)) :=
        (mul_div_mul_left _ _ hgq).symm
      _ = _ := by rw [e1, e2]
  · intro hz
    rw [hz] at hd
    exact h0 (by rw [← hd]; simp)
  · constructor
    · intro h
      rw [← hd]
      exact mul_pos hgp h
    · intro h
      rw [← hd] at h
      exact (mul_pos_iff_of_pos_left hgp).mp h

/-! ### Products -/

/-- `std::intmax_t`. -/
abbrev intmax : Ty := ⟨true, true⟩

theorem holds_natAbs {v : Int} (h : intmax.Holds v.natAbs) : intmax.Holds v := by
  obtain ⟨h1, h2⟩ := h
  simp only [Ty.min, Ty.max, Ty.bits, Ty.Holds] at *
  simp [-Nat.cast_natAbs] at *
  omega

theorem holds_natAbs_iff {v : Int} : intmax.Holds v.natAbs ↔ v.natAbs ≤ 2 ^ 63 - 1 := by
  simp only [Ty.min, Ty.max, Ty.bits, Ty.Holds]
  simp [-Nat.cast_natAbs]

theorem reduce_intmax {num den : Int} (h3 : intmax.Holds num.natAbs) (h4 : intmax.Holds den.natAbs) (h0 : den ≠ 0) :
    ∃ n d, reduce intmax intmax num den = .ok (n, d) ∧ (n : ℚ) / d = (num : ℚ) / den ∧ d ≠ 0 ∧ Int.gcd n d = 1 ∧ (0 < d ↔ 0 < den) ∧
      n ∣ num ∧ d ∣ den := by
  obtain ⟨n, d, e, h⟩ := C53_reduce_partial (tn := intmax) (td := intmax) (holds_natAbs h3) (holds_natAbs h4) h3 h4 h0
  refine ⟨n, d, e, h.1, h.2.1, h.2.2.1, h.2.2.2, ?_⟩
  have hg : ¬ (¬ (Ty.common intmax intmax).Holds num.natAbs ∨ ¬ (Ty.common intmax intmax).Holds den.natAbs ∨ (Int.gcd num den : Int) = 0) := by
    intro hx
    simp only [reduce, if_pos hx] at e
    exact absurd e (by simp)
  simp only [reduce, if_neg hg, Inst.ok.injEq, Prod.mk.injEq] at e
  have e1 := conv_of_holds (holds_natAbs h3)
  have e2 := conv_of_holds (holds_natAbs h4)
  have hc : Ty.common intmax intmax = intmax := rfl
  rw [hc, e1, e2] at e
  have dn := Int.gcd_dvd_left num den
  have dd := Int.gcd_dvd_right num den
  have hn := Int.mul_tdiv_cancel' dn
  have hd := Int.mul_tdiv_cancel' dd
  rw [e.1] at hn
  rw [e.2] at hd
  exact ⟨⟨_, by rw [mul_comm]; exact hn.symm⟩, ⟨_, by rw [mul_comm]; exact hd.symm⟩⟩

theorem reduce_ok_holds {num den : Int} {r : Int × Int} (h : reduce intmax intmax num den = .ok r) : intmax.Holds num.natAbs ∧ intmax.Holds den.natAbs := by
  simp only [reduce] at h
  split at h
  · simp at h
  · rename_i hx
    simp only [not_or, not_not] at hx
    exact ⟨hx.1, hx.2.1⟩

theorem productWide_ok {relaxed : Bool} {m n k : Int} (h : productWide relaxed m n = .ok k) : k = m * n := by
  simp only [productWide] at h
  split at h
  · rename_i h1; subst h1; simp_all
  · split at h
    · rename_i h1; subst h1; simp_all
    · split at h
      · simp at h
      · split at h
        · split at h
          · simp_all
          · simp at h
        · simp at h

/-- C53: if the product of two ratios of type `std::intmax_t` exists, it is a reduced fraction whose value is the product of the values. -/
theorem C53_multiply {relaxed : Bool} {n1 d1 n2 d2 n d : Int} (h1 : d1 ≠ 0) (h2 : d2 ≠ 0) (h : multiply relaxed n1 d1 n2 d2 = .ok (n, d)) :
    (n : ℚ) / d = ((n1 : ℚ) / d1) * ((n2 : ℚ) / d2) ∧ d ≠ 0 ∧ Int.gcd n d = 1 := by
  have bind_ok : ∀ {α β : Type} {x : Inst α} {f : α → Inst β} {b : β}, x.bind f = .ok b → ∃ a, x = .ok a ∧ f a = .ok b := by
    intro α β x f b hb
    cases x with
    | ok a => exact ⟨a, rfl, hb⟩
    | illFormed => simp [Inst.bind] at hb
    | floating => simp [Inst.bind] at hb
  simp only [multiply] at h
  obtain ⟨r1, e1, h⟩ := bind_ok h
  obtain ⟨r2, e2, h⟩ := bind_ok h
  obtain ⟨a, ea, h⟩ := bind_ok h
  obtain ⟨b, eb, h⟩ := bind_ok h
  obtain ⟨num, en, h⟩ := bind_ok h
  obtain ⟨den, ed, h⟩ := bind_ok h
  have step : ∀ {p q : Int} {r : Int × Int}, q ≠ 0 → reduce intmax intmax p q = .ok r → (r.1 : ℚ) / r.2 = (p : ℚ) / q ∧ r.2 ≠ 0 ∧ Int.gcd r.1 r.2 = 1 := by
    intro p q r hq hr
    obtain ⟨x, y, e, f1, f2, f3, _⟩ := reduce_intmax (reduce_ok_holds hr).1 (reduce_ok_holds hr).2 hq
    rw [e] at hr
    cases hr
    exact ⟨f1, f2, f3⟩
  obtain ⟨v1, z1, _⟩ := step h1 e1
  obtain ⟨v2, z2, _⟩ := step h2 e2
  obtain ⟨va, za, _⟩ := step z2 ea
  obtain ⟨vb, zb, _⟩ := step z1 eb
  have hnum := productWide_ok en
  have hden := productWide_ok ed
  have hden0 : den ≠ 0 := by rw [hden]; exact mul_ne_zero za zb
  obtain ⟨v, z, c⟩ := step hden0 h
  refine ⟨?_, z, c⟩
  rw [v, hnum, hden, ← v1, ← v2]
  push_cast
  rw [mul_div_mul_comm, va, vb]
  rw [div_mul_div_comm, div_mul_div_comm, mul_comm (r1.2 : ℚ)]

theorem coprime_unique {a b c d : Int} (hab : Int.gcd a b = 1) (hcd : Int.gcd c d = 1) (h : a * d = c * b) : a.natAbs = c.natAbs ∧ b.natAbs = d.natAbs := by
  have h' : a.natAbs * d.natAbs = c.natAbs * b.natAbs := by rw [← Int.natAbs_mul, ← Int.natAbs_mul, h]
  have cab : Nat.Coprime a.natAbs b.natAbs := hab
  have ccd : Nat.Coprime c.natAbs d.natAbs := hcd
  constructor
  · refine Nat.dvd_antisymm ?_ ?_
    · exact cab.dvd_of_dvd_mul_right (Dvd.intro _ h')
    · exact ccd.dvd_of_dvd_mul_right (Dvd.intro _ h'.symm)
  · refine Nat.dvd_antisymm ?_ ?_
    · exact cab.symm.dvd_of_dvd_mul_left (Dvd.intro_left _ h'.symm)
    · exact ccd.symm.dvd_of_dvd_mul_left (Dvd.intro_left _ h')

theorem productWide_defined {relaxed : Bool} {m n : Int} (h0 : m ≠ 0) (hr : relaxed = true → 0 < m) (h : (m * n).natAbs ≤ 2 ^ 63 - 1) :
    productWide relaxed m n = .ok (m * n) := by
  simp only [productWide]
  by_cases h1 : m = 1
  · rw [if_pos h1, h1, one_mul]
  · rw [if_neg h1]
    by_cases h2 : n = 1
    · rw [if_pos h2, h2, mul_one]
    · rw [if_neg h2, if_neg h0]
      have ho : (!relaxed || !decide ((Ty.max ⟨true, true⟩).tdiv m < n)) = true := by
        cases relaxed
        · rfl
        · have hm := hr rfl
          have : ¬ ((Ty.max ⟨true, true⟩).tdiv m < n) := by
            have hmax : Ty.max ⟨true, true⟩ = 2 ^ 63 - 1 := rfl
            rw [hmax, Int.tdiv_eq_ediv_of_nonneg (by norm_num), not_lt, Int.le_ediv_iff_mul_le hm, mul_comm]
            omega
          simp [this]
      rw [if_pos ho, if_pos (holds_natAbs (holds_natAbs_iff.mpr h))]

/-- C53: the product exists if the first numerator is not zero and the numerator and denominator of the reduced product are at most the largest value of the type in
absolute value, even if the unreduced products are not.  If conversion to floating point is allowed, nothing is converted provided that all arguments are positive.

Partial: a numerator of zero is rejected, see below. -/
theorem C53_multiply_exists_partial {relaxed : Bool} {n1 d1 n2 d2 p q : Int} (hr : relaxed = true → 0 < n1 ∧ 0 < d1 ∧ 0 < n2 ∧ 0 < d2) (h0 : n1 ≠ 0) (h1 : d1 ≠ 0) (h2 : d2 ≠ 0)
    (b1 : n1.natAbs ≤ 2 ^ 63 - 1) (b2 : d1.natAbs ≤ 2 ^ 63 - 1) (b3 : n2.natAbs ≤ 2 ^ 63 - 1) (b4 : d2.natAbs ≤ 2 ^ 63 - 1)
    (hpq : Int.gcd p q = 1) (hq : q ≠ 0) (hv : (p : ℚ) / q = ((n1 : ℚ) / d1) * ((n2 : ℚ) / d2))
    (bp : p.natAbs ≤ 2 ^ 63 - 1) (bq : q.natAbs ≤ 2 ^ 63 - 1) :
    ∃ n d, multiply relaxed n1 d1 n2 d2 = .ok (n, d) ∧ (n : ℚ) / d = ((n1 : ℚ) / d1) * ((n2 : ℚ) / d2) := by
  have red : ∀ {x y : Int}, x.natAbs ≤ 2 ^ 63 - 1 → y.natAbs ≤ 2 ^ 63 - 1 → y ≠ 0 →
      ∃ n d, reduce intmax intmax x y = .ok (n, d) ∧ (n : ℚ) / d = (x : ℚ) / y ∧ d ≠ 0 ∧ Int.gcd n d = 1 ∧ n ∣ x ∧ d ∣ y ∧ (x ≠ 0 → n ≠ 0) ∧
        n.natAbs ≤ 2 ^ 63 - 1 ∧ d.natAbs ≤ 2 ^ 63 - 1 ∧ (0 < x → 0 < y → 0 < n ∧ 0 < d) := by
    intro x y bx bY hy
    obtain ⟨n, d, e, f1, f2, f3, f6, f4, f5⟩ := reduce_intmax (holds_natAbs_iff.mpr bx) (holds_natAbs_iff.mpr bY) hy
    refine ⟨n, d, e, f1, f2, f3, f4, f5, ?_, ?_, ?_, ?_⟩
    · rintro hx rfl
      exact hx (Int.zero_dvd.mp f4)
    · by_cases hx : x = 0
      · have : n = 0 := by
          subst hx
          have : (n : ℚ) / d = 0 := by simpa using f1
          rcases div_eq_zero_iff.mp this with h | h
          · exact_mod_cast h
          · exact absurd (by exact_mod_cast h) f2
        simp [this]
      · exact le_trans (Nat.le_of_dvd (by omega) (Int.natAbs_dvd_natAbs.mpr f4)) bx
    · exact le_trans (Nat.le_of_dvd (by omega) (Int.natAbs_dvd_natAbs.mpr f5)) bY
    · intro hx hy'
      have hd := f6.mpr hy'
      refine ⟨?_, hd⟩
      have hp : (0 : ℚ) < (x : ℚ) / y := div_pos (by exact_mod_cast hx) (by exact_mod_cast hy')
      rw [← f1] at hp
      have hq : (0 : ℚ) < d := by exact_mod_cast hd
      have hm := mul_pos hp hq
      rw [div_mul_cancel₀ _ (ne_of_gt hq)] at hm
      exact_mod_cast hm
  obtain ⟨rn1, rd1, e1, v1, z1, c1, _, _, nz1, bn1, bd1, s1⟩ := red b1 b2 h1
  obtain ⟨rn2, rd2, e2, v2, z2, c2, _, _, _, bn2, bd2, s2⟩ := red b3 b4 h2
  obtain ⟨an, ad, ea, va, za, ca, an1, ad2, nza, _, _, sa⟩ := red bn1 bd2 z2
  obtain ⟨bn, bd, eb, vb, zb, cb, bn2', bd1', _, _, _⟩ := red bn2 bd1 z1
  have hval : ((an * bn : Int) : ℚ) / ((ad * bd : Int) : ℚ) = ((n1 : ℚ) / d1) * ((n2 : ℚ) / d2) := by
    push_cast
    rw [mul_div_mul_comm, va, vb, ← v1, ← v2, div_mul_div_comm, div_mul_div_comm, mul_comm (rd1 : ℚ)]
  have hco : Int.gcd (an * bn) (ad * bd) = 1 := by
    have k1 : IsCoprime an ad := Int.isCoprime_iff_gcd_eq_one.mpr ca
    have k2 : IsCoprime bn bd := Int.isCoprime_iff_gcd_eq_one.mpr cb
    have k3 : IsCoprime an bd := ((Int.isCoprime_iff_gcd_eq_one.mpr c1).of_isCoprime_of_dvd_left an1).of_isCoprime_of_dvd_right bd1'
    have k4 : IsCoprime bn ad := ((Int.isCoprime_iff_gcd_eq_one.mpr c2).of_isCoprime_of_dvd_left bn2').of_isCoprime_of_dvd_right ad2
    exact Int.isCoprime_iff_gcd_eq_one.mp ((k1.mul_right k3).mul_left (k4.mul_right k2))
  have hzz : ad * bd ≠ 0 := mul_ne_zero za zb
  have hcross : (an * bn) * q = p * (ad * bd) := by
    have : ((an * bn : Int) : ℚ) / ((ad * bd : Int) : ℚ) = (p : ℚ) / q := by rw [hval, hv]
    rw [div_eq_div_iff (by exact_mod_cast hzz) (by exact_mod_cast hq)] at this
    exact_mod_cast this
  obtain ⟨w1, w2⟩ := coprime_unique hco hpq hcross
  have hs : relaxed = true → 0 < an ∧ 0 < ad := fun h => by
    obtain ⟨k1, k2, k3, k4⟩ := hr h
    exact sa (s1 k1 k2).1 (s2 k3 k4).2
  have pn := productWide_defined (relaxed := relaxed) (n := bn) (nza (nz1 h0)) (fun h => (hs h).1) (by rw [w1]; exact bp)
  have pd := productWide_defined (relaxed := relaxed) (n := bd) za (fun h => (hs h).2) (by rw [w2]; exact bq)
  obtain ⟨n, d, ef, vf, _⟩ := red (x := an * bn) (y := ad * bd) (by rw [w1]; exact bp) (by rw [w2]; exact bq) hzz
  refine ⟨n, d, ?_, by rw [vf, hval]⟩
  have e1' : reduce ⟨true, true⟩ ⟨true, true⟩ n1 d1 = .ok (rn1, rd1) := e1
  have e2' : reduce ⟨true, true⟩ ⟨true, true⟩ n2 d2 = .ok (rn2, rd2) := e2
  have ea' : reduce ⟨true, true⟩ ⟨true, true⟩ rn1 rd2 = .ok (an, ad) := ea
  have eb' : reduce ⟨true, true⟩ ⟨true, true⟩ rn2 rd1 = .ok (bn, bd) := eb
  simp only [multiply, e1', e2', Inst.bind, ea', eb', pn, pd]
  exact ef

/-- C53: if the quotient of two ratios exists, its value is the quotient of the values. -/
theorem C53_divide {relaxed : Bool} {n1 d1 n2 d2 n d : Int} (h1 : d1 ≠ 0) (h2 : d2 ≠ 0) (h3 : n2 ≠ 0) (h : divide relaxed n1 d1 n2 d2 = .ok (n, d)) :
    (n : ℚ) / d = ((n1 : ℚ) / d1) / ((n2 : ℚ) / d2) ∧ d ≠ 0 ∧ Int.gcd n d = 1 := by
  simp only [divide] at h
  cases hr : reduce intmax intmax n2 d2 with
  | illFormed => rw [hr] at h; simp [Inst.bind] at h
  | floating => rw [hr] at h; simp [Inst.bind] at h
  | ok r =>
    rw [hr] at h
    simp only [Inst.bind] at h
    obtain ⟨x, y, e, f1, f2, f3, _, f4, _⟩ := reduce_intmax (reduce_ok_holds hr).1 (reduce_ok_holds hr).2 h2
    rw [e] at hr
    cases hr
    have hx : x ≠ 0 := by
      rintro rfl
      exact h3 (Int.zero_dvd.mp f4)
    obtain ⟨g1, g2, g3⟩ := C53_multiply h1 hx h
    refine ⟨?_, g2, g3⟩
    rw [g1, ← f1, div_div_eq_mul_div, mul_div_assoc]

/-- Reduction of a negative fraction; a product whose unreduced form does not fit; a quotient. -/
example : reduce intmax intmax (-6) 4 = .ok (-3, 2) ∧ multiply false (2 ^ 62) 3 3 (2 ^ 62) = .ok (1, 1) ∧ multiply true 5 3 7 2 = .ok (35, 6) ∧ divide false 1 2 3 4 = .ok (2, 3) := by decide +kernel

/-- C53, violation: the numerator -2 of type `int` and the denominator 4 of type `unsigned` are reduced to 2147483647 / 2. -/
theorem C53_mixed_signs_violated : reduce ⟨false, true⟩ ⟨false, false⟩ (-2) 4 = .ok (2147483647, 2) := by decide +kernel

/-- C53, violation: zero times two does not compile, since the check for overflow divides by zero. -/
theorem C53_zero_violated : multiply false 0 1 2 1 = .illFormed ∧ multiply false 2 1 0 1 = .ok (0, 1) := by decide +kernel

/-- C53, violation: if conversion to floating point is allowed, it happens for small negative factors, since the check for overflow assumes positive ones; and a
positive factor times a negative one which does overflow does not compile. -/
theorem C53_negative_violated : multiply true (-2) 1 3 1 = .floating ∧ multiply true 3 1 (-(2 ^ 62)) 1 = .illFormed := by decide +kernel

end Verif.Props
