import Mathlib.Tactic.FieldSimp
import Mathlib.Tactic.NormNum
import Mathlib.Tactic.Ring
import Mathlib.Tactic.Linarith
import Mathlib.Tactic.Positivity
import Verif.Spec.RoundedConvert

/-! Rounding as in IEEE 754. -/

namespace Verif.Rounded
open Verif.Spec.Rounded

theorem nearest_int (z : ℤ) : nearest (z : ℚ) = z := by
  unfold nearest
  rw [Int.floor_intCast, if_pos (by norm_num)]

theorem nearest_error (x : ℚ) : |(nearest x : ℚ) - x| ≤ 1 / 2 := by
  have h1 := Int.floor_le x
  have h2 := Int.lt_floor_add_one x
  unfold nearest
  split
  · rw [abs_le]; constructor <;> linarith
  split
  · push_cast; rw [abs_le]; constructor <;> linarith
  split
  · rw [abs_le]; constructor <;> linarith
  · push_cast; rw [abs_le]; constructor <;> linarith

theorem nearest_floor (x : ℚ) : ⌊x⌋ ≤ nearest x ∧ nearest x ≤ ⌊x⌋ + 1 := by
  unfold nearest
  split
  · omega
  split
  · omega
  split <;> omega

theorem nearest_mono {x y : ℚ} (h : x ≤ y) : nearest x ≤ nearest y := by
  have hf := Int.floor_mono h
  rcases hf.lt_or_eq with hlt | heq
  · have := nearest_floor x; have := nearest_floor y; omega
  · unfold nearest
    rw [← heq]
    split
    · split
      · exact le_refl _
      split
      · omega
      split <;> omega
    split
    · rw [if_neg (by linarith), if_pos (by linarith)]
    · rename_i h1 h2
      rw [if_neg (c := y - (⌊x⌋ : ℚ) < 1 / 2) (by linarith)]
      split <;> split <;> omega

theorem nearest_ge {x : ℚ} {z : ℤ} (h : (z : ℚ) ≤ x) : z ≤ nearest x := by
  have := nearest_mono h; rwa [nearest_int] at this

theorem nearest_le {x : ℚ} {z : ℤ} (h : x ≤ (z : ℚ)) : nearest x ≤ z := by
  have := nearest_mono h; rwa [nearest_int] at this

theorem ulp_pos (p : ℕ) (x : ℚ) : 0 < ulp p x := zpow_pos (by norm_num) _

theorem log_le {x : ℚ} (h : 0 < x) : (2 : ℚ) ^ Int.log 2 x ≤ x := Int.zpow_log_le_self (by norm_num) h

theorem lt_log {x : ℚ} (_h : 0 < x) : x < (2 : ℚ) ^ (Int.log 2 x + 1) := Int.lt_zpow_succ_log_self (by norm_num) x

theorem two_pow_pred {p : ℕ} (hp : 1 ≤ p) (e : ℤ) : ((2 ^ (p - 1) : ℤ) : ℚ) * (2 : ℚ) ^ (e - p + 1) = (2 : ℚ) ^ e := by
  obtain ⟨n, rfl⟩ : ∃ n, p = n + 1 := ⟨p - 1, by omega⟩
  push_cast
  rw [← zpow_natCast, ← zpow_add₀ (by norm_num)]
  congr 1
  ring

theorem two_pow_self (p : ℕ) (e : ℤ) : ((2 ^ p : ℤ) : ℚ) * (2 : ℚ) ^ (e - p + 1) = (2 : ℚ) ^ (e + 1) := by
  push_cast
  rw [← zpow_natCast, ← zpow_add₀ (by norm_num)]
  congr 1
  ring

theorem ieee_pos_eq {p : ℕ} {x : ℚ} (h : 0 < x) : ieee p x = nearest (x / ulp p x) * ulp p x := by
  unfold ieee; rw [if_neg h.ne', if_pos h]

theorem ieee_neg (p : ℕ) (x : ℚ) : ieee p (-x) = -ieee p x := by
  unfold ieee
  rcases lt_trichotomy x 0 with h | h | h
  · rw [if_neg (by linarith), if_pos (by linarith), if_neg (by linarith), if_neg (by linarith)]
    simp only [ulp, abs_neg, neg_neg]
  · subst h; simp
  · rw [if_neg (by linarith), if_neg (by linarith), if_neg (by linarith), if_pos h]
    simp only [ulp, abs_neg, neg_neg]

theorem ieee_zero (p : ℕ) : ieee p 0 = 0 := by simp [ieee]

/-- What the digits of a number are. -/
theorem digits {p : ℕ} (hp : 1 ≤ p) {x : ℚ} (h : 0 < x) : ((2 ^ (p - 1) : ℤ)) ≤ nearest (x / ulp p x) ∧ nearest (x / ulp p x) ≤ 2 ^ p := by
  constructor
  · apply nearest_ge
    rw [le_div_iff₀ (ulp_pos p x), ulp, abs_of_pos h, two_pow_pred hp]
    exact log_le h
  · apply nearest_le
    rw [div_le_iff₀ (ulp_pos p x), ulp, abs_of_pos h, two_pow_self]
    exact (lt_log h).le

theorem ieee_between {p : ℕ} (hp : 1 ≤ p) {x : ℚ} (h : 0 < x) : (2 : ℚ) ^ Int.log 2 x ≤ ieee p x ∧ ieee p x ≤ (2 : ℚ) ^ (Int.log 2 x + 1) := by
  obtain ⟨h1, h2⟩ := digits hp h
  rw [ieee_pos_eq h]
  constructor
  · rw [← two_pow_pred hp (Int.log 2 x)]
    have : ulp p x = (2 : ℚ) ^ (Int.log 2 x - p + 1) := by rw [ulp, abs_of_pos h]
    rw [← this]
    exact mul_le_mul_of_nonneg_right (by exact_mod_cast h1) (zpow_pos (by norm_num) _).le
  · rw [← two_pow_self p (Int.log 2 x)]
    have : ulp p x = (2 : ℚ) ^ (Int.log 2 x - p + 1) := by rw [ulp, abs_of_pos h]
    rw [← this]
    exact mul_le_mul_of_nonneg_right (by exact_mod_cast h2) (zpow_pos (by norm_num) _).le

theorem ieee_pos {p : ℕ} (hp : 1 ≤ p) {x : ℚ} (h : 0 < x) : 0 < ieee p x := lt_of_lt_of_le (zpow_pos (by norm_num) _) (ieee_between hp h).1

theorem ieee_mono_pos {p : ℕ} (hp : 1 ≤ p) {x y : ℚ} (hx : 0 < x) (h : x ≤ y) : ieee p x ≤ ieee p y := by
  have hy : 0 < y := hx.trans_le h
  have hl : Int.log 2 x ≤ Int.log 2 y := Int.log_mono_right hx h
  rcases hl.lt_or_eq with hlt | heq
  · refine (ieee_between hp hx).2.trans (le_trans ?_ (ieee_between hp hy).1)
    exact zpow_le_zpow_right₀ (by norm_num) (by omega)
  · have hu : ulp p x = ulp p y := by rw [ulp, ulp, abs_of_pos hx, abs_of_pos hy, heq]
    rw [ieee_pos_eq hx, ieee_pos_eq hy, hu]
    apply mul_le_mul_of_nonneg_right _ (ulp_pos p y).le
    exact_mod_cast nearest_mono (div_le_div_of_nonneg_right h (ulp_pos p y).le)

theorem ieee_mono {p : ℕ} (hp : 1 ≤ p) {x y : ℚ} (h : x ≤ y) : ieee p x ≤ ieee p y := by
  have hneg : ∀ z : ℚ, z ≤ 0 → ieee p z ≤ 0 := by
    intro z hz
    rcases hz.lt_or_eq with hz | hz
    · have := ieee_pos hp (x := -z) (by linarith)
      rw [ieee_neg] at this; linarith
    · rw [hz, ieee_zero]
  rcases lt_or_ge 0 x with hx | hx
  · exact ieee_mono_pos hp hx h
  · rcases lt_or_ge 0 y with hy | hy
    · exact (hneg x hx).trans (ieee_pos hp hy).le
    · rcases hy.lt_or_eq with hy | hy
      · have := ieee_mono_pos hp (x := -y) (y := -x) (by linarith) (by linarith)
        rw [ieee_neg, ieee_neg] at this; linarith
      · rw [hy, ieee_zero]; exact hneg x hx

/-- Numbers with sufficiently few digits are not changed. -/
theorem ieee_fix {q : ℕ} {x : ℚ} (hx : 0 < x) {m k : ℤ} (h : x = m * (2 : ℚ) ^ k) (hk : Int.log 2 x - q + 1 ≤ k) : ieee q x = x := by
  obtain ⟨j, hj⟩ : ∃ j : ℕ, k = (Int.log 2 x - q + 1) + j := ⟨(k - (Int.log 2 x - q + 1)).toNat, by omega⟩
  have hd : x / ulp q x = ((m * 2 ^ j : ℤ) : ℚ) := by
    rw [div_eq_iff (ulp_pos q x).ne', ulp, abs_of_pos hx]
    conv => lhs; rw [h, hj, zpow_add₀ (by norm_num), zpow_natCast]
    push_cast
    ring
  rw [ieee_pos_eq hx, hd, nearest_int, ← hd, div_mul_cancel₀ _ (ulp_pos q x).ne']

theorem ieee_fix_digits {q : ℕ} (hq : 1 ≤ q) {m k : ℤ} (hm : 0 < m) (hmq : m ≤ 2 ^ q) : ieee q (m * (2 : ℚ) ^ k) = m * (2 : ℚ) ^ k := by
  have h2 : (0 : ℚ) < (2 : ℚ) ^ k := zpow_pos (by norm_num) _
  have hx : (0 : ℚ) < m * (2 : ℚ) ^ k := mul_pos (by exact_mod_cast hm) h2
  rcases hmq.lt_or_eq with hlt | heq
  · refine ieee_fix hx rfl ?_
    have h1 := log_le hx
    have h3 : (m : ℚ) * (2 : ℚ) ^ k < (2 : ℚ) ^ ((q : ℤ) + k) := by
      rw [zpow_add₀ (by norm_num), zpow_natCast]
      exact mul_lt_mul_of_pos_right (by exact_mod_cast hlt) h2
    have h4 := (zpow_lt_zpow_iff_right₀ (by norm_num : (1 : ℚ) < 2)).mp (h1.trans_lt h3)
    omega
  · have he : (m : ℚ) * (2 : ℚ) ^ k = ((1 : ℤ) : ℚ) * (2 : ℚ) ^ ((q : ℤ) + k) := by
      rw [heq, zpow_add₀ (by norm_num), zpow_natCast]; push_cast; ring
    refine ieee_fix hx he ?_
    have h1 := log_le hx
    have h3 : (m : ℚ) * (2 : ℚ) ^ k < (2 : ℚ) ^ ((q : ℤ) + k + 1) := by
      rw [he, zpow_add₀ (by norm_num) ((q : ℤ) + k)]
      have : (0 : ℚ) < (2 : ℚ) ^ ((q : ℤ) + k) := zpow_pos (by norm_num) _
      norm_num; linarith
    have h4 := (zpow_lt_zpow_iff_right₀ (by norm_num : (1 : ℚ) < 2)).mp (h1.trans_lt h3)
    omega

theorem ieee_ieee {p q : ℕ} (hp : 1 ≤ p) (hpq : p ≤ q) (x : ℚ) : ieee q (ieee p x) = ieee p x := by
  have key : ∀ y : ℚ, 0 < y → ieee q (ieee p y) = ieee p y := by
    intro y hy
    obtain ⟨h1, h2⟩ := digits hp hy
    rw [ieee_pos_eq hy]
    have h3 : (0 : ℤ) < nearest (y / ulp p y) := lt_of_lt_of_le (by positivity) h1
    have h4 : nearest (y / ulp p y) ≤ 2 ^ q := h2.trans (pow_le_pow_right₀ (by norm_num) hpq)
    exact ieee_fix_digits (hp.trans hpq) h3 h4
  rcases lt_trichotomy x 0 with h | h | h
  · have := key (-x) (by linarith)
    rw [ieee_neg p x, ieee_neg] at this
    linarith
  · rw [h, ieee_zero, ieee_zero]
  · exact key x h

theorem ieee_error (p : ℕ) (x : ℚ) : |ieee p x - x| ≤ 1 / 2 ^ p * |x| := by
  have key : ∀ y : ℚ, 0 < y → |ieee p y - y| ≤ 1 / 2 ^ p * y := by
    intro y hy
    rw [ieee_pos_eq hy]
    have h1 := nearest_error (y / ulp p y)
    have hu := ulp_pos p y
    have h2 : (nearest (y / ulp p y) : ℚ) * ulp p y - y = ((nearest (y / ulp p y) : ℚ) - y / ulp p y) * ulp p y := by
      rw [sub_mul, div_mul_cancel₀ _ hu.ne']
    rw [h2, abs_mul, abs_of_pos hu]
    refine (mul_le_mul_of_nonneg_right h1 hu.le).trans ?_
    have h3 : 1 / 2 * ulp p y = 1 / 2 ^ p * (2 : ℚ) ^ Int.log 2 y := by
      rw [ulp, abs_of_pos hy, zpow_add₀ (by norm_num), zpow_sub₀ (by norm_num), zpow_natCast]
      field_simp
    rw [h3]
    exact mul_le_mul_of_nonneg_left (log_le hy) (by positivity)
  rcases lt_trichotomy x 0 with h | h | h
  · have := key (-x) (by linarith)
    rw [ieee_neg, abs_of_neg h] at *
    rwa [show -ieee p x - -x = -(ieee p x - x) by ring, abs_neg] at this
  · rw [h, ieee_zero]; simp
  · rw [abs_of_pos h]; exact key x h

theorem nearest_nearest (a : ℚ) (z : ℤ) : |(nearest a : ℚ) - a| ≤ |(z : ℚ) - a| := by
  by_cases h : nearest a = z
  · rw [h]
  · have h1 := nearest_error a
    have h2 : (1 : ℚ) ≤ |(z : ℚ) - (nearest a : ℚ)| := by
      have : (1 : ℤ) ≤ |z - nearest a| := Int.one_le_abs (by omega)
      exact_mod_cast this
    have h3 : |(z : ℚ) - (nearest a : ℚ)| ≤ |(z : ℚ) - a| + |(nearest a : ℚ) - a| := by
      have := abs_sub ((z : ℚ) - a) ((nearest a : ℚ) - a)
      rwa [show (z : ℚ) - a - ((nearest a : ℚ) - a) = z - nearest a by ring] at this
    linarith

theorem ieee_multiple {p : ℕ} {x : ℚ} (hx : 0 < x) (z : ℤ) : |ieee p x - x| ≤ |z * ulp p x - x| := by
  have hu := ulp_pos p x
  have key : ∀ w : ℤ, |(w : ℚ) * ulp p x - x| = |(w : ℚ) - x / ulp p x| * ulp p x := by
    intro w
    have : (w : ℚ) * ulp p x - x = ((w : ℚ) - x / ulp p x) * ulp p x := by rw [sub_mul, div_mul_cancel₀ _ hu.ne']
    rw [this, abs_mul, abs_of_pos hu]
  rw [ieee_pos_eq hx, key, key]
  exact mul_le_mul_of_nonneg_right (nearest_nearest _ z) hu.le

theorem ieee_nearest {p : ℕ} (hp : 1 ≤ p) (x : ℚ) (m k : ℤ) (hm : |m| ≤ 2 ^ p) : |ieee p x - x| ≤ |m * (2 : ℚ) ^ k - x| := by
  have key : ∀ y : ℚ, 0 < y → ∀ m : ℤ, |m| ≤ 2 ^ p → |ieee p y - y| ≤ |m * (2 : ℚ) ^ k - y| := by
    intro y hy m hm
    by_cases hk : Int.log 2 y - p + 1 ≤ k
    · obtain ⟨j, hj⟩ : ∃ j : ℕ, k = (Int.log 2 y - p + 1) + j := ⟨(k - (Int.log 2 y - p + 1)).toNat, by omega⟩
      have := ieee_multiple (p := p) hy (m * 2 ^ j)
      have h2 : ((m * 2 ^ j : ℤ) : ℚ) * ulp p y = m * (2 : ℚ) ^ k := by
        rw [ulp, abs_of_pos hy, hj, zpow_add₀ (by norm_num : (2 : ℚ) ≠ 0) (Int.log 2 y - p + 1), zpow_natCast]
        push_cast
        ring
      rwa [h2] at this
    · have h1 := ieee_multiple (p := p) hy (2 ^ (p - 1))
      have hu : ulp p y = (2 : ℚ) ^ (Int.log 2 y - p + 1) := by rw [ulp, abs_of_pos hy]
      rw [hu, two_pow_pred hp] at h1
      have h2 := log_le hy
      have h3 : (m : ℚ) * (2 : ℚ) ^ k ≤ (2 : ℚ) ^ Int.log 2 y := by
        have hk2 : (0 : ℚ) < (2 : ℚ) ^ k := zpow_pos (by norm_num) _
        have hm' : (m : ℚ) ≤ 2 ^ p := by exact_mod_cast (le_abs_self m).trans hm
        refine (mul_le_mul_of_nonneg_right hm' hk2.le).trans ?_
        rw [← zpow_natCast, ← zpow_add₀ (by norm_num)]
        exact zpow_le_zpow_right₀ (by norm_num) (by omega)
      rw [abs_of_nonpos (a := (2 : ℚ) ^ Int.log 2 y - y) (by linarith)] at h1
      rw [abs_of_nonpos (a := (m : ℚ) * (2 : ℚ) ^ k - y) (by linarith)]
      linarith
  rcases lt_trichotomy x 0 with h | h | h
  · have := key (-x) (by linarith) (-m) (by rwa [abs_neg])
    rw [ieee_neg, show -ieee p x - -x = -(ieee p x - x) by ring, abs_neg] at this
    push_cast at this
    rwa [show -(m : ℚ) * (2 : ℚ) ^ k - -x = -(m * (2 : ℚ) ^ k - x) by ring, abs_neg] at this
  · rw [h, ieee_zero, sub_zero, abs_zero]; exact abs_nonneg _
  · exact key x h m hm

theorem ieee_tie {p : ℕ} (hp : 1 ≤ p) (m k : ℤ) (h1 : 2 ^ (p - 1) ≤ m) (h2 : m < 2 ^ p) :
    ieee p ((m + 1 / 2) * (2 : ℚ) ^ k) = (if m % 2 = 0 then m else m + 1) * (2 : ℚ) ^ k := by
  have h2k : (0 : ℚ) < (2 : ℚ) ^ k := zpow_pos (by norm_num) _
  have hm0 : (0 : ℤ) < m := lt_of_lt_of_le (by positivity) h1
  have hm0' : (0 : ℚ) < m := by exact_mod_cast hm0
  have hx : (0 : ℚ) < (m + 1 / 2) * (2 : ℚ) ^ k := mul_pos (by linarith) h2k
  have hlog : Int.log 2 ((m + 1 / 2) * (2 : ℚ) ^ k) = k + p - 1 := by
    have ha := log_le hx
    have hb := lt_log hx
    have hc : (m + 1 / 2) * (2 : ℚ) ^ k < (2 : ℚ) ^ ((p : ℤ) + k) := by
      rw [zpow_add₀ (by norm_num), zpow_natCast]
      have : (m : ℚ) + 1 ≤ 2 ^ p := by exact_mod_cast h2
      exact mul_lt_mul_of_pos_right (by linarith) h2k
    have hd : (2 : ℚ) ^ ((p : ℤ) - 1 + k) ≤ (m + 1 / 2) * (2 : ℚ) ^ k := by
      obtain ⟨n, rfl⟩ : ∃ n, p = n + 1 := ⟨p - 1, by omega⟩
      rw [zpow_add₀ (by norm_num), show ((n + 1 : ℕ) : ℤ) - 1 = (n : ℤ) by push_cast; ring, zpow_natCast]
      have : (2 : ℚ) ^ n ≤ m := by exact_mod_cast h1
      exact mul_le_mul_of_nonneg_right (by linarith) h2k.le
    have h3 := (zpow_lt_zpow_iff_right₀ (by norm_num : (1 : ℚ) < 2)).mp (ha.trans_lt hc)
    have h4 := (zpow_lt_zpow_iff_right₀ (by norm_num : (1 : ℚ) < 2)).mp (hd.trans_lt hb)
    omega
  have hu : ulp p ((m + 1 / 2) * (2 : ℚ) ^ k) = (2 : ℚ) ^ k := by
    rw [ulp, abs_of_pos hx, hlog]; congr 1; ring
  have hf : ⌊(m : ℚ) + 1 / 2⌋ = m := by
    rw [Int.floor_eq_iff]; constructor <;> linarith
  rw [ieee_pos_eq hx, hu, mul_div_assoc, div_self h2k.ne', mul_one]
  unfold nearest
  rw [hf, if_neg (by norm_num), if_neg (by norm_num)]

theorem formats_faithful {p q : ℕ} (hp : 1 ≤ p) (hpq : p ≤ q) : Faithful (formats p q) where
  U_mono := fun _ _ h => ieee_mono hp h
  R_mono := fun _ _ h => ieee_mono (hp.trans hpq) h
  U_zero := ieee_zero p
  R_zero := ieee_zero q
  U_pos := fun _ h => ieee_pos hp h
  R_pos := fun _ h => ieee_pos (hp.trans hpq) h
  U_idem := fun x => ieee_ieee hp (le_refl p) x
  R_idem := fun x => ieee_ieee (hp.trans hpq) (le_refl q) x
  R_U := fun x => ieee_ieee hp hpq x

theorem formats_precise (p q : ℕ) : Precise (formats p q) (1 / 2 ^ p) := ieee_error p

end Verif.Rounded
