import Verif.Model.MachineNumbers
import Verif.Spec.MachineNumbers

/-! # Integral types as rings, and coordinates over them: C106 -/
namespace Verif.Props
open Verif.Spec.MachineNumbers Verif.MachineNumbers

/-- Operations which work modulo something. -/
theorem ring_of_wrap {mem : Int → Prop} {add sub mul : Int → Int → Res Int} (wrap : Int → Int) (hmem : ∀ a, mem a ↔ wrap a = a)
    (hww : ∀ x, wrap (wrap x) = wrap x) (hadd : ∀ x y, wrap (wrap x + y) = wrap (x + y)) (hmul : ∀ x y, wrap (wrap x * y) = wrap (x * y)) (h0 : mem 0) :
    (∀ a b, mem a → mem b → add a b = .ok (wrap (a + b))) → (∀ a b, mem a → mem b → sub a b = .ok (wrap (a - b))) →
    AdditiveGroup mem 0 add sub ∧
    (mem 1 → (∀ a b, mem a → mem b → mul a b = .ok (wrap (a * b))) → CommutativeRing mem 0 1 add sub mul) := by
  intro ha hs
  have hw : ∀ x, mem (wrap x) := fun x => (hmem _).2 (hww x)
  have hsub : ∀ x y, wrap (wrap x - y) = wrap (x - y) := fun x y => by rw [Int.sub_eq_add_neg, hadd, ← Int.sub_eq_add_neg]
  have hadd' : ∀ x y, wrap (x + wrap y) = wrap (x + y) := fun x y => by rw [Int.add_comm, hadd, Int.add_comm]
  have hmul' : ∀ x y, wrap (x * wrap y) = wrap (x * y) := fun x y => by rw [Int.mul_comm, hmul, Int.mul_comm]
  have hg : AdditiveGroup mem 0 add sub := by
    refine ⟨fun a b h1 h2 => ⟨_, hw _, ha a b h1 h2⟩, fun a b h1 h2 => ⟨_, hw _, hs a b h1 h2⟩, h0, ?_, ?_, ?_, ?_, ?_⟩
    · intro a b h1 h2; rw [ha a b h1 h2, ha b a h2 h1, Int.add_comm]
    · intro a b c h1 h2 h3
      rw [ha a b h1 h2, ha b c h2 h3]
      simp only [Res.bind]
      rw [ha _ _ (hw _) h3, ha _ _ h1 (hw _), hadd, hadd', Int.add_assoc]
    · intro a h1; rw [ha a 0 h1 h0, Int.add_zero, (hmem a).1 h1]
    · intro a b h1 h2
      rw [ha a b h1 h2]
      simp only [Res.bind]
      rw [hs _ _ (hw _) h2, hsub, Int.add_sub_cancel, (hmem a).1 h1]
    · intro a b h1 h2
      rw [hs a b h1 h2]
      simp only [Res.bind]
      rw [ha _ _ (hw _) h2, hadd, Int.sub_add_cancel, (hmem a).1 h1]
  refine ⟨hg, fun h1 hm => { hg with mul_closed := fun a b h1 h2 => ⟨_, hw _, hm a b h1 h2⟩, one_mem := h1, mul_comm := ?_, mul_assoc := ?_, mul_one := ?_, distrib := ?_ }⟩
  · intro a b h1 h2; rw [hm a b h1 h2, hm b a h2 h1, Int.mul_comm]
  · intro a b c h1 h2 h3
    rw [hm a b h1 h2, hm b c h2 h3]
    simp only [Res.bind]
    rw [hm _ _ (hw _) h3, hm _ _ h1 (hw _), hmul, hmul', Int.mul_assoc]
  · intro a h2; rw [hm a 1 h2 h1, Int.mul_one, (hmem a).1 h2]
  · intro a b c h1 h2 h3
    rw [ha a b h1 h2, hm a c h1 h3, hm b c h2 h3]
    simp only [Res.bind]
    rw [hm _ _ (hw _) h3, ha _ _ (hw _) (hw _), hmul, hadd, hadd', Int.add_mul]

theorem pow_cast (w : Nat) : ((2 ^ w : Nat) : Int) = 2 ^ w := by simp

theorem two_pow_pos (w : Nat) : (0 : Int) < 2 ^ w := by rw [← pow_cast]; exact_mod_cast Nat.two_pow_pos w

theorem unsigned_mem (w : Nat) (a : Int) : inRange (.unsigned w) a ↔ a % 2 ^ w = a := by
  have := two_pow_pos w
  unfold inRange
  constructor
  · rintro ⟨h1, h2⟩; exact Int.emod_eq_of_lt h1 h2
  · intro h; rw [← h]; exact ⟨Int.emod_nonneg _ (by omega), Int.emod_lt_of_pos _ this⟩

theorem signed_mem (w : Nat) (a : Int) (hw : 0 < w) : inRange (.signed w) a ↔ a.bmod (2 ^ w) = a := by
  obtain ⟨v, rfl⟩ : ∃ v, w = v + 1 := ⟨w - 1, by omega⟩
  have h2 : (2 : Nat) ^ (v + 1) = 2 * 2 ^ v := by rw [Nat.pow_succ]; omega
  have h3 := pow_cast v
  unfold inRange
  simp only [Nat.add_sub_cancel]
  constructor
  · rintro ⟨h1, h2'⟩
    refine Int.bmod_eq_of_le ?_ ?_ <;> rw [h2] <;> omega
  · intro h
    have h4 := Int.le_bmod (x := a) (m := 2 ^ (v + 1)) (Nat.two_pow_pos _)
    have h5 := Int.bmod_lt (x := a) (m := 2 ^ (v + 1)) (Nat.two_pow_pos _)
    rw [h] at h4 h5
    rw [h2] at h4 h5
    omega

/-- Unsigned types as wide as `int` or wider. -/
theorem unsigned_wide {n w : Nat} (h : n ≤ w) (r : Int) : compound n (.unsigned w) r = .ok (r % 2 ^ w) := by
  simp [compound, promoted, Nat.not_lt.2 h, computed, converted, Res.bind]

/-- Types narrower than `int`, as long as the exact result is an `int`. -/
theorem unsigned_narrow {n w : Nat} (h : w < n) {r : Int} (hr : inRange (.signed n) r) : compound n (.unsigned w) r = .ok (r % 2 ^ w) := by
  simp [compound, promoted, h, computed, hr, converted, Res.bind]

theorem signed_narrow {n w : Nat} (h : w < n) {r : Int} (hr : inRange (.signed n) r) : compound n (.signed w) r = .ok (r.bmod (2 ^ w)) := by
  simp [compound, promoted, h, computed, hr, converted, Res.bind]

theorem unsigned_ring {n w : Nat} (ha : ∀ a b, inRange (.unsigned w) a → inRange (.unsigned w) b → compound n (.unsigned w) (a + b) = .ok ((a + b) % 2 ^ w))
    (hs : ∀ a b, inRange (.unsigned w) a → inRange (.unsigned w) b → compound n (.unsigned w) (a - b) = .ok ((a - b) % 2 ^ w)) :
    AdditiveGroup (inRange (.unsigned w)) 0 (plusAssign n (.unsigned w)) (minusAssign n (.unsigned w)) ∧
    (inRange (.unsigned w) 1 →
      (∀ a b, inRange (.unsigned w) a → inRange (.unsigned w) b → compound n (.unsigned w) (a * b) = .ok ((a * b) % 2 ^ w)) →
      CommutativeRing (inRange (.unsigned w)) 0 1 (plusAssign n (.unsigned w)) (minusAssign n (.unsigned w)) (timesAssign n (.unsigned w))) :=
  ring_of_wrap (fun x => x % 2 ^ w) (unsigned_mem w) (fun x => Int.emod_emod_of_dvd x (Int.dvd_refl _)) (fun x y => Int.emod_add_emod _ _ _)
    (fun x y => by rw [Int.mul_emod, Int.emod_emod_of_dvd x (Int.dvd_refl _), ← Int.mul_emod]) ((unsigned_mem w 0).2 (by simp)) ha hs

theorem signed_ring {n w : Nat} (hw : 0 < w) (ha : ∀ a b, inRange (.signed w) a → inRange (.signed w) b → compound n (.signed w) (a + b) = .ok ((a + b).bmod (2 ^ w)))
    (hs : ∀ a b, inRange (.signed w) a → inRange (.signed w) b → compound n (.signed w) (a - b) = .ok ((a - b).bmod (2 ^ w))) :
    AdditiveGroup (inRange (.signed w)) 0 (plusAssign n (.signed w)) (minusAssign n (.signed w)) ∧
    (inRange (.signed w) 1 →
      (∀ a b, inRange (.signed w) a → inRange (.signed w) b → compound n (.signed w) (a * b) = .ok ((a * b).bmod (2 ^ w))) →
      CommutativeRing (inRange (.signed w)) 0 1 (plusAssign n (.signed w)) (minusAssign n (.signed w)) (timesAssign n (.signed w))) :=
  ring_of_wrap (fun x => x.bmod (2 ^ w)) (fun a => signed_mem w a hw) (fun x => Int.bmod_bmod) (fun x y => Int.bmod_add_bmod)
    (fun x y => Int.bmod_mul_bmod) ((signed_mem w 0 hw).2 (by simp)) ha hs

theorem pow_le {v w : Nat} (h : v ≤ w) : (2 : Int) ^ v ≤ 2 ^ w := by
  rw [← pow_cast, ← pow_cast]; exact_mod_cast Nat.pow_le_pow_right (by omega) h

theorem pow_double (v : Nat) : (2 : Int) ^ (v + 1) = 2 * 2 ^ v := by rw [Int.pow_succ]; omega

/-- **C106** Unsigned types which are at least as wide as `int` are commutative rings, exactly. -/
theorem C106_unsigned {n w : Nat} (hw : 0 < w) (h : n ≤ w) :
    CommutativeRing (inRange (.unsigned w)) 0 1 (plusAssign n (.unsigned w)) (minusAssign n (.unsigned w)) (timesAssign n (.unsigned w)) := by
  refine (unsigned_ring (fun _ _ _ _ => unsigned_wide h _) (fun _ _ _ _ => unsigned_wide h _)).2 ?_ (fun _ _ _ _ => unsigned_wide h _)
  have := pow_le (show 1 ≤ w from hw)
  constructor <;> omega

/-- **C106** Addition of unsigned types which are at least two bits narrower than `int`, or not narrower at all, is that of a commutative group, exactly. -/
theorem C106_unsigned_addition {n w : Nat} (h : n ≤ w ∨ w + 2 ≤ n) :
    AdditiveGroup (inRange (.unsigned w)) 0 (plusAssign n (.unsigned w)) (minusAssign n (.unsigned w)) := by
  rcases h with h | h
  · exact (unsigned_ring (fun _ _ _ _ => unsigned_wide h _) (fun _ _ _ _ => unsigned_wide h _)).1
  · have h1 := pow_le (show w + 1 ≤ n - 1 by omega)
    rw [pow_double] at h1
    refine (unsigned_ring (fun a b ha hb => unsigned_narrow (by omega) ?_) (fun a b ha hb => unsigned_narrow (by omega) ?_)).1 <;>
      (unfold inRange at ha hb ⊢; omega)

/-- The bound for a product. -/
theorem mul_bound {a b m : Int} (ha : -m ≤ a ∧ a ≤ m) (hb : -m ≤ b ∧ b ≤ m) : -(m * m) ≤ a * b ∧ a * b ≤ m * m := by
  have h1 : (a * b).natAbs ≤ m.natAbs * m.natAbs := by
    rw [Int.natAbs_mul]
    exact Nat.mul_le_mul (by omega) (by omega)
  rw [← Int.natAbs_mul] at h1
  have h2 : 0 ≤ m * m := Int.mul_nonneg (by omega) (by omega)
  omega

/-- **C106** Unsigned types of less than half the width of `int` are commutative rings, exactly. -/
theorem C106_unsigned_narrow {n w : Nat} (hw : 0 < w) (h : 2 * w < n) :
    CommutativeRing (inRange (.unsigned w)) 0 1 (plusAssign n (.unsigned w)) (minusAssign n (.unsigned w)) (timesAssign n (.unsigned w)) := by
  have h1 := pow_le (show w + 1 ≤ n - 1 by omega)
  rw [pow_double] at h1
  have h2 := pow_le (show w + w ≤ n - 1 by omega)
  rw [Int.pow_add] at h2
  refine (unsigned_ring (fun a b ha hb => unsigned_narrow (by omega) ?_) (fun a b ha hb => unsigned_narrow (by omega) ?_)).2 ?_
    (fun a b ha hb => unsigned_narrow (by omega) ?_)
  · unfold inRange at ha hb ⊢; omega
  · unfold inRange at ha hb ⊢; omega
  · have := pow_le (show 1 ≤ w from hw)
    constructor <;> omega
  · unfold inRange at ha hb ⊢
    have h3 : a * b ≤ (2 ^ w - 1) * (2 ^ w - 1) := Int.mul_le_mul (by omega) (by omega) (by omega) (by omega)
    have h4 : (2 ^ w - 1 : Int) * (2 ^ w - 1) = 2 ^ w * 2 ^ w - 2 * 2 ^ w + 1 := by
      rw [Int.sub_mul, Int.mul_sub]; omega
    have h5 : 0 ≤ a * b := Int.mul_nonneg ha.1 hb.1
    have h6 := pow_le (show 1 ≤ w from hw)
    omega

/-- **C106 (violated)** Unsigned types narrower than `int`, but of at least half its width, such as `unsigned short`, are taken for rings, but the product of the greatest value with
itself is undefined. -/
theorem C106_unsigned_short_violated {n w : Nat} (hw : 2 ≤ w) (h₁ : w < n) (h₂ : n ≤ 2 * w) :
    weakCommutativeRing (.unsigned w) = true ∧ inRange (.unsigned w) (2 ^ w - 1) ∧ timesAssign n (.unsigned w) (2 ^ w - 1) (2 ^ w - 1) = .ub := by
  have h6 := pow_le (show 1 ≤ w by omega)
  refine ⟨rfl, by unfold inRange; omega, ?_⟩
  have h3 : ¬ inRange (.signed n) ((2 ^ w - 1) * (2 ^ w - 1)) := by
    have h4 : (2 ^ w - 1 : Int) * (2 ^ w - 1) = 2 ^ w * 2 ^ w - 2 * 2 ^ w + 1 := by
      rw [Int.sub_mul, Int.mul_sub]; omega
    have h5 : (2 : Int) ^ w * 2 ^ w = 2 * 2 ^ (w + w - 1) := by rw [← Int.pow_add, ← pow_double]; congr 1; omega
    have h7 := pow_le (show w + 1 ≤ w + w - 1 by omega)
    have h8 := pow_le (show n - 1 ≤ w + w - 1 by omega)
    rw [pow_double] at h7
    unfold inRange
    omega
  simp [timesAssign, compound, promoted, h₁, computed, h3, Res.bind]

/-- **C106** Signed types of at most half the width of `int` are commutative rings, exactly: results are converted modulo a power of two. -/
theorem C106_signed_narrow {n w : Nat} (hw : 2 ≤ w) (h : 2 * w ≤ n) :
    CommutativeRing (inRange (.signed w)) 0 1 (plusAssign n (.signed w)) (minusAssign n (.signed w)) (timesAssign n (.signed w)) := by
  obtain ⟨v, rfl⟩ : ∃ v, w = v + 1 := ⟨w - 1, by omega⟩
  have h1 := pow_le (show v + 1 ≤ n - 1 by omega)
  rw [pow_double] at h1
  have h2 := pow_le (show (v + v) + 1 ≤ n - 1 by omega)
  rw [pow_double, Int.pow_add] at h2
  have hp := two_pow_pos v
  have hpp : (0 : Int) < 2 ^ v * 2 ^ v := Int.mul_pos hp hp
  refine (signed_ring (by omega) (fun a b ha hb => signed_narrow (by omega) ?_) (fun a b ha hb => signed_narrow (by omega) ?_)).2 ?_
    (fun a b ha hb => signed_narrow (by omega) ?_)
  · unfold inRange at ha hb ⊢; simp only [Nat.add_sub_cancel] at ha hb; omega
  · unfold inRange at ha hb ⊢; simp only [Nat.add_sub_cancel] at ha hb
    have := pow_le (show v + 2 ≤ n - 1 + 1 by omega)
    omega
  · have := pow_le (show 1 ≤ v by omega)
    unfold inRange; simp only [Nat.add_sub_cancel]; omega
  · unfold inRange at ha hb ⊢; simp only [Nat.add_sub_cancel] at ha hb
    have := mul_bound (a := a) (b := b) (m := 2 ^ v) ⟨ha.1, by omega⟩ ⟨hb.1, by omega⟩
    omega

/-- **C106 (part)** Signed types as wide as `int` or wider compute exactly, or else the behaviour is undefined.  What is missing: values for all operands, see `C106_signed_violated`. -/
theorem C106_signed_partial {n w : Nat} (hw : 0 < w) (h : n ≤ w) (r : Int) :
    compound n (.signed w) r = if inRange (.signed w) r then .ok r else .ub := by
  by_cases hr : inRange (.signed w) r
  · simp [compound, promoted, Nat.not_lt.2 h, computed, hr, converted, Res.bind, (signed_mem w r hw).1 hr]
  · simp [compound, promoted, Nat.not_lt.2 h, computed, hr, Res.bind]

/-- **C106 (violated)** Signed types as wide as `int` or wider are taken for rings, but there is no successor of the greatest value. -/
theorem C106_signed_violated {n w : Nat} (hw : 2 ≤ w) (h : n ≤ w) :
    weakCommutativeRing (.signed w) = true ∧ inRange (.signed w) (2 ^ (w - 1) - 1) ∧ inRange (.signed w) 1 ∧ plusAssign n (.signed w) (2 ^ (w - 1) - 1) 1 = .ub := by
  have := pow_le (show 1 ≤ w - 1 by omega)
  refine ⟨rfl, by unfold inRange; omega, by unfold inRange; omega, ?_⟩
  unfold plusAssign
  rw [C106_signed_partial (by omega) h, if_neg]
  unfold inRange
  omega

theorem bool_ops {n : Nat} (hn : 3 ≤ n) {r : Int} (h : -1 ≤ r ∧ r ≤ 2) : compound n .bool r = .ok (if r = 0 then 0 else 1) := by
  have h2 : inRange (.signed n) r := by
    have := pow_le (show 2 ≤ n - 1 by omega)
    unfold inRange; omega
  simp [compound, promoted, computed, h2, converted, Res.bind]

/-- **C106** Multiplication of `bool`s: all but zero are invertible. -/
theorem C106_bool_multiplication {n : Nat} (hn : 3 ≤ n) :
    Closed (inRange .bool) (timesAssign n .bool) ∧ Invertible (inRange .bool) 0 1 (timesAssign n .bool) := by
  constructor
  · rintro a b (rfl | rfl) (rfl | rfl) <;> (unfold timesAssign; rw [bool_ops hn (by omega)]; exact ⟨_, by decide, rfl⟩)
  · refine ⟨by decide, ?_⟩
    rintro a (rfl | rfl) h
    · exact absurd rfl h
    · exact ⟨1, .inr rfl, by unfold timesAssign; rw [bool_ops hn (by omega)]; rfl⟩

/-- **C106 (violated)** `bool` is taken for a field, and said to be one exactly, but nothing can be added to `true` to give `false`: its addition is not that of a group. -/
theorem C106_bool_violated {n : Nat} (hn : 3 ≤ n) :
    weakField .bool = true ∧ (∀ b, inRange .bool b → plusAssign n .bool 1 b = .ok 1) ∧
    ¬ AdditiveGroup (inRange .bool) 0 (plusAssign n .bool) (minusAssign n .bool) := by
  have h1 : ∀ b, inRange .bool b → plusAssign n .bool 1 b = .ok 1 := by
    rintro b (rfl | rfl) <;> (unfold plusAssign; rw [bool_ops hn (by omega)]; rfl)
  refine ⟨rfl, h1, fun hg => ?_⟩
  have h2 := hg.sub_add 0 1 (.inl rfl) (.inr rfl)
  have h3 : minusAssign n .bool 0 1 = .ok 1 := by unfold minusAssign; rw [bool_ops hn (by omega)]; rfl
  rw [h3] at h2
  simp only [Res.bind] at h2
  rw [h1 1 (.inr rfl)] at h2
  cases h2

/-! ### Coordinates -/

/-- All components are values of the type. -/
def Members (T : IntTy) (c : List Int) : Prop := ∀ x ∈ c, inRange T x

theorem applyToEach_ok {mem : Int → Prop} {op : Int → Int → Res Int} {F : Int → Int → Int} (h : ∀ a b, mem a → mem b → mem (F a b) ∧ op a b = .ok (F a b))
    {as bs : List Int} (ha : ∀ x ∈ as, mem x) (hb : ∀ x ∈ bs, mem x) :
    applyToEach op as bs = .ok (List.zipWith F as bs) ∧ ∀ x ∈ List.zipWith F as bs, mem x := by
  induction as generalizing bs with
  | nil => exact ⟨by simp [applyToEach], by simp⟩
  | cons a as ih =>
    cases bs with
    | nil => exact ⟨by simp [applyToEach], by simp⟩
    | cons b bs =>
      obtain ⟨h1, h2⟩ := h a b (ha a (by simp)) (hb b (by simp))
      obtain ⟨h3, h4⟩ := ih (bs := bs) (fun x hx => ha x (by simp [hx])) (fun x hx => hb x (by simp [hx]))
      constructor
      · simp [applyToEach, h2, h3, Res.bind]
      · intro x hx
        simp only [List.zipWith_cons_cons, List.mem_cons] at hx
        rcases hx with rfl | hx
        · exact h1
        · exact h4 x hx

/-- The value of an operation which has one. -/
theorem closed_value {mem : Int → Prop} {op : Int → Int → Res Int} (h : Closed mem op) :
    ∃ F : Int → Int → Int, ∀ a b, mem a → mem b → mem (F a b) ∧ op a b = .ok (F a b) := by
  refine ⟨fun a b => match op a b with | .ok c => c | _ => 0, fun a b ha hb => ?_⟩
  obtain ⟨c, h1, h2⟩ := h a b ha hb
  simp only [h2]
  exact ⟨h1, trivial⟩

/-- **C106** Coordinates over a type whose addition is that of a group: in any dimension their addition is commutative and associative, and undone by subtraction. -/
theorem C106_coordinates_group {n : Nat} {T : IntTy} (hT : AdditiveGroup (inRange T) 0 (plusAssign n T) (minusAssign n T)) {c v u : List Int} (hc : Members T c) (hv : Members T v)
    (hu : Members T u) (hl : c.length = v.length) (hl' : v.length = u.length) :
    coordsPlus n T c v = coordsPlus n T v c ∧
    ((coordsPlus n T c v).bind fun x => coordsPlus n T x u) = ((coordsPlus n T v u).bind fun x => coordsPlus n T c x) ∧
    ((coordsPlus n T c v).bind fun x => coordsMinus n T x v) = .ok c ∧ ((coordsMinus n T c v).bind fun x => coordsPlus n T x v) = .ok c := by
  obtain ⟨A, hA⟩ := closed_value hT.add_closed
  obtain ⟨B, hB⟩ := closed_value hT.sub_closed
  have p := fun {a b : List Int} (h1 : Members T a) (h2 : Members T b) => applyToEach_ok hA h1 h2
  have m := fun {a b : List Int} (h1 : Members T a) (h2 : Members T b) => applyToEach_ok hB h1 h2
  have comm : ∀ a b, inRange T a → inRange T b → A a b = A b a := by
    intro a b h1 h2
    have := hT.add_comm a b h1 h2
    rw [(hA a b h1 h2).2, (hA b a h2 h1).2] at this
    injection this
  have assoc : ∀ a b c, inRange T a → inRange T b → inRange T c → A (A a b) c = A a (A b c) := by
    intro a b c h1 h2 h3
    have := hT.add_assoc a b c h1 h2 h3
    rw [(hA a b h1 h2).2, (hA b c h2 h3).2] at this
    simp only [Res.bind] at this
    rw [(hA _ _ (hA a b h1 h2).1 h3).2, (hA _ _ h1 (hA b c h2 h3).1).2] at this
    injection this
  have undo : ∀ a b, inRange T a → inRange T b → B (A a b) b = a := by
    intro a b h1 h2
    have := hT.add_sub a b h1 h2
    rw [(hA a b h1 h2).2] at this
    simp only [Res.bind] at this
    rw [(hB _ _ (hA a b h1 h2).1 h2).2] at this
    injection this
  have redo : ∀ a b, inRange T a → inRange T b → A (B a b) b = a := by
    intro a b h1 h2
    have := hT.sub_add a b h1 h2
    rw [(hB a b h1 h2).2] at this
    simp only [Res.bind] at this
    rw [(hA _ _ (hB a b h1 h2).1 h2).2] at this
    injection this
  unfold coordsPlus coordsMinus
  rw [(p hc hv).1, (p hv hc).1, (p hv hu).1, (m hc hv).1]
  simp only [Res.bind]
  rw [(p (p hc hv).2 hu).1, (p hc (p hv hu).2).1, (m (p hc hv).2 hv).1, (p (m hc hv).2 hv).1]
  clear p m
  refine ⟨?_, ?_, ?_, ?_⟩ <;> congr 1
  · induction c generalizing v u with
    | nil => cases v <;> simp
    | cons a c ih =>
      cases v with
      | nil => simp
      | cons b v =>
        cases u with
        | nil => simp at hl'
        | cons d u =>
          simp only [List.zipWith_cons_cons]
          rw [comm a b (hc a (by simp)) (hv b (by simp)), ih (v := v) (u := u) (fun x hx => hc x (by simp [hx])) (fun x hx => hv x (by simp [hx])) (fun x hx => hu x (by simp [hx]))
            (by simpa using hl) (by simpa using hl')]
  · induction c generalizing v u with
    | nil => cases v <;> simp
    | cons a c ih =>
      cases v with
      | nil => simp
      | cons b v =>
        cases u with
        | nil => simp at hl'
        | cons d u =>
          simp only [List.zipWith_cons_cons]
          rw [assoc a b d (hc a (by simp)) (hv b (by simp)) (hu d (by simp)), ih (v := v) (u := u) (fun x hx => hc x (by simp [hx])) (fun x hx => hv x (by simp [hx]))
            (fun x hx => hu x (by simp [hx])) (by simpa using hl) (by simpa using hl')]
  · clear hl' hu
    induction c generalizing v with
    | nil => cases v <;> simp
    | cons a c ih =>
      cases v with
      | nil => simp at hl
      | cons b v =>
        simp only [List.zipWith_cons_cons]
        rw [undo a b (hc a (by simp)) (hv b (by simp)), ih (v := v) (fun x hx => hc x (by simp [hx])) (fun x hx => hv x (by simp [hx])) (by simpa using hl)]
  · clear hl' hu
    induction c generalizing v with
    | nil => cases v <;> simp
    | cons a c ih =>
      cases v with
      | nil => simp at hl
      | cons b v =>
        simp only [List.zipWith_cons_cons]
        rw [redo a b (hc a (by simp)) (hv b (by simp)), ih (v := v) (fun x hx => hc x (by simp [hx])) (fun x hx => hv x (by simp [hx])) (by simpa using hl)]

theorem times_ok {mem : Int → Prop} {op : Int → Int → Res Int} {F : Int → Int → Int} (h : ∀ a b, mem a → mem b → mem (F a b) ∧ op a b = .ok (F a b))
    {c : List Int} (hc : ∀ x ∈ c, mem x) {u : Int} (hu : mem u) :
    applyToEach op c (c.map fun _ => u) = .ok (c.map fun x => F x u) ∧ ∀ x ∈ c.map (fun x => F x u), mem x := by
  have h1 := applyToEach_ok h hc (bs := c.map fun _ => u) (by intro x hx; simp only [List.mem_map] at hx; obtain ⟨_, _, rfl⟩ := hx; exact hu)
  have h2 : List.zipWith F c (c.map fun _ => u) = c.map fun x => F x u := by
    clear h1 hc
    induction c with
    | nil => rfl
    | cons a c ih => simp [ih]
  rw [h2] at h1
  exact h1

/-- **C106** Coordinates over a type which is a commutative ring, in any dimension: multiplication by a number distributes over addition, two multiplications amount to one by the product, and multiplication
by one changes nothing. -/
theorem C106_coordinates_module {n : Nat} {T : IntTy} (hT : CommutativeRing (inRange T) 0 1 (plusAssign n T) (minusAssign n T) (timesAssign n T)) {c v : List Int} (hc : Members T c)
    (hv : Members T v) {s t : Int} (hs : inRange T s) (ht : inRange T t) :
    ((coordsPlus n T c v).bind fun x => coordsTimes n T x s) = ((coordsTimes n T c s).bind fun x => (coordsTimes n T v s).bind fun y => coordsPlus n T x y) ∧
    ((coordsTimes n T c s).bind fun x => coordsTimes n T x t) = ((timesAssign n T s t).bind fun x => coordsTimes n T c x) ∧
    coordsTimes n T c 1 = .ok c := by
  obtain ⟨A, hA⟩ := closed_value hT.add_closed
  obtain ⟨M, hM⟩ := closed_value hT.mul_closed
  have dist : ∀ a b c, inRange T a → inRange T b → inRange T c → M (A a b) c = A (M a c) (M b c) := by
    intro a b c h1 h2 h3
    have := hT.distrib a b c h1 h2 h3
    rw [(hA a b h1 h2).2, (hM a c h1 h3).2, (hM b c h2 h3).2] at this
    simp only [Res.bind] at this
    rw [(hM _ _ (hA a b h1 h2).1 h3).2, (hA _ _ (hM a c h1 h3).1 (hM b c h2 h3).1).2] at this
    injection this
  have assoc : ∀ a b c, inRange T a → inRange T b → inRange T c → M (M a b) c = M a (M b c) := by
    intro a b c h1 h2 h3
    have := hT.mul_assoc a b c h1 h2 h3
    rw [(hM a b h1 h2).2, (hM b c h2 h3).2] at this
    simp only [Res.bind] at this
    rw [(hM _ _ (hM a b h1 h2).1 h3).2, (hM _ _ h1 (hM b c h2 h3).1).2] at this
    injection this
  have unit : ∀ a, inRange T a → M a 1 = a := by
    intro a h1
    have := hT.mul_one a h1
    rw [(hM a 1 h1 hT.one_mem).2] at this
    injection this
  have p := applyToEach_ok hA hc hv
  have tc := times_ok hM hc hs
  have tv := times_ok hM hv hs
  unfold coordsPlus coordsTimes
  rw [p.1, tc.1, tv.1, (hM s t hs ht).2, (times_ok hM hc hT.one_mem).1]
  simp only [Res.bind]
  rw [(times_ok hM p.2 hs).1, (applyToEach_ok hA tc.2 tv.2).1, (times_ok hM tc.2 ht).1, (times_ok hM hc (hM s t hs ht).1).1]
  clear p tc tv
  refine ⟨?_, ?_, ?_⟩ <;> congr 1
  · induction c generalizing v with
    | nil => simp
    | cons a c ih =>
      cases v with
      | nil => simp
      | cons b v =>
        simp only [List.zipWith_cons_cons, List.map_cons]
        rw [dist a b s (hc a (by simp)) (hv b (by simp)) hs, ih (v := v) (fun x hx => hc x (by simp [hx])) (fun x hx => hv x (by simp [hx]))]
  · rw [List.map_map]
    exact List.map_congr_left fun x hx => assoc x s t (hc x hx) hs ht
  · refine (List.map_congr_left fun x hx => unit x (hc x hx)).trans (List.map_id' _)

/-- **C106 (part)** On the half line over a signed type, taking away too much is reported.  What is missing: unsigned types, see `C106_half_line_violated`. -/
theorem C106_half_line_partial {n w : Nat} (hw : 0 < w) (h : n ≤ w) {a b : Int} (hd : inRange (.signed w) (a - b)) :
    halfLineMinus n (.signed w) a b = if a < b then .throws else .ok (a - b) := by
  unfold halfLineMinus minusAssign
  rw [C106_signed_partial hw h, if_pos hd]
  simp only [Res.bind, halfLine]
  by_cases hab : a < b
  · rw [if_pos hab, if_pos (by omega)]
  · rw [if_neg hab, if_neg (by omega)]

/-- **C106 (violated)** On the half line over an unsigned type, taking away too much gives a point far away. -/
theorem C106_half_line_violated {n w : Nat} (h : n ≤ w) {a b : Int} (ha : inRange (.unsigned w) a) (hb : inRange (.unsigned w) b) (hab : a < b) :
    halfLineMinus n (.unsigned w) a b = .ok (2 ^ w - (b - a)) := by
  unfold inRange at ha hb
  unfold halfLineMinus minusAssign
  rw [unsigned_wide h]
  simp only [Res.bind, halfLine]
  congr 1
  rw [← Int.add_emod_right, Int.emod_eq_of_lt] <;> omega

/-! ### Examples -/

example : CommutativeRing (inRange (.unsigned 8)) 0 1 (plusAssign 32 (.unsigned 8)) (minusAssign 32 (.unsigned 8)) (timesAssign 32 (.unsigned 8)) :=
  C106_unsigned_narrow (by omega) (by omega)
example : CommutativeRing (inRange (.signed 16)) 0 1 (plusAssign 32 (.signed 16)) (minusAssign 32 (.signed 16)) (timesAssign 32 (.signed 16)) :=
  C106_signed_narrow (by omega) (by omega)
example : CommutativeRing (inRange (.unsigned 64)) 0 1 (plusAssign 32 (.unsigned 64)) (minusAssign 32 (.unsigned 64)) (timesAssign 32 (.unsigned 64)) :=
  C106_unsigned (by omega) (by omega)
example : AdditiveGroup (inRange (.unsigned 16)) 0 (plusAssign 32 (.unsigned 16)) (minusAssign 32 (.unsigned 16)) := C106_unsigned_addition (.inr (by omega))
example : timesAssign 32 (.unsigned 16) 65535 65535 = .ub := by decide
example : plusAssign 32 (.unsigned 8) 200 100 = .ok 44 := by decide
example : plusAssign 32 (.signed 8) 100 100 = .ok (-56) := by decide
example : plusAssign 32 (.signed 32) 2147483647 1 = .ub := by decide
example : plusAssign 32 .bool 1 1 = .ok 1 := by decide
example : coordsPlus 32 (.unsigned 8) [200, 3] [100, 4] = .ok [44, 7] := by decide
example : Members (.unsigned 8) [200, 3] := by unfold Members; decide
example : coordsTimes 32 (.unsigned 8) [200, 3] 2 = .ok [144, 6] := by decide
example : halfLineMinus 32 (.unsigned 32) 3 5 = .ok 4294967294 := by decide
example : halfLineMinus 32 (.signed 32) 3 5 = .throws := by decide

end Verif.Props
