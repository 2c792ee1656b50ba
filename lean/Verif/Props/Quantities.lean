import Mathlib.Data.Rat.Defs
import Mathlib.Algebra.Order.Ring.Rat
import Mathlib.Algebra.Field.Rat
import Mathlib.Tactic.NormNum
import Verif.Lemmas.Quantities

/-! # C88: expressions of quantities do not depend on the choice of units -/
namespace Verif.Props
open Verif.Units Verif.Quantities Verif.Spec Verif.Spec.Quantities

section
variable {S N X K : Type} [DecidableEq S] [DecidableEq N]

/-- **C88** If an expression is well-formed then only quantities with the same dimension are added or subtracted in it, and the exponents of the base units in the unit of the result are those of its
dimension; so well-formed expressions have the same unit precisely if they have the same dimension. -/
theorem C88_dimension (w : Kinds S) (e : Env N) (hu : Usual e) (Γ : X → QTy S N) (f : X → N → Int) (hΓ : ∀ x, Built e (Γ x).unit (f x)) (a : Expr X K) (t : QTy S N)
    (h : typeOf w e Γ a = some t) :
    Homogeneous f a ∧ Built e t.unit (dim f a) ∧ ∀ (b : Expr X K) (t' : QTy S N), typeOf w e Γ b = some t' → (t.unit = t'.unit ↔ ∀ n, dim f a n = dim f b n) := by
  obtain ⟨h1, h2⟩ := built_dim hu hΓ a t h
  exact ⟨h2, h1, fun b t' hb => C63_determined e hu _ _ _ _ h1 (built_dim hu hΓ b t' hb).1⟩

variable [Field K] [LinearOrder K] [IsStrictOrderedRing K]

/-- **C88 (part)** Let the units be changed, that is to say the numbers of all inputs be multiplied as is appropriate for their units, and let the origins which are a matter of choice be moved.  Then the number of
the result is multiplied as is appropriate for the unit of the result and moved with its origin, and whether there is an exception does not depend on the units.

What is missing: points with different origins are subtracted or converted (`C88_origin_violated`), units derive from `no_unit_t` (`C88_derived_violated`), or there are validators other than the identity
and that for the half line. -/
theorem C88_covariant_partial (w : Kinds S) (hl : Lawful w) (e : Env N) (hu : Usual e) (Γ : X → QTy S N) (f : X → N → Int) (hΓ : ∀ x, Built e (Γ x).unit (f x))
    (hv : ∀ x, (Γ x).validator = .identity ∨ (Γ x).validator = .halfLine ∧ w.isAffine (Γ x).space = false) (other : Nat → K → Res K)
    (scale : N → K) (shift : QTy S N → K) (hc : Change w e scale shift) (a : Expr X K) (ha : Aligned w e Γ a) (t : QTy S N) (h : typeOf w e Γ a = some t) (ρ : X → K) :
    eval w e Γ other (fun x => change scale shift (Γ x) (ρ x)) a = mapRes (change scale shift t) (eval w e Γ other ρ a) :=
  eval_change hu hl hc (fun x => by
    rcases hv x with h | ⟨h, h'⟩
    · exact good_identity h
    · exact ⟨by simp [QTy.consistent, h'], .inr h⟩) hΓ a t ha h

/-- **C88 (part)** So comparisons of quantities with the same type have the same outcome in all units.

What is missing: as above; quantities which differ in their origins can be compared, see `C88_origin_violated`. -/
theorem C88_compare_partial (w : Kinds S) (hl : Lawful w) (e : Env N) (hu : Usual e) (Γ : X → QTy S N) (f : X → N → Int) (hΓ : ∀ x, Built e (Γ x).unit (f x))
    (hv : ∀ x, (Γ x).validator = .identity ∨ (Γ x).validator = .halfLine ∧ w.isAffine (Γ x).space = false) (other : Nat → K → Res K)
    (scale : N → K) (shift : QTy S N → K) (hc : Change w e scale shift) (a b : Expr X K) (ha : Aligned w e Γ a) (hb : Aligned w e Γ b) (t : QTy S N) (h : typeOf w e Γ a = some t)
    (h' : typeOf w e Γ b = some t) (ρ : X → K) (x y : K) (hx : eval w e Γ other ρ a = .ok x) (hy : eval w e Γ other ρ b = .ok y) :
    comparable t t = true ∧ ∃ x' y', eval w e Γ other (fun x => change scale shift (Γ x) (ρ x)) a = .ok x' ∧ eval w e Γ other (fun x => change scale shift (Γ x) (ρ x)) b = .ok y' ∧
      (x' < y' ↔ x < y) ∧ (x' = y' ↔ x = y) := by
  refine ⟨by simp [comparable], change scale shift t x, change scale shift t y, ?_, ?_, ?_, ?_⟩
  · rw [C88_covariant_partial w hl e hu Γ f hΓ hv other scale shift hc a ha t h, hx]; rfl
  · rw [C88_covariant_partial w hl e hu Γ f hΓ hv other scale shift hc b hb t h', hy]; rfl
  · rw [change, change, add_lt_add_iff_right, mul_lt_mul_iff_of_pos_left (factor_pos hc.positive _)]
  · rw [change, change, add_left_inj, mul_right_inj' (factor_pos hc.positive _).ne']

/-- **C88** A quantity on the half line is never negative, whatever the expression; and sums, products and quotients of such quantities, with numbers which are not negative, never throw. -/
theorem C88_half_line (w : Kinds S) (e : Env N) (Γ : X → QTy S N) (hv : ∀ x, (Γ x).validator = .identity ∨ (Γ x).validator = .halfLine ∧ w.isAffine (Γ x).space = false)
    (other : Nat → K → Res K) (ρ : X → K) (hρ : ∀ x, (Γ x).validator = .halfLine → 0 ≤ ρ x) (a : Expr X K) (t : QTy S N) (h : typeOf w e Γ a = some t) :
    (∀ v, eval w e Γ other ρ a = .ok v → t.validator = .halfLine → 0 ≤ v) ∧
    ((∀ x, (Γ x).validator = .halfLine) → NoMinus a → t.validator = .halfLine ∧ eval w e Γ other ρ a ≠ .throws) := by
  have hg : ∀ x, Good w (Γ x) := fun x => by
    rcases hv x with h | ⟨h, h'⟩
    · exact good_identity h
    · exact ⟨by simp [QTy.consistent, h'], .inr h⟩
  exact ⟨fun v hv' ht => eval_valid hg hρ a t h v hv' ht,
    fun hh hn => ⟨noMinus_type hh a t hn h, noMinus_eval hh (fun x => (hg x).consistent) (fun x => hρ x (hh x)) a t hn h⟩⟩

omit [Field K] [LinearOrder K] [IsStrictOrderedRing K] in
/-- **C88.** Which expressions there are: an expression has a negative exactly if its space has a distinguished origin, and it is not what cannot be negative, a quantity which is not in an affine space, where both it and its unit are
confined to the half line.  The negative has the same type. -/
theorem C88_negative (w : Kinds S) (e : Env N) (Γ : X → QTy S N) (a : Expr X K) (s t : QTy S N) (hs : typeOf w e Γ a = some s) :
    typeOf w e Γ (.neg a) = some t ↔
      t = s ∧ w.hasOrigin s.space = true ∧ (w.isAffine s.space = true ∨ s.unit.validator e ≠ some .halfLine ∨ s.validator ≠ .halfLine) := by
  have key : s.effectivelyAbsolute w e = false ↔ w.isAffine s.space = true ∨ s.unit.validator e ≠ some .halfLine ∨ s.validator ≠ .halfLine := by
    unfold QTy.effectivelyAbsolute QTy.absolute
    rw [← Bool.not_eq_true]
    simp only [Bool.and_eq_true, Bool.not_eq_true', decide_eq_true_eq]
    constructor
    · intro h
      by_contra hn
      simp only [not_or, not_not, ne_eq, Bool.not_eq_true] at hn
      exact h ⟨⟨hn.1, hn.2.1⟩, by rw [hn.2.1, hn.2.2]⟩
    · rintro h ⟨⟨h1, h2⟩, h3⟩
      rcases h with h | h | h
      · simp [h1] at h
      · exact h h2
      · rw [h2] at h3
        exact h (Option.some.inj h3).symm
  simp only [typeOf, hs, Option.bind_some, negTy]
  rw [← key]
  by_cases hc : w.hasOrigin s.space = true ∧ s.effectivelyAbsolute w e = false
  · rw [if_pos hc, Option.some.injEq]
    exact ⟨fun h => ⟨h.symm, hc⟩, fun h => h.1.symm⟩
  · rw [if_neg hc]
    exact ⟨fun h => by simp at h, fun h => absurd h.2 hc⟩

omit [Field K] [LinearOrder K] [IsStrictOrderedRing K] in
/-- **C88.** Which expressions there are: quantities in a space, other than that of displacements, with the same unit and validator have a difference if they have the same type.  If only the origins differ, then they have one
exactly if the unit is not one which derives from that of pure numbers; a composite unit never does.  In each case it is a displacement in the same unit, whatever the signs. -/
theorem C88_difference (w : Kinds S) (e : Env N) (Γ : X → QTy S N) (a b : Expr X K) (s t r : QTy S N) (hs : typeOf w e Γ a = some s) (ht : typeOf w e Γ b = some t)
    (h1 : s.space = t.space) (h2 : s.unit = t.unit) (h3 : s.validator = t.validator) (h4 : w.free s.space ≠ s.space) :
    typeOf w e Γ (.minus a b) = some r ↔
      r = ⟨w.free s.space, s.unit, .distinguished, .identity⟩ ∧ (s.origin = t.origin ∨ ∀ n, s.unit = .single ⟨n, false⟩ → e.derived n = false) := by
  have hd : t ≠ disp w s := fun h => h4 (by have := congrArg QTy.space h; simp only [disp] at this; rw [← this, h1])
  have hst : s = t ↔ s.origin = t.origin := ⟨fun h => by rw [h], fun h => by cases s; cases t; simp_all⟩
  have hnum : s.numeric e = false ↔ ∀ n, s.unit = .single ⟨n, false⟩ → e.derived n = false := by
    unfold QTy.numeric
    cases hu : s.unit with
    | composite l => simp
    | single x =>
      obtain ⟨n, d⟩ := x
      cases d <;> simp [isDerived]
  simp only [typeOf, hs, ht, Option.bind_some, minusTy, if_neg hd]
  by_cases ho : s.origin = t.origin
  · by_cases hn : s.numeric e = true
    · rw [if_pos ⟨hst.2 ho, hn⟩]
      simp only [Option.some.injEq, disp, ho, true_or, and_true]
      exact eq_comm
    · rw [if_neg (fun h => hn h.2), if_pos ⟨h2, h3, fun h => h4 (by rw [← h, h1])⟩, if_pos h1, if_neg hn]
      simp only [Option.some.injEq, disp, ho, true_or, and_true]
      exact eq_comm
  · rw [if_neg (fun h => ho (hst.1 h.1)), if_pos ⟨h2, h3, fun h => h4 (by rw [← h, h1])⟩, if_pos h1]
    by_cases hn : s.numeric e = true
    · rw [if_pos hn]
      simp only [reduceCtorEq, false_iff, not_and, not_or]
      refine fun _ => ⟨ho, fun h => ?_⟩
      rw [hnum.2 h] at hn
      cases hn
    · rw [if_neg hn]
      simp only [Option.some.injEq, disp]
      exact ⟨fun h => ⟨h.symm, .inr (hnum.1 (by simpa using hn))⟩, fun h => h.1.symm⟩

end

/-! ### An example: lengths, widths, times, time intervals and speeds -/

namespace QuantityExample

inductive Sp where
  | length | width | area | time | dlength | dwidth | darea | dtime | perTime | speed | angle | arc
  deriving DecidableEq

def kinds : Kinds Sp where
  free
    | .length => .dlength | .width => .dwidth | .area => .darea | .time => .dtime | s => s
  dual
    | .dtime => .perTime | .perTime => .dtime | s => s
  base
    | .width => .length | .dwidth => .dlength | s => s
  prod
    | .length, .length => some .area | .length, .perTime => some .speed | .length, .angle => some .arc | _, _ => none
  common
    | .length, .width => some .length | .width, .length => some .length | _, _ => none
  isAffine
    | .length | .width | .area | .arc => false | _ => true
  isVector
    | .length | .width | .area | .arc | .time => false | _ => true
  hasOrigin
    | .time => false | _ => true

theorem lawful : Lawful kinds where
  free_free s := by cases s <;> rfl
  free_origin s := by cases s <;> rfl
  vector_origin s := by cases s <;> decide
  common_affine s t r := by cases s <;> cases t <;> cases r <;> decide
  base_affine s := by cases s <;> rfl

/-- Masses and lengths are on the half line. -/
def qenv (d : Bool) : Env Nat := { UnitExample.env d with validator := fun n => if n = 1 ∨ n = 2 then .halfLine else .identity }

theorem qusual : Usual (qenv false) := by
  refine ⟨UnitExample.names false, fun n => by simp [qenv, UnitExample.env], fun n => ?_⟩
  simp only [qenv]
  split
  · exact .inr rfl
  · exact .inl rfl

def lengthQ : QTy Sp Nat := ⟨.length, .single ⟨2, false⟩, .distinguished, .halfLine⟩
def widthQ : QTy Sp Nat := ⟨.width, .single ⟨2, false⟩, .distinguished, .halfLine⟩
def timeQ : QTy Sp Nat := ⟨.time, .single ⟨3, false⟩, .implicitAffine, .identity⟩
def launchQ : QTy Sp Nat := ⟨.time, .single ⟨3, false⟩, .custom 0, .identity⟩
def angleQ : QTy Sp Nat := ⟨.angle, .single ⟨5, false⟩, .distinguished, .identity⟩

/-- Two lengths, a width, two times, a time since the launch, an angle. -/
def inputs : Fin 7 → QTy Sp Nat
  | 0 => lengthQ | 1 => lengthQ | 2 => widthQ | 3 => timeQ | 4 => timeQ | 5 => launchQ | 6 => angleQ

def exps : Fin 7 → Nat → Int
  | 0 | 1 | 2 => fun m => if m = 2 then 1 else 0
  | 3 | 4 | 5 => fun m => if m = 3 then 1 else 0
  | 6 => fun m => if m = 5 then 1 else 0

theorem inputs_built : ∀ x, Built (qenv false) (inputs x).unit (exps x)
  | 0 | 1 | 2 | 3 | 4 | 5 | 6 => .base (by decide)

theorem inputs_plain : ∀ x, (inputs x).validator = .identity ∨ (inputs x).validator = .halfLine ∧ kinds.isAffine (inputs x).space = false
  | 0 | 1 | 2 => .inr ⟨rfl, rfl⟩
  | 3 | 4 | 5 | 6 => .inl rfl

/-- (length + length + width) / (time - time): a speed. -/
def speedE : Expr (Fin 7) ℚ := .quot (.plus (.plus (.var 0) (.var 1)) (.var 2)) (.minus (.var 3) (.var 4))

def speedQ : QTy Sp Nat := ⟨.speed, .composite [⟨2, false⟩, ⟨3, true⟩], .distinguished, .identity⟩

theorem speed_type : typeOf kinds (qenv false) inputs speedE = some speedQ := by decide +kernel

theorem speed_aligned : Aligned kinds (qenv false) inputs speedE := by
  refine ⟨⟨⟨trivial, trivial⟩, trivial⟩, trivial, trivial, fun s t hs ht _ _ => ?_⟩
  cases Option.some.inj hs
  cases Option.some.inj ht
  rfl

/-- From metres to centimetres and from seconds to minutes, and the origin of times a thousand minutes earlier. -/
def toCentimetres (n : Nat) : ℚ := if n = 2 then 100 else if n = 3 then 1 / 60 else 1

def later (t : QTy Sp Nat) : ℚ := if t = timeQ then 1000 else 0

theorem changed : Change kinds (qenv false) toCentimetres later where
  positive n := by unfold toCentimetres; split_ifs <;> norm_num
  noUnit := by decide +kernel
  origin t h := by
    unfold later at h
    split at h
    · rename_i h1; subst h1; exact ⟨rfl, rfl⟩
    · exact absurd rfl h

def arcQ : QTy Sp Nat := ⟨.arc, .single ⟨2, false⟩, .distinguished, .identity⟩

def none' : Nat → ℚ → Res ℚ := fun _ _ => .throws

end QuantityExample
open QuantityExample

/-- Lengths have no negatives but their differences have; times from different origins have a difference. -/
example : typeOf kinds (qenv false) inputs (.neg (.var 0) : Expr (Fin 7) ℚ) = none ∧ typeOf kinds (qenv false) inputs (.neg (.minus (.var 0) (.var 1)) : Expr (Fin 7) ℚ) = some ⟨.dlength, .single ⟨2, false⟩, .distinguished, .identity⟩ ∧
    typeOf kinds (qenv false) inputs (.minus (.var 3) (.var 5) : Expr (Fin 7) ℚ) = some ⟨.dtime, .single ⟨3, false⟩, .distinguished, .identity⟩ ∧
    timeQ.space = launchQ.space ∧ timeQ.unit = launchQ.unit ∧ timeQ.validator = launchQ.validator ∧ kinds.free timeQ.space ≠ timeQ.space ∧ timeQ.origin ≠ launchQ.origin := by decide +kernel

/-- The hypotheses of the theorems are met by a speed; it is 3 m/s, and so 18000 cm/min. -/
example : Lawful kinds ∧ Usual (qenv false) ∧ Aligned kinds (qenv false) inputs speedE ∧ typeOf kinds (qenv false) inputs speedE = some speedQ ∧
    eval kinds (qenv false) inputs none' (fun x => if x = 3 then 12 else if x = 4 then 10 else 2) speedE = .ok 3 ∧
    eval kinds (qenv false) inputs none' (fun x => change toCentimetres later (inputs x) (if x = 3 then 12 else if x = 4 then 10 else 2)) speedE = .ok 18000 ∧
    change toCentimetres later speedQ 3 = 18000 := by
  refine ⟨lawful, qusual, speed_aligned, speed_type, by decide +kernel, by decide +kernel, by decide +kernel⟩

/-- The sum of a length and a time is not well-formed, nor is that of two times; a difference of lengths is, but a negative length is not. -/
example : typeOf kinds (qenv false) inputs (.plus (.var 0) (.var 3) : Expr (Fin 7) ℚ) = none ∧ typeOf kinds (qenv false) inputs (.plus (.var 3) (.var 4) : Expr (Fin 7) ℚ) = none ∧
    typeOf kinds (qenv false) inputs (.neg (.var 0) : Expr (Fin 7) ℚ) = none ∧
    typeOf kinds (qenv false) inputs (.neg (.minus (.var 0) (.var 1)) : Expr (Fin 7) ℚ) = some ⟨.dlength, .single ⟨2, false⟩, .distinguished, .identity⟩ := by decide +kernel

/-- In contrast to sums, adding a displacement to a length may throw. -/
example : eval kinds (qenv false) inputs none' (fun x => if x = 0 then 1 else 3) (.plus (.var 0) (.minus (.var 0) (.var 1))) = .throws := by decide +kernel

/-- **C88 (violated)** Quantities which differ in their origins can be subtracted and compared, and the numbers are used as they are: the interval between a time and a time since the launch depends on
the choice of the origins, and so does which is the earlier. -/
theorem C88_origin_violated :
    (∃ t, typeOf kinds (qenv false) inputs (.minus (.var 3) (.var 5) : Expr (Fin 7) ℚ) = some t ∧ ∃ ρ : Fin 7 → ℚ,
      eval kinds (qenv false) inputs none' (fun x => change toCentimetres later (inputs x) (ρ x)) (.minus (.var 3) (.var 5)) ≠
        mapRes (change toCentimetres later t) (eval kinds (qenv false) inputs none' ρ (.minus (.var 3) (.var 5)))) ∧
    comparable (inputs 3) (inputs 5) = true ∧
    (∃ x y : ℚ, x < y ∧ change toCentimetres later (inputs 5) y < change toCentimetres later (inputs 3) x) ∧
    (∃ t, typeOf kinds (qenv false) inputs (.lower (.var 5) : Expr (Fin 7) ℚ) = some t ∧ t = inputs 3 ∧ ∀ ρ : Fin 7 → ℚ,
      eval kinds (qenv false) inputs none' ρ (.lower (.var 5)) = .ok (ρ 5)) := by
  refine ⟨⟨⟨.dtime, .single ⟨3, false⟩, .distinguished, .identity⟩, by decide +kernel, fun _ => 0, by decide +kernel⟩, by decide +kernel, ⟨0, 1, by decide +kernel, by decide +kernel⟩,
    inputs 3, by decide +kernel, rfl, fun ρ => ?_⟩
  have h : typeOf kinds (qenv false) inputs (.lower (.var 5) : Expr (Fin 7) ℚ) = some timeQ := by decide +kernel
  rw [eval, h]
  rfl

/-- **C88 (violated)** A unit which derives from `no_unit_t` disappears from products: the product of a length and an angle has the unit of lengths.  So were there two such units for angles, as there may be if users
define their own, the number which is shown for an arc would depend on the choice, whereas its unit would not.  Of the units which come with the library that of radians is the only one. -/
theorem C88_derived_violated :
    typeOf kinds (qenv true) inputs (.times (.var 0) (.var 6) : Expr (Fin 7) ℚ) = some arcQ ∧
    ∃ (scale : Nat → ℚ) (ρ : Fin 7 → ℚ), Change kinds (qenv true) scale (fun _ => 0) ∧
      eval kinds (qenv true) inputs none' (fun x => change scale (fun _ => 0) (inputs x) (ρ x)) (.times (.var 0) (.var 6)) ≠
        mapRes (change scale (fun _ => 0) arcQ) (eval kinds (qenv true) inputs none' ρ (.times (.var 0) (.var 6))) := by
  refine ⟨by decide +kernel, fun n => if n = 5 then 2 else 1, fun _ => 1, ⟨fun n => ?_, by decide +kernel, fun t h => absurd rfl h⟩, by decide +kernel⟩
  split_ifs <;> norm_num

end Verif.Props
