import Mathlib.Algebra.Order.Field.Rat
import Mathlib.Tactic.NormNum
import Verif.Lemmas.Convert
import Verif.Props.Units

/-! # C64: the conversion of quantities from one unit to another -/
namespace Verif.Props
open Verif.Convert Verif.Spec

section
variable {N K : Type} [DecidableEq N] [Field K] [CharZero K] [DecidableEq K]

/-- **C64 (part)** Converting the coordinate of a quantity with respect to a unit gives its coordinate with respect to the other unit, however long the chains of units by which
they derive from their common root, and whether or not the products of the ratios overflow.

What is missing: displacements which are integral and not zero, see `C64_integer_displacement_violated`. -/
theorem C64_coordinate_partial (o : Int → Int → Bool) (u w : Simple N K) (hu : Proper u) (hw : Proper w) (hui : NotIntegral u) (hwi : NotIntegral w) (hr : u.root = w.root) (p : K) :
    convert o false u w (coord u p) = some (coord w p) := by
  rw [convert, if_pos hr, apply_coord o u w hu hw hui hwi]

/-- **C64** Converting the difference of two coordinates, which belongs to a free module, gives the difference of the coordinates with respect to the other unit. -/
theorem C64_displacement (o : Int → Int → Bool) (u w : Simple N K) (hu : Proper u) (hw : Proper w) (hr : u.root = w.root) (p q : K) :
    convert o true u w (coord u p - coord u q) = some (coord w p - coord w q) := by
  rw [convert, if_pos hr, apply_difference o u w hu hw]

omit [CharZero K] in
/-- **C64** There is a conversion only between units with the same root. -/
theorem C64_root (o : Int → Int → Bool) (free : Bool) (u w : Simple N K) (x : K) : (convert o free u w x).isSome ↔ u.root = w.root := by
  unfold convert
  split <;> simp [*]

/-- **C64 (part)** Converting by way of a third unit makes no difference, and converting to another unit and back gives the original value.

What is missing: as for `C64_coordinate_partial`. -/
theorem C64_composition_partial (o : Int → Int → Bool) (free : Bool) (u v w : Simple N K) (hu : Proper u) (hv : Proper v) (hw : Proper w)
    (hui : NotIntegral u) (hvi : NotIntegral v) (hwi : NotIntegral w) (h1 : u.root = v.root) (h2 : v.root = w.root) (x : K) :
    (convert o free u v x).bind (convert o free v w) = convert o free u w x ∧
    (convert o free u v x).bind (convert o free v u) = some x := by
  cases free with
  | false =>
    obtain ⟨p, rfl⟩ := coord_surj u hu x
    rw [C64_coordinate_partial o u v hu hv hui hvi h1, C64_coordinate_partial o u w hu hw hui hwi (h1.trans h2), Option.bind_some, Option.bind_some,
      C64_coordinate_partial o v w hv hw hvi hwi h2, C64_coordinate_partial o v u hv hu hvi hui h1.symm]
    exact ⟨rfl, rfl⟩
  | true =>
    obtain ⟨p, hp⟩ := coord_surj u hu (x + coord u 0)
    have hx : x = coord u p - coord u 0 := by rw [hp]; ring
    rw [hx, C64_displacement o u v hu hv h1, C64_displacement o u w hu hw (h1.trans h2), Option.bind_some, Option.bind_some,
      C64_displacement o v w hv hw h2, C64_displacement o v u hv hu h1.symm]
    exact ⟨rfl, rfl⟩

/-- **C64 (part)** If a quantity with a composite unit is converted to another one, its value is multiplied by the quotient of the scales, provided the numbers which belong to the
units depend on their names only, that of a root is 1, and there are no displacements unless the space is a free module.

What is missing: conversions with three or more parts or between quotients by related units, see `C64_three_violated` and `C64_dual_violated`. -/
theorem C64_composite_partial (o : Int → Int → Bool) (e : Units.Env N) (hu : Usual e) (free : Bool) (u w : List (Simple N K × Bool))
    (hp : ∀ c ∈ u ++ w, Proper c.1) (φ : N → K) (hφ : ∀ n, φ n ≠ 0) (ht : ∀ c ∈ u ++ w, factor c.1 = φ c.1.name ∧ φ c.1.root = 1)
    (hn : ∀ c ∈ u ++ w, c.1.name ≠ e.noUnit ∧ c.1.root ≠ e.noUnit) (hf : free = true ∨ ∀ c ∈ u ++ w, Unshifted c.1) (x y : K) (h : convertParts o e free u w x = some y) :
    y = x * (scale w / scale u) := by
  unfold convertParts at h
  split at h
  · rename_i r r' t t' hr hr' htu htw
    split at h
    · rename_i hrr
      subst hrr
      injection h with h
      subst h
      obtain ⟨a1, a2, a3⟩ := transformOf_ok o (fun c hc => hp c (by simp [hc])) htu
      obtain ⟨b1, b2, b3⟩ := transformOf_ok o (fun c hc => hp c (by simp [hc])) htw
      have hnr : ∀ c ∈ u ++ w, (partRoot c).name ≠ e.noUnit := by
        intro c hc
        unfold partRoot
        split
        · exact (hn c hc).1
        · exact (hn c hc).2
      have h1 := rootOf_built e u (fun c hc => hnr c (by simp [hc])) r hr
      have h2 := rootOf_built e w (fun c hc => hnr c (by simp [hc])) r hr'
      have h3 := (C63_determined e hu r r _ _ h1 h2).mp rfl
      have h4 := weight_congr φ hφ h3
      rw [apply_val o free a1 b1, scale_split φ u fun c hc => ht c (by simp [hc]), scale_split φ w fun c hc => ht c (by simp [hc]), h4, a2, b2]
      have h5 : (if free = true then (0 : K) else (t'.product o t.inverse).disp.toK) = 0 := by
        rcases hf with hf | hf
        · rw [if_pos hf]
        · obtain ⟨c1, c2⟩ := a3 fun c hc => hf c (by simp [hc])
          obtain ⟨d1, d2⟩ := b3 fun c hc => hf c (by simp [hc])
          obtain ⟨e1, e2⟩ := inverse_disp a1 c1
          obtain ⟨f1, _⟩ := product_disp o b1 d1 e2
          split
          · rfl
          · rw [f1, e1, c2, d2]; ring
      rw [h5, add_zero]
      congr 1
      have h6 : ((w.map partRoot).map (weight φ)).prod ≠ 0 := by
        intro h0
        have := scale_ne w fun c hc => hp c (by simp [hc])
        rw [scale_split φ w fun c hc => ht c (by simp [hc]), h0, mul_zero] at this
        exact this rfl
      rw [mul_div_mul_right _ _ h6, div_eq_mul_inv]
    · exact absurd h (by simp)
  · exact absurd h (by simp)

end

section
variable {N K : Type} [Field K] [LinearOrder K] [IsStrictOrderedRing K]

/-- **C64 (part)** If the validator of a unit is well-formed it accepts the coordinates of precisely those quantities whose coordinates the validator of the base unit accepts.

What is missing: ratios must be positive, see `C64_negative_violated`, and the validator of the base unit must not be an interval which is unbounded on both sides, see
`C64_whole_line_violated`.  The synthesised validator is not always well-formed, see `C64_identity_shift_violated`. -/
theorem C64_validator_partial (s : Simple N K) (hp : Proper s) (hr : PositiveRatios s) (hb : baseValidator s ≠ .interval none none) (v : Validator K) (hv : s.validator = some v)
    (p : K) : v.accepts (coord s p) = true ↔ Allowed (baseValidator s) p := by
  rw [accepts_iff]
  exact (validator_allowed s hp hr hb v hv).2 p

/-- **C64 (part)** Accordingly the conversion of a value which the validator of its unit accepts is accepted by the validator of the other unit, so a conversion does not throw.

What is missing: as for `C64_coordinate_partial` and `C64_validator_partial`. -/
theorem C64_valid_partial [DecidableEq N] (o : Int → Int → Bool) (u w : Simple N K) (hu : Proper u) (hw : Proper w) (hui : NotIntegral u) (hwi : NotIntegral w) (hr : u.root = w.root)
    (hb : baseValidator u = baseValidator w) (hb' : baseValidator u ≠ .interval none none) (hur : PositiveRatios u) (hwr : PositiveRatios w) (v v' : Validator K)
    (hv : u.validator = some v) (hv' : w.validator = some v') (x : K) (hx : v.accepts x = true) :
    ∃ y, convert o false u w x = some y ∧ v'.accepts y = true := by
  obtain ⟨p, rfl⟩ := coord_surj u hu x
  refine ⟨coord w p, C64_coordinate_partial o u w hu hw hui hwi hr p, ?_⟩
  rw [C64_validator_partial w hw hwr (hb ▸ hb') v' hv', ← hb]
  exact (C64_validator_partial u hu hur hb' v hv p).mp hx

end

namespace ConvertExample

/-- Products of 64 bits overflow. -/
def o : Int → Int → Bool := fun a b => decide (a * b ≥ 9223372036854775808)

def kelvin : Simple Nat ℚ := .base 4 .halfLine
def celsius : Simple Nat ℚ := .derived 6 kelvin ⟨.int 1, .int 1, .fp (-5463/20)⟩
def fahrenheit : Simple Nat ℚ := .derived 7 celsius ⟨.int 9, .int 5, .fp 32⟩
/-- Degrees Celsius as the base unit, and degrees Fahrenheit with a displacement which is an integer. -/
def celsius' : Simple Nat ℚ := .base 19 .identity
def fahrenheit' : Simple Nat ℚ := .derived 8 celsius' ⟨.int 9, .int 5, .int 32⟩

def metre : Simple Nat ℚ := .base 2 .identity
def foot : Simple Nat ℚ := .derived 9 metre ⟨.int 1, .fp (381/1250), .int 0⟩
def inch : Simple Nat ℚ := .derived 10 foot ⟨.int 12, .int 1, .int 0⟩
def second : Simple Nat ℚ := .base 3 .identity
def millisecond : Simple Nat ℚ := .derived 11 second ⟨.int 1000, .int 1, .int 0⟩
/-- A position along a line, with another origin. -/
def station : Simple Nat ℚ := .derived 12 metre ⟨.int 1, .int 1, .fp 5⟩

def latitude : Simple Nat ℚ := .base 13 (.interval (some (-90)) (some 90))
def gradians : Simple Nat ℚ := .derived 14 latitude ⟨.int 10, .int 9, .int 0⟩
def height : Simple Nat ℚ := .base 15 .halfLine
def depth : Simple Nat ℚ := .derived 16 height ⟨.int (-1), .int 1, .int 0⟩
def line : Simple Nat ℚ := .base 17 (.interval none none)
def shifted : Simple Nat ℚ := .derived 18 line ⟨.int 1, .int 1, .fp 5⟩

end ConvertExample
open ConvertExample

/-- The hypotheses of `C64_coordinate_partial` and `C64_valid_partial` are met by degrees Fahrenheit and kelvins: water freezes at 32 °F. -/
example : Proper fahrenheit ∧ Proper kelvin ∧ NotIntegral fahrenheit ∧ NotIntegral kelvin ∧ fahrenheit.root = kelvin.root ∧ PositiveRatios fahrenheit ∧
    baseValidator fahrenheit = baseValidator kelvin ∧ baseValidator fahrenheit ≠ .interval none none ∧ fahrenheit.validator = some (.interval (some (-45967/100)) none) ∧
    kelvin.validator = some .halfLine ∧ coord fahrenheit (5463/20) = 32 ∧ convert o false fahrenheit kelvin 32 = some (5463/20) := by
  refine ⟨?_, trivial, ?_, trivial, rfl, ?_, rfl, ?_, ?_, rfl, ?_, ?_⟩
  · simp [Proper, fahrenheit, celsius, kelvin, Val.toK]
  · simp [NotIntegral, fahrenheit, celsius, kelvin]
  · simp only [PositiveRatios, fahrenheit, celsius, kelvin, Ratio, Val.toK]; norm_num
  · simp [baseValidator, fahrenheit, celsius, kelvin]
  · decide +kernel
  · simp only [coord, fahrenheit, celsius, kelvin, Ratio, Val.toK]; norm_num
  · decide +kernel

/-- The bounds of an interval are scaled. -/
example : gradians.validator = some (.interval (some (-100)) (some 100)) := by decide +kernel

/-- A table of factors for metres, feet, inches, seconds and milliseconds. -/
def factors : Nat → ℚ := fun n => if n = 9 then 1250/381 else if n = 10 then 5000/127 else if n = 11 then 1000 else 1

/-- The hypotheses of `C64_composite_partial` are met by inch per second and foot per second. -/
example : Usual (UnitExample.env false) ∧ (∀ c ∈ [(inch, false), (second, true)] ++ [(foot, false), (second, true)], Proper c.1 ∧ Unshifted c.1 ∧ factor c.1 = factors c.1.name ∧
      factors c.1.root = 1 ∧ c.1.name ≠ 0 ∧ c.1.root ≠ 0) ∧ (∀ n, factors n ≠ 0) ∧
    convertParts o (UnitExample.env false) false [(inch, false), (second, true)] [(foot, false), (second, true)] 36 = some 3 ∧
    scale [(foot, false), (second, true)] / scale [(inch, false), (second, true)] = 1/12 := by
  refine ⟨UnitExample.usual, ?_, ?_, ?_, ?_⟩
  · intro c hc
    simp only [List.cons_append, List.nil_append, List.mem_cons, List.not_mem_nil, or_false] at hc
    rcases hc with rfl | rfl | rfl | rfl <;>
    simp [Proper, Unshifted, factor, Ratio, inch, foot, metre, second, Val.toK, factors, Simple.name, Simple.root] <;> norm_num
  · intro n
    unfold factors
    split
    · norm_num
    · split
      · norm_num
      · split <;> norm_num
  · decide +kernel
  · simp only [scale, factor, Ratio, foot, inch, second, metre, Val.toK]; norm_num

/-- **C64 (violated)** Where the displacements are integers, integral division spoils the conversion: 32 °F would be 7/9 °C rather than 0 °C, and converting to degrees Celsius and
back changes the value. -/
theorem C64_integer_displacement_violated :
    Proper fahrenheit' ∧ Proper celsius' ∧ fahrenheit'.root = celsius'.root ∧ coord fahrenheit' 0 = 32 ∧ coord celsius' 0 = 0 ∧
    convert o false fahrenheit' celsius' 32 = some (7/9) ∧ (convert o false fahrenheit' celsius' 32).bind (convert o false celsius' fahrenheit') = some (167/5) := by
  refine ⟨?_, trivial, rfl, ?_, rfl, ?_, ?_⟩
  · simp [Proper, fahrenheit', celsius', Val.toK]
  · simp only [coord, fahrenheit', celsius', Ratio, Val.toK]; norm_num
  · decide +kernel
  · decide +kernel

/-- **C64 (violated)** A unit with three or more parts cannot be converted, not even to the same unit. -/
theorem C64_three_violated (o : Int → Int → Bool) (e : Units.Env Nat) (free : Bool) (c d f : Simple Nat ℚ × Bool) (l w : List (Simple Nat ℚ × Bool)) (x : ℚ) :
    convertParts o e free (c :: d :: f :: l) w x = none := by
  unfold convertParts
  split
  · rename_i h _
    exact absurd h (by simp [transformOf])
  · rfl

/-- Such a unit: metres × seconds / kelvin is well-formed. -/
example : (rootOf (UnitExample.env false) [(metre, false), (second, false), (kelvin, true)]).isSome := by decide +kernel

/-- **C64 (violated)** Metres per millisecond cannot be converted to metres per second, though milliseconds can be converted to seconds. -/
theorem C64_dual_violated :
    convert o false millisecond second 5 = some (1/200) ∧
    (rootOf (UnitExample.env false) [(metre, false), (millisecond, true)]).isSome ∧ (rootOf (UnitExample.env false) [(metre, false), (second, true)]).isSome ∧
    ∀ x, convertParts o (UnitExample.env false) false [(metre, false), (millisecond, true)] [(metre, false), (second, true)] x = none := by
  have h1 : rootOf (UnitExample.env false) [(metre, false), (millisecond, true)] = some (.composite [⟨2, false⟩, ⟨11, true⟩]) := by decide +kernel
  have h2 : rootOf (UnitExample.env false) [(metre, false), (second, true)] = some (.composite [⟨2, false⟩, ⟨3, true⟩]) := by decide +kernel
  refine ⟨by decide +kernel, by rw [h1]; rfl, by rw [h2]; rfl, fun x => ?_⟩
  rw [convertParts, h1, h2]
  rfl

/-- **C64 (violated)** The validator of a unit which derives by a displacement from one with the validator `std::identity` is ill-formed, though every value would do. -/
theorem C64_identity_shift_violated : metre.validator = some .identity ∧ station.validator = none := by decide +kernel

/-- **C64 (violated)** If the validator of a unit is an interval unbounded on both sides, a displacement makes it a half line: the value 0 of the unit, which corresponds to -5, is
rejected. -/
theorem C64_whole_line_violated : PositiveRatios shifted ∧ Allowed (baseValidator shifted) (-5) ∧ coord shifted (-5) = 0 ∧
    ∃ v, shifted.validator = some v ∧ v.accepts 0 = false := by
  refine ⟨?_, ?_, ?_, .interval (some 5) none, ?_, ?_⟩
  · simp only [PositiveRatios, shifted, line, Ratio, Val.toK]; norm_num
  · simp [Allowed, baseValidator, shifted, line]
  · simp only [coord, shifted, line, Ratio, Val.toK]; norm_num
  · decide +kernel
  · decide +kernel

/-- **C64 (violated)** A negative ratio leaves the half line as it is: the conversion of the height 3 to a depth gives -3, which is rejected. -/
theorem C64_negative_violated : Proper depth ∧ Allowed (baseValidator depth) 3 ∧ convert o false height depth 3 = some (-3) ∧
    ∃ v, depth.validator = some v ∧ v.accepts (-3) = false := by
  refine ⟨?_, ?_, ?_, .halfLine, ?_, ?_⟩
  · simp [Proper, depth, height, Val.toK]
  · simp [Allowed, baseValidator, depth, height]
  · decide +kernel
  · decide +kernel
  · decide +kernel

end Verif.Props
