import Verif.Lemmas.RoundedConvert
import Verif.Lemmas.Ieee

namespace Verif.Props
open Verif.Convert Verif.Rounded Verif.Spec Verif.Spec.Rounded Verif.StandardUnits

variable {N : Type}

/-! ### Examples -/

/-- The units of temperature with `double` as type of the values and x87 arithmetic for `long double`. -/
private def dbl : Arith := formats 53 64
private def unitOf (A : Arith) (u : LibUnit) : Simple LibUnit ℚ := literals A (u.simple (355 / 113))
private def kelvinU : LibUnit := .base .kelvin
private def metreU : LibUnit := .base .metre

private theorem temperatures (A : Arith) (hA : Faithful A) (u : LibUnit) (hu : u = kelvinU ∨ u = .celsius ∨ u = .fahrenheit) :
    Positive (unitOf A u) ∧ Representable A (unitOf A u) ∧ baseValidator (unitOf A u) = .halfLine ∧ (unitOf A u).root = kelvinU := by
  rcases hu with rfl | rfl | rfl
  · exact ⟨trivial, trivial, rfl, rfl⟩
  · refine ⟨⟨trivial, ?_, ?_⟩, ⟨trivial, ?_⟩, rfl, rfl⟩
    · simp [celsiusTransform, literal, Val.toK]
    · simp [celsiusTransform, literal, Val.toK]
    · intro x hx
      simp only [celsiusTransform, literal, Val.fp.injEq] at hx
      rw [← hx, hA.R_idem]
  · refine ⟨⟨⟨trivial, ?_, ?_⟩, ?_, ?_⟩, ⟨⟨trivial, ?_⟩, ?_⟩, rfl, rfl⟩
    · simp [celsiusTransform, literal, Val.toK]
    · simp [celsiusTransform, literal, Val.toK]
    · simp [fahrenheitTransform, literal, Val.toK]
    · simp [fahrenheitTransform, literal, Val.toK]
    · intro x hx
      simp only [celsiusTransform, literal, Val.fp.injEq] at hx
      rw [← hx, hA.R_idem]
    · intro x hx
      simp only [fahrenheitTransform, literal, Val.fp.injEq] at hx
      rw [← hx, hA.R_idem]

/-! ### Floating point arithmetic -/

/-- **C118** Rounding as in IEEE 754 is as it is assumed to be below, provided `long double` is at least as precise as the type of the values: it preserves the order, and the relative error is at most `2⁻ᵖ`. -/
theorem C118_formats (p q : ℕ) (hp : 1 ≤ p) (hpq : p ≤ q) : Faithful (formats p q) ∧ Precise (formats p q) (1 / 2 ^ p) :=
  ⟨formats_faithful hp hpq, formats_precise p q⟩

/-- **C118** It is rounding to the nearest number with `p` digits, and from the middle between two of them to the one whose last digit is even. -/
theorem C118_nearest (p : ℕ) (hp : 1 ≤ p) :
    (∀ (x : ℚ) (m k : ℤ), |m| ≤ 2 ^ p → |ieee p x - x| ≤ |m * (2 : ℚ) ^ k - x|) ∧
    (∀ x : ℚ, ∃ m k : ℤ, |m| ≤ 2 ^ p ∧ ieee p x = m * (2 : ℚ) ^ k) ∧
    ∀ m k : ℤ, 2 ^ (p - 1) ≤ m → m < 2 ^ p → ieee p ((m + 1 / 2) * (2 : ℚ) ^ k) = (if m % 2 = 0 then m else m + 1) * (2 : ℚ) ^ k := by
  refine ⟨ieee_nearest hp, ?_, ieee_tie hp⟩
  have key : ∀ x : ℚ, 0 < x → ∃ m k : ℤ, |m| ≤ 2 ^ p ∧ ieee p x = m * (2 : ℚ) ^ k := by
    intro x hx
    obtain ⟨h1, h2⟩ := digits hp hx
    refine ⟨nearest (x / ulp p x), _, ?_, ieee_pos_eq hx⟩
    rwa [abs_of_nonneg (le_trans (by positivity) h1)]
  intro x
  rcases lt_trichotomy x 0 with h | h | h
  · obtain ⟨m, k, h1, h2⟩ := key (-x) (by linarith)
    rw [ieee_neg] at h2
    exact ⟨-m, k, by rwa [abs_neg], by push_cast; linarith⟩
  · exact ⟨0, 0, by simp, by rw [h, ieee_zero]; simp⟩
  · exact key x h

/-- `float` has no number between 16777216 and 16777218. -/
example : ieee 24 16777217 = 16777216 ∧ ieee 24 16777219 = 16777220 := by decide +kernel

/-- A third as a number of type `float`. -/
example : (formats 24 53).U (1 / 3) = 11184811 / 33554432 := by decide +kernel

/-! ### Order -/

/-- **C118** Conversions preserve the order, in spite of rounding: what is not greater before a conversion is not greater after it.  This holds for quantities and for their differences. -/
theorem C118_order (A : Arith) (hA : Faithful A) (free : Bool) (u w : Simple N ℚ) (hu : Positive u) (hw : Positive w) (x y : ℚ) (h : x ≤ y) :
    applyR A free (conversionC A u w) x ≤ applyR A free (conversionC A u w) y :=
  applyR_mono hA free (conversionC_pos hA hu hw) h

example : applyR dbl false (conversionC dbl (unitOf dbl .celsius) (unitOf dbl .fahrenheit)) 20 ≤ applyR dbl false (conversionC dbl (unitOf dbl .celsius) (unitOf dbl .fahrenheit)) 21 := by
  have hA : Faithful dbl := (C118_formats 53 64 (by omega) (by omega)).1
  exact C118_order dbl hA false _ _ (temperatures dbl hA .celsius (.inr (.inl rfl))).1 (temperatures dbl hA .fahrenheit (.inr (.inr rfl))).1 20 21 (by decide +kernel)

/-! ### Validity -/

/-- **C118** If negative values are invalid for the base unit, then the values which are valid for a unit are precisely those which are not less than what zero is converted to: the rounding of the bound agrees with that of
the conversion. -/
theorem C118_bound (A : Arith) (hA : Faithful A) (n : N) (s : Simple N ℚ) (hb : baseValidator s = .halfLine) (hr : Representable A s) (v : Validator ℚ) (hv : validatorC A s = some v) (x : ℚ) :
    acceptsU A v x = true ↔ applyR A false (conversionC A (.base n .halfLine) s) 0 ≤ x :=
  Verif.Rounded.accepts_iff hA hb hr hv n .halfLine x

example : ∃ v, validatorC dbl (unitOf dbl .fahrenheit) = some v ∧ ∀ x, acceptsU dbl v x = true ↔ applyR dbl false (conversionC dbl (.base kelvinU .halfLine) (unitOf dbl .fahrenheit)) 0 ≤ x := by
  have hA : Faithful dbl := (C118_formats 53 64 (by omega) (by omega)).1
  obtain ⟨_, h2, h3, _⟩ := temperatures dbl hA .fahrenheit (.inr (.inr rfl))
  have : (validatorC dbl (unitOf dbl .fahrenheit)).isSome = true := by decide +kernel
  obtain ⟨v, hv⟩ := Option.isSome_iff_exists.mp this
  exact ⟨v, hv, C118_bound dbl hA _ _ h3 h2 v hv⟩

/-- What the result of a conversion is. -/
private theorem convert_iff [DecidableEq N] {A : Arith} (hA : Faithful A) (n : N) {u w : Simple N ℚ} (hroot : u.root = w.root) (hbw : baseValidator w = .halfLine) (hrw : Representable A w)
    {vw : Validator ℚ} (hvw : validatorC A w = some vw) (x : ℚ) :
    (∃ y, convertR A u w x = some (.ok y)) ↔ applyR A false (conversionC A (.base n .halfLine) w) 0 ≤ applyR A false (conversionC A u w) x := by
  rw [← Verif.Rounded.accepts_iff hA hbw hrw hvw n .halfLine]
  unfold convertR
  rw [if_pos hroot, hvw, Option.map_some]
  split
  · rename_i h; exact ⟨fun _ => h, fun _ => ⟨_, rfl⟩⟩
  · rename_i h
    constructor
    · rintro ⟨y, hy⟩; cases hy
    · intro h'; exact absurd h' h

/-- **C118** Whether all valid quantities can be converted can be told from the least of them, which is the one zero is converted to: if that one can be converted then no conversion throws. -/
theorem C118_least [DecidableEq N] (A : Arith) (hA : Faithful A) (n : N) (u w : Simple N ℚ) (hu : Positive u) (hw : Positive w) (hroot : u.root = w.root)
    (hbu : baseValidator u = .halfLine) (hbw : baseValidator w = .halfLine) (hru : Representable A u) (hrw : Representable A w)
    (vu vw : Validator ℚ) (hvu : validatorC A u = some vu) (hvw : validatorC A w = some vw) :
    (∀ x, acceptsU A vu x = true → ∃ y, convertR A u w x = some (.ok y)) ↔ ∃ y, convertR A u w (applyR A false (conversionC A (.base n .halfLine) u) 0) = some (.ok y) := by
  constructor
  · intro h
    exact h _ ((C118_bound A hA n u hbu hru vu hvu _).mpr (le_refl _))
  · intro h x hx
    have hx' := (C118_bound A hA n u hbu hru vu hvu x).mp hx
    rw [convert_iff hA n hroot hbw hrw hvw] at h ⊢
    exact h.trans (C118_order A hA false u w hu hw _ _ hx')

/-- **C118** Values which are not negative can be converted from the base unit to all other units. -/
theorem C118_from_base [DecidableEq N] (A : Arith) (hA : Faithful A) (n : N) (w : Simple N ℚ) (hw : Positive w) (hroot : w.root = n) (hbw : baseValidator w = .halfLine) (hrw : Representable A w)
    (vw : Validator ℚ) (hvw : validatorC A w = some vw) (x : ℚ) (hx : 0 ≤ x) : ∃ y, convertR A (.base n .halfLine) w x = some (.ok y) := by
  have := convert_iff hA n (u := .base n .halfLine) (w := w) hroot.symm hbw hrw hvw x
  rw [this]
  exact C118_order A hA false (.base n .halfLine) w trivial hw 0 x hx

/-- In particular from kelvin to degrees Fahrenheit, even with `float`. -/
example (x : ℚ) (hx : 0 ≤ x) : ∃ y, convertR (formats 24 64) (.base kelvinU .halfLine) (unitOf (formats 24 64) .fahrenheit) x = some (.ok y) := by
  have hA : Faithful (formats 24 64) := (C118_formats 24 64 (by omega) (by omega)).1
  obtain ⟨h1, h2, h3, h4⟩ := temperatures _ hA .fahrenheit (.inr (.inr rfl))
  have : (validatorC (formats 24 64) (unitOf (formats 24 64) .fahrenheit)).isSome = true := by decide +kernel
  obtain ⟨v, hv⟩ := Option.isSome_iff_exists.mp this
  exact C118_from_base _ hA kelvinU _ h1 h4 h3 h2 v hv x hx

/-- **C118** Valid quantities can be converted from all units to all other ones, unless there are displacements. -/
theorem C118_unshifted [DecidableEq N] (A : Arith) (hA : Faithful A) (u w : Simple N ℚ) (hu : Positive u) (hw : Positive w) (hroot : u.root = w.root)
    (hbu : baseValidator u = .halfLine) (hbw : baseValidator w = .halfLine) (hru : Representable A u) (hrw : Representable A w) (hsu : Unshifted u) (hsw : Unshifted w)
    (vu vw : Validator ℚ) (hvu : validatorC A u = some vu) (hvw : validatorC A w = some vw) (x : ℚ) (hx : acceptsU A vu x = true) : ∃ y, convertR A u w x = some (.ok y) := by
  have hz : ∀ s : Simple N ℚ, Unshifted s → baseValidator s = .halfLine → Representable A s → ∀ v, validatorC A s = some v → applyR A false (conversionC A (.base u.name .halfLine) s) 0 = 0 := by
    intro s hs hb hr v hv
    rw [apply_base_zero hA u.name .halfLine (validatorC_fine hA hb hr hv), root_unshifted hA s hs, hA.U_zero]
  refine (C118_least A hA u.name u w hu hw hroot hbu hbw hru hrw vu vw hvu hvw).mpr ?_ x hx
  rw [convert_iff hA u.name hroot hbw hrw hvw, hz u hsu hbu hru vu hvu, hz w hsw hbw hrw vw hvw]
  have hp := conversionC_pos hA hu hw
  have hd := conversionC_unshifted hA hsu hsw
  have h0 : ∀ c d : Val ℚ, divR A (mulR A (.u 0) c) d = .u 0 ∨ divR A (mulR A (.u 0) c) d = .l 0 := by
    intro c d
    have hm : mulR A (.u 0) c = .u 0 ∨ mulR A (.u 0) c = .l 0 := by
      cases c with
      | int z => left; simp [mulR, hA.U_zero]
      | fp c => right; simp [mulR, hA.R_zero]
    rcases hm with hm | hm <;> rw [hm]
    · cases d with
      | int z => left; simp [divR, hA.U_zero]
      | fp c => right; simp [divR, hA.R_zero]
    · right; simp [divR, hA.R_zero]
  unfold applyR
  dsimp only
  rcases h0 (reducedC A (conversionC A u w).num (conversionC A u w).den).1 (reducedC A (conversionC A u w).num (conversionC A u w).den).2 with h | h <;> rw [h]
  · cases hδ : (conversionC A u w).disp with
    | int z => rw [hδ] at hd; simp only [Val.toK] at hd; simp [addR, RVal.val, hd, hA.U_zero]
    | fp y => rw [hδ] at hd; simp only [Val.toK] at hd; simp [addR, RVal.val, hd, hA.R_zero, hA.U_zero]
  · simp only [addR, RVal.val, lift_zero hA hd, add_zero, hA.R_zero, if_false, Bool.false_eq_true, hA.U_zero, le_refl]

/-- In particular from feet to metres, with `float`. -/
example (x : ℚ) (hx : 0 ≤ x) : ∃ y, convertR (formats 24 64) (unitOf (formats 24 64) .foot) (unitOf (formats 24 64) metreU) x = some (.ok y) := by
  have hA : Faithful (formats 24 64) := (C118_formats 24 64 (by omega) (by omega)).1
  have hv : validatorC (formats 24 64) (unitOf (formats 24 64) .foot) = some .halfLine := by decide +kernel
  refine C118_unshifted (formats 24 64) hA (unitOf (formats 24 64) .foot) (unitOf (formats 24 64) metreU) ⟨trivial, ?_, ?_⟩ trivial rfl rfl rfl ⟨trivial, ?_⟩ trivial ⟨trivial, ?_⟩ trivial _ _ hv rfl x (by simp [acceptsU, hx])
  · simp [footTransform, literal, Val.toK]
  · simp [footTransform, literal, Val.toK]
  · intro y hy; simp [footTransform, literal] at hy
  · simp [footTransform, literal, Val.toK]

/-- **C118** With `double` as type of the values, all temperatures which are valid in kelvin, degrees Celsius and degrees Fahrenheit can be converted from each of these units to each of them, be `long double` the same as `double`,
the type of the x87, or that with 113 binary digits. -/
theorem C118_double (q : ℕ) (hq : q = 53 ∨ q = 64 ∨ q = 113) (u w : LibUnit) (hu : u = .base .kelvin ∨ u = .celsius ∨ u = .fahrenheit) (hw : w = .base .kelvin ∨ w = .celsius ∨ w = .fahrenheit)
    (v : Validator ℚ) (hv : validatorC (formats 53 q) (literals (formats 53 q) (u.simple (355 / 113))) = some v) (x : ℚ) (hx : acceptsU (formats 53 q) v x = true) :
    ∃ y, convertR (formats 53 q) (literals (formats 53 q) (u.simple (355 / 113))) (literals (formats 53 q) (w.simple (355 / 113))) x = some (.ok y) := by
  have hA : Faithful (formats 53 q) := (C118_formats 53 q (by omega) (by omega)).1
  obtain ⟨h1, h2, h3, h4⟩ := temperatures _ hA u hu
  obtain ⟨h5, h6, h7, h8⟩ := temperatures _ hA w hw
  have hk : ∃ y, convertR (formats 53 q) (unitOf (formats 53 q) u) (unitOf (formats 53 q) w) (applyR (formats 53 q) false (conversionC (formats 53 q) (.base kelvinU .halfLine) (unitOf (formats 53 q) u)) 0) = some (.ok y) := by
    have key : ∀ r : Option (Res ℚ), (r matches some (.ok _)) = true → ∃ y, r = some (.ok y) := by
      intro r h
      match r, h with
      | some (.ok y), _ => exact ⟨y, rfl⟩
    apply key
    rcases hq with rfl | rfl | rfl <;> rcases hu with rfl | rfl | rfl <;> rcases hw with rfl | rfl | rfl <;> decide +kernel
  have hvw : ∃ vw, validatorC (formats 53 q) (unitOf (formats 53 q) w) = some vw := by
    obtain ⟨y, hy⟩ := hk
    unfold convertR at hy
    split at hy
    · cases h : validatorC (formats 53 q) (unitOf (formats 53 q) w) with
      | none => rw [h] at hy; cases hy
      | some vw => exact ⟨vw, rfl⟩
    · cases hy
  obtain ⟨vw, hvw⟩ := hvw
  exact (C118_least _ hA kelvinU _ _ h1 h5 (h4.trans h8.symm) h3 h7 h2 h6 v vw hv hvw).mpr hk x hx

example : (validatorC (formats 53 64) (literals (formats 53 64) (LibUnit.fahrenheit.simple (355 / 113)))).any (fun v => acceptsU (formats 53 64) v (-459)) = true := by decide +kernel

/-- **C118 (violated)** With `float` as type of the values, absolute zero can be converted to degrees Fahrenheit, but what it has been converted to can neither be converted to kelvin nor to degrees Celsius: rounding makes the
result less than the bound, and an exception is thrown. -/
theorem C118_float_violated (q : ℕ) (hq : q = 53 ∨ q = 64 ∨ q = 113) :
    ∃ x, convertR (formats 24 q) (literals (formats 24 q) ((LibUnit.base .kelvin).simple (355 / 113))) (literals (formats 24 q) (LibUnit.fahrenheit.simple (355 / 113))) 0 = some (.ok x) ∧
      convertR (formats 24 q) (literals (formats 24 q) (LibUnit.fahrenheit.simple (355 / 113))) (literals (formats 24 q) ((LibUnit.base .kelvin).simple (355 / 113))) x = some .throws ∧
      convertR (formats 24 q) (literals (formats 24 q) (LibUnit.fahrenheit.simple (355 / 113))) (literals (formats 24 q) (LibUnit.celsius.simple (355 / 113))) x = some .throws := by
  refine ⟨-15062467 / 32768, ?_⟩
  rcases hq with rfl | rfl | rfl <;> decide +kernel

/-! ### Precision -/

/-- **C118 (part)** The error of a conversion is that of four roundings: differences of quantities are converted to what they are with respect to the other unit, up to a factor which differs from one by no more than four
relative errors.  What is missing: infinities, numbers which are not numbers, underflow, ratios which are not ratios of integers, and overflow of integers. -/
theorem C118_difference_partial (A : Arith) (hA : Faithful A) (ε : ℚ) (hε : 0 ≤ ε) (hε' : ε < 1) (hP : Precise A ε) (u w : Simple N ℚ) (hu : Positive u) (hw : Positive w) (hiu : Integral u) (hiw : Integral w)
    (ho : conversionC A u w = conversionC (unlimited A) u w) (p q : ℚ) :
    Near ε 4 (coord w p - coord w q) (applyR A true (conversionC A u w) (coord u p - coord u q)) := by
  have hpu := proper_of_positive u hu
  have := apply_near hε hε' hA hP true hiu hiw hpu (proper_of_positive w hw) ho (.inl rfl) (coord u p - coord u q)
  have hne := factor_ne u hpu
  rwa [coord_affine u p, coord_affine u q, show (factor u * p + coord u 0 - (factor u * q + coord u 0)) * (factor w * (factor u)⁻¹) = factor w * (p - q) by field_simp; ring,
    ← coord_affine, ← coord_affine, show factor w * (p - q) = coord w p - coord w q by rw [coord_affine w p, coord_affine w q]; ring] at this

/-- A difference of temperatures in degrees Celsius in degrees Fahrenheit. -/
example (p q : ℚ) : Near (1 / 2 ^ 53) 4 (coord (unitOf dbl .fahrenheit) p - coord (unitOf dbl .fahrenheit) q)
    (applyR dbl true (conversionC dbl (unitOf dbl .celsius) (unitOf dbl .fahrenheit)) (coord (unitOf dbl .celsius) p - coord (unitOf dbl .celsius) q)) := by
  obtain ⟨hA, hP⟩ := C118_formats 53 64 (by omega) (by omega)
  refine C118_difference_partial dbl hA _ (by positivity) (by norm_num) hP _ _ (temperatures dbl hA .celsius (.inr (.inl rfl))).1 (temperatures dbl hA .fahrenheit (.inr (.inr rfl))).1 ?_ ?_ ?_ p q
  · exact ⟨trivial, _, _, rfl, rfl⟩
  · exact ⟨⟨trivial, _, _, rfl, rfl⟩, _, _, rfl, rfl⟩
  · decide +kernel

/-- **C118 (part)** Without displacements this holds for quantities, too, and errors add up: after `k` conversions there are `4 k` relative errors, whatever units there have been.  What is missing: displacements, and what is missing
above. -/
theorem C118_chain_partial (A : Arith) (hA : Faithful A) (ε : ℚ) (hε : 0 ≤ ε) (hε' : ε < 1) (hP : Precise A ε) (u : Simple N ℚ) (ws : List (Simple N ℚ))
    (h : ∀ w ∈ u :: ws, Positive w ∧ Integral w ∧ Unshifted w) (ho : NoOverflow A u ws) (p : ℚ) :
    Near ε (4 * ws.length) (coord ((u :: ws).getLast (List.cons_ne_nil u ws)) p) (chain A false u ws (coord u p)) := by
  have := chain_near hε hε' hA hP false ws u (fun w hw => ⟨(h w hw).2.1, proper_of_positive w (h w hw).1, .inr (h w hw).2.2⟩) ho (coord u p)
  have hu := h u (by simp)
  have hl := h _ (List.getLast_mem (List.cons_ne_nil u ws))
  have hne := factor_ne u (proper_of_positive u hu.1)
  rw [coord_affine u p, unshifted_coord u hu.2.2, add_zero, show factor u * p * (factor ((u :: ws).getLast (List.cons_ne_nil u ws)) * (factor u)⁻¹) =
    factor ((u :: ws).getLast (List.cons_ne_nil u ws)) * p by field_simp] at this
  rw [coord_affine u p, unshifted_coord u hu.2.2, add_zero, coord_affine _ p, unshifted_coord _ hl.2.2, add_zero]
  exact this

/-- From metres to feet and back: there are at most eight errors. -/
example (x : ℚ) : Near (1 / 2 ^ 53) 8 x (chain dbl false (unitOf dbl metreU) [unitOf dbl .foot, unitOf dbl metreU] x) := by
  obtain ⟨hA, hP⟩ := C118_formats 53 64 (by omega) (by omega)
  refine C118_chain_partial dbl hA _ (by positivity) (by norm_num) hP (unitOf dbl metreU) [unitOf dbl .foot, unitOf dbl metreU] ?_ ?_ x
  · have hm : Positive (unitOf dbl metreU) ∧ Integral (unitOf dbl metreU) ∧ Unshifted (unitOf dbl metreU) := ⟨trivial, trivial, trivial⟩
    have hf : Positive (unitOf dbl .foot) ∧ Integral (unitOf dbl .foot) ∧ Unshifted (unitOf dbl .foot) := by
      refine ⟨⟨trivial, ?_, ?_⟩, ⟨trivial, _, _, rfl, rfl⟩, trivial, ?_⟩ <;> simp [footTransform, literal, Val.toK]
    intro w hw
    simp only [List.mem_cons, List.not_mem_nil, or_false] at hw
    rcases hw with rfl | rfl | rfl
    · exact hm
    · exact hf
    · exact hm
  · exact ⟨by decide +kernel, by decide +kernel, trivial⟩

end Verif.Props
