import Verif.Lemmas.StandardUnits
import Verif.Props.Convert

/-! # C117: the units which come with the library are what they are called -/
namespace Verif.Props
open Verif.Convert Verif.StandardUnits Verif.Spec.StandardUnits

section
variable {K : Type} [Field K] [LinearOrder K] [IsStrictOrderedRing K] (π : K) (hπ : 0 < π) (o : Int → Int → Bool)
include hπ

/-- **C117** For any two of the library's units, with as many prefixes as one likes: if they measure the same kind of quantity then every value is converted to the value of the same quantity, and to no
other; otherwise there is no conversion. -/
theorem C117_conversion (u w : LibUnit) (x : K) :
    (siUnit u = siUnit w → ∃ y, convert o false (u.simple π) (w.simple π) x = some y ∧ ∀ z, si π w z = si π u x ↔ z = y) ∧
    (siUnit u ≠ siUnit w → ∀ free, convert o free (u.simple π) (w.simple π) x = none) := by
  refine ⟨fun h => ⟨Verif.Spec.coord (w.simple π) (si π u x), ?_, fun z => ?_⟩, fun h free => ?_⟩
  · have := C64_coordinate_partial o (u.simple π) (w.simple π) (proper_simple hπ u) (proper_simple hπ w) (notIntegral_simple π u) (notIntegral_simple π w)
      (by rw [root_simple, root_simple, h]) (si π u x)
    rwa [coord_si hπ] at this
  · constructor
    · intro hz; rw [← hz, coord_si hπ]
    · rintro rfl; exact si_coord hπ w _
  · rw [convert, if_neg]
    rw [root_simple, root_simple]
    exact fun hc => h (by injection hc)

/-- **C117** Likewise for the differences of two quantities, where the zeros of the units do not matter: a difference of 9 °F is one of 5 K. -/
theorem C117_difference (u w : LibUnit) (x : K) (h : siUnit u = siUnit w) :
    ∃ y, convert o true (u.simple π) (w.simple π) x = some y ∧ size π w * y = size π u * x := by
  have hd := C64_displacement o (u.simple π) (w.simple π) (proper_simple hπ u) (proper_simple hπ w) (by rw [root_simple, root_simple, h]) (si π u x) (si π u 0)
  rw [coord_si hπ, coord_si hπ, sub_zero] at hd
  refine ⟨_, hd, ?_⟩
  rw [← si_diff, si_coord hπ, si_coord hπ, si_diff, sub_zero]

/-- **C117 (part)** A value is accepted if and only if it is not below zero, in SI units, for masses, lengths, durations and temperatures; and always for currents, charges and angles.

What is missing: prefixes of degrees Celsius and Fahrenheit, see `C117_prefix_violated`. -/
theorem C117_accepted_partial (u : LibUnit) (h : NoPrefixedShift u = true) :
    ∃ v : Validator K, u.validator = some v ∧ ∀ x, v.accepts x = true ↔ Meaningful (siUnit u) (si π u x) :=
  validator_accepts hπ u h

/-- **C117 (part)** Accordingly a value which is meaningful may be converted to any number of units, one after the other: there is no exception, the result is the value, in the last unit, of the same
quantity, and it is meaningful.

What is missing: as for `C117_accepted_partial`. -/
theorem C117_chain_partial (u : LibUnit) (x : K) (ws : List LibUnit) (hx : Meaningful (siUnit u) (si π u x)) (hw : ∀ w ∈ ws, siUnit w = siUnit u ∧ NoPrefixedShift w = true) :
    ∃ w y, convertAll π o u x ws = some (.ok (w, y)) ∧ w = (u :: ws).getLast (List.cons_ne_nil u ws) ∧ si π w y = si π u x ∧ Meaningful (siUnit w) (si π w y) := by
  induction ws generalizing u x with
  | nil => exact ⟨u, x, rfl, rfl, rfl, hx⟩
  | cons w ws ih =>
    obtain ⟨hs, hn⟩ := hw w (List.mem_cons_self ..)
    obtain ⟨y, hc, hy⟩ := (C117_conversion π hπ o u w x).1 hs.symm
    have hsi : si π w y = si π u x := (hy y).2 rfl
    have hm : Meaningful (siUnit w) (si π w y) := by rw [hs, hsi]; exact hx
    obtain ⟨v, hv, hacc⟩ := validator_accepts hπ w hn
    have hstep : convertTo π o u w x = some (.ok y) := by
      unfold convertTo
      split
      · rename_i he; subst he; rw [si_injective hπ _ hsi]
      · rw [hc, hv]; simp [(hacc y).2 hm]
    obtain ⟨w', y', h1, h2, h3, h4⟩ := ih w y hm (fun w' h' => ⟨(hw w' (List.mem_cons_of_mem _ h')).1.trans hs.symm, (hw w' (List.mem_cons_of_mem _ h')).2⟩)
    refine ⟨w', y', ?_, ?_, h3.trans hsi, h4⟩
    · simp only [convertAll, hstep]; exact h1
    · rw [h2, List.getLast_cons (List.cons_ne_nil w ws)]

/-- **C117** The masses by name: a value in milligrams, grams, tonnes and kilotonnes is converted to kilograms as it should be. -/
theorem C117_masses (x : K) :
    convert o false (milligram.simple π) ((LibUnit.base .kilogram).simple π) x = some (x / 1000000) ∧ convert o false (gram.simple π) ((LibUnit.base .kilogram).simple π) x = some (x / 1000) ∧
    convert o false (tonne.simple π) ((LibUnit.base .kilogram).simple π) x = some (1000 * x) ∧ convert o false (kilotonne.simple π) ((LibUnit.base .kilogram).simple π) x = some (1000000 * x) := by
  have key : ∀ (u : LibUnit) (y : K), siUnit u = .kilogram → si π u x = y → convert o false (u.simple π) ((LibUnit.base .kilogram).simple π) x = some y := by
    intro u y hu hy
    obtain ⟨z, h1, h2⟩ := (C117_conversion π hπ o u (.base .kilogram) x).1 hu
    rw [h1, ← (h2 y).1 hy.symm]
  refine ⟨key _ _ rfl ?_, key _ _ rfl ?_, key _ _ rfl rfl, key _ _ rfl rfl⟩ <;> simp only [milligram, gram, si, tenTo] <;> ring

/-- **C117 (part)** The space which is deduced from a unit is that of the quantities which it measures.

What is missing: degrees Celsius and Fahrenheit, and coulombs, see `C117_deduction_violated`. -/
theorem C117_deduction_partial (u : LibUnit) (s : Space) (hs : spaceOf (siUnit u) = some s) : u.defaultSpace π o = .space s ↔ Shifted u = false := by
  have hb : (siUnit u).defaultSpace = .space s := by
    revert hs
    cases siUnit u <;> simp [spaceOf, Base.defaultSpace]
  unfold LibUnit.defaultSpace
  cases u with
  | base b => exact ⟨fun _ => rfl, fun _ => hb⟩
  | _ =>
    dsimp only
    rw [root_simple]
    simp only [disp_zero hπ o, hb]
    split <;> simp_all

/-- **C117 (violated)** In no unit with a zero of its own can a quantity be written without the space, though it can in kelvins, and the same is true of charges.  Except in coulombs, it is an error even to ask
whether this is possible. -/
theorem C117_deduction_violated : (LibUnit.base .kelvin).defaultSpace π o = .space .absoluteTemperature ∧ (LibUnit.base .coulomb).defaultSpace π o = .absent ∧
    (∀ u : LibUnit, Shifted u = true → u.defaultSpace π o = .illFormed) ∧
    ∀ (p : Prefix) (u : LibUnit), siUnit u = .coulomb → (LibUnit.pre p u).defaultSpace π o = .illFormed := by
  refine ⟨rfl, rfl, fun u hu => ?_, fun p u hu => ?_⟩
  · unfold LibUnit.defaultSpace
    cases u with
    | base b => cases hu
    | _ =>
      dsimp only
      rw [root_simple]
      simp only [disp_zero hπ o, hu]
      rfl
  · unfold LibUnit.defaultSpace
    dsimp only
    rw [root_simple]
    simp only [siUnit, hu, Base.defaultSpace]
    split <;> rfl

/-- **C117 (violated)** Units with prefixes have the validator of the unit, which is the wrong one unless it does not depend on the scale.  A temperature of 100 K cannot be converted to milli degrees Celsius, as
the result, -173150, is less than -273.15; and the temperature of -1 kilo degree Celsius, far below absolute zero, is accepted. -/
theorem C117_prefix_violated : Meaningful .kelvin (si π (.base .kelvin) (100 : K)) ∧ si π (.pre .milli .celsius) (-173150 : K) = 100 ∧
    convertTo π o (.base .kelvin) (.pre .milli .celsius) (100 : K) = some .throws ∧
    ∃ v : Validator K, (LibUnit.pre .kilo .celsius).validator = some v ∧ v.accepts (-1) = true ∧ ¬ Meaningful .kelvin (si π (.pre .kilo .celsius) (-1 : K)) := by
  have hv : ∀ p, (LibUnit.pre p .celsius).validator = some (.interval (some (-27315 / 100)) none : Validator K) := fun p => validator_celsius
  obtain ⟨y, hc, hy⟩ := (C117_conversion π hπ o (.base .kelvin) (.pre .milli .celsius) (100 : K)).1 rfl
  have h0 : si π (.pre .milli .celsius) (-173150 : K) = 100 := by simp only [si, tenTo]; norm_num
  have h1 : -173150 = y := (hy _).1 h0
  refine ⟨by simp only [si, Meaningful]; norm_num, h0, ?_, _, hv _, ?_, ?_⟩
  · unfold convertTo
    rw [if_neg (by simp), hc, hv, ← h1]
    have : ((-173150 : K) < -27315 / 100) := by norm_num
    simp [Validator.accepts, this]
  · have : ¬ ((-1 : K) < -27315 / 100) := by norm_num
    simp only [Validator.accepts, Option.any_some, Option.any_none, this]
    rfl
  · simp only [Meaningful, si, tenTo]
    norm_num

end

/-- **C117 (part)** The text for a quantity tells its unit, if it has a symbol, and the text for its value, provided this has no blanks.

What is missing: units with prefixes, see `C117_symbols_violated`. -/
theorem C117_symbols_partial {K : Type} (text : K → List Char) (ht : ∀ x, ' ' ∉ text x) (u w : LibUnit) (hu : u.symbol.isSome) (x y : K) (h : format text u x = format text w y) :
    u = w ∧ text x = text y := by
  have key : ∀ (a b s t : List Char), ' ' ∉ a → ' ' ∉ b → a ++ ' ' :: s = b ++ ' ' :: t → a = b ∧ s = t := by
    intro a
    induction a with
    | nil =>
      intro b s t _ hb h
      cases b with
      | nil => exact ⟨rfl, by simpa using h⟩
      | cons c b => simp only [List.nil_append, List.cons_append, List.cons.injEq] at h; exact absurd (h.1 ▸ List.mem_cons_self ..) hb
    | cons c a ih =>
      intro b s t ha hb h
      cases b with
      | nil => simp only [List.nil_append, List.cons_append, List.cons.injEq] at h; exact absurd (h.1.symm ▸ List.mem_cons_self ..) ha
      | cons d b =>
        simp only [List.cons_append, List.cons.injEq] at h
        obtain ⟨h1, h2⟩ := ih b s t (fun hm => ha (List.mem_cons_of_mem _ hm)) (fun hm => hb (List.mem_cons_of_mem _ hm)) h.2
        exact ⟨by rw [h.1, h1], h2⟩
  obtain ⟨s, hs⟩ := Option.isSome_iff_exists.mp hu
  unfold format at h
  rw [hs] at h
  cases hw : w.symbol with
  | none =>
    rw [hw] at h
    have : ' ' ∈ text y := by
      have h' : text x ++ [' '] ++ s = text y := h
      rw [← h']; simp
    exact absurd this (ht y)
  | some t =>
    rw [hw] at h
    obtain ⟨h1, h2⟩ := key _ _ _ _ (ht x) (ht y) (by simpa using h)
    refine ⟨?_, h1⟩
    subst h2
    have hb : ∀ b : Base, ∃ c, (LibUnit.base b).symbol = some c := fun b => by cases b <;> exact ⟨_, rfl⟩
    revert hs hw
    cases u with
    | pre p u => intro hs; cases hs
    | base a =>
      cases w with
      | pre p w => intro _ hw; cases hw
      | base b => cases a <;> cases b <;> simp [LibUnit.symbol] <;> (rintro rfl; simp)
      | _ => cases a <;> simp [LibUnit.symbol] <;> (rintro rfl; simp)
    | _ =>
      cases w with
      | pre p w => intro _ hw; cases hw
      | base b => cases b <;> simp [LibUnit.symbol] <;> (rintro rfl; simp)
      | _ => simp [LibUnit.symbol] <;> (rintro rfl; simp)

/-- **C117 (violated)** Units with prefixes are not mentioned, so that five milligrams and five kilotonnes are the same text. -/
theorem C117_symbols_violated {K : Type} (text : K → List Char) (x : K) : format text milligram x = format text kilotonne x ∧ milligram ≠ kilotonne := by
  exact ⟨rfl, by decide⟩

/-- The hypotheses of the theorems are met, and the values are the usual ones: 20 °C are 68 °F, a chain of conversions of 98.6 °F; 1000 feet; and a difference of 9 °F. -/
example : siUnit .celsius = siUnit .fahrenheit ∧ si 3 .celsius (20 : ℚ) = si 3 .fahrenheit 68 ∧ Meaningful (siUnit .fahrenheit) (si 3 .fahrenheit (493/5 : ℚ)) ∧
    (∀ w ∈ [LibUnit.celsius, .base .kelvin, .pre .milli (.base .kelvin), .celsius], siUnit w = siUnit .fahrenheit ∧ NoPrefixedShift w = true) ∧
    convertAll 3 ConvertExample.o .fahrenheit (493/5 : ℚ) [.celsius, .base .kelvin, .pre .milli (.base .kelvin), .celsius] = some (.ok (.celsius, 37)) ∧
    convert ConvertExample.o false (LibUnit.foot.simple 3) ((LibUnit.pre .kilo (.base .metre)).simple 3) (1000 : ℚ) = some (381/1250) ∧
    convert ConvertExample.o true (LibUnit.fahrenheit.simple 3) ((LibUnit.base .kelvin).simple 3) (9 : ℚ) = some 5 ∧
    spaceOf (siUnit gram) = some .mass ∧ gram.defaultSpace (3 : ℚ) ConvertExample.o = .space .mass := by
  refine ⟨rfl, by simp only [si]; norm_num, by simp only [si, siUnit, Meaningful]; norm_num, by decide, by decide +kernel, by decide +kernel, by decide +kernel, rfl, by decide +kernel⟩

/-- Many prefixes: the ratio does not fit into 64 bits, so that floating point numbers are used. -/
example : convert ConvertExample.o false ((LibUnit.pre .mega (.pre .mega (.pre .mega (.pre .mega (.base .metre))))).simple 3) ((LibUnit.base .metre).simple 3) (2 : ℚ) = some (2 * 10 ^ 24) := by
  decide +kernel

end Verif.Props
