import Verif.Lemmas.ConversionSpace
import Verif.Props.Convert

/-! # C116: what can be done with converted quantities -/
namespace Verif.Props
open Verif.Convert Verif.Spec Verif.ConversionSpace

section
variable {N K : Type} [DecidableEq N] [Field K] [LinearOrder K] [IsStrictOrderedRing K] {env : Nat → Decl}

/-- **C116 (part)** However often a quantity of one of the usual types is converted, nothing throws, and the result is determined by the unit to which it was converted last: the value, the space, the origin and
the validator are the usual ones for that unit.  Converting back to the first unit restores both the type and the value.

What is missing: quantities of other types, see `C116_space_violated`, `C116_relaxed_violated`, `C116_origin_violated` and `C116_validator_violated`; and all that is missing for the values,
see `C64_coordinate_partial` and `C64_validator_partial`. -/
theorem C116_history_partial (o : Int → Int → Bool) {n : Nat} {r : N} {b : Validator K} {p : K} (hb : b ≠ .interval none none)
    (ha : (env n).kind = .affine ∨ ((env n).kind = .module ∧ (env n).field = true) ∨ Allowed b p) {u : Simple N K} {q : Quantity N K} (hu : Good r b u) (su : Suits (env n) u)
    (hq : UsualQuantity env n u p q) (ws : List (Simple N K)) (hws : ∀ w ∈ ws, Good r b w ∧ Suits (env n) w) :
    (∃ q', convertAll env o q ws = some (.ok q') ∧ UsualQuantity env n ((u :: ws).getLast (List.cons_ne_nil u ws)) p q') ∧
    (∀ ws' : List (Simple N K), (∀ w ∈ ws', Good r b w ∧ Suits (env n) w) →
      (u :: ws').getLast (List.cons_ne_nil u ws') = (u :: ws).getLast (List.cons_ne_nil u ws) → convertAll env o q ws' = convertAll env o q ws) ∧
    convertAll env o q (ws ++ [u]) = some (.ok q) := by
  have ha' : Unconstrained (env n) ∨ Allowed b p := by
    rcases ha with h | h | h
    · exact Or.inl (Or.inl h)
    · exact Or.inl (Or.inr h)
    · exact Or.inr h
  have last : ∀ ws : List (Simple N K), (∀ w ∈ ws, Good r b w ∧ Suits (env n) w) → Good r b ((u :: ws).getLast (List.cons_ne_nil u ws)) ∧ Suits (env n) ((u :: ws).getLast (List.cons_ne_nil u ws)) := by
    intro ws h
    rcases List.mem_cons.mp (List.getLast_mem (List.cons_ne_nil u ws)) with e | e
    · rw [e]; exact ⟨hu, su⟩
    · exact h _ e
  obtain ⟨q₁, h1, h2⟩ := all_steps o hb ha' ws u q hu su hws hq
  refine ⟨⟨q₁, h1, h2⟩, ?_, ?_⟩
  · intro ws' hws' he
    obtain ⟨q₂, h3, h4⟩ := all_steps o hb ha' ws' u q hu su hws' hq
    rw [he] at h4
    obtain ⟨g, s⟩ := last ws hws
    rw [h1, h3, usual_unique o g.proper g.notIntegral g.wellFormed s h2 h4]
  · obtain ⟨q₂, h3, h4⟩ := all_steps o hb ha' (ws ++ [u]) u q hu su (fun w hw => by
      rcases List.mem_append.mp hw with h | h
      · exact hws w h
      · rw [List.mem_singleton.mp h]; exact ⟨hu, su⟩) hq
    have he : (u :: (ws ++ [u])).getLast (List.cons_ne_nil u (ws ++ [u])) = u := by
      have : u :: (ws ++ [u]) = (u :: ws) ++ [u] := rfl
      simp only [this, List.getLast_append_singleton]
    rw [he] at h4
    rw [h3, usual_unique o hu.proper hu.notIntegral hu.wellFormed su h4 hq]

omit [DecidableEq N] in
/-- **C116 (part)** A quantity with a distinguished origin may be multiplied by numbers if and only if that makes sense in its unit: multiplying the coordinate is then the same as multiplying the quantity.
The result is again of the usual type, so by `C116_history_partial` it makes no difference whether a quantity is converted first or multiplied first; and it is refused if and only if the unit does not allow
for the multiple.

What is missing: quantities of other types, see `C116_space_violated`. -/
theorem C116_scaling_partial {n : Nat} {r : N} {b : Validator K} {p : K} (hb : b ≠ .interval none none) (hk : (env n).kind = .convex true) {u : Simple N K} {q : Quantity N K}
    (hu : Good r b u) (hq : UsualQuantity env n u p q) :
    (∀ k : K, scaleBy env k q ≠ none ↔ ∀ k p : K, coord u p * k = coord u (p * k)) ∧
    (∀ k : K, scaleBy env k q ≠ none → Allowed b (p * k) → ∃ q', scaleBy env k q = some (.ok q') ∧ UsualQuantity env n u (p * k) q') ∧
    (∀ k : K, scaleBy env k q ≠ none → ¬ Allowed b (p * k) → scaleBy env k q = some .throws) := by
  have hz : (∀ k p : K, coord u p * k = coord u (p * k)) ↔ ZeroIsOrigin u := by
    constructor
    · intro h
      have := h 0 0
      rw [mul_zero, mul_zero] at this
      exact this.symm
    · intro h k p
      rw [coord_affine u p, coord_affine u (p * k), show coord u 0 = 0 from h]
      ring
  have horigin : hasOrigin env q.type.space = some true ↔ ZeroIsOrigin u := by
    by_cases hZ : ZeroIsOrigin u
    · rw [(hq.distinguished hk hZ).1]
      simp [hasOrigin, hk, hZ]
    · rw [(hq.relaxed hk hZ).1]
      simp only [hasOrigin, hk, hZ, iff_false]
      split <;> simp
  have hsome : ∀ k : K, scaleBy env k q ≠ none ↔ ZeroIsOrigin u := by
    intro k
    unfold scaleBy
    rw [← horigin]
    split <;> simp_all
  have hmake : ∀ k : K, ZeroIsOrigin u → scaleBy env k q = some (make q.type (coord u (p * k))) := by
    intro k h
    unfold scaleBy
    rw [if_pos (horigin.mpr h), hq.value, hz.mpr h]
  have husual : ∀ k : K, UsualQuantity env n u (p * k) ⟨q.type, coord u (p * k)⟩ := fun k =>
    ⟨hq.unit, rfl, hq.relaxed, hq.distinguished, hq.convex, hq.affine, hq.module, hq.free, hq.constrained⟩
  have hun : ¬ Unconstrained (env n) := by
    unfold Unconstrained
    rw [hk]
    simp
  refine ⟨fun k => (hsome k).trans hz.symm, fun k h hA => ⟨_, ?_, husual k⟩, fun k h hA => ?_⟩
  · rw [hmake k ((hsome k).mp h), make, if_pos ((accepts_usual hb hu (husual k)).mpr (Or.inr hA))]
  · rw [hmake k ((hsome k).mp h), make, if_neg (fun hc => by
      rcases (accepts_usual hb hu (husual k)).mp hc with h | h
      · exact hun h
      · exact hA h)]

/-- **C116 (part)** The difference of two quantities of the usual types is as usual, however it is converted: converting the difference gives the same, including the type, as taking the difference of what the
quantities have been converted to, in whichever unit.

What is missing: spaces over rings which are not fields, see `C116_integers_violated`, and those with a displacement space of their own, see `C116_width_violated`. -/
theorem C116_differences_partial (o : Int → Int → Bool) {n : Nat} {r : N} {b : Validator K} {p p' : K} (hb : b ≠ .interval none none) (hp : Allowed b p) (hp' : Allowed b p')
    (hk : (env n).kind = .convex true) (hf : (env n).field = true) (hd : (env n).free = none) {u w : Simple N K} {q q' : Quantity N K} (hu : Good r b u) (hw : Good r b w)
    (su : Suits (env n) u) (sw : Suits (env n) w) (hq : UsualQuantity env n u p q) (hq' : UsualQuantity env n u p' q') :
    ∃ d c a a', minus env q q' = some (.ok d) ∧ UsualDifference n u (p - p') d ∧
      convertTo env o d w = some (.ok c) ∧ UsualDifference n w (p - p') c ∧
      convertTo env o q w = some (.ok a) ∧ convertTo env o q' w = some (.ok a') ∧ minus env a a' = some (.ok c) := by
  have key : ∀ (u : Simple N K) (q q' : Quantity N K), Good r b u → Suits (env n) u → UsualQuantity env n u p q → UsualQuantity env n u p' q' →
      ∃ d, minus env q q' = some (.ok d) ∧ UsualDifference n u (p - p') d := by
    intro u q q' hu su hq hq'
    have ht : q.type = q'.type := by
      obtain ⟨h1, _⟩ := (usual_quantity (env := env) o hu.proper hu.notIntegral hu.wellFormed su).mp hq
      obtain ⟨h2, _⟩ := (usual_quantity (env := env) o hu.proper hu.notIntegral hu.wellFormed su).mp hq'
      unfold UsualType at h1 h2
      rw [h1] at h2
      injection h2
    have hsp : ∃ s, q.type.space = s ∧ freeOf env s = .disp s ∧ s ≠ .disp s := by
      by_cases hZ : ZeroIsOrigin u
      · exact ⟨_, (hq.distinguished hk hZ).1, by simp [freeOf, hk, hd], by simp⟩
      · exact ⟨_, (hq.relaxed hk hZ).1, rfl, by simp⟩
    obtain ⟨s, h1, h2, h3⟩ := hsp
    refine ⟨⟨dispType env q.type, coord u p - coord u p'⟩, ?_, ?_⟩
    · unfold minus
      rw [h1, h2, if_pos ⟨ht, h3⟩, hq.value, hq'.value]
      rfl
    · refine ⟨hq.unit, ?_, fun hZ => ?_, fun hZ => ?_, rfl, rfl⟩
      · show coord u p - coord u p' = _
        rw [coord_affine u p, coord_affine u p']
        ring
      · show freeOf env q.type.space = _
        rw [(hq.relaxed hk hZ).1]
        rfl
      · show freeOf env q.type.space = _
        rw [(hq.distinguished hk hZ).1]
        simp [freeOf, hk, hd]
  obtain ⟨d, h1, h2⟩ := key u q q' hu su hq hq'
  obtain ⟨c, h3, h4⟩ := differences_step (env := env) o hk hf hu.proper hu.notIntegral hw.proper hw.notIntegral hw.wellFormed (hu.root.trans hw.root.symm) sw h2
  obtain ⟨a, h5, h6⟩ := step o hb hu hw su sw (Or.inr hp) hq
  obtain ⟨a', h7, h8⟩ := step o hb hu hw su sw (Or.inr hp') hq'
  obtain ⟨c', h9, h10⟩ := key w a a' hw sw h6 h8
  have : c' = c := by
    obtain ⟨⟨s, un, og, v⟩, x⟩ := c
    obtain ⟨⟨s', un', og', v'⟩, x'⟩ := c'
    have e1 := h4.unit
    have e2 := h10.unit
    have e3 := h4.value
    have e4 := h10.value
    have e5 := h4.origin
    have e6 := h10.origin
    have e7 := h4.validator
    have e8 := h10.validator
    have e9 : s' = s := by
      by_cases hZ : ZeroIsOrigin w
      · exact (h10.distinguished hZ).trans (h4.distinguished hZ).symm
      · exact (h10.relaxed hZ).trans (h4.relaxed hZ).symm
    simp only at e1 e2 e3 e4 e5 e6 e7 e8
    rw [e1, e2, e3, e4, e5, e6, e7, e8, e9]
  exact ⟨d, c, a, a', h1, h2, h3, h4, h5, h7, by rw [h9, this]⟩

omit [IsStrictOrderedRing K] in
/-- **C116 (violated)** An origin which was given explicitly is forgotten by conversions: of two values in an affine space with respect to different origins, such as times since different events, the results of
converting them have the same type, so that they can be compared and subtracted. -/
theorem C116_origin_violated (o : Int → Int → Bool) {n : Nat} (hk : (env n).kind = .affine) (hd : (env n).free = none) {u w : Simple N K} (hne : w ≠ u) (hr : u.root = w.root) (hv : w.validator ≠ none) (j k : Nat) (x y : K) :
    ∃ q q' : Quantity N K, convertTo env o ⟨⟨.decl n, u, .custom j, .identity⟩, x⟩ w = some (.ok q) ∧ convertTo env o ⟨⟨.decl n, u, .custom k, .identity⟩, y⟩ w = some (.ok q') ∧
      q.type = q'.type ∧ minus env q q' ≠ none ∧ (x = y → q = q') := by
  obtain ⟨v, hv⟩ : ∃ v, w.validator = some v := Option.ne_none_iff_exists'.mp hv
  have ht : ∀ (c : Nat), convertType env o ⟨.decl n, u, .custom c, .identity⟩ w = some (⟨.decl n, w, .implicitAffine, .identity⟩ : Ty N K) := by
    intro c
    unfold convertType
    rw [if_neg hne, if_pos hr]
    simp [conversionSpace, conversionPlain, hasOrigin, hk, defaultType, originOf, defaultValidator, isAffine, identifiesAffine, hv]
  have hc : ∀ (c : Nat) (x : K), convertTo env o ⟨⟨.decl n, u, .custom c, .identity⟩, x⟩ w =
      some (.ok ⟨⟨.decl n, w, .implicitAffine, .identity⟩, Convert.apply o (isFree env (.decl n)) (u.transform o) (w.transform o) x⟩) := by
    intro c x
    unfold convertTo
    rw [if_neg hne, ht c, Option.bind_some, convert, if_pos hr]
    rfl
  refine ⟨_, _, hc j x, hc k y, rfl, ?_, ?_⟩
  · have hs : (Sp.decl n) ≠ freeOf env (.decl n) := by simp [freeOf, hk, hd]
    unfold minus
    simp [hs]
  · rintro rfl
    rfl

end

namespace ConversionSpaceExample
open ConvertExample

/-- Absolute temperatures, times, lengths in integers, widths with their displacements, and currents. -/
def spaces : Nat → Decl
  | 0 => { kind := .convex true }
  | 1 => { kind := .affine, base := false }
  | 2 => { kind := .convex true, field := false }
  | 3 => { kind := .convex true, free := some 4 }
  | 4 => { kind := .module }
  | _ => { kind := .module, base := true }

def millikelvin : Simple Nat ℚ := .derived 20 kelvin ⟨.int 1000, .int 1, .int 0⟩
def metre' : Simple Nat ℚ := .base 21 .halfLine
def millimetre : Simple Nat ℚ := .derived 22 metre' ⟨.int 1000, .int 1, .int 0⟩
/-- Above some height. -/
def above : Simple Nat ℚ := .derived 23 metre' ⟨.int 1, .int 1, .fp (-5)⟩

/-- Twenty degrees Celsius, and as a kelvin quantity. -/
def warm : Quantity Nat ℚ := ⟨⟨.relaxed (.decl 0), celsius, .unitDefined, .interval (some (-5463/20)) none⟩, 20⟩
def warmK : Quantity Nat ℚ := ⟨⟨.decl 0, kelvin, .distinguished, .halfLine⟩, 5863/20⟩

theorem good_kelvin : Good 4 .halfLine kelvin := ⟨trivial, trivial, trivial, rfl, rfl, by decide +kernel⟩
theorem good_celsius : Good 4 .halfLine celsius := ⟨by simp [Proper, celsius, kelvin, Val.toK], by simp [NotIntegral, celsius, kelvin],
  by simp only [PositiveRatios, celsius, kelvin, Ratio, Val.toK]; norm_num, rfl, rfl, by decide +kernel⟩
theorem good_fahrenheit : Good 4 .halfLine fahrenheit := ⟨by simp [Proper, fahrenheit, celsius, kelvin, Val.toK], by simp [NotIntegral, fahrenheit, celsius, kelvin],
  by simp only [PositiveRatios, fahrenheit, celsius, kelvin, Ratio, Val.toK]; norm_num, rfl, rfl, by decide +kernel⟩

theorem shifted_celsius : ¬ ZeroIsOrigin celsius := by
  unfold ZeroIsOrigin
  simp only [coord, celsius, kelvin, Ratio, Val.toK]
  norm_num

theorem usual_warm : UsualQuantity spaces 0 celsius (5863/20) warm where
  unit := rfl
  value := by simp only [warm, coord, celsius, kelvin, Ratio, Val.toK]; norm_num
  relaxed _ _ := ⟨rfl, rfl⟩
  distinguished _ h := absurd h shifted_celsius
  convex h := by cases h
  affine h := by cases h
  module h := by cases h
  free h := by rcases h with h | ⟨h, _⟩ <;> cases h
  constrained _ := by decide +kernel

end ConversionSpaceExample
open ConvertExample ConversionSpaceExample

/-- The hypotheses of `C116_history_partial`, `C116_scaling_partial` and `C116_differences_partial` are met by 20 °C and conversions to kelvins, degrees Fahrenheit and degrees Celsius. -/
example : Validator.halfLine (K := ℚ) ≠ .interval none none ∧ Allowed (.halfLine : Validator ℚ) (5863/20) ∧ (spaces 0).kind = .convex true ∧ (spaces 0).field = true ∧ (spaces 0).free = none ∧
    Good 4 .halfLine celsius ∧ Suits (spaces 0) celsius ∧ UsualQuantity spaces 0 celsius (5863/20) warm ∧ (∀ w ∈ [kelvin, fahrenheit], Good 4 .halfLine w ∧ Suits (spaces 0) w) ∧
    convertAll spaces o warm [fahrenheit, kelvin] = some (.ok warmK) ∧ convertAll spaces o warm [kelvin, fahrenheit, celsius] = some (.ok warm) ∧
    scaleBy spaces 2 warm = none ∧ scaleBy spaces 2 warmK = some (.ok ⟨warmK.type, 5863/10⟩) ∧ scaleBy spaces (-2) warmK = some .throws := by
  have suits : ∀ w : Simple Nat ℚ, Suits (spaces 0) w := fun w => Or.inr ⟨by simp [spaces], fun _ => rfl⟩
  refine ⟨by simp, ?_, rfl, rfl, rfl, good_celsius, suits _, usual_warm, ?_, by decide +kernel, by decide +kernel, by decide +kernel, by decide +kernel, by decide +kernel⟩
  · simp only [Allowed]; norm_num
  · intro w hw
    rcases List.mem_cons.mp hw with rfl | hw
    · exact ⟨good_kelvin, suits _⟩
    · rw [List.mem_singleton.mp hw]
      exact ⟨good_fahrenheit, suits _⟩

/-- The hypotheses of `C116_origin_violated` are met by times. -/
example : (spaces 1).kind = .affine ∧ (spaces 1).free = none ∧ celsius ≠ kelvin ∧ kelvin.root = celsius.root ∧ celsius.validator ≠ none := by
  refine ⟨rfl, rfl, by decide +kernel, rfl, by decide +kernel⟩

/-- **C116 (violated)** Nothing prevents a space with a distinguished origin from being combined with a unit with another zero.  Such a quantity can be multiplied by numbers, with a result which depends on the
unit: twice 10 °C is 20 °C, but if this is done in kelvins it is 293.15 °C.  And converting to kelvins and back gives another type. -/
theorem C116_space_violated : ∃ (t : Ty Nat ℚ) (a k b c d : Quantity Nat ℚ), defaultType spaces (.decl 0) celsius = some t ∧ make t 10 = .ok a ∧
    scaleBy spaces 2 a = some (.ok b) ∧ b.value = 20 ∧
    convertTo spaces o a kelvin = some (.ok k) ∧ scaleBy spaces 2 k = some (.ok c) ∧ convertTo spaces o c celsius = some (.ok d) ∧ d.value = 5863/20 ∧
    ∃ e, convertTo spaces o k celsius = some (.ok e) ∧ e.value = a.value ∧ e.type ≠ a.type := by
  refine ⟨⟨.decl 0, celsius, .distinguished, .interval (some (-5463/20)) none⟩, ⟨⟨.decl 0, celsius, .distinguished, .interval (some (-5463/20)) none⟩, 10⟩,
    ⟨⟨.decl 0, kelvin, .distinguished, .halfLine⟩, 5663/20⟩, ⟨⟨.decl 0, celsius, .distinguished, .interval (some (-5463/20)) none⟩, 20⟩, ⟨⟨.decl 0, kelvin, .distinguished, .halfLine⟩, 5663/10⟩,
    ⟨⟨.relaxed (.decl 0), celsius, .unitDefined, .interval (some (-5463/20)) none⟩, 5863/20⟩, ?_⟩
  refine ⟨by decide +kernel, by decide +kernel, by decide +kernel, rfl, by decide +kernel, by decide +kernel, by decide +kernel, rfl,
    ⟨⟨.relaxed (.decl 0), celsius, .unitDefined, .interval (some (-5463/20)) none⟩, 10⟩, by decide +kernel, rfl, by decide +kernel⟩

/-- **C116 (violated)** Conversely, a quantity in a relaxed space and a unit whose zero is the origin, to which multiplication is denied, can be multiplied after it has been converted to another such unit
and back. -/
theorem C116_relaxed_violated : ∃ (t : Ty Nat ℚ) (a b : Quantity Nat ℚ), defaultType spaces (.relaxed (.decl 0)) kelvin = some t ∧ make t 300 = .ok a ∧
    convertAll spaces o a [millikelvin, kelvin] = some (.ok b) ∧ convertAll spaces o a [kelvin] = some (.ok a) ∧ b.type ≠ a.type ∧ scaleBy spaces 2 a = none ∧ scaleBy spaces 2 b ≠ none := by
  refine ⟨⟨.relaxed (.decl 0), kelvin, .unitDefined, .halfLine⟩, ⟨⟨.relaxed (.decl 0), kelvin, .unitDefined, .halfLine⟩, 300⟩, ⟨⟨.decl 0, kelvin, .distinguished, .halfLine⟩, 300⟩, ?_⟩
  refine ⟨by decide +kernel, by decide +kernel, by decide +kernel, by decide +kernel, by decide +kernel, by decide +kernel, by decide +kernel⟩

/-- **C116 (violated)** A validator which was given explicitly is forgotten as well: a length which is allowed to be negative cannot be converted to millimetres. -/
theorem C116_validator_violated : ∃ q : Quantity Nat ℚ, q.type.unit = metre' ∧ make q.type q.value = .ok q ∧ Allowed q.type.validator q.value ∧ convertTo spaces o q millimetre = some .throws := by
  refine ⟨⟨⟨.decl 3, metre', .distinguished, .identity⟩, -5⟩, rfl, by decide +kernel, trivial, by decide +kernel⟩

/-- **C116 (violated)** If the representation type is integral, the displacements are taken for quantities which cannot be negative: the difference of the lengths 2 m and 5 m cannot be converted to
millimetres. -/
theorem C116_integers_violated : ∃ a b d : Quantity Nat ℚ, UsualQuantity spaces 2 metre' 2 a ∧ UsualQuantity spaces 2 metre' 5 b ∧ minus spaces a b = some (.ok d) ∧ d.value = -3 ∧
    convertTo spaces o a millimetre ≠ some .throws ∧ convertTo spaces o b millimetre ≠ some .throws ∧ convertTo spaces o d millimetre = some .throws := by
  have usual : ∀ x : ℚ, UsualQuantity spaces 2 metre' x ⟨⟨.decl 2, metre', .distinguished, .halfLine⟩, x⟩ := fun x =>
    { unit := rfl, value := rfl, relaxed := fun _ h => absurd rfl h, distinguished := fun _ _ => ⟨rfl, rfl⟩, convex := fun h => (by cases h), affine := fun h => (by cases h),
      module := fun h => (by cases h), free := fun h => (by rcases h with h | ⟨h, _⟩ <;> cases h), constrained := fun _ => rfl }
  refine ⟨_, _, ⟨⟨.disp (.decl 2), metre', .distinguished, .identity⟩, -3⟩, usual 2, usual 5, ?_, rfl, ?_, ?_, ?_⟩ <;> decide +kernel

/-- **C116 (violated)** If a space has a class of its own for its displacements, as widths and heights have, then heights can be converted to a unit with another zero, but their differences cannot. -/
theorem C116_width_violated : ∃ a b d : Quantity Nat ℚ, UsualQuantity spaces 3 metre' 7 a ∧ UsualQuantity spaces 3 metre' 5 b ∧ minus spaces a b = some (.ok d) ∧
    (∃ c, convertTo spaces o a above = some (.ok c)) ∧ (∃ c, convertTo spaces o b above = some (.ok c)) ∧ convertTo spaces o d above = none := by
  have usual : ∀ x : ℚ, UsualQuantity spaces 3 metre' x ⟨⟨.decl 3, metre', .distinguished, .halfLine⟩, x⟩ := fun x =>
    { unit := rfl, value := rfl, relaxed := fun _ h => absurd rfl h, distinguished := fun _ _ => ⟨rfl, rfl⟩, convex := fun h => (by cases h), affine := fun h => (by cases h),
      module := fun h => (by cases h), free := fun h => (by rcases h with h | ⟨h, _⟩ <;> cases h), constrained := fun _ => rfl }
  refine ⟨_, _, ⟨⟨.decl 4, metre', .distinguished, .identity⟩, 2⟩, usual 7, usual 5, by decide +kernel,
    ⟨⟨⟨.relaxed (.decl 3), above, .unitDefined, .interval (some (-5)) none⟩, 2⟩, by decide +kernel⟩,
    ⟨⟨⟨.relaxed (.decl 3), above, .unitDefined, .interval (some (-5)) none⟩, 0⟩, by decide +kernel⟩, by decide +kernel⟩

end Verif.Props
