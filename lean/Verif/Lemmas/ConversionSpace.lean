import Verif.Lemmas.Convert
import Verif.Spec.ConversionSpace

/-! Lemmas on the types of converted quantities. -/
namespace Verif.ConversionSpace
open Verif.Convert Verif.Spec

variable {N K : Type} [DecidableEq N] [Field K] [LinearOrder K] [IsStrictOrderedRing K] {env : Nat → Decl}

omit [DecidableEq N] in
theorem unshifted_iff (o : Int → Int → Bool) {u : Simple N K} (hp : Proper u) (hi : NotIntegral u) : unshifted o u = true ↔ ZeroIsOrigin u := by
  have h := (transform_disp o u hp hi).2 0
  rw [mul_zero, zero_add] at h
  unfold unshifted ZeroIsOrigin
  rw [← h]
  simp

omit [DecidableEq N] in
theorem unshifted_false (o : Int → Int → Bool) {u : Simple N K} (hp : Proper u) (hi : NotIntegral u) : unshifted o u = false ↔ ¬ ZeroIsOrigin u := by
  rw [← unshifted_iff o hp hi]
  simp

/-- Whether values are constrained at all. -/
def Unconstrained (d : Decl) : Prop := d.kind = .affine ∨ (d.kind = .module ∧ d.field = true)

instance (d : Decl) : Decidable (Unconstrained d) := inferInstanceAs (Decidable (_ ∨ _))

theorem isAffine_decl (n : Nat) : isAffine env (.decl n) = true ↔ Unconstrained (env n) := by
  unfold isAffine isFree isField identifiesAffine Unconstrained
  simp [or_comm]

theorem isAffine_relaxed (n : Nat) : isAffine env (.relaxed (.decl n)) = isAffine env (.decl n) := rfl

/-- The space of the usual quantity. -/
def usualSpace (env : Nat → Decl) (n : Nat) (z : Bool) : Sp := if (env n).kind = .convex true ∧ z = false then .relaxed (.decl n) else .decl n

theorem conversion_usual (n : Nat) (from0 to0 : Bool) (hf : from0 = true ∨ (env n).kind ≠ .module) (ht : to0 = true ∨ (env n).kind ≠ .module ∧ ((env n).kind = .convex true → (env n).base = true)) :
    conversionSpace env from0 to0 (usualSpace env n from0) = some (usualSpace env n to0) := by
  unfold usualSpace
  cases hk : (env n).kind with
  | convex b =>
    cases b <;> cases from0 <;> cases to0 <;> simp_all [conversionSpace, conversionPlain, hasOrigin, isFree, hasBase]
  | affine => simp [conversionSpace, conversionPlain, hasOrigin, hk]
  | module =>
    cases from0 <;> cases to0 <;> simp_all [conversionSpace, conversionPlain, hasOrigin]

theorem origin_usual (n : Nat) (z : Bool) (hz : z = true ∨ (env n).kind ≠ .module ∧ ((env n).kind = .convex true → (env n).base = true)) :
    originOf env (usualSpace env n z) = some (match (env n).kind with
      | .convex true => if z then .distinguished else .unitDefined
      | .convex false => .unitDefined
      | .affine => .implicitAffine
      | .module => .distinguished) := by
  unfold usualSpace originOf
  cases hk : (env n).kind with
  | convex b =>
    cases b <;> cases z <;> simp_all [hasOrigin, isFree, hasBase, isAffine, identifiesAffine]
  | affine => simp [hasOrigin, hk, isAffine, identifiesAffine]
  | module => simp [hasOrigin, hk]

theorem affine_usual (n : Nat) (z : Bool) : isAffine env (usualSpace env n z) = decide (Unconstrained (env n)) := by
  have h : isAffine env (usualSpace env n z) = isAffine env (.decl n) := by
    unfold usualSpace
    split
    · rfl
    · rfl
  rw [h]
  rcases hd : decide (Unconstrained (env n)) with _ | _
  · rw [Bool.eq_false_iff, ne_eq, isAffine_decl]
    simpa using hd
  · rw [isAffine_decl]
    simpa using hd

/-- The usual type. -/
def UsualType (env : Nat → Decl) (n : Nat) (z : Bool) (u : Simple N K) (t : Ty N K) : Prop :=
  defaultType env (usualSpace env n z) u = some t

omit [IsStrictOrderedRing K] [DecidableEq N] in
theorem usual_type {n : Nat} {z : Bool} {u : Simple N K} {t : Ty N K} (hz : z = true ∨ (env n).kind ≠ .module ∧ ((env n).kind = .convex true → (env n).base = true)) :
    UsualType env n z u t ↔ t.space = usualSpace env n z ∧ t.unit = u ∧
      t.origin = (match (env n).kind with
        | .convex true => if z then .distinguished else .unitDefined
        | .convex false => .unitDefined
        | .affine => .implicitAffine
        | .module => .distinguished) ∧ (u.validator ≠ none) ∧ (Unconstrained (env n) → t.validator = .identity) ∧ (¬ Unconstrained (env n) → u.validator = some t.validator) := by
  unfold UsualType defaultType defaultValidator
  rw [origin_usual n z hz, affine_usual]
  obtain ⟨s, w, o, v⟩ := t
  cases hv : u.validator with
  | none => simp
  | some a =>
    by_cases hd : Unconstrained (env n)
    · simp only [Option.bind_some, Option.map_some, hd, decide_true, if_true]
      constructor
      · intro h
        injection h with h
        injection h with h1 h2 h3 h4
        exact ⟨h1.symm, h2.symm, h3.symm, by simp, fun _ => h4.symm, fun h => absurd trivial h⟩
      · rintro ⟨h1, h2, h3, _, h4, _⟩
        rw [h1, h2, h3, h4 trivial]
    · simp only [Option.bind_some, Option.map_some, hd, decide_false]
      constructor
      · intro h
        injection h with h
        injection h with h1 h2 h3 h4
        exact ⟨h1.symm, h2.symm, h3.symm, by simp, fun h => absurd h (by simp), fun _ => by simpa using h4⟩
      · rintro ⟨h1, h2, h3, _, _, h4⟩
        have := h4 (by simp)
        injection this with this
        rw [h1, h2, h3, this]
        simp

omit [DecidableEq N] in
theorem usual_quantity (o : Int → Int → Bool) {n : Nat} {u : Simple N K} {p : K} {q : Quantity N K} (hp : Proper u) (hi : NotIntegral u) (hw : u.validator ≠ none)
    (hs : Suits (env n) u) : UsualQuantity env n u p q ↔ UsualType env n (unshifted o u) u q.type ∧ q.value = coord u p := by
  have hz := unshifted_iff o hp hi
  have hs' : unshifted o u = true ∨ (env n).kind ≠ .module ∧ ((env n).kind = .convex true → (env n).base = true) := by
    rcases hs with h | h
    · exact Or.inl (hz.mpr h)
    · exact Or.inr h
  rw [usual_type hs']
  constructor
  · intro h
    refine ⟨⟨?_, h.unit, ?_, hw, h.free, h.constrained⟩, h.value⟩
    · unfold usualSpace
      split
      · rename_i hk
        exact (h.relaxed hk.1 (fun hc => by rw [hz.mpr hc] at hk; exact absurd hk.2 (by simp))).1
      · rename_i hk
        cases hk' : (env n).kind with
        | convex b =>
          cases b with
          | false => exact (h.convex hk').1
          | true =>
            refine (h.distinguished hk' (hz.mp ?_)).1
            cases hu : unshifted o u with
            | true => rfl
            | false => exact absurd ⟨hk', hu⟩ hk
        | affine => exact (h.affine hk').1
        | module => exact (h.module hk').1
    · cases hk' : (env n).kind with
      | convex b =>
        cases b with
        | false => exact (h.convex hk').2
        | true =>
          cases hu : unshifted o u with
          | true => exact (h.distinguished hk' (hz.mp hu)).2
          | false => exact (h.relaxed hk' (fun hc => by rw [hz.mpr hc] at hu; exact absurd hu (by simp))).2
      | affine => exact (h.affine hk').2
      | module => exact (h.module hk').2
  · rintro ⟨⟨h1, h2, h3, _, h4, h5⟩, h6⟩
    unfold usualSpace at h1
    constructor
    · exact h2
    · exact h6
    · intro hk hn
      have hu : unshifted o u = false := (unshifted_false o hp hi).mpr hn
      simp only [hk, hu, and_self, if_true] at h1 h3
      exact ⟨h1, by simpa using h3⟩
    · intro hk hn
      have hu : unshifted o u = true := hz.mpr hn
      simp [hk, hu] at h1 h3
      exact ⟨h1, h3⟩
    · intro hk
      simp [hk] at h1 h3
      exact ⟨h1, h3⟩
    · intro hk
      simp [hk] at h1 h3
      exact ⟨h1, h3⟩
    · intro hk
      simp [hk] at h1 h3
      exact ⟨h1, h3⟩
    · exact h4
    · exact h5

theorem isFree_usual (n : Nat) (z : Bool) : isFree env (usualSpace env n z) = decide ((env n).kind = .module) := by
  unfold usualSpace
  split <;> rfl

omit [IsStrictOrderedRing K] [DecidableEq N] [LinearOrder K] in
theorem suits_bool {n : Nat} {u : Simple N K} {z : Bool} (hz : z = true ↔ ZeroIsOrigin u) (hs : Suits (env n) u) :
    z = true ∨ (env n).kind ≠ .module ∧ ((env n).kind = .convex true → (env n).base = true) :=
  hs.imp hz.mpr id

/-- The value of a converted quantity. -/
theorem value_usual (o : Int → Int → Bool) {n : Nat} {u w : Simple N K} {p : K} (hu : Proper u) (hui : NotIntegral u) (hw : Proper w) (hwi : NotIntegral w) (hr : u.root = w.root)
    (su : Suits (env n) u) (sw : Suits (env n) w) : convert o (decide ((env n).kind = .module)) u w (coord u p) = some (coord w p) := by
  unfold convert
  rw [if_pos hr]
  by_cases hk : (env n).kind = .module
  · have h1 : coord u 0 = 0 := su.elim id fun h => absurd hk h.1
    have h2 : coord w 0 = 0 := sw.elim id fun h => absurd hk h.1
    have h := apply_difference o u w hu hw p 0
    rw [h1, h2, sub_zero, sub_zero] at h
    simp only [hk, decide_true]
    rw [h]
  · simp only [hk, decide_false]
    rw [apply_coord o u w hu hw hui hwi p]

omit [DecidableEq N] in
theorem accepts_usual {n : Nat} {r : N} {b : Validator K} {u : Simple N K} {p : K} {q : Quantity N K} (hb : b ≠ .interval none none) (hu : Good r b u) (hq : UsualQuantity env n u p q) :
    q.type.validator.accepts q.value = true ↔ Unconstrained (env n) ∨ Allowed b p := by
  by_cases hc : Unconstrained (env n)
  · rw [hq.free hc]
    simp [Validator.accepts, hc]
  · have hv := hq.constrained hc
    rw [accepts_iff, hq.value]
    have h := (validator_allowed u hu.proper hu.positive (by rw [hu.validator]; exact hb) _ hv).2 p
    rw [hu.validator] at h
    rw [h]
    simp [hc]

theorem step (o : Int → Int → Bool) {n : Nat} {r : N} {b : Validator K} {u w : Simple N K} {p : K} {q : Quantity N K} (hb : b ≠ .interval none none) (hu : Good r b u) (hw : Good r b w)
    (su : Suits (env n) u) (sw : Suits (env n) w) (ha : Unconstrained (env n) ∨ Allowed b p) (hq : UsualQuantity env n u p q) :
    ∃ q', convertTo env o q w = some (.ok q') ∧ UsualQuantity env n w p q' := by
  by_cases hwu : w = q.type.unit
  · refine ⟨q, ?_, ?_⟩
    · unfold convertTo
      rw [if_pos hwu]
    · rw [hwu, hq.unit]
      exact hq
  · have hq' := (usual_quantity o hu.proper hu.notIntegral hu.wellFormed su).mp hq
    have hsp := ((usual_type (suits_bool (unshifted_iff o hu.proper hu.notIntegral) su)).mp hq'.1).1
    have hroot : u.root = w.root := hu.root.trans hw.root.symm
    have hT := suits_bool (unshifted_iff o hw.proper hw.notIntegral) sw
    have hF := (suits_bool (unshifted_iff o hu.proper hu.notIntegral) su).imp id And.left
    have hconv := conversion_usual (env := env) n (unshifted o u) (unshifted o w) hF hT
    -- the type
    obtain ⟨v, hv⟩ : ∃ v, w.validator = some v := Option.ne_none_iff_exists'.mp hw.wellFormed
    obtain ⟨t, ht⟩ : ∃ t, defaultType env (usualSpace env n (unshifted o w)) w = some t := by
      unfold defaultType defaultValidator
      rw [origin_usual n _ hT, hv]
      exact ⟨_, rfl⟩
    have hty : convertType env o q.type w = some t := by
      unfold convertType
      rw [if_neg hwu, hq.unit, if_pos hroot, hsp, hconv, Option.bind_some, ht]
    have hU : UsualQuantity env n w p ⟨t, coord w p⟩ := (usual_quantity o hw.proper hw.notIntegral hw.wellFormed sw).mpr ⟨ht, rfl⟩
    refine ⟨⟨t, coord w p⟩, ?_, hU⟩
    unfold convertTo
    rw [if_neg hwu, hty, Option.bind_some, hsp, isFree_usual, hq.unit, hq.value, value_usual o hu.proper hu.notIntegral hw.proper hw.notIntegral hroot su sw, Option.map_some]
    have hacc := (accepts_usual hb hw hU).mpr ha
    unfold make
    rw [if_pos hacc]

theorem all_steps (o : Int → Int → Bool) {n : Nat} {r : N} {b : Validator K} {p : K} (hb : b ≠ .interval none none) (ha : Unconstrained (env n) ∨ Allowed b p) :
    ∀ (ws : List (Simple N K)) (u : Simple N K) (q : Quantity N K), Good r b u → Suits (env n) u → (∀ w ∈ ws, Good r b w ∧ Suits (env n) w) → UsualQuantity env n u p q →
      ∃ q', convertAll env o q ws = some (.ok q') ∧ UsualQuantity env n ((u :: ws).getLast (List.cons_ne_nil u ws)) p q'
  | [], u, q, hu, su, h, hq => ⟨q, rfl, hq⟩
  | w :: ws, u, q, hu, su, h, hq => by
    obtain ⟨hw, sw⟩ := h w (List.mem_cons_self ..)
    obtain ⟨q₁, h1, h2⟩ := step o hb hu hw su sw ha hq
    obtain ⟨q₂, h3, h4⟩ := all_steps o hb ha ws w q₁ hw sw (fun x hx => h x (List.mem_cons_of_mem _ hx)) h2
    refine ⟨q₂, ?_, by rw [List.getLast_cons (List.cons_ne_nil w ws)]; exact h4⟩
    rw [convertAll, h1]
    exact h3

omit [DecidableEq N] in
/-- There is one usual quantity. -/
theorem usual_unique (o : Int → Int → Bool) {n : Nat} {u : Simple N K} {p : K} {q q' : Quantity N K} (hp : Proper u) (hi : NotIntegral u) (hw : u.validator ≠ none) (hs : Suits (env n) u)
    (h : UsualQuantity env n u p q) (h' : UsualQuantity env n u p q') : q = q' := by
  obtain ⟨h1, h2⟩ := (usual_quantity o hp hi hw hs).mp h
  obtain ⟨h3, h4⟩ := (usual_quantity o hp hi hw hs).mp h'
  have h5 : q.type = q'.type := by
    unfold UsualType at h1 h3
    rw [h1] at h3
    injection h3
  obtain ⟨t, x⟩ := q
  obtain ⟨t', x'⟩ := q'
  simp only at h2 h4 h5
  rw [h5, h2, h4]

/-! ### differences -/

theorem differences_step (o : Int → Int → Bool) {n : Nat} {u w : Simple N K} {d : K} {q : Quantity N K} (hk : (env n).kind = .convex true) (hf : (env n).field = true)
    (hu : Proper u) (hui : NotIntegral u) (hw : Proper w) (hwi : NotIntegral w) (hwv : w.validator ≠ none) (hr : u.root = w.root) (sw : Suits (env n) w)
    (hq : UsualDifference n u d q) : ∃ q', convertTo env o q w = some (.ok q') ∧ UsualDifference n w d q' := by
  by_cases hwu : w = q.type.unit
  · refine ⟨q, ?_, ?_⟩
    · unfold convertTo
      rw [if_pos hwu]
    · rw [hwu, hq.unit]
      exact hq
  · have hsp : q.type.space = .disp (usualSpace env n (unshifted o u)) := by
      unfold usualSpace
      cases hz : unshifted o u with
      | true => simp only [hk, Bool.true_eq_false, and_false, if_false]; exact hq.distinguished ((unshifted_iff o hu hui).mp hz)
      | false => simp only [hk, and_self, if_true]; exact hq.relaxed ((unshifted_false o hu hui).mp hz)
    have hT := suits_bool (unshifted_iff o hw hwi) sw
    have hconv := conversion_usual (env := env) n (unshifted o u) (unshifted o w) (Or.inr (by rw [hk]; simp)) hT
    obtain ⟨v, hv⟩ : ∃ v, w.validator = some v := Option.ne_none_iff_exists'.mp hwv
    have hor := origin_usual (env := env) n (unshifted o w) hT
    have hdef : defaultType env (.disp (usualSpace env n (unshifted o w))) w = some ⟨.disp (usualSpace env n (unshifted o w)), w, .distinguished, .identity⟩ := by
      have h1 : hasOrigin env (.disp (usualSpace env n (unshifted o w))) = some true := by
        unfold originOf at hor
        cases hh : hasOrigin env (usualSpace env n (unshifted o w)) with
        | none => rw [hh] at hor; exact absurd hor (by simp)
        | some x => simp [hasOrigin, hh]
      have h2 : isAffine env (.disp (usualSpace env n (unshifted o w))) = true := by
        have : isField env (usualSpace env n (unshifted o w)) = true := by
          unfold usualSpace
          split <;> exact hf
        unfold isAffine
        simp [isFree, isField, this]
      unfold defaultType defaultValidator originOf
      rw [h1, h2, hv]
      rfl
    have hty : convertType env o q.type w = some ⟨.disp (usualSpace env n (unshifted o w)), w, .distinguished, .identity⟩ := by
      unfold convertType
      rw [if_neg hwu, hq.unit, if_pos hr, hsp, conversionSpace, hconv, Option.map_some, Option.bind_some, hdef]
    have hval : convert o true u w (factor u * d) = some (factor w * d) := by
      have h := apply_difference o u w hu hw d 0
      rw [coord_affine u d, coord_affine w d, add_sub_cancel_right, add_sub_cancel_right] at h
      unfold convert
      rw [if_pos hr, h]
    refine ⟨⟨⟨.disp (usualSpace env n (unshifted o w)), w, .distinguished, .identity⟩, factor w * d⟩, ?_, ?_⟩
    · unfold convertTo
      rw [if_neg hwu, hty, Option.bind_some, hsp, hq.unit, hq.value, isFree, hval]
      rfl
    · refine ⟨rfl, rfl, fun hz => ?_, fun hz => ?_, rfl, rfl⟩
      · simp [usualSpace, hk, (unshifted_false o hw hwi).mpr hz]
      · simp [usualSpace, (unshifted_iff o hw hwi).mpr hz]

end Verif.ConversionSpace
