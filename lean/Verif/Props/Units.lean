import Verif.Lemmas.Units

/-! # C63: the units of products and quotients -/
namespace Verif.Props
open Verif.Units Verif.Spec

section
variable {N : Type} [DecidableEq N]

/-- **C63** The comparison of a unit, or the dual of one, with another is well-formed, and it is a strict total order in which a unit precedes its dual. -/
theorem C63_comparator (lt : Ty N → Ty N → Bool) (hl : UnitNames lt) :
    (∀ a b : Atom N, (typeComparator lt a.toTy b.toTy).isSome) ∧
    (∀ a : Atom N, typeComparator lt a.toTy a.toTy = some false) ∧
    (∀ a b c : Atom N, typeComparator lt a.toTy b.toTy = some true → typeComparator lt b.toTy c.toTy = some true → typeComparator lt a.toTy c.toTy = some true) ∧
    (∀ a b : Atom N, a ≠ b → (typeComparator lt a.toTy b.toTy = some true ↔ typeComparator lt b.toTy a.toTy = some false)) ∧
    (∀ n, typeComparator lt (.base n) (.dual (.base n)) = some true) := by
  have hw := cmp_weak hl
  have hsome : ∀ a b : Atom N, typeComparator lt a.toTy b.toTy = some (cmp lt a b) := by
    intro a b
    rw [compare_atoms lt hl, cmp_eq hl]
    rfl
  refine ⟨fun a b => by rw [hsome]; rfl, fun a => ?_, fun a b c h h' => ?_, fun a b hab => ?_, fun n => ?_⟩
  · rw [hsome]
    cases h : cmp lt a a with
    | false => rfl
    | true => exact absurd (hw.asymm _ _ h) (by simp [h])
  · rw [hsome, Option.some.injEq] at h h' ⊢
    cases h1 : cmp lt a c with
    | true => rfl
    | false =>
      have := hw.negTrans _ _ _ h1 (hw.asymm _ _ h')
      exact absurd this (by simp [h])
  · rw [hsome, hsome, Option.some.injEq, Option.some.injEq]
    constructor
    · exact hw.asymm _ _
    · intro h
      cases h1 : cmp lt a b with
      | true => rfl
      | false => exact absurd (cmp_total hl a b h1 h) hab
  · rw [compare_base_dual, if_pos rfl]

/-- **C63** Two expressions of units, made from the same base units by multiplication and division in whatever order, have the same type precisely if the exponents of every base
unit agree. -/
theorem C63_determined (e : Env N) (hu : Usual e) (u v : Unit N) (f g : N → Int) (h : Built e u f) (h' : Built e v g) : u = v ↔ ∀ n, f n = g n := by
  obtain ⟨l, hl, rfl, h1⟩ := built_normal hu h
  obtain ⟨m, hm, rfl, h2⟩ := built_normal hu h'
  constructor
  · intro heq n
    have := unitOf_inj hl hm heq
    subst this
    rw [← h1, ← h2]
  · intro hfg
    rw [hl.unique hu.names hm fun n => by rw [h1, h2, hfg n]]

/-- **C63 (part)** The product of two units is well-formed unless the exponents of all base units cancel and there are at least two of these; likewise for quotients.

What is missing: in the remaining case the result ought to be `no_unit_t`, see `C63_cancellation_violated`. -/
theorem C63_wellformed_partial (e : Env N) (hu : Usual e) (u v : Unit N) (f g : N → Int) (h : Built e u f) (h' : Built e v g) :
    (mul e u v = none ↔ (∀ n, f n + g n = 0) ∧ ∃ n m, n ≠ m ∧ f n ≠ 0 ∧ f m ≠ 0) ∧
    (div e u v = none ↔ (∀ n, f n = g n) ∧ ∃ n m, n ≠ m ∧ f n ≠ 0 ∧ f m ≠ 0) := by
  obtain ⟨l, hl, rfl, h1⟩ := built_normal hu h
  obtain ⟨m, hm, rfl, h2⟩ := built_normal hu h'
  constructor
  · rw [mul_none_iff hu hl hm]
    simp only [h1, h2]
  · rw [div_eq_mul hu hm, mul_none_iff hu hl (hm.flip hu.names)]
    simp only [h1, expo_flip, h2]
    constructor
    · rintro ⟨ha, hb⟩; exact ⟨fun n => by have := ha n; omega, hb⟩
    · rintro ⟨ha, hb⟩; exact ⟨fun n => by rw [ha n]; omega, hb⟩

/-- **C63** Multiplication of units is commutative, including whether it is well-formed. -/
theorem C63_commutative (e : Env N) (hu : Usual e) (u v : Unit N) (f g : N → Int) (h : Built e u f) (h' : Built e v g) : mul e u v = mul e v u := by
  have h1 := (C63_wellformed_partial e hu u v f g h h').1
  have h2 := (C63_wellformed_partial e hu v u g f h' h).1
  cases huv : mul e u v with
  | none =>
    obtain ⟨ha, n, m, hnm, hn, hm⟩ := h1.mp huv
    have h3 : mul e v u = none := h2.mpr ⟨fun k => by rw [Int.add_comm]; exact ha k, n, m, hnm, by have := ha n; omega, by have := ha m; omega⟩
    exact h3.symm
  | some w =>
    cases hvu : mul e v u with
    | none =>
      obtain ⟨ha, n, m, hnm, hn, hm⟩ := h2.mp hvu
      have h3 : mul e u v = none := h1.mpr ⟨fun k => by rw [Int.add_comm]; exact ha k, n, m, hnm, by have := ha n; omega, by have := ha m; omega⟩
      exact absurd h3 (by simp [huv])
    | some w' =>
      exact congrArg some ((C63_determined e hu w w' _ _ (.mul h h' huv) (.mul h' h hvu)).mpr fun n => by omega)

/-- **C63** Multiplication of units is associative where it is well-formed, and division is its inverse. -/
theorem C63_laws (e : Env N) (hu : Usual e) (u v w : Unit N) (f g k : N → Int) (h : Built e u f) (h' : Built e v g) (h'' : Built e w k) :
    (∀ uv vw x y, mul e u v = some uv → mul e v w = some vw → mul e uv w = some x → mul e u vw = some y → x = y) ∧
    (∀ uv x, mul e u v = some uv → div e uv v = some x → x = u) ∧
    (∀ q x, div e u v = some q → mul e q v = some x → x = u) ∧
    (∀ q x y z, div e u v = some q → div e w v = some z → mul e q w = some x → mul e u z = some y → x = y) := by
  refine ⟨?_, ?_, ?_, ?_⟩
  · intro uv vw x y h1 h2 h3 h4
    exact (C63_determined e hu x y _ _ (.mul (.mul h h' h1) h'' h3) (.mul h (.mul h' h'' h2) h4)).mpr fun n => by omega
  · intro uv x h1 h2
    exact (C63_determined e hu x u _ _ (.div (.mul h h' h1) h' h2) h).mpr fun n => by omega
  · intro q x h1 h2
    exact (C63_determined e hu x u _ _ (.mul (.div h h' h1) h' h2) h).mpr fun n => by omega
  · intro q x y z h1 h2 h3 h4
    exact (C63_determined e hu x y _ _ (.mul (.div h h' h1) h'' h3) (.mul h (.div h'' h' h2) h4)).mpr fun n => by omega

/-- **C63** The unit of the product of two quantities is the product of their units; that of their quotient is the quotient. -/
theorem C63_quantities (e : Env N) (hu : Usual e) (u v : Unit N) (f g : N → Int) (h : Built e u f) (h' : Built e v g) :
    valueProduct e u v = mul e u v ∧ valueProduct e u (v.dualOf e) = div e u v := by
  obtain ⟨l, hl, rfl, _⟩ := built_normal hu h
  obtain ⟨m, hm, rfl, _⟩ := built_normal hu h'
  refine ⟨(mul_eq_valueProduct hu hl hm).symm, ?_⟩
  rw [div_eq_mul hu hm, unitOf_dualOf hm, mul_eq_valueProduct hu hl (hm.flip hu.names)]

/-- **C63** The validator of a base unit is the one which was declared, and the dual has the same one if it is the identity or that of the half line, and none of those otherwise; this is so whatever validators there are. -/
theorem C63_single (e : Env N) (n : N) :
    Unit.validator e (.single ⟨n, false⟩) = some (e.validator n) ∧
      (e.validator n = .identity ∨ e.validator n = .halfLine → Unit.validator e (.single ⟨n, true⟩) = some (e.validator n)) ∧
      (e.validator n ≠ .identity ∧ e.validator n ≠ .halfLine → ∃ k, Unit.validator e (.single ⟨n, true⟩) = some (.other k)) := by
  refine ⟨by simp [Unit.validator, atomValidator], ?_, ?_⟩
  · rintro (h | h) <;> simp [Unit.validator, atomValidator, h]
  · rintro ⟨h1, h2⟩
    cases h : e.validator n with
    | identity => exact absurd h h1
    | halfLine => exact absurd h h2
    | other k => exact ⟨0, by simp [Unit.validator, atomValidator, h]⟩

/-- **C63** The values of a unit are restricted to the half line precisely if those of every base unit are which has an exponent other than zero. -/
theorem C63_validator (e : Env N) (hu : Usual e) (u : Unit N) (f : N → Int) (h : Built e u f) (hne : u ≠ .single ⟨e.noUnit, false⟩) :
    ∃ v, u.validator e = some v ∧ (v = .identity ∨ v = .halfLine) ∧ (v = .halfLine ↔ ∀ n, f n ≠ 0 → e.validator n = .halfLine) := by
  obtain ⟨l, hl, rfl, h1⟩ := built_normal hu h
  have hl0 : l ≠ [] := by rintro rfl; exact hne rfl
  have hval : (unitOf e l).validator e = reducedValidator (l.map (atomValidator e)) := by
    cases l with
    | nil => exact absurd rfl hl0
    | cons a l => cases l <;> rfl
  obtain ⟨v, h2, h3, h4⟩ := reducedValidator_some (l.map (atomValidator e)) (by simpa using hl0) (by
    intro w hw
    obtain ⟨a, _, rfl⟩ := List.mem_map.mp hw
    rw [atomValidator_usual hu]
    exact hu.validators _)
  refine ⟨v, hval.trans h2, h3, h4.trans ⟨?_, ?_⟩⟩
  · intro h n hn
    rw [← h1] at hn
    obtain ⟨a, ha, rfl⟩ := (normal_names hl n).mp hn
    rw [← atomValidator_usual hu]
    exact h _ (List.mem_map.mpr ⟨a, ha, rfl⟩)
  · intro h w hw
    obtain ⟨a, ha, rfl⟩ := List.mem_map.mp hw
    rw [atomValidator_usual hu]
    exact h _ (by rw [← h1]; exact hl.expo_ne ha)

end

/-! ### An example: mass, length, time and `no_unit_t` -/

namespace UnitExample

/-- A number for every type. -/
def code : Ty Nat → Nat
  | .base n => 3 * n
  | .disp t => 3 * code t + 1
  | .dual t => 3 * code t + 2

theorem code_inj : ∀ t u : Ty Nat, code t = code u → t = u
  | .base n, .base m, h => by simp only [code] at h; rw [show n = m by omega]
  | .base n, .disp u, h => by simp only [code] at h; omega
  | .base n, .dual u, h => by simp only [code] at h; omega
  | .disp t, .base m, h => by simp only [code] at h; omega
  | .disp t, .disp u, h => by simp only [code] at h; rw [code_inj t u (by omega)]
  | .disp t, .dual u, h => by simp only [code] at h; omega
  | .dual t, .base m, h => by simp only [code] at h; omega
  | .dual t, .disp u, h => by simp only [code] at h; omega
  | .dual t, .dual u, h => by simp only [code] at h; rw [code_inj t u (by omega)]

/-- `no_unit_t` is 0; there is a half line for 1, and another unit 5 which derives from `no_unit_t` if `d`. -/
def env (d : Bool) : Env Nat where
  lt t u := decide (code t < code u)
  noUnit := 0
  derived n := n = 0 || (d && n = 5)
  validator n := if n = 1 then .halfLine else .identity

theorem names (d : Bool) : UnitNames (env d).lt := by
  refine ⟨fun t => by simp [env], fun t u v h h' => ?_, fun t u h => ?_⟩
  · simp only [env, decide_eq_true_eq] at *; omega
  · simp only [env, decide_eq_true_eq]
    have : code t ≠ code u := fun hc => h (code_inj t u hc)
    omega

theorem usual : Usual (env false) := by
  refine ⟨names false, fun n => by simp [env], fun n => ?_⟩
  simp only [env]
  split
  · exact .inr rfl
  · exact .inl rfl

def mass : Unit Nat := .single ⟨1, false⟩
def length : Unit Nat := .single ⟨2, false⟩
def time : Unit Nat := .single ⟨3, false⟩
def angle : Unit Nat := .single ⟨5, false⟩

/-- length × mass. -/
theorem built1 : Built (env false) (.composite [⟨1, false⟩, ⟨2, false⟩]) (fun n => (if n = 2 then 1 else 0) + (if n = 1 then 1 else 0)) :=
  .mul (u := length) (v := mass) (.base (by decide)) (.base (by decide)) (by decide +kernel)

/-- (length × mass) / time. -/
theorem built2 : Built (env false) (.composite [⟨1, false⟩, ⟨2, false⟩, ⟨3, true⟩])
    (fun n => (if n = 2 then 1 else 0) + (if n = 1 then 1 else 0) - (if n = 3 then 1 else 0)) :=
  .div (v := time) built1 (.base (by decide)) (by decide +kernel)

/-- ((length × mass) / time) / time. -/
theorem built3 : Built (env false) (.composite [⟨1, false⟩, ⟨2, false⟩, ⟨3, true⟩, ⟨3, true⟩])
    (fun n => (if n = 2 then 1 else 0) + (if n = 1 then 1 else 0) - (if n = 3 then 1 else 0) - (if n = 3 then 1 else 0)) :=
  .div (v := time) built2 (.base (by decide)) (by decide +kernel)

/-- length / time. -/
theorem built4 : Built (env false) (.composite [⟨2, false⟩, ⟨3, true⟩]) (fun n => (if n = 2 then 1 else 0) - (if n = 3 then 1 else 0)) :=
  .div (u := length) (v := time) (.base (by decide)) (.base (by decide)) (by decide +kernel)

/-- (length / time) / time. -/
theorem built5 : Built (env false) (.composite [⟨2, false⟩, ⟨3, true⟩, ⟨3, true⟩])
    (fun n => (if n = 2 then 1 else 0) - (if n = 3 then 1 else 0) - (if n = 3 then 1 else 0)) :=
  .div (v := time) built4 (.base (by decide)) (by decide +kernel)

/-- mass × acceleration: the same type as `built3`. -/
theorem built6 : Built (env false) (.composite [⟨1, false⟩, ⟨2, false⟩, ⟨3, true⟩, ⟨3, true⟩])
    (fun n => (if n = 1 then 1 else 0) + ((if n = 2 then 1 else 0) - (if n = 3 then 1 else 0) - (if n = 3 then 1 else 0))) :=
  .mul (u := mass) (.base (by decide)) built5 (by decide +kernel)

end UnitExample
open UnitExample

/-- The hypotheses of `C63_determined` are met by mass × acceleration and a quotient with the same exponents. -/
example : Usual (env false) ∧ Built (env false) (.composite [⟨1, false⟩, ⟨2, false⟩, ⟨3, true⟩, ⟨3, true⟩])
      (fun n => (if n = 1 then 1 else 0) + ((if n = 2 then 1 else 0) - (if n = 3 then 1 else 0) - (if n = 3 then 1 else 0))) ∧
    Built (env false) (.composite [⟨1, false⟩, ⟨2, false⟩, ⟨3, true⟩, ⟨3, true⟩])
      (fun n => (if n = 2 then 1 else 0) + (if n = 1 then 1 else 0) - (if n = 3 then 1 else 0) - (if n = 3 then 1 else 0)) := ⟨usual, built6, built3⟩

/-- Its unit has no half line, as length has none. -/
example : (Unit.composite [⟨1, false⟩, ⟨2, false⟩, ⟨3, true⟩] : Unit Nat).validator (env false) = some .identity := by decide +kernel

/-- The units in `C63_laws`: (length × mass) / time is well-formed, and so is multiplying by time again. -/
example : div (env false) (.composite [⟨1, false⟩, ⟨2, false⟩]) time = some (.composite [⟨1, false⟩, ⟨2, false⟩, ⟨3, true⟩]) ∧
    mul (env false) (.composite [⟨1, false⟩, ⟨2, false⟩, ⟨3, true⟩]) time = some (.composite [⟨1, false⟩, ⟨2, false⟩]) := by decide +kernel

/-- **C63 (violated)** A unit with two base units cannot be divided by itself: the instantiation is ill-formed, though a unit with one base unit can. -/
theorem C63_cancellation_violated :
    Usual (env false) ∧ (∃ f, Built (env false) (.composite [⟨2, false⟩, ⟨3, true⟩]) f) ∧
    div (env false) (.composite [⟨2, false⟩, ⟨3, true⟩]) (.composite [⟨2, false⟩, ⟨3, true⟩]) = none ∧
    div (env false) length length = some (.single ⟨0, false⟩) :=
  ⟨usual, ⟨_, built4⟩, by decide +kernel, by decide +kernel⟩

/-- **C63 (violated)** Where a unit derives from `no_unit_t`, as that of angles does, the order of the operations matters and multiplying by it is not undone by dividing by it:
length × angle is length, but length × angle / angle is not, whereas length / angle × angle is. -/
theorem C63_derived_violated :
    mul (env true) length angle = some length ∧
    div (env true) length angle = some (.composite [⟨2, false⟩, ⟨5, true⟩]) ∧
    mul (env true) (.composite [⟨2, false⟩, ⟨5, true⟩]) angle = some length := by
  decide +kernel

/-- **C63** Of the four types which are made from one unit the order is: the unit, its displacements, its dual, the dual of its displacements. -/
theorem C63_same_unit {N : Type} [DecidableEq N] (lt : Ty N → Ty N → Bool) (n : N) :
    [Ty.base n, .disp (.base n), .dual (.base n), .dual (.disp (.base n))].Pairwise fun t u => typeComparator lt t u = some true ∧ typeComparator lt u t = some false := by
  simp [typeComparator, resolve, matching, specs, List.filterMap_cons, Spec.matched, deduce, Cond.holds, subst, select, Spec.more, Spec.atLeast, Pat.unique]

/-- **C63 (violated)** With displacements the comparison is not always well-formed: it is ambiguous for the dual of a displacement and another displacement, for a dual and the dual
of another displacement, and the other way around. -/
theorem C63_displacement_violated {N : Type} [DecidableEq N] (lt : Ty N → Ty N → Bool) (n m : N) (h : n ≠ m) :
    typeComparator lt (.dual (.disp (.base n))) (.disp (.base m)) = none ∧
    typeComparator lt (.dual (.base n)) (.dual (.disp (.base m))) = none ∧
    typeComparator lt (.dual (.disp (.base n))) (.dual (.base m)) = none := by
  have h' : ¬ m = n := fun h' => h h'.symm
  refine ⟨?_, ?_, ?_⟩
  · have : matching (.dual (.disp (.base n))) (.disp (.base m)) =
        [(⟨.dual .T, .U, [.differ .T .U], none⟩, (some (.disp (.base n)), some (.disp (.base m)))),
         (⟨.dual .T, .disp .U, [.differ .T (.disp .U)], none⟩, (some (.disp (.base n)), some (.base m))),
         (⟨.dual (.disp .T), .U, [.differ (.disp .T) .U], none⟩, (some (.base n), some (.disp (.base m))))] := by
      simp [matching, specs, List.filterMap_cons, Spec.matched, deduce, Cond.holds, subst, h, h']
    rw [typeComparator, this]; rfl
  · have : matching (.dual (.base n)) (.dual (.disp (.base m))) =
        [(⟨.dual .T, .U, [.differ .T .U], none⟩, (some (.base n), some (.dual (.disp (.base m))))),
         (⟨.dual .T, .dual .U, [], none⟩, (some (.base n), some (.disp (.base m)))),
         (⟨.T, .dual (.disp .U), [.differ .T (.disp .U), .notDisp .T], none⟩, (some (.dual (.base n)), some (.base m)))] := by
      simp [matching, specs, List.filterMap_cons, Spec.matched, deduce, Cond.holds, subst, h']
    rw [typeComparator, this]; rfl
  · have : matching (.dual (.disp (.base n))) (.dual (.base m)) =
        [(⟨.dual .T, .U, [.differ .T .U], none⟩, (some (.disp (.base n)), some (.dual (.base m)))),
         (⟨.T, .dual .U, [.differ .T .U, .notDisp .T, .notDisp .U], none⟩, (some (.dual (.disp (.base n))), some (.base m))),
         (⟨.dual .T, .dual .U, [], none⟩, (some (.disp (.base n)), some (.base m))),
         (⟨.dual (.disp .T), .U, [.differ (.disp .T) .U], none⟩, (some (.base n), some (.dual (.base m))))] := by
      simp [matching, specs, List.filterMap_cons, Spec.matched, deduce, Cond.holds, subst, h']
    rw [typeComparator, this]; rfl

end Verif.Props
