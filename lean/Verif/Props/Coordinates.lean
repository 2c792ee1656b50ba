import Mathlib.Algebra.Order.Field.Rat
import Mathlib.Tactic.NormNum
import Mathlib.Tactic.Abel
import Verif.Lemmas.Coordinates

/-! # C65: coordinates of points of spaces -/
namespace Verif.Props
open Verif.Coordinates Verif.Spec

section
variable {D : Nat} {K : Type} [Field K] [DecidableEq K]

/-- **C65** An operation on coordinates computes the mathematical result, component by component, if that is a point of the space; otherwise it throws and the coordinates are
unchanged. -/
theorem C65_result (sp : Space D K) (P : (Fin D → K) → Prop) (hg : Guards sp P) (x : Fin D → K) (op : Op D K) (hp : permitted sp op = true) (hd : Divides op) :
    (P (result x op) → step sp x op = .ret (result x op) ()) ∧ (¬ P (result x op) → step sp x op = .threw x) := by
  rw [step_eq sp (fun h x => hg.accepts x (hg.identity h x)) x op hp hd]
  constructor
  · intro h; rw [hg.accepts _ h]; rfl
  · intro h; rw [hg.rejects _ h]; rfl

/-- **C65 (part)** Whatever the history of an object, its coordinates are those of a point of the space, even if the validator moves points, provided they were to begin with.

What is missing: a default constructed object, see `C65_default_violated`. -/
theorem C65_valid_partial (sp : Space D K) (P : (Fin D → K) → Prop) (hm : Moves sp P) (x : Fin D → K) (hx : P x) (ops : List (Op D K)) (hp : ∀ op ∈ ops, permitted sp op = true)
    (y : Fin D → K) (outs : List (Option _root_.Unit)) (h : run (step sp) x ops = some (y, outs)) : P y := by
  induction ops generalizing x outs with
  | nil =>
    simp only [run, Option.some.injEq, Prod.mk.injEq] at h
    rw [← h.1]; exact hx
  | cons op ops ih =>
    have key : ∀ y, (step sp x op = .ret y () ∨ step sp x op = .threw y) → P y := by
      cases hi : sp.hasIdentityValidator with
      | true => exact fun y _ => hm.identity hi y
      | false =>
        have h1 : ∀ r, (∀ z, r = .ok z → P z) → ∀ y, (assignment x r = .ret y () ∨ assignment x r = .threw y) → P y := by
          intro r hr y hy
          cases r with
          | ok z =>
            rcases hy with hy | hy
            · injection hy with hy; subst hy; exact hr z rfl
            · cases hy
          | throws =>
            rcases hy with hy | hy
            · cases hy
            · injection hy with hy; subst hy; exact hx
          | ub => rcases hy with hy | hy <;> cases hy
        have h2 : ∀ v f z, applyToEach sp x v f = .ok z → P z := by
          intro v f z hz
          rw [applyToEach, hi, if_neg (by simp)] at hz
          exact hm.into _ _ hz
        have h3 : ∀ f z, forEach sp x f = .ok z → P z := by
          intro f z hz
          rw [forEach, hi, if_neg (by simp)] at hz
          exact hm.into _ _ hz
        cases op with
        | add v => exact h1 _ fun z hz => h2 _ _ z hz
        | addPoint v => exact h1 _ fun z hz => h2 _ _ z hz
        | sub v => exact h1 _ fun z hz => h2 _ _ z hz
        | mul u => exact h1 _ fun z hz => h3 _ z hz
        | mulEach u => exact h1 _ fun z hz => h2 _ _ z hz
        | div u =>
          refine h1 _ fun z hz => ?_
          unfold over at hz
          split at hz
          · cases hz
          · exact h3 _ z hz
        | divEach u =>
          refine h1 _ fun z hz => ?_
          unfold overEach at hz
          split at hz
          · cases hz
          · exact h2 _ _ z hz
        | negate => exact h1 _ fun z hz => hm.into _ _ hz
        | assign v => exact h1 _ fun z hz => hm.into _ _ hz
        | set i a =>
          have := hp _ List.mem_cons_self
          simp [permitted, Space.freelyMutable, hi] at this
    unfold run at h
    split at h
    · rename_i s' b hs
      obtain ⟨⟨y', o'⟩, h1, h2⟩ := Option.map_eq_some_iff.mp h
      simp only [Prod.mk.injEq] at h2
      exact ih s' (key s' (.inl hs)) (fun o ho => hp o (by simp [ho])) o' (by rw [h1, ← h2.1])
    · rename_i s' hs
      obtain ⟨⟨y', o'⟩, h1, h2⟩ := Option.map_eq_some_iff.mp h
      simp only [Prod.mk.injEq] at h2
      exact ih s' (key s' (.inr hs)) (fun o ho => hp o (by simp [ho])) o' (by rw [h1, ← h2.1])
    · cases h

omit [DecidableEq K] in
/-- **C65** Points and displacements: adding the difference of two points to the second gives the first; subtracting a displacement undoes adding it; adding two displacements one
after the other gives the same as adding their sum, whenever the point in between belongs to the space. -/
theorem C65_affine (sp : Space D K) (P : (Fin D → K) → Prop) (hg : Guards sp P) (x y : Fin D → K) (hx : P x) (v w : Fin D → K) :
    plus sp y (difference x y) = .ok x ∧
    (P (x + v) → (plus sp x v).bind (fun z => minus sp z v) = .ok x) ∧
    (P (x + v) → (plus sp x v).bind (fun z => plus sp z w) = plus sp x (v + w)) ∧
    difference x y + difference y x = 0 := by
  have h1 : ∀ (c d : Fin D → K), plus sp c d = sp.validate (c + d) := by
    intro c d
    unfold plus applyToEach
    split
    · rename_i h; rw [hg.accepts _ (hg.identity h _)]; rfl
    · rfl
  have h2 : ∀ (c d : Fin D → K), minus sp c d = sp.validate (c - d) := by
    intro c d
    unfold minus applyToEach
    split
    · rename_i h; rw [hg.accepts _ (hg.identity h _)]; rfl
    · rfl
  have h3 : difference x y = x - y := rfl
  have h4 : difference y x = y - x := rfl
  refine ⟨?_, fun h => ?_, fun h => ?_, ?_⟩
  · rw [h1, h3, show y + (x - y) = x by abel, hg.accepts _ hx]
  · rw [h1, hg.accepts _ h]
    show minus sp (x + v) v = _
    rw [h2, show x + v - v = x by abel, hg.accepts _ hx]
  · rw [h1, hg.accepts _ h]
    show plus sp (x + v) w = _
    rw [h1, h1, add_assoc]
  · rw [h3, h4]; abel

/-- **C65** Multiplication and division by a number: multiplying by a product is multiplying by one factor after the other, and dividing undoes multiplying, whenever the point in
between belongs to the space. -/
theorem C65_scaling (sp : Space D K) (P : (Fin D → K) → Prop) (hg : Guards sp P) (x : Fin D → K) (hx : P x) (a b : K) (h : P fun i => a * x i) :
    times sp x 1 = .ok x ∧
    (times sp x a).bind (fun z => times sp z b) = times sp x (a * b) ∧
    (a ≠ 0 → (times sp x a).bind (fun z => over sp z a) = .ok x) := by
  have h1 : ∀ (c : Fin D → K) (f : K → K), forEach sp c f = sp.validate fun i => f (c i) := by
    intro c f
    unfold forEach
    split
    · rename_i h; rw [hg.accepts _ (hg.identity h _)]
    · rfl
  have h2 : times sp x a = .ok fun i => a * x i := by
    rw [times, h1]
    simp only [mul_comm _ a]
    rw [hg.accepts _ h]
  refine ⟨?_, ?_, fun ha => ?_⟩
  · rw [times, h1]
    simp only [mul_one]
    exact hg.accepts _ hx
  · rw [h2]
    show times sp _ b = _
    rw [times, times, h1, h1]
    congr 1
    funext i
    ring
  · rw [h2]
    show over sp _ a = _
    rw [over, if_neg ha, h1]
    have : (fun i => a * x i / a) = x := by funext i; field_simp
    rw [this, hg.accepts _ hx]

end

namespace CoordinatesExample

/-- A space of dimension 1 whose validator is an interval. -/
def interval (l u : ℚ) : Space 1 ℚ where
  validate x := if l ≤ x 0 ∧ x 0 ≤ u then .ok x else .throws
  hasIdentityValidator := false
  hasDistinguishedOrigin := true
  isVectorSpace := true

theorem guards (l u : ℚ) : Guards (interval l u) fun x => l ≤ x 0 ∧ x 0 ≤ u where
  accepts x h := if_pos h
  rejects x h := if_neg h
  identity h := by cases h

/-- A plane. -/
def plane : Space 2 ℚ := ⟨.ok, true, true, true⟩

theorem plane_guards : Guards plane fun _ => True := ⟨fun _ _ => rfl, fun _ h => absurd trivial h, fun _ _ => trivial⟩

/-- A validator which clamps values to the half line. -/
def clamp : Space 1 ℚ := ⟨fun x => .ok fun i => max 0 (x i), false, true, true⟩

theorem clamp_moves : Moves clamp fun x => 0 ≤ x 0 := by
  refine ⟨fun x y h => ?_, fun h => by cases h⟩
  simp only [clamp, Res.ok.injEq] at h
  subst h
  exact le_max_left _ _

theorem guards_moves {D : Nat} {K : Type} {sp : Space D K} {P : (Fin D → K) → Prop} (h : Guards sp P) : Moves sp P := by
  refine ⟨fun x y hxy => ?_, h.identity⟩
  by_cases hx : P x
  · rw [h.accepts x hx] at hxy
    injection hxy with hxy
    rwa [← hxy]
  · rw [h.rejects x hx] at hxy
    cases hxy

end CoordinatesExample
open CoordinatesExample

/-- The hypotheses of `C65_result` are met by latitudes, and both cases occur. -/
example : permitted (interval (-90) 90) (.add fun _ => 20) = true ∧
    step (interval (-90) 90) (fun _ => 60) (.add fun _ => 20) = .ret (fun _ => 80) () ∧ step (interval (-90) 90) (fun _ => 80) (.add fun _ => 20) = .threw (fun _ => 80) := by
  have h1 := C65_result _ _ (guards (-90) 90) (fun _ => 60) (.add fun _ => 20) rfl trivial
  have h2 := C65_result _ _ (guards (-90) 90) (fun _ => 80) (.add fun _ => 20) rfl trivial
  have e1 : result (fun _ : Fin 1 => (60 : ℚ)) (.add fun _ => 20) = fun _ => 80 := by funext i; simp [result]; norm_num
  have e2 : result (fun _ : Fin 1 => (80 : ℚ)) (.add fun _ => 20) = fun _ => 100 := by funext i; simp [result]; norm_num
  rw [e1] at h1
  rw [e2] at h2
  exact ⟨rfl, h1.1 (by norm_num), h2.2 (by norm_num)⟩

/-- The hypotheses of `C65_valid_partial` are met by clamped values and a history in which one is clamped. -/
example : (0 : ℚ) ≤ (fun _ : Fin 1 => (3 : ℚ)) 0 ∧ (∀ op ∈ [Op.sub fun _ : Fin 1 => (5 : ℚ), Op.mul 2], permitted clamp op = true) ∧
    ∃ r, run (step clamp) (fun _ => 3) [.sub fun _ => 5, .mul 2] = some r := by
  refine ⟨by norm_num, ?_, ⟨_, rfl⟩⟩
  intro op h
  simp only [List.mem_cons, List.not_mem_nil, or_false] at h
  rcases h with rfl | rfl <;> rfl

/-- In a plane there are no exceptions. -/
example : step plane (fun i => i.val) (.mulEach fun _ => 3) = .ret (fun i => 3 * i.val) () := by
  have := (C65_result plane _ plane_guards (fun i => i.val) (.mulEach fun _ => 3) rfl trivial).1 trivial
  exact this

/-- **C65 (violated)** A default constructed object need not be a point of the space: 0 is not between 1 and 2. -/
theorem C65_default_violated : Guards (interval 1 2) (fun x => 1 ≤ x 0 ∧ x 0 ≤ 2) ∧ ¬ (1 ≤ (initial : Fin 1 → ℚ) 0 ∧ (initial : Fin 1 → ℚ) 0 ≤ 2) ∧
    construct (interval 1 2) initial = .throws := by
  have h : ¬ (1 ≤ (initial : Fin 1 → ℚ) 0 ∧ (initial : Fin 1 → ℚ) 0 ≤ 2) := by simp only [initial]; norm_num
  exact ⟨guards 1 2, h, (guards 1 2).rejects _ h⟩

/-- **C65 (violated)** Adding a point to a displacement, rather than a displacement to a point, never returns, whatever the depth of the recursion. -/
theorem C65_displacement_first_violated {D : Nat} {K : Type} (sp : Space D K) (v c : Fin D → K) (fuel : Nat) : plusLeft sp v c fuel = none := by
  induction fuel with
  | zero => rfl
  | succ n ih => exact ih

end Verif.Props
