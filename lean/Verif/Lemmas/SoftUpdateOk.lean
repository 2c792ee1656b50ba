import Verif.Lemmas.SoftUpdate
/- When the update of directories completes. -/
set_option linter.unusedSectionVars false

namespace Verif.SoftUpdate
open Verif.Spec.SoftUpdate

section
variable {N C S : Type} [LinearOrder N] [DecidableEq C] {nm : Naming N} {reduce : C → C → C} {sub : S → S → Res (S × S)} {Sub : S → S → S → S → Prop}

/-- The last entry of the source is paired, or nothing of the destination comes after it. -/
def Covered (frm to : Entries N C S) : Prop :=
  frm = [] ∨ ∃ x ∈ frm, (∀ z ∈ frm, z.1 ≤ x.1) ∧ ((∀ y ∈ to, y.1 ≤ x.1) ∨ ∃ y ∈ to, x.1 = y.1 ∧ kind x.2 = kind y.2)

/-- What is needed for an update of sorted entries to complete. -/
structure Able (nm : Naming N) (sub : S → S → Res (S × S)) (F T : Entries N C S) : Prop where
  noClash : ∀ x ∈ F, ∀ y ∈ T, x.1 = y.1 → kind x.2 = 1 → kind y.2 = 1
  pattern : ∀ n, nm.isPattern (nm.patternOf n) = true
  noPatternF : ∀ x ∈ F, kind x.2 = 2 → nm.isPattern x.1 = false
  noPatternT : ∀ x ∈ T, kind x.2 = 2 → nm.isPattern x.1 = false
  subs : ∀ n d d', (n, .inr d) ∈ F → (n, .inr d') ∈ T → ∃ r, sub d d' = .ok r

theorem kind_cases (v : C ⊕ S) : kind v = 1 ∨ kind v = 2 := by cases v <;> simp [kind]

/-- The directories of the destination which have been dealt with are directories of the source. -/
theorem Inv.dirs {F T frm to pf pt : Entries N C S} {s : Done N C S} (hF : Strict F) (h : Inv nm reduce Sub F T s frm to pf pt) {n : N} {d : S} (hl : lookup n s.to = some (.inr d)) :
    ∃ e, (n, .inr e) ∈ F := by
  have hF' := hF
  rw [h.eqF] at hF'
  obtain ⟨_, _, f3⟩ := strict_append hF'
  have hn : n ∈ keys pf := by
    rw [← h.keysTo]
    exact mem_keys.mpr ⟨_, lookup_mem hl, rfl⟩
  obtain ⟨a, ha, rfl⟩ := mem_keys.mp hn
  have hs := h.settled a.1 (by
    rw [mem_keys]; rintro ⟨b, hb, he⟩
    exact absurd he.symm (ne_of_lt (f3 a ha b hb))) (by
    rw [mem_keys]; rintro ⟨b, hb, he⟩
    exact absurd he.symm (ne_of_lt (h.before a ha b hb)))
  unfold UpdatedAt at hs
  simp only [hl] at hs
  split at hs
  · cases hs.2
  · cases hs.2
  · rename_i c c' h1 h2
    exfalso
    by_cases hsm : Same nm reduce (fun n => lookup n T) (fun n => lookup n s.to) a.1 c c'
    · have := hs.2.1 hsm; cases this
    · have := hs.2.2 hsm; cases this
  · exact hs.elim
  · rename_i h1 _; exact ⟨_, lookup_mem h1⟩
  · rename_i h1 _; exact ⟨_, lookup_mem h1⟩

theorem pair_ok {F T frm to pf pt : Entries N C S} {s : Done N C S} {x y : N × (C ⊕ S)} (hF : Strict F) (ha : Able nm sub F T)
    (h : Inv nm reduce Sub F T s (x :: frm) (y :: to) pf pt) (he : equiv x y = true) : ∃ s', pair nm reduce sub x.1 x.2 y.2 (y :: to) s = .ok s' := by
  unfold equiv at he
  simp only [Bool.and_eq_true, decide_eq_true_eq] at he
  unfold pair
  split
  · rename_i c c' hx hy
    have hr : ∃ r, reduced nm reduce x.1 c c' (s.to ++ y :: to) = .ok r := by
      unfold reduced
      split
      · exact ⟨_, rfl⟩
      · cases hl : lookup (nm.patternOf x.1) (s.to ++ y :: to) with
        | none => exact ⟨_, rfl⟩
        | some v =>
          cases v with
          | inl p => exact ⟨_, rfl⟩
          | inr d =>
            exfalso
            have hp := ha.pattern x.1
            rw [lookup_append] at hl
            cases hl1 : lookup (nm.patternOf x.1) s.to with
            | some v =>
              rw [hl1] at hl
              cases hl
              obtain ⟨e, he⟩ := h.dirs hF hl1
              have := ha.noPatternF _ he rfl
              rw [hp] at this; cases this
            | none =>
              rw [hl1] at hl
              have := ha.noPatternT _ (by rw [h.eqT]; exact List.mem_append_right _ (lookup_mem hl)) rfl
              rw [hp] at this; cases this
    obtain ⟨r, hr⟩ := hr
    rw [hr]
    exact ⟨_, rfl⟩
  · rename_i d d' hx hy
    obtain ⟨r, hr⟩ := ha.subs x.1 d d' (by rw [h.eqF, ← hx]; simp) (by rw [h.eqT, ← hy, he.1]; simp)
    rw [hr]
    exact ⟨_, rfl⟩
  · rename_i h1 h2
    exfalso
    have hk := he.2
    cases hx : x.2 <;> cases hy : y.2 <;> rw [hx, hy] at hk <;> simp [kind] at hk
    · exact h1 _ _ hx hy
    · exact h2 _ _ hx hy

/-- The entries at which the first stage stops. -/
def Differ : Entries N C S → Entries N C S → Prop
  | x :: _, y :: _ => equiv x y = false
  | _, _ => True

theorem common_ok {F T : Entries N C S} (hF : Strict F) (hT : Strict T) (ha : Able nm sub F T) (hsub : ∀ d d' e e', sub d d' = .ok (e, e') → Sub d d' e e') :
    ∀ (frm to : Entries N C S) {s : Done N C S} {pf pt : Entries N C S}, Inv nm reduce Sub F T s frm to pf pt → Covered frm to →
      ∃ s' frm' to' pf pt, common nm reduce sub frm to s = .ok (s', frm', to') ∧ Inv nm reduce Sub F T s' frm' to' pf pt ∧ Covered frm' to' ∧ Differ frm' to' ∧
        frm'.length + to'.length ≤ frm.length + to.length
  | [], to, s, pf, pt, h, hc => ⟨s, [], to, pf, pt, by cases to <;> rfl, h, hc, by cases to <;> trivial, Nat.le_refl _⟩
  | x :: frm, [], s, pf, pt, h, hc => ⟨s, x :: frm, [], pf, pt, rfl, h, hc, trivial, Nat.le_refl _⟩
  | x :: frm, y :: to, s, pf, pt, h, hc => by
    unfold common
    cases he : equiv x y with
    | false => exact ⟨s, x :: frm, y :: to, pf, pt, rfl, h, hc, he, Nat.le_refl _⟩
    | true =>
      obtain ⟨s₁, hp⟩ := pair_ok hF ha h he
      have h₁ := Inv.pair hF hT hsub h he hp
      have he' := he
      unfold equiv at he'
      simp only [Bool.and_eq_true, decide_eq_true_eq] at he'
      have hF' := hF
      rw [h.eqF] at hF'
      have f4 : ∀ b ∈ frm, x.1 < b.1 := (List.pairwise_cons.mp (strict_append hF').2.1).1
      have hc₁ : Covered frm to := by
        rcases hc with hc | ⟨z, hz, hmax, hz2⟩
        · cases hc
        · rcases List.mem_cons.mp hz with rfl | hz'
          · left
            cases frm with
            | nil => rfl
            | cons b frm => exact absurd (lt_of_lt_of_le (f4 b (by simp)) (hmax b (by simp))) (lt_irrefl _)
          · right
            refine ⟨z, hz', fun w hw => hmax w (by simp [hw]), ?_⟩
            rcases hz2 with hz2 | ⟨w, hw, hw2⟩
            · exact .inl fun w hw => hz2 w (by simp [hw])
            · refine .inr ⟨w, ?_, hw2⟩
              rcases List.mem_cons.mp hw with rfl | hw
              · exfalso
                have := f4 z hz'
                rw [he'.1, ← hw2.1] at this
                exact lt_irrefl _ this
              · exact hw
      obtain ⟨s', frm', to', pf', pt', i1, i2, i3, i4, i5⟩ := common_ok hF hT ha hsub frm to h₁ hc₁
      refine ⟨s', frm', to', pf', pt', ?_, i2, i3, i4, by simp only [List.length_cons]; omega⟩
      rw [if_pos rfl, hp]
      exact i1

theorem Inv.free {F T frm to pf pt : Entries N C S} {s : Done N C S} {x : N × (C ⊕ S)} (hF : Strict F) (hT : Strict T) (ha : Able nm sub F T)
    (h : Inv nm reduce Sub F T s (x :: frm) to pf pt) (hle : goesFirst x to = true) : lookup x.1 (s.to ++ to) = none ∧ ∀ y ∈ to, x.1 < y.1 := by
  have hF' := hF; have hT' := hT
  rw [h.eqF] at hF'
  rw [h.eqT] at hT'
  obtain ⟨_, f2, f3⟩ := strict_append hF'
  obtain ⟨_, t2, t3⟩ := strict_append hT'
  have hlt : ∀ y ∈ to, x.1 < y.1 := by
    cases to with
    | nil => simp
    | cons y to =>
      have hle : less x y = true := hle
      unfold less at hle
      have hxy : x.1 < y.1 := by
        split at hle
        · rename_i he
          exfalso
          simp only [decide_eq_true_eq] at hle
          have := ha.noClash x (by rw [h.eqF]; simp) y (by rw [h.eqT]; simp) he
          rcases kind_cases x.2 with hk | hk <;> rcases kind_cases y.2 with hk' | hk' <;> rw [hk, hk'] at hle <;> simp at hle
          have := this hk
          omega
        · simpa using hle
      intro b hb
      rcases List.mem_cons.mp hb with rfl | hb
      · exact hxy
      · exact lt_trans hxy ((List.pairwise_cons.mp t2).1 b hb)
  refine ⟨?_, hlt⟩
  rw [lookup_none]
  simp only [keys, List.map_append, List.mem_append]
  rintro (hm | hm)
  · have : x.1 ∈ keys s.to := hm
    rw [h.keysTo] at this
    obtain ⟨b, hb, he⟩ := mem_keys.mp this
    exact absurd he (ne_of_lt (f3 b hb x (by simp)))
  · obtain ⟨b, hb, he⟩ := mem_keys.mp hm
    exact absurd he.symm (ne_of_lt (hlt b hb))

theorem copyLoop_nil_ok {F T : Entries N C S} (hF : Strict F) (hT : Strict T) (ha : Able nm sub F T) :
    ∀ (frm : Entries N C S) {s : Done N C S} {pf pt : Entries N C S}, Inv nm reduce Sub F T s frm [] pf pt → ∃ s', copyLoop [] frm s = .ok (s', [])
  | [], s, _, _, _ => ⟨s, rfl⟩
  | x :: frm, s, pf, pt, h => by
    have hg : goesFirst x ([] : Entries N C S) = true := rfl
    obtain ⟨h1, _⟩ := h.free hF hT ha hg
    unfold copyLoop
    rw [if_pos hg, h1]
    exact copyLoop_nil_ok hF hT ha frm (h.copy hF hT hg h1)

theorem copyLoop_ok {F T : Entries N C S} (hF : Strict F) (hT : Strict T) (ha : Able nm sub F T) (y : N × (C ⊕ S)) (to : Entries N C S) :
    ∀ (frm : Entries N C S) {s : Done N C S} {pf pt : Entries N C S}, frm ≠ [] → Inv nm reduce Sub F T s frm (y :: to) pf pt → Covered frm (y :: to) →
      ∃ s' x' frm' pf pt, copyLoop (y :: to) frm s = .ok (s', x' :: frm') ∧ Inv nm reduce Sub F T s' (x' :: frm') (y :: to) pf pt ∧ Covered (x' :: frm') (y :: to) ∧
        less x' y = false ∧ ((x' :: frm') = frm ∨ (x' :: frm').length < frm.length)
  | [], _, _, _, hne, _, _ => absurd rfl hne
  | x :: frm, s, pf, pt, _, h, hc => by
    unfold copyLoop
    by_cases hg : goesFirst x (y :: to) = true
    · rw [if_pos hg]
      obtain ⟨h1, h2⟩ := h.free hF hT ha hg
      rw [h1]
      have hF' := hF
      rw [h.eqF] at hF'
      have f4 : ∀ b ∈ frm, x.1 < b.1 := (List.pairwise_cons.mp (strict_append hF').2.1).1
      have hz : ∃ z ∈ frm, (∀ w ∈ frm, w.1 ≤ z.1) ∧ ((∀ w ∈ y :: to, w.1 ≤ z.1) ∨ ∃ w ∈ y :: to, z.1 = w.1 ∧ kind z.2 = kind w.2) := by
        rcases hc with hc | ⟨z, hz, hmax, hz2⟩
        · cases hc
        · rcases List.mem_cons.mp hz with rfl | hz'
          · exfalso
            rcases hz2 with hz2 | ⟨w, hw, hw2, _⟩
            · exact absurd (lt_of_lt_of_le (h2 y (by simp)) (hz2 y (by simp))) (lt_irrefl _)
            · exact absurd hw2 (ne_of_lt (h2 w hw))
          · exact ⟨z, hz', fun w hw => hmax w (by simp [hw]), hz2⟩
      have hne : frm ≠ [] := by
        obtain ⟨z, hz, _⟩ := hz
        intro h; rw [h] at hz; simp at hz
      obtain ⟨s', x', frm', pf', pt', i1, i2, i3, i4, i5⟩ := copyLoop_ok hF hT ha y to frm hne (h.copy hF hT hg h1) (.inr hz)
      refine ⟨s', x', frm', pf', pt', i1, i2, i3, i4, .inr ?_⟩
      rcases i5 with i5 | i5
      · rw [i5]; simp
      · simp only [List.length_cons] at i5 ⊢; omega
    · rw [if_neg hg]
      exact ⟨s, x, frm, pf, pt, rfl, h, hc, by simpa [goesFirst] using hg, .inl rfl⟩

theorem mem_dropWhile {α : Type} {p : α → Bool} {y : α} : ∀ {l : List α}, y ∈ l → p y = false → y ∈ l.dropWhile p
  | a :: l, h, hp => by
    rw [List.dropWhile_cons]
    split
    · rename_i ha
      rcases List.mem_cons.mp h with rfl | h
      · rw [hp] at ha; cases ha
      · exact mem_dropWhile h hp
    · exact h

theorem covered_remove {frm to : Entries N C S} {x : N × (C ⊕ S)} (hs : Strict (x :: frm)) (hc : Covered (x :: frm) to) : Covered (x :: frm) (removeLoop x to) := by
  have f4 : ∀ b ∈ frm, x.1 < b.1 := (List.pairwise_cons.mp hs).1
  rcases hc with hc | ⟨z, hz, hmax, hz2⟩
  · cases hc
  · right
    refine ⟨z, hz, hmax, ?_⟩
    rcases hz2 with hz2 | ⟨w, hw, hw2, hw3⟩
    · exact .inl fun w hw => hz2 w ((List.dropWhile_sublist _).subset hw)
    · refine .inr ⟨w, mem_dropWhile hw ?_, hw2, hw3⟩
      unfold less
      rcases List.mem_cons.mp hz with rfl | hz
      · rw [if_pos hw2.symm, hw3]
        simp
      · have := f4 z hz
        rw [hw2] at this
        rw [if_neg (ne_of_gt this)]
        simpa using le_of_lt this

theorem update_ok {F T : Entries N C S} (hF : Strict F) (hT : Strict T) (ha : Able nm sub F T) (hsub : ∀ d d' e e', sub d d' = .ok (e, e') → Sub d d' e e') (fuel : Nat) :
    ∀ {frm to pf pt : Entries N C S} {s : Done N C S}, Inv nm reduce Sub F T s frm to pf pt → Covered frm to → frm.length + to.length < fuel →
      ∃ s', update nm reduce sub fuel frm to s = .ok s' := by
  induction fuel with
  | zero => intro _ _ _ _ _ _ _ h; omega
  | succ fuel ih =>
    intro frm to pf pt s h hc hf
    obtain ⟨s₁, frm₁, to₁, pf₁, pt₁, a1, a2, a3, a4, a5⟩ := common_ok hF hT ha hsub frm to h hc
    unfold update
    rw [a1]
    simp only [Res.bind]
    cases frm₁ with
    | nil => exact ⟨_, rfl⟩
    | cons x frm₁ =>
      cases to₁ with
      | nil =>
        obtain ⟨s₂, h2⟩ := copyLoop_nil_ok hF hT ha _ a2
        simp only [h2]
        exact ⟨_, rfl⟩
      | cons y to₁ =>
        obtain ⟨s₂, x₂, frm₂, pf₂, pt₂, b1, b2, b3, b4, b5⟩ := copyLoop_ok hF hT ha y to₁ _ (by simp) a2 a3
        simp only [b1]
        obtain ⟨pf₃, pt₃, h₃⟩ := removeLoop_inv hF (y :: to₁) b2
        have hF' := hF
        rw [b2.eqF] at hF'
        have hlen : (removeLoop x₂ (y :: to₁)).length ≤ (y :: to₁).length := (List.dropWhile_sublist _).length_le
        refine ih h₃ (covered_remove (strict_append hF').2.1 b3) ?_
        rcases b5 with b5 | b5
        · -- nothing is copied, hence something is removed
          cases b5
          have hless : less y x = true := by
            have a4 : equiv x y = false := a4
            unfold equiv at a4
            unfold less at b4 ⊢
            by_cases he : x.1 = y.1
            · rw [if_pos he] at b4
              rw [if_pos he.symm]
              simp only [decide_eq_false_iff_not, decide_eq_true_eq] at b4 ⊢
              simp only [he, decide_true, Bool.true_and, decide_eq_false_iff_not] at a4
              omega
            · rw [if_neg he] at b4
              rw [if_neg (fun h => he h.symm)]
              simp only [decide_eq_false_iff_not, decide_eq_true_eq] at b4 ⊢
              exact lt_of_le_of_ne (not_lt.mp b4) (fun h => he h.symm)
          have : (removeLoop x (y :: to₁)).length ≤ to₁.length := by
            unfold removeLoop
            rw [List.dropWhile_cons, if_pos hless]
            exact (List.dropWhile_sublist _).length_le
          simp only [List.length_cons] at *
          omega
        · simp only [List.length_cons] at *
          omega

/-- An update never completes if the last entry of the source is not paired and there is something after it. -/
theorem update_overrun {F T : Entries N C S} (hF : Strict F) (hT : Strict T) (hsub : ∀ d d' e e', sub d d' = .ok (e, e') → Sub d d' e e') (x y : N × (C ⊕ S)) (hxy : x.1 < y.1) 
    (hx : ∀ z ∈ F, z.1 ≤ x.1) (hne : ∀ w ∈ T, equiv x w = false) (fuel : Nat) :
    ∀ {frm to pf pt : Entries N C S} {s : Done N C S}, Inv nm reduce Sub F T s frm to pf pt → x ∈ frm → y ∈ to → ∀ s', update nm reduce sub fuel frm to s ≠ .ok s' := by
  induction fuel with
  | zero => intro _ _ _ _ _ _ _ _ s' h; cases h
  | succ fuel ih =>
    intro frm to pf pt s h hxm hym s' hu
    unfold update at hu
    cases hc : common nm reduce sub frm to s with
    | throws => rw [hc] at hu; cases hu
    | ub => rw [hc] at hu; cases hu
    | ok r =>
      obtain ⟨s₁, frm₁, to₁⟩ := r
      obtain ⟨pf₁, pt₁, h₁⟩ := common_inv hF hT hsub frm to h hc
      rw [hc] at hu
      simp only [Res.bind] at hu
      -- neither of the two is consumed by the first stage
      have hstay : x ∈ frm₁ ∧ y ∈ to₁ := by
        have : ∀ (frm to : Entries N C S) (s s₁ : Done N C S) (frm₁ to₁ : Entries N C S), (∀ z ∈ frm, z.1 ≤ x.1) → (∀ w ∈ to, equiv x w = false) → x ∈ frm → y ∈ to →
            common nm reduce sub frm to s = .ok (s₁, frm₁, to₁) → x ∈ frm₁ ∧ y ∈ to₁ := by
          intro frm
          induction frm with
          | nil => intro _ _ _ _ _ _ _ h; simp at h
          | cons a frm ih =>
            intro to s s₁ frm₁ to₁ hm hn hx hy hc
            cases to with
            | nil => simp at hy
            | cons b to =>
              unfold common at hc
              cases he : equiv a b with
              | false => rw [he] at hc; cases hc; exact ⟨hx, hy⟩
              | true =>
                rw [he, if_pos rfl] at hc
                cases hp : pair nm reduce sub a.1 a.2 b.2 (b :: to) s with
                | throws => rw [hp] at hc; cases hc
                | ub => rw [hp] at hc; cases hc
                | ok s₂ =>
                  rw [hp] at hc
                  have hx' : x ∈ frm := by
                    rcases List.mem_cons.mp hx with rfl | hx
                    · rw [hn b (by simp)] at he; cases he
                    · exact hx
                  have hy' : y ∈ to := by
                    rcases List.mem_cons.mp hy with rfl | hy
                    · exfalso
                      unfold equiv at he
                      simp only [Bool.and_eq_true, decide_eq_true_eq] at he
                      have := hm a (by simp)
                      rw [he.1] at this
                      exact absurd (lt_of_lt_of_le hxy this) (lt_irrefl _)
                    · exact hy
                  exact ih to s₂ s₁ frm₁ to₁ (fun z hz => hm z (by simp [hz])) (fun w hw => hn w (by simp [hw])) hx' hy' hc
        exact this frm to s s₁ frm₁ to₁ (fun z hz => hx z (by rw [h.eqF]; simp [hz])) (fun w hw => hne w (by rw [h.eqT]; simp [hw])) hxm hym hc
      cases frm₁ with
      | nil => exact absurd hstay.1 (by simp)
      | cons z frm₁ =>
        simp only at hu
        cases hl : copyLoop to₁ (z :: frm₁) s₁ with
        | throws => rw [hl] at hu; cases hu
        | ub => rw [hl] at hu; cases hu
        | ok r =>
          obtain ⟨s₂, frm₂⟩ := r
          obtain ⟨pf₂, pt₂, h₂⟩ := copyLoop_inv hF hT to₁ _ h₁ hl
          rw [hl] at hu
          simp only at hu
          cases to₁ with
          | nil => exact absurd hstay.2 (by simp)
          | cons w to₁ =>
            cases frm₂ with
            | nil => cases hu
            | cons v frm₂ =>
              simp only at hu
              obtain ⟨pf₃, pt₃, h₃⟩ := removeLoop_inv hF (w :: to₁) h₂
              have hxv : x ∈ v :: frm₂ := by
                have hsuf : ∃ l, z :: frm₁ = l ++ v :: frm₂ := by
                  have : ∀ (frm : Entries N C S) (s s' : Done N C S) (frm' : Entries N C S), copyLoop (w :: to₁) frm s = .ok (s', frm') → ∃ l, frm = l ++ frm' := by
                    intro frm
                    induction frm with
                    | nil => intro s s' frm' h; cases h; exact ⟨[], rfl⟩
                    | cons a frm ih =>
                      intro s s' frm' h
                      unfold copyLoop at h
                      by_cases hg : goesFirst a (w :: to₁) = true
                      · rw [if_pos hg] at h
                        split at h
                        · cases h
                        · obtain ⟨l, hl⟩ := ih _ _ _ h
                          exact ⟨a :: l, by rw [hl]; rfl⟩
                      · rw [if_neg hg] at h; cases h; exact ⟨[], rfl⟩
                  exact this _ _ _ _ hl
                obtain ⟨l, hl⟩ := hsuf
                have hxm := hstay.1
                rw [hl] at hxm
                rcases List.mem_append.mp hxm with hxm | hxm
                · exfalso
                  have hF' := hF
                  rw [h₁.eqF, hl, ← List.append_assoc] at hF'
                  have := (strict_append hF').2.2 x (by simp [hxm]) v (by simp)
                  have h2 := hx v (by rw [h₂.eqF]; simp)
                  exact absurd (lt_of_lt_of_le this h2) (lt_irrefl _)
                · exact hxm
              have hyv : y ∈ removeLoop v (w :: to₁) := by
                refine mem_dropWhile hstay.2 ?_
                have h2 := lt_of_le_of_lt (hx v (by rw [h₂.eqF]; simp)) hxy
                unfold less
                rw [if_neg (ne_of_gt h2)]
                simpa using le_of_lt h2
              exact ih h₃ hxv hyv s' hu

end
end Verif.SoftUpdate
