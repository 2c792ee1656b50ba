import Verif.Spec.Traversal
import Mathlib.Data.List.Nodup
import Mathlib.Data.List.Perm.Basic
import Mathlib.Data.List.Perm.Subperm

namespace Verif.Graph
open Verif.Spec EdgeLike

/-! ### Containers -/

/-- How the contents of a container change. -/
structure Discipline where
  push : List Nat → Nat → List Nat → Prop
  pop : List Nat → Nat → List Nat → Prop

structure Discipline.Bag (D : Discipline) : Prop where
  push {l a l'} : D.push l a l' → l'.Perm (a :: l)
  pop {l a l'} : D.pop l a l' → l.Perm (a :: l')

/-- The container follows the discipline as long as it holds fewer than `cap` elements. -/
structure Obeys {Q : Type} (c : Container Q) (cap : Nat) (D : Discipline) (R : Q → List Nat → Prop) : Prop where
  init : R c.init []
  isEmpty {q l} : R q l → (c.isEmpty q = true ↔ l = [])
  push {q l} (a : Nat) : R q l → l.length < cap → ∃ q' l', c.push q a = .ok q' ∧ D.push l a l' ∧ R q' l'
  pop {q l} : R q l → l ≠ [] → ∃ a q' l', c.get q = .ok a ∧ c.pop q = .ok q' ∧ D.pop l a l' ∧ R q' l'

/-! ### Abstract runs -/

inductive PushT (D : Discipline) : List Nat → List Nat → List Nat → List Nat → List Nat → Prop
  | nil {known l} : PushT D known [] l l known
  | old {known t ts l l' known'} : t ∈ known → PushT D known ts l l' known' → PushT D known (t :: ts) l l' known'
  | new {known t ts l l₁ l' known'} : t ∉ known → D.push l t l₁ → PushT D (known ++ [t]) ts l₁ l' known' →
      PushT D known (t :: ts) l l' known'

inductive Run (D : Discipline) (tgts : Nat → List Nat) : List Nat → List Nat → List Nat → List Nat → Prop
  | done {known} : Run D tgts known [] [] known
  | step {known l a l₁ l₂ known₁ seg known₂} : D.pop l a l₁ → PushT D known (tgts a) l₁ l₂ known₁ →
      Run D tgts known₁ l₂ seg known₂ → Run D tgts known l (a :: seg) known₂

section runs
variable {D : Discipline} {tgts : Nat → List Nat}

theorem PushT.perm (hD : D.Bag) {known ts l l' known' proc : List Nat} (h : PushT D known ts l l' known')
    (hp : known.Perm (proc ++ l)) : known'.Perm (proc ++ l') := by
  induction h with
  | nil => exact hp
  | old _ _ ih => exact ih hp
  | new _ hpush _ ih =>
    apply ih
    refine (List.perm_append_singleton _ _).trans ?_
    refine (List.Perm.cons _ hp).trans ?_
    refine List.perm_middle.symm.trans ?_
    exact List.Perm.append_left _ (hD.push hpush).symm

theorem PushT.nodup {known ts l l' known' : List Nat} (h : PushT D known ts l l' known') (hn : known.Nodup) :
    known'.Nodup := by
  induction h with
  | nil => exact hn
  | old _ _ ih => exact ih hn
  | new ht _ _ ih =>
    apply ih
    rw [List.nodup_append]
    exact ⟨hn, by simp, by rintro a ha b hb rfl; simp at hb; subst hb; exact ht ha⟩

theorem PushT.mem {known ts l l' known' : List Nat} (h : PushT D known ts l l' known') :
    ∀ x, x ∈ known' ↔ x ∈ known ∨ x ∈ ts := by
  induction h with
  | nil => simp
  | old ht _ ih =>
    intro x; rw [ih]; simp only [List.mem_cons]
    exact ⟨fun h => h.imp id .inr, fun h => h.elim .inl fun h => h.elim (fun h => .inl (h ▸ ht)) .inr⟩
  | new ht _ _ ih => intro x; rw [ih]; simp [or_assoc]

theorem Run.perm (hD : D.Bag) {known l seg known' proc : List Nat} (h : Run D tgts known l seg known')
    (hp : known.Perm (proc ++ l)) : known'.Perm (proc ++ seg) := by
  induction h generalizing proc with
  | done => exact hp
  | @step known l a l₁ l₂ known₁ seg known₂ hpop hpush _ ih =>
    have h1 : known.Perm ((proc ++ [a]) ++ l₁) := by
      rw [List.append_assoc]
      exact hp.trans (List.Perm.append_left _ (hD.pop hpop))
    have := ih (hpush.perm hD h1)
    simpa using this

theorem Run.nodup {known l seg known' : List Nat} (h : Run D tgts known l seg known') (hn : known.Nodup) :
    known'.Nodup := by
  induction h with
  | done => exact hn
  | step _ hpush _ ih => exact ih (hpush.nodup hn)

theorem Run.mono {known l seg known' : List Nat} (h : Run D tgts known l seg known') : ∀ x ∈ known, x ∈ known' := by
  induction h with
  | done => simp
  | step _ hpush _ ih => exact fun x hx => ih x ((hpush.mem x).2 (.inl hx))

theorem Run.closed {known l seg known' : List Nat} (h : Run D tgts known l seg known') :
    ∀ a ∈ seg, ∀ t ∈ tgts a, t ∈ known' := by
  induction h with
  | done => simp
  | step _ hpush hr ih =>
    intro x hx t ht
    rcases List.mem_cons.1 hx with rfl | hx
    · exact hr.mono t ((hpush.mem t).2 (.inr ht))
    · exact ih x hx t ht

theorem PushT.forall (hD : D.Bag) {P : Nat → Prop} {known ts l l' known' : List Nat} (h : PushT D known ts l l' known')
    (hl : ∀ x ∈ l, P x) (ht : ∀ t ∈ ts, P t) : ∀ x ∈ l', P x := by
  induction h with
  | nil => exact hl
  | old _ _ ih => exact ih hl fun t h => ht t (by simp [h])
  | new _ hpush _ ih =>
    apply ih
    · intro x hx
      rcases List.mem_cons.1 ((hD.push hpush).mem_iff.1 hx) with rfl | hx
      · exact ht x (by simp)
      · exact hl x hx
    · exact fun t h => ht t (by simp [h])

theorem Run.forall (hD : D.Bag) {P : Nat → Prop} {known l seg known' : List Nat} (h : Run D tgts known l seg known')
    (hl : ∀ x ∈ l, P x) (ht : ∀ x, P x → ∀ t ∈ tgts x, P t) : ∀ x ∈ seg, P x := by
  induction h with
  | done => simp
  | step hpop hpush _ ih =>
    have ha := hl _ ((hD.pop hpop).mem_iff.2 List.mem_cons_self)
    have := ih (hpush.forall hD (fun x hx => hl x ((hD.pop hpop).mem_iff.2 (by simp [hx]))) (ht _ ha))
    intro x hx
    rcases List.mem_cons.1 hx with rfl | hx
    · exact ha
    · exact this x hx

/-- Runs are determined if the discipline leaves no choice. -/
theorem PushT.unique (hpush : ∀ l a l₁ l₂, D.push l a l₁ → D.push l a l₂ → l₁ = l₂) {known ts l l₁ k₁ l₂ k₂ : List Nat}
    (h₁ : PushT D known ts l l₁ k₁) (h₂ : PushT D known ts l l₂ k₂) : l₁ = l₂ ∧ k₁ = k₂ := by
  induction h₁ with
  | nil => cases h₂; exact ⟨rfl, rfl⟩
  | old ht _ ih =>
    cases h₂ with
    | old _ h => exact ih h
    | new hn _ _ => exact absurd ht hn
  | new ht hp _ ih =>
    cases h₂ with
    | old h _ => exact absurd h ht
    | new _ hp' h => cases hpush _ _ _ _ hp hp'; exact ih h

theorem Run.unique (hpush : ∀ l a l₁ l₂, D.push l a l₁ → D.push l a l₂ → l₁ = l₂)
    (hpop : ∀ l a l₁ b l₂, D.pop l a l₁ → D.pop l b l₂ → a = b ∧ l₁ = l₂) (hD : D.Bag) {known l s₁ k₁ s₂ k₂ : List Nat}
    (h₁ : Run D tgts known l s₁ k₁) (h₂ : Run D tgts known l s₂ k₂) : s₁ = s₂ ∧ k₁ = k₂ := by
  induction h₁ generalizing s₂ with
  | done =>
    cases h₂ with
    | done => exact ⟨rfl, rfl⟩
    | step hp _ _ => exact absurd (hD.pop hp).length_eq (by simp)
  | step hp ht _ ih =>
    cases h₂ with
    | done => exact absurd (hD.pop hp).length_eq (by simp)
    | step hp' ht' h =>
      obtain ⟨rfl, rfl⟩ := hpop _ _ _ _ _ hp hp'
      obtain ⟨rfl, rfl⟩ := PushT.unique hpush ht ht'
      obtain ⟨rfl, rfl⟩ := ih h
      exact ⟨rfl, rfl⟩

/-! ### First in, first out -/

def fifo : Discipline := ⟨fun l a l' => l' = l ++ [a], fun l a l' => l = a :: l'⟩

theorem fifo_bag : fifo.Bag := ⟨by rintro l a _ rfl; exact List.perm_append_singleton _ _, by rintro _ a l rfl; exact .refl _⟩

theorem PushT.fifo_eq {known ts l l' known' : List Nat} (h : PushT fifo known ts l l' known') :
    ∃ new, l' = l ++ new ∧ known' = known ++ new ∧ (∀ x ∈ new, x ∈ ts ∧ x ∉ known) := by
  induction h with
  | nil => exact ⟨[], by simp⟩
  | old _ _ ih =>
    obtain ⟨new, h1, h2, h3⟩ := ih
    exact ⟨new, h1, h2, fun x hx => ⟨by simp [(h3 x hx).1], (h3 x hx).2⟩⟩
  | @new known t ts l l₁ l' known' ht hpush _ ih =>
    obtain ⟨new, h1, h2, h3⟩ := ih
    have : l₁ = l ++ [t] := hpush
    subst this
    refine ⟨t :: new, by simp [h1], by simp [h2], ?_⟩
    intro x hx
    rcases List.mem_cons.1 hx with rfl | hx
    · exact ⟨by simp, ht⟩
    · have := h3 x hx
      simp at this
      exact ⟨by simp [this.1], this.2.1⟩

theorem Run.levels {W : Nat → Nat → Prop} (hW : ∀ a d t, W a d → t ∈ tgts a → W t (d + 1)) (K : Nat → Prop)
    {known l seg known' : List Nat} (h : Run fifo tgts known l seg known') (lev : Nat → Nat)
    (hsub : ∀ x ∈ l, x ∈ known)
    (hsort : l.Pairwise fun a b => lev a ≤ lev b)
    (hhead : ∀ a l₁, l = a :: l₁ → ∀ x ∈ known, ¬ K x → lev x ≤ lev a + 1)
    (hK : ∀ x ∈ l, ¬ K x)
    (hKt : ∀ x, K x → x ∈ known)
    (hw : ∀ x ∈ l, W x (lev x)) :
    ∃ lev' : Nat → Nat, (∀ x ∈ known, lev' x = lev x) ∧ seg.Pairwise (fun a b => lev' a ≤ lev' b) ∧
      (∀ a l₁, l = a :: l₁ → ∀ x ∈ seg, lev a ≤ lev' x) ∧
      (∀ x ∈ seg, ∀ t ∈ tgts x, ¬ K t → lev' t ≤ lev' x + 1) ∧ (∀ x ∈ seg, W x (lev' x)) := by
  induction h generalizing lev with
  | done => exact ⟨lev, by simp⟩
  | @step known l a l₁ l₂ known₁ seg known₂ hpop hpush hr ih =>
    obtain ⟨new, rfl, rfl, hnew⟩ := hpush.fifo_eq
    have hl : l = a :: l₁ := hpop
    subst hl
    have ha : a ∈ known := hsub a (by simp)
    have hlev : ∀ x ∈ known, ¬ K x → lev x ≤ lev a + 1 := hhead a l₁ rfl
    have hnk : ∀ x ∈ new, x ∉ known := fun x hx => (hnew x hx).2
    let lv : Nat → Nat := fun x => if x ∈ known then lev x else lev a + 1
    have lv1 : ∀ x ∈ known, lv x = lev x := fun x hx => by simp [lv, hx]
    have lv2 : ∀ x ∈ new, lv x = lev a + 1 := fun x hx => by simp [lv, hnk x hx]
    rw [List.pairwise_cons] at hsort
    have hl1 : ∀ x ∈ l₁, x ∈ known := fun x hx => hsub x (by simp [hx])
    obtain ⟨lev', e1, e2, e3, e4, e5⟩ := ih lv
      (by intro x hx; rw [List.mem_append] at hx ⊢; exact hx.imp (hl1 x) id)
      (by
        rw [List.pairwise_append]
        refine ⟨?_, ?_, ?_⟩
        · refine List.Pairwise.imp_of_mem ?_ hsort.2
          intro x y hx hy h
          rwa [lv1 x (hl1 x hx), lv1 y (hl1 y hy)]
        · exact List.pairwise_of_forall_mem_list fun x hx y hy => Nat.le_of_eq ((lv2 x hx).trans (lv2 y hy).symm)
        · intro x hx y hy
          rw [lv1 x (hl1 x hx), lv2 y hy]
          exact hlev x (hl1 x hx) (hK x (by simp [hx])))
      (by
        intro b l₃ hb x hx hKx
        have h0 : lev a ≤ lv b := by
          cases l₁ with
          | nil =>
            simp only [List.nil_append] at hb
            rw [lv2 b (by rw [hb]; simp)]; omega
          | cons c l₄ =>
            simp only [List.cons_append, List.cons.injEq] at hb
            rw [← hb.1, lv1 c (hl1 c (by simp))]
            exact hsort.1 c (by simp)
        rcases List.mem_append.1 hx with hx | hx
        · rw [lv1 x hx]; have := hlev x hx hKx; omega
        · rw [lv2 x hx]; omega)
      (by
        intro x hx
        rcases List.mem_append.1 hx with hx | hx
        · exact hK x (by simp [hx])
        · exact fun h => hnk x hx (hKt x h))
      (by intro x hx; exact List.mem_append_left _ (hKt x hx))
      (by
        intro x hx
        rcases List.mem_append.1 hx with hx | hx
        · rw [lv1 x (hl1 x hx)]; exact hw x (by simp [hx])
        · rw [lv2 x hx]; exact hW a _ x (hw a (by simp)) (hnew x hx).1)
    have ea : lev' a = lev a := by rw [e1 a (by simp [ha]), lv1 a ha]
    have e6 : ∀ x ∈ seg, lev a ≤ lev' x := by
      intro x hx
      cases hq : l₁ ++ new with
      | nil =>
        rw [hq] at hr
        cases hr with
        | done => simp at hx
        | step hp _ _ => exact absurd hp (by simp [fifo])
      | cons b l₃ =>
        have h0 : lev a ≤ lv b := by
          cases l₁ with
          | nil =>
            simp only [List.nil_append] at hq
            rw [lv2 b (by rw [hq]; simp)]; omega
          | cons c l₄ =>
            simp only [List.cons_append, List.cons.injEq] at hq
            rw [← hq.1, lv1 c (hl1 c (by simp))]
            exact hsort.1 c (by simp)
        exact Nat.le_trans h0 (e3 b l₃ hq x hx)
    refine ⟨lev', fun x hx => by rw [e1 x (by simp [hx]), lv1 x hx], ?_, ?_, ?_, ?_⟩
    · rw [List.pairwise_cons]
      exact ⟨fun x hx => by rw [ea]; exact e6 x hx, e2⟩
    · intro b l₃ hb x hx
      cases hb
      rcases List.mem_cons.1 hx with rfl | hx
      · exact Nat.le_of_eq ea.symm
      · exact e6 x hx
    · intro x hx t ht hKt'
      rcases List.mem_cons.1 hx with rfl | hx
      · rw [ea]
        have htk := (hpush.mem t).2 (.inr ht)
        rw [e1 t htk]
        rcases List.mem_append.1 htk with h | h
        · rw [lv1 t h]; exact hlev t h hKt'
        · exact Nat.le_of_eq (lv2 t h)
      · exact e4 x hx t ht hKt'
    · intro x hx
      rcases List.mem_cons.1 hx with rfl | hx
      · rw [ea]; exact hw x (by simp)
      · exact e5 x hx

/-! ### Priority -/

def byPrio (lt : Nat → Nat → Bool) : Discipline :=
  ⟨fun l a l' => l'.Perm (a :: l), fun l a l' => l.Perm (a :: l') ∧ ∀ b ∈ l, lt a b = false⟩

theorem byPrio_bag {lt : Nat → Nat → Bool} : (byPrio lt).Bag := ⟨fun h => h, fun h => h.1⟩

theorem Run.priority {lt : Nat → Nat → Bool} {known l seg known' proc : List Nat} (h : Run (byPrio lt) tgts known l seg known')
    (hp : known.Perm (proc ++ l)) :
    ∀ p a q, seg = p ++ a :: q → ∀ b, b ∉ proc ++ p → (b ∈ known ∨ ∃ n ∈ p, b ∈ tgts n) → lt a b = false := by
  induction h generalizing proc with
  | done => intro p a q h; simp at h
  | @step known l a l₁ l₂ known₁ seg known₂ hpop hpush hr ih =>
    have h1 : known.Perm ((proc ++ [a]) ++ l₁) := by
      rw [List.append_assoc]
      exact hp.trans (List.Perm.append_left _ hpop.1)
    have ih := ih (hpush.perm byPrio_bag h1)
    intro p x q hq b hb hbk
    cases p with
    | nil =>
      simp only [List.nil_append, List.cons.injEq] at hq
      obtain ⟨rfl, rfl⟩ := hq
      simp only [List.append_nil, List.not_mem_nil, false_and, exists_false, or_false] at hb hbk
      have := hp.mem_iff.1 hbk
      rw [List.mem_append] at this
      exact hpop.2 b (this.resolve_left hb)
    | cons y p =>
      simp only [List.cons_append, List.cons.injEq] at hq
      obtain ⟨rfl, rfl⟩ := hq
      apply ih p x q rfl b (by simpa using hb)
      rcases hbk with h | ⟨n, hn, ht⟩
      · exact .inl ((hpush.mem b).2 (.inl h))
      · rcases List.mem_cons.1 hn with rfl | hn
        · exact .inl ((hpush.mem b).2 (.inr ht))
        · exact .inr ⟨n, hn, ht⟩

end runs

/-! ### Last in, first out -/

def lifo : Discipline := ⟨fun l a l' => l' = a :: l, fun l a l' => l = a :: l'⟩

theorem lifo_bag : lifo.Bag := ⟨by rintro l a _ rfl; exact .refl _, by rintro _ a l rfl; exact .refl _⟩

end Verif.Graph
