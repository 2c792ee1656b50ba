import Verif.Spec.FileEditors

/-
Sorting by insertion, to show that what is assumed of `std::ranges::sort` can be met.
-/
namespace Verif.FileEditors
open Text Verif.Spec.FileEditors

def insertBy (lt : Str → Str → Bool) (a : Str) : List Str → List Str
  | [] => [a]
  | b :: t => if lt b a then b :: insertBy lt a t else a :: b :: t

def insertSort (lt : Str → Str → Bool) : List Str → List Str
  | [] => []
  | a :: t => insertBy lt a (insertSort lt t)

theorem insertBy_perm (lt : Str → Str → Bool) (a : Str) : ∀ l : List Str, (insertBy lt a l).Perm (a :: l)
  | [] => .refl _
  | b :: t => by
    rw [insertBy]
    split
    · exact ((insertBy_perm lt a t).cons b).trans (.swap _ _ _)
    · exact .refl _

theorem strictWeak_mono {lt : Str → Str → Bool} {l l' : List Str} (h : StrictWeak lt l) (hs : ∀ x ∈ l', x ∈ l) : StrictWeak lt l' :=
  ⟨fun a ha => h.1 a (hs a ha), fun a ha b hb c hc => h.2.1 a (hs a ha) b (hs b hb) c (hs c hc), fun a ha b hb c hc => h.2.2 a (hs a ha) b (hs b hb) c (hs c hc)⟩

theorem insertBy_sorted {lt : Str → Str → Bool} {a : Str} : ∀ {l : List Str}, StrictWeak lt (a :: l) → (l.Pairwise fun x y => lt y x = false) → (insertBy lt a l).Pairwise fun x y => lt y x = false
  | [], _, _ => by simp [insertBy]
  | b :: t, h, hp => by
    obtain ⟨h1, h2, h3⟩ := h
    rw [List.pairwise_cons] at hp
    rw [insertBy]
    split
    · rename_i hba
      rw [List.pairwise_cons]
      refine ⟨?_, insertBy_sorted (strictWeak_mono ⟨h1, h2, h3⟩ (fun x hx => by simp only [List.mem_cons] at hx ⊢; rcases hx with h | h <;> simp [h])) hp.2⟩
      intro y hy
      rcases List.mem_cons.1 ((insertBy_perm lt a t).mem_iff.1 hy) with rfl | hy
      · cases h4 : lt y b with
        | false => rfl
        | true =>
          have := h2 y (by simp) b (by simp) y (by simp) h4 hba
          rw [h1 y (by simp)] at this
          cases this
      · exact hp.1 y hy
    · rename_i hba
      simp only [Bool.not_eq_true] at hba
      rw [List.pairwise_cons]
      refine ⟨?_, List.pairwise_cons.2 hp⟩
      intro y hy
      rcases List.mem_cons.1 hy with rfl | hy
      · exact hba
      · have hyb := hp.1 y hy
        have my : y ∈ a :: b :: t := by simp [hy]
        cases h4 : lt y a with
        | false => rfl
        | true =>
          have hby : lt b y = false := by
            cases h5 : lt b y with
            | false => rfl
            | true => rw [h2 b (by simp) y my a (by simp) h5 h4] at hba; cases hba
          have hab : lt a b = false := by
            cases h5 : lt a b with
            | false => rfl
            | true => rw [h2 y my a (by simp) b (by simp) h4 h5] at hyb; cases hyb
          have := (h3 y my b (by simp) a (by simp) hyb hby hba hab).1
          rw [h4] at this
          cases this

theorem insertSort_perm (lt : Str → Str → Bool) : ∀ l : List Str, (insertSort lt l).Perm l
  | [] => .refl _
  | a :: t => (insertBy_perm lt a _).trans ((insertSort_perm lt t).cons a)

theorem insertSort_sorts : Sorts insertSort := by
  intro lt l h
  refine ⟨insertSort_perm lt l, ?_⟩
  induction l with
  | nil => simp [insertSort]
  | cons a t ih =>
    rw [insertSort]
    refine insertBy_sorted (strictWeak_mono h ?_) (ih (strictWeak_mono h fun x hx => by simp [hx]))
    intro x hx
    rcases List.mem_cons.1 hx with rfl | hx
    · simp
    · simp [(insertSort_perm lt t).mem_iff.1 hx]

end Verif.FileEditors
