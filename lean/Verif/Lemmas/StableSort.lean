import Verif.Model.StableSort
import Verif.Spec.Order

namespace Verif.StableSort
open Verif.Spec

variable {α : Type} {lt : α → α → Bool}

theorem merge_perm (xs ys : List α) : (merge lt xs ys).Perm (xs ++ ys) := by
  fun_induction merge lt xs ys with
  | case1 => simp
  | case2 => simp
  | case3 x xs y ys h ih =>
    refine (List.Perm.cons y ih).trans ?_
    exact (List.perm_middle (l₁ := x :: xs)).symm
  | case4 x xs y ys h ih => exact List.Perm.cons x ih

theorem stableSort_perm (l : List α) : (stableSort lt l).Perm l := by
  induction hn : l.length using Nat.strongRecOn generalizing l with
  | _ n ih =>
    unfold stableSort
    split
    · exact List.Perm.rfl
    · refine (merge_perm _ _).trans ?_
      refine (List.Perm.append (ih _ ?_ _ rfl) (ih _ ?_ _ rfl)).trans ?_
      · simp only [List.length_take]; omega
      · simp only [List.length_drop]; omega
      · rw [List.take_append_drop]

theorem le_trans (h : StrictWeak lt) {a b c : α} (hab : lt b a = false) (hbc : lt c b = false) : lt c a = false :=
  h.negTrans _ _ _ hbc hab

theorem le_of_lt (h : StrictWeak lt) {a b : α} (hab : lt a b = true) : lt b a = false := h.asymm _ _ hab

theorem merge_sorted (h : StrictWeak lt) (xs ys : List α) (hx : Sorted lt xs) (hy : Sorted lt ys) :
    Sorted lt (merge lt xs ys) := by
  fun_induction merge lt xs ys with
  | case1 => exact hy
  | case2 => exact hx
  | case3 x xs y ys hlt ih =>
    have hy' := List.pairwise_cons.1 hy
    have hx' := List.pairwise_cons.1 hx
    refine List.pairwise_cons.2 ⟨?_, ih hx hy'.2⟩
    intro z hz
    have := (merge_perm (lt := lt) (x :: xs) ys).mem_iff.1 hz
    rcases List.mem_append.1 this with hz | hz
    · rcases List.mem_cons.1 hz with rfl | hz
      · exact le_of_lt h hlt
      · exact le_trans h (le_of_lt h hlt) (hx'.1 z hz)
    · exact hy'.1 z hz
  | case4 x xs y ys hlt ih =>
    have hy' := List.pairwise_cons.1 hy
    have hx' := List.pairwise_cons.1 hx
    have hlt : lt y x = false := by simpa using hlt
    refine List.pairwise_cons.2 ⟨?_, ih hx'.2 hy⟩
    intro z hz
    have := (merge_perm (lt := lt) xs (y :: ys)).mem_iff.1 hz
    rcases List.mem_append.1 this with hz | hz
    · exact hx'.1 z hz
    · rcases List.mem_cons.1 hz with rfl | hz
      · exact hlt
      · exact le_trans h hlt (hy'.1 z hz)

theorem stableSort_sorted (h : StrictWeak lt) (l : List α) : Sorted lt (stableSort lt l) := by
  induction hn : l.length using Nat.strongRecOn generalizing l with
  | _ n ih =>
    unfold stableSort
    split
    · rename_i hl
      match l, hl with
      | [], _ => exact List.Pairwise.nil
      | [a], _ => exact List.pairwise_singleton _ _
      | _ :: _ :: _, h => simp at h; omega
    · apply merge_sorted h
      · exact ih _ (by simp only [List.length_take]; omega) _ rfl
      · exact ih _ (by simp only [List.length_drop]; omega) _ rfl

theorem merge_filter (h : StrictWeak lt) (c : α) (xs ys : List α) (hx : Sorted lt xs) (hy : Sorted lt ys) :
    (merge lt xs ys).filter (fun a => !lt a c && !lt c a) =
      xs.filter (fun a => !lt a c && !lt c a) ++ ys.filter (fun a => !lt a c && !lt c a) := by
  fun_induction merge lt xs ys with
  | case1 => simp
  | case2 => simp
  | case3 x xs y ys hlt ih =>
    have hy' := List.pairwise_cons.1 hy
    have hx' := List.pairwise_cons.1 hx
    rw [List.filter_cons, ih hx hy'.2]
    by_cases hc : (!lt y c && !lt c y) = true
    · -- everything in `x :: xs` is greater than `y`, hence not equivalent to `c`
      have hnil : (x :: xs).filter (fun a => !lt a c && !lt c a) = [] := by
        rw [List.filter_eq_nil_iff]
        intro z hz hzc
        simp only [Bool.and_eq_true, Bool.not_eq_true'] at hzc hc
        have hxz : lt z x = false := by
          rcases List.mem_cons.1 hz with rfl | hz
          · cases e : lt z z with
            | false => rfl
            | true => exact absurd (h.asymm _ _ e) (by simp [e])
          · exact hx'.1 z hz
        have h1 : lt y x = false := h.negTrans _ _ _ hc.1 (h.negTrans _ _ _ hzc.2 hxz)
        simp [h1] at hlt
      simp [hnil, hc]
    · simp [List.filter_cons (x := y), hc]
  | case4 x xs y ys hlt ih =>
    have hx' := List.pairwise_cons.1 hx
    rw [List.filter_cons, ih hx'.2 hy, List.filter_cons (x := x)]
    split <;> simp

theorem stableSort_filter (h : StrictWeak lt) (c : α) (l : List α) :
    (stableSort lt l).filter (fun a => !lt a c && !lt c a) = l.filter (fun a => !lt a c && !lt c a) := by
  induction hn : l.length using Nat.strongRecOn generalizing l with
  | _ n ih =>
    unfold stableSort
    split
    · rfl
    · rw [merge_filter h c _ _ (stableSort_sorted h _) (stableSort_sorted h _)]
      rw [ih _ (by simp only [List.length_take]; omega) _ rfl,
        ih _ (by simp only [List.length_drop]; omega) _ rfl]
      rw [← List.filter_append, List.take_append_drop]

end Verif.StableSort
