import Verif.Spec.Partitioned
import Verif.Lemmas.Monotonic

namespace Verif.Partitioned
open Verif.Spec
variable {α : Type}

/-- Running totals of the lengths. -/
def sums (k : Nat) : List (List α) → List Nat
  | [] => []
  | l :: ls => (k + l.length) :: sums (k + l.length) ls

@[simp] theorem sums_length (k : Nat) (ls : List (List α)) : (sums k ls).length = ls.length := by
  induction ls generalizing k with
  | nil => rfl
  | cons l ls ih => simp [sums, ih]

theorem sums_append (k : Nat) (A B : List (List α)) : sums k (A ++ B) = sums k A ++ sums (k + A.flatten.length) B := by
  induction A generalizing k with
  | nil => simp [sums]
  | cons a A ih => simp only [List.cons_append, sums, ih, List.flatten_cons, List.length_append]; simp [Nat.add_assoc]

theorem sums_map (k d : Nat) (B : List (List α)) : (sums k B).map (· + d) = sums (k + d) B := by
  induction B generalizing k with
  | nil => rfl
  | cons b B ih =>
    simp only [sums, List.map_cons, ih]
    rw [show k + b.length + d = k + d + b.length by omega]

theorem sums_map_of (k k' : Nat) (f : Nat → Nat) (B : List (List α)) (h : ∀ n, f (k + n) = k' + n) :
    (sums k B).map f = sums k' B := by
  induction B generalizing k k' with
  | nil => rfl
  | cons b B ih =>
    simp only [sums, List.map_cons, h]
    rw [ih (k + b.length) (k' + b.length)]
    intro n; rw [Nat.add_assoc, h, Nat.add_assoc]

theorem sums_getLast (k : Nat) (A : List (List α)) (h : A ≠ []) : (sums k A).getLast? = some (k + A.flatten.length) := by
  induction A generalizing k with
  | nil => exact absurd rfl h
  | cons a A ih =>
    cases A with
    | nil => simp [sums]
    | cons b A =>
      have := ih (k + a.length) (by simp)
      simp only [sums, List.getLast?_cons_cons] at this ⊢
      rw [this]; simp [Nat.add_assoc]

/-- The contiguous storage represents a list of lists. -/
def R (c : Contig α) (s : List (List α)) : Prop := c.bounds = sums 0 s ∧ c.data = s.flatten

theorem split_at (s : List (List α)) (i : Nat) (h : i < s.length) :
    ∃ A p B, s = A ++ p :: B ∧ A.length = i ∧ s[i] = p :=
  ⟨s.take i, s[i], s.drop (i + 1), by simp, by simp; omega, rfl⟩

theorem getElem?_mid (A : List (List α)) (p : List α) (B : List (List α)) : (A ++ p :: B)[A.length]? = some p := by
  simp

theorem atList_mid (A : List (List α)) (p : List α) (B : List (List α)) (f : List α → List α) :
    atList (A ++ p :: B) A.length f = A ++ f p :: B := by
  apply List.ext_getElem?
  intro k
  simp only [atList, List.getElem?_mapIdx, List.getElem?_append]
  by_cases h1 : k < A.length
  · simp [h1]; omega
  · simp only [h1, if_false]
    by_cases h2 : k = A.length
    · subst h2; simp
    · rw [List.getElem?_cons, List.getElem?_cons, if_neg (by omega), if_neg (by omega)]
      simp only [h2, if_false]
      cases B[k - A.length - 1]? <;> rfl

theorem bounds_mid (A : List (List α)) (p : List α) (B : List (List α)) :
    sums 0 (A ++ p :: B) = sums 0 A ++ (A.flatten.length + p.length) :: sums (A.flatten.length + p.length) B := by
  rw [sums_append]; simp [sums]

theorem sums_getElem_pred (A C : List (List α)) (h : 0 < A.length) (h' : A.length - 1 < (sums 0 (A ++ C)).length) :
    (sums 0 (A ++ C))[A.length - 1] = A.flatten.length := by
  have := sums_getLast 0 A (by intro hc; simp [hc] at h)
  rw [List.getLast?_eq_getElem?] at this
  simp only [sums_length, Nat.zero_add] at this
  rw [← Option.some_inj, ← List.getElem?_eq_getElem, sums_append, List.getElem?_append_left (by simp; omega)]
  exact this

section
variable {c : Contig α} {A B : List (List α)} {p : List α}

theorem beginOff_mid (h : R c (A ++ p :: B)) : c.beginOff A.length = A.flatten.length := by
  unfold Contig.beginOff
  by_cases h0 : 0 < A.length
  · rw [dif_pos ⟨h0, by rw [h.1]; simp⟩]
    simp only [h.1]
    exact sums_getElem_pred A _ h0 _
  · rw [dif_neg (by omega)]
    have : A = [] := List.eq_nil_of_length_eq_zero (by omega)
    subst this; rfl

theorem endOff_mid (h : R c (A ++ p :: B)) : c.endOff A.length = A.flatten.length + p.length := by
  unfold Contig.endOff
  rw [dif_pos (by rw [h.1]; simp)]
  simp only [h.1, bounds_mid]
  rw [List.getElem_append_right (by simp)]
  simp

theorem data_mid (h : R c (A ++ p :: B)) : c.data = A.flatten ++ p ++ B.flatten := by
  rw [h.2]; simp

theorem slice_mid (X Y Z : List α) : slice (X ++ Y ++ Z) X.length (X.length + Y.length) = Y := by
  unfold slice
  rw [List.append_assoc, ← List.append_assoc, ← List.length_append, List.take_left']
  · simp
  · rfl

theorem mutateU_from (b₁ b₂ : List Nat) (f : Nat → Nat) :
    mutateU (b₁ ++ b₂) b₁.length (b₁ ++ b₂).length f = b₁ ++ b₂.map f := by
  unfold mutateU
  rw [List.take_left', List.take_length, List.drop_left', List.drop_length]
  · simp
  · rfl
  · rfl

/-- Changing the bounds from partition `A.length` on. -/
theorem bounds_update (h : R c (A ++ p :: B)) (p' : List α) (f : Nat → Nat)
    (hf : ∀ n, f (A.flatten.length + p.length + n) = A.flatten.length + p'.length + n) :
    mutateU c.bounds A.length c.bounds.length f = sums 0 (A ++ p' :: B) := by
  rw [h.1, bounds_mid, bounds_mid]
  have := mutateU_from (sums 0 A) ((A.flatten.length + p.length) :: sums (A.flatten.length + p.length) B) f
  rw [sums_length] at this
  rw [this]
  congr 1
  rw [List.map_cons, sums_map_of _ _ f B hf]
  congr 1
  exact hf 0

end

theorem iterSwap_mid (A M B : List α) (x y : α) :
    iterSwap (A ++ x :: M ++ y :: B) A.length (A.length + (x :: M).length) = .ok (A ++ y :: M ++ x :: B) := by
  unfold iterSwap
  have h1 : (A ++ x :: M ++ y :: B)[A.length]? = some x := by simp
  have h2 : (A ++ x :: M ++ y :: B)[A.length + (x :: M).length]? = some y := by
    rw [List.getElem?_append_right (by simp)]; simp
  rw [h1, h2]
  simp only [Res.ok.injEq]
  apply List.ext_getElem?
  intro k
  simp only [List.append_assoc, List.cons_append, List.getElem?_set, List.length_set, List.length_append,
    List.length_cons, List.getElem?_append]
  by_cases hk : k < A.length
  · rw [if_neg (by omega), if_neg (by omega), if_pos hk, if_pos hk]
  · by_cases hk1 : k = A.length
    · subst hk1
      rw [if_neg (by omega), if_pos rfl, if_pos (by omega)]
      simp
    · obtain ⟨m, hm⟩ : ∃ m, k = A.length + (m + 1) := ⟨k - A.length - 1, by omega⟩
      subst hm
      simp only [Nat.add_sub_cancel_left, hk, if_false, List.getElem?_cons_succ, List.getElem?_append]
      by_cases hk2 : m = M.length
      · subst hk2
        rw [if_pos (by omega), if_pos (by omega)]
        simp
      · rw [if_neg (by omega), if_neg (by omega)]
        by_cases hk3 : m < M.length
        · rw [if_pos hk3, if_pos hk3]
        · rw [if_neg hk3, if_neg hk3]
          rw [List.getElem?_cons, List.getElem?_cons, if_neg (by omega), if_neg (by omega)]

theorem swapLoop_spec (A X M Y B : List α) (h : X.length = Y.length) :
    swapLoop X.length (A ++ X ++ M ++ Y ++ B) A.length (A.length + X.length + M.length) =
      .ok (A ++ Y ++ M ++ X ++ B) := by
  induction X generalizing A M Y with
  | nil =>
    have : Y = [] := List.eq_nil_of_length_eq_zero h.symm
    subst this; simp [swapLoop]
  | cons x X ih =>
    cases Y with
    | nil => simp at h
    | cons y Y =>
      simp only [List.length_cons, swapLoop]
      have e1 : A ++ x :: X ++ M ++ y :: Y ++ B = A ++ x :: (X ++ M) ++ y :: (Y ++ B) := by simp
      have e2 : A.length + (X.length + 1) + M.length = A.length + (x :: (X ++ M)).length := by simp; omega
      rw [e1, e2, iterSwap_mid]
      simp only [Res.ok_bind]
      have e3 : A ++ y :: (X ++ M) ++ x :: (Y ++ B) = (A ++ [y]) ++ X ++ (M ++ [x]) ++ Y ++ B := by simp
      have e4 : A.length + (x :: (X ++ M)).length + 1 = (A ++ [y]).length + X.length + (M ++ [x]).length := by
        simp; omega
      rw [e3, e4, show A.length + 1 = (A ++ [y]).length by simp]
      rw [ih (A ++ [y]) (M ++ [x]) Y (by simpa using h)]
      simp

theorem rotate_spec (A X Y B : List α) :
    rotate (A ++ X ++ Y ++ B) A.length (A.length + X.length) (A.length + X.length + Y.length) = .ok (A ++ Y ++ X ++ B) := by
  unfold rotate
  rw [if_pos ⟨by omega, by omega, by simp; omega⟩]
  congr 1
  have e1 : (A ++ X ++ Y ++ B).take A.length = A := by simp [List.append_assoc]
  have e2 : slice (A ++ X ++ Y ++ B) (A.length + X.length) (A.length + X.length + Y.length) = Y := by
    have := slice_mid (A ++ X) Y B
    simpa using this
  have e3 : slice (A ++ X ++ Y ++ B) A.length (A.length + X.length) = X := by
    have := slice_mid A X (Y ++ B)
    simpa using this
  have e4 : (A ++ X ++ Y ++ B).drop (A.length + X.length + Y.length) = B := by
    rw [List.drop_left']; simp; omega
  rw [e1, e2, e3, e4]

theorem exchange_mid (A M B : List (List α)) (p q : List α) :
    exchange (A ++ p :: M ++ q :: B) A.length (A.length + M.length + 1) = A ++ q :: M ++ p :: B ∧
    exchange (A ++ p :: M ++ q :: B) (A.length + M.length + 1) A.length = A ++ q :: M ++ p :: B := by
  have hi : (A ++ p :: M ++ q :: B)[A.length]? = some p := by simp
  have hj : (A ++ p :: M ++ q :: B)[A.length + M.length + 1]? = some q := by
    rw [List.getElem?_append_right (by simp; omega)]
    simp [show A.length + M.length + 1 - (A.length + (M.length + 1)) = 0 by omega]
  have key : ∀ k, ((A ++ p :: M ++ q :: B)[k]?).map (fun l => if k = A.length then q else if k = A.length + M.length + 1 then p else l)
      = (A ++ q :: M ++ p :: B)[k]? := by
    intro k
    by_cases h1 : k = A.length
    · subst h1; simp
    · by_cases h2 : k = A.length + M.length + 1
      · subst h2
        rw [hj]
        simp only [Option.map_some, if_neg h1, if_true]
        rw [List.getElem?_append_right (by simp; omega)]
        simp [show A.length + M.length + 1 - (A.length + (M.length + 1)) = 0 by omega]
      · simp only [h1, h2, if_false, Option.map_id_fun']
        simp only [List.append_assoc, List.cons_append, List.getElem?_append]
        by_cases h3 : k < A.length
        · simp [h3]
        · obtain ⟨m, hm⟩ : ∃ m, k = A.length + (m + 1) := ⟨k - A.length - 1, by omega⟩
          subst hm
          simp only [Nat.add_sub_cancel_left, h3, if_false, List.getElem?_cons_succ, List.getElem?_append]
          by_cases h4 : m < M.length
          · simp [h4]
          · rw [if_neg h4, if_neg h4, List.getElem?_cons, List.getElem?_cons, if_neg (by omega), if_neg (by omega)]
            rfl
  constructor
  · apply List.ext_getElem?
    intro k
    rw [← key]
    simp only [exchange, List.getElem?_mapIdx]
    congr 1
    funext l
    rw [List.getD_eq_getElem?_getD, List.getD_eq_getElem?_getD, hi, hj]
    rfl
  · apply List.ext_getElem?
    intro k
    rw [← key]
    simp only [exchange, List.getElem?_mapIdx]
    congr 1
    funext l
    rw [List.getD_eq_getElem?_getD, List.getD_eq_getElem?_getD, hi, hj]
    simp only [Option.getD_some]
    by_cases h1 : k = A.length
    · subst h1; rw [if_neg (by omega)]; simp
    · simp [h1]

theorem swapData_spec (A p M q B : List α) :
    swapData (A ++ p ++ M ++ q ++ B) A.length (A.length + p.length) (A.length + p.length + M.length)
      (A.length + p.length + M.length + q.length) = .ok (A ++ q ++ M ++ p ++ B) := by
  unfold swapData
  simp only [Nat.add_sub_cancel_left]
  by_cases hlt : q.length < p.length
  · obtain ⟨x, y, hxy, hx⟩ : ∃ x y, p = x ++ y ∧ x.length = q.length :=
      ⟨p.take q.length, p.drop q.length, by simp, by simp; omega⟩
    subst hxy
    simp only [List.length_append] at hlt
    have e1 : min (x ++ y).length q.length = x.length := by simp; omega
    have e2 : A ++ (x ++ y) ++ M ++ q ++ B =
        A ++ x ++ (y ++ M) ++ q ++ B := by simp
    have e3 : A.length + (x ++ y).length + M.length =
        A.length + x.length + (y ++ M).length := by simp; omega
    rw [e1, e2, e3, swapLoop_spec _ _ _ _ _ hx]
    simp only [Res.bind]
    rw [if_pos (by simp; omega)]
    have e4 : A ++ q ++ (y ++ M) ++ x ++ B =
        (A ++ q) ++ y ++ (M ++ x) ++ B := by simp
    have e5 : A.length + q.length = (A ++ q).length := by simp
    have e6 : A.length + (x ++ y).length = (A ++ q).length + y.length := by simp; omega
    have e7 : A.length + x.length + (y ++ M).length + q.length =
        (A ++ q).length + y.length + (M ++ x).length := by simp; omega
    rw [e4, e5, e6, e7, rotate_spec]
    simp
  · by_cases hlt' : p.length < q.length
    · obtain ⟨x, y, hxy, hx⟩ : ∃ x y, q = x ++ y ∧ x.length = p.length :=
        ⟨q.take p.length, q.drop p.length, by simp, by simp; omega⟩
      subst hxy
      simp only [List.length_append] at hlt hlt'
      have e1 : min p.length (x ++ y).length = p.length := by simp; omega
      have e2 : A ++ p ++ M ++ (x ++ y) ++ B =
          A ++ p ++ M ++ x ++ (y ++ B) := by simp
      rw [e1, e2, swapLoop_spec _ _ _ _ _ hx.symm]
      simp only [Res.bind]
      rw [if_neg (by simp; omega), if_pos (by simp; omega)]
      have e4 : A ++ x ++ M ++ p ++ (y ++ B) =
          (A ++ x) ++ (M ++ p) ++ y ++ B := by simp
      have e5 : A.length + p.length = (A ++ x).length := by simp; omega
      have e6 : A.length + p.length + M.length + p.length =
          (A ++ x).length + (M ++ p).length := by simp; omega
      have e7 : A.length + p.length + M.length + (x ++ y).length =
          (A ++ x).length + (M ++ p).length + y.length := by simp; omega
      rw [e7, e6, e4, e5, rotate_spec]
      simp
    · have heq : p.length = q.length := by omega
      rw [show min p.length q.length = p.length by omega, swapLoop_spec _ _ _ _ _ heq]
      simp only [Res.bind]
      rw [if_neg (by omega), if_neg (by omega)]

theorem swapLt_spec (c : Contig α) (A M B : List (List α)) (p q : List α) (h : R c (A ++ p :: M ++ q :: B)) :
    ∃ c', c.swapLt A.length (A.length + M.length + 1) = .ok c' ∧ R c' (A ++ q :: M ++ p :: B) := by
  have h1 : R c (A ++ p :: (M ++ q :: B)) := by simpa using h
  have h2 : R c ((A ++ p :: M) ++ q :: B) := h
  have hl : (A ++ p :: M).length = A.length + M.length + 1 := by simp; omega
  have hbi := beginOff_mid h1
  have hei := endOff_mid h1
  have hbj := beginOff_mid h2
  have hej := endOff_mid h2
  rw [hl] at hbj hej
  have hd : c.data = A.flatten ++ p ++ M.flatten ++ q ++ B.flatten := by rw [h.2]; simp
  have hfl : (A ++ p :: M).flatten.length = A.flatten.length + p.length + M.flatten.length := by simp; omega
  rw [hfl] at hbj hej
  -- the bounds
  have hb : (if p.length ≠ q.length then
        mutateU c.bounds A.length (A.length + M.length + 1) (fun x => x + q.length - p.length) else c.bounds) =
      sums 0 (A ++ q :: M ++ p :: B) := by
    have hs : ∀ (u v : List α), sums 0 (A ++ u :: M ++ v :: B) = sums 0 A ++ (sums A.flatten.length (u :: M)) ++
        sums (A.flatten.length + u.length + M.flatten.length) (v :: B) := by
      intro u v
      rw [sums_append, sums_append]
      simp [Nat.add_assoc]
    have hm : mutateU c.bounds A.length (A.length + M.length + 1) (fun x => x + q.length - p.length) =
        sums 0 (A ++ q :: M ++ p :: B) := by
      rw [h.1, hs p q, hs q p]
      unfold mutateU
      have t1 : (sums 0 A ++ sums A.flatten.length (p :: M) ++
          sums (A.flatten.length + p.length + M.flatten.length) (q :: B)).take A.length = sums 0 A := by
        rw [List.append_assoc, List.take_left']; simp
      have t2 : (sums 0 A ++ sums A.flatten.length (p :: M) ++
          sums (A.flatten.length + p.length + M.flatten.length) (q :: B)).take (A.length + M.length + 1) =
          sums 0 A ++ sums A.flatten.length (p :: M) := by
        rw [List.take_left']; simp; omega
      have t3 : (sums 0 A ++ sums A.flatten.length (p :: M) ++
          sums (A.flatten.length + p.length + M.flatten.length) (q :: B)).drop (A.length + M.length + 1) =
          sums (A.flatten.length + p.length + M.flatten.length) (q :: B) := by
        rw [List.drop_left']; simp; omega
      rw [t1, t2, t3, List.drop_left' (by simp)]
      congr 1
      · congr 1
        simp only [sums, List.map_cons]
        rw [sums_map_of _ (A.flatten.length + q.length)]
        · congr 1; omega
        · intro n; omega
      · simp only [sums]
        rw [show A.flatten.length + p.length + M.flatten.length + q.length =
          A.flatten.length + q.length + M.flatten.length + p.length by omega]
    split
    · exact hm
    · rename_i hne
      have : p.length = q.length := by omega
      rw [← hm, this]
      unfold mutateU
      have : (fun x => x + q.length - q.length) = (id : Nat → Nat) := by funext x; simp
      rw [this, List.map_id]
      rw [show c.bounds.take A.length = (c.bounds.take (A.length + M.length + 1)).take A.length by
        rw [List.take_take]; congr 1; omega]
      rw [List.take_append_drop, List.take_append_drop]
  unfold Contig.swapLt
  simp only [hbi, hei, hbj, hej, Nat.add_sub_cancel_left]
  rw [hb, hd, swapData_spec]
  exact ⟨_, rfl, rfl, by simp⟩

theorem insertIdx_mid (X Y Z : List α) (k : Nat) (a : α) (hk : k ≤ Y.length) :
    (X ++ Y ++ Z).insertIdx (X.length + k) a = X ++ (Y.take k ++ a :: Y.drop k) ++ Z := by
  rw [Monotonic.insertIdx_split _ _ _ (by simp; omega)]
  rw [List.append_assoc X Y Z, List.take_length_add_append, List.drop_length_add_append, List.take_append_of_le_length hk,
    List.drop_append_of_le_length hk]
  simp

theorem eraseIdx_mid (X Y Z : List α) (k : Nat) (hk : k < Y.length) :
    (X ++ Y ++ Z).eraseIdx (X.length + k) = X ++ (Y.take k ++ Y.drop (k + 1)) ++ Z := by
  rw [List.eraseIdx_eq_take_drop_succ]
  rw [List.append_assoc X Y Z, List.take_length_add_append, Nat.add_assoc, List.drop_length_add_append,
    List.take_append_of_le_length (by omega), List.drop_append_of_le_length (by omega)]
  simp

theorem bounds_len {c : Contig α} {s : List (List α)} (h : R c s) : c.bounds.length = s.length := by rw [h.1]; simp

theorem addSlot_spec {c : Contig α} {s : List (List α)} (h : R c s) :
    c.addSlot = .ret ⟨sums 0 (s ++ [[]]), (s ++ [[]]).flatten⟩ .unit := by
  unfold Contig.addSlot
  rw [if_neg]
  · rw [h.1, h.2, sums_append]; simp [sums]
  · rw [h.1, h.2]
    by_cases hs : s = []
    · subst hs; simp [sums]
    · rw [sums_getLast 0 s hs]; simp

theorem pushBack_spec {c : Contig α} {A B : List (List α)} {p : List α} (h : R c (A ++ p :: B)) (a : α) :
    ∃ c', c.pushBack A.length a = .ret c' .unit ∧ R c' (A ++ (p ++ [a]) :: B) := by
  have hbl := bounds_len h
  have hlt : A.length < c.bounds.length := by rw [hbl]; simp
  have hb := bounds_update h (p ++ [a]) (· + 1) (by intro n; simp; omega)
  refine ⟨_, by unfold Contig.pushBack; rw [dif_pos hlt], hb, ?_⟩
  have hd := data_mid h
  have he : c.bounds[A.length] = A.flatten.length + p.length := by
    have := endOff_mid h; unfold Contig.endOff at this; rwa [dif_pos hlt] at this
  show (if A.length = c.bounds.length - 1 then c.data ++ [a] else c.data.insertIdx c.bounds[A.length] a) = _
  rw [he]
  by_cases hl : A.length = c.bounds.length - 1
  · rw [if_pos hl]
    have : B = [] := by
      apply List.eq_nil_of_length_eq_zero
      have e := hbl; rw [List.length_append, List.length_cons] at e; omega
    subst this
    rw [hd]; simp
  · rw [if_neg hl, hd, insertIdx_mid A.flatten p B.flatten p.length a (Nat.le_refl _)]
    simp

theorem Contig.sim (c : Contig α) (s : List (List α)) (o : Op α) (h : R c s) : OutRef R (c.step o) (lolStep s o) := by
  have hbl := bounds_len h
  cases o with
  | addSlot =>
    simp only [Contig.step, lolStep, addSlot_spec h]
    exact ⟨⟨rfl, rfl⟩, rfl⟩
  | insertSlot pos =>
    simp only [Contig.step, lolStep, Contig.insertSlot]
    by_cases hp : pos < c.bounds.length
    · rw [dif_pos hp]
      obtain ⟨A, p, B, hs, hA, _⟩ := split_at s pos (by omega)
      subst hs
      subst hA
      have hnb : (if A.length = 0 then 0 else c.bounds[A.length - 1]'(by omega)) = A.flatten.length := by
        have := beginOff_mid h
        unfold Contig.beginOff at this
        by_cases h0 : A.length = 0
        · have : A = [] := List.eq_nil_of_length_eq_zero h0
          subst this; simp
        · rw [if_neg h0]; rwa [dif_pos ⟨by omega, hp⟩] at this
      have he : c.bounds[A.length] = A.flatten.length + p.length := by
        have := endOff_mid h; unfold Contig.endOff at this; rwa [dif_pos hp] at this
      rw [if_neg]
      · refine ⟨⟨?_, ?_⟩, rfl⟩
        · show c.bounds.insertIdx A.length (if A.length = 0 then 0 else c.bounds[A.length - 1]'(by omega)) = _
          rw [hnb, h.1, Monotonic.insertIdx_split _ _ _ (by simp)]
          have t1 : (sums 0 (A ++ p :: B)).take A.length = sums 0 A := by
            rw [sums_append, List.take_left']; simp
          have t2 : (sums 0 (A ++ p :: B)).drop A.length = sums A.flatten.length (p :: B) := by
            rw [sums_append, List.drop_left']; simp; simp
          rw [t1, t2]
          rw [List.take_left' rfl, List.drop_left' rfl, sums_append]
          simp [sums]
        · show c.data = _
          rw [List.take_left' rfl, List.drop_left' rfl, data_mid h]; simp
      · rw [hnb, he]
        intro hc
        rcases hc with hc | ⟨h0, hc⟩
        · omega
        · rw [if_neg h0] at hnb; omega
    · rw [dif_neg hp, addSlot_spec h]
      have : s.take pos ++ [] :: s.drop pos = s ++ [[]] := by
        rw [List.take_of_length_le (by omega), List.drop_of_length_le (by omega)]
      rw [this]
      exact ⟨⟨rfl, rfl⟩, rfl⟩
  | eraseSlot n =>
    simp only [Contig.step, lolStep, Contig.eraseSlot]
    by_cases hn : n < c.bounds.length
    · rw [dif_pos hn]
      obtain ⟨A, p, B, hs, hA, _⟩ := split_at s n (by omega)
      subst hs
      subst hA
      have hoff : (if 0 < A.length then c.bounds[A.length - 1]'(by omega) else 0) = A.flatten.length := by
        have := beginOff_mid h
        unfold Contig.beginOff at this
        by_cases h0 : 0 < A.length
        · rw [if_pos h0]; rwa [dif_pos ⟨by omega, hn⟩] at this
        · have : A = [] := List.eq_nil_of_length_eq_zero (by omega)
          subst this; simp
      have he : c.bounds[A.length] = A.flatten.length + p.length := by
        have := endOff_mid h; unfold Contig.endOff at this; rwa [dif_pos hn] at this
      have herased : (if 0 < c.bounds[A.length] then c.bounds[A.length] -
          (if 0 < A.length then c.bounds[A.length - 1]'(by omega) else 0) else 0) = p.length := by
        rw [hoff, he]; split <;> omega
      have hA2 : (A ++ p :: B).take A.length ++ (A ++ p :: B).drop (A.length + 1) = A ++ B := by
        rw [List.take_left' rfl, show A.length + 1 = A.length + 1 from rfl, List.drop_length_add_append]; simp
      rw [hA2]
      refine ⟨⟨?_, ?_⟩, rfl⟩
      · simp only [herased]
        have hbe : c.bounds.eraseIdx A.length = sums 0 A ++ sums (A.flatten.length + p.length) B := by
          rw [h.1, bounds_mid, List.eraseIdx_append_of_length_le (by simp)]; simp
        rw [hbe]
        have := mutateU_from (sums 0 A) (sums (A.flatten.length + p.length) B) (fun x => x - p.length)
        rw [sums_length] at this
        rw [this, sums_map_of _ A.flatten.length _ B (by intro n; omega), sums_append]
        simp
      · show (if 0 < c.bounds[A.length] then
          c.data.take (if 0 < A.length then c.bounds[A.length - 1]'(by omega) else 0) ++ c.data.drop c.bounds[A.length]
          else c.data) = _
        rw [hoff, he, data_mid h]
        split
        · rw [List.append_assoc A.flatten p, List.take_left' rfl, ← List.append_assoc, List.drop_left' (by simp)]
          simp
        · have h1 : A.flatten = [] := List.eq_nil_of_length_eq_zero (by omega)
          have h2 : p = [] := List.eq_nil_of_length_eq_zero (by omega)
          simp [h1, h2]
    · rw [dif_neg hn, List.take_of_length_le (by omega), List.drop_of_length_le (by omega)]
      simpa [OutRef] using h
  | swapPartitions i j =>
    simp only [Contig.step, lolStep, Contig.swapPartitions, hbl]
    by_cases hij : i < s.length ∧ j < s.length
    · rw [if_pos hij, if_pos hij]
      have key : ∀ i j, i < j → j < s.length → ∃ c', c.swapLt i j = .ok c' ∧ R c' (exchange s i j) ∧
          exchange s j i = exchange s i j := by
        intro i j hlt hj
        obtain ⟨A', q, B, hs, hA, _⟩ := split_at s j hj
        obtain ⟨A, p, M, hs', hA', _⟩ := split_at A' i (by omega)
        subst hs' hA'
        have hjj : j = A.length + M.length + 1 := by rw [← hA]; simp; omega
        subst hjj hs
        obtain ⟨c', h1, h2⟩ := swapLt_spec c A M B p q h
        have hx := exchange_mid A M B p q
        exact ⟨c', h1, by rw [hx.1]; exact h2, by rw [hx.1, hx.2]⟩
      by_cases hne : i = j
      · subst hne
        rw [if_neg (by simp)]
        refine ⟨?_, rfl⟩
        have : exchange s i i = s := by
          apply List.ext_getElem?
          intro k
          simp only [exchange, List.getElem?_mapIdx]
          by_cases hk : k = i
          · subst hk; simp [List.getElem?_eq_getElem hij.1]
          · simp [hk]
        rw [this]; exact h
      · rw [if_pos hne]
        by_cases hlt : j < i
        · rw [if_pos hlt]
          obtain ⟨c', h1, h2, h3⟩ := key j i hlt hij.1
          rw [h1, h3]; exact ⟨h2, rfl⟩
        · rw [if_neg hlt]
          obtain ⟨c', h1, h2, h3⟩ := key i j (by omega) hij.2
          rw [h1]; exact ⟨h2, rfl⟩
    · rw [if_neg hij, if_neg hij]; exact ⟨h, rfl⟩
  | pushBack i a =>
    simp only [Contig.step, lolStep]
    by_cases hi : i < s.length
    · rw [if_pos hi]
      obtain ⟨A, p, B, hs, hA, _⟩ := split_at s i hi
      subst hs hA
      obtain ⟨c', h1, h2⟩ := pushBack_spec h a
      rw [h1, atList_mid]
      exact ⟨h2, rfl⟩
    · rw [if_neg hi]
      unfold Contig.pushBack
      rw [dif_neg (by omega)]; exact h
  | insert i pos a =>
    simp only [Contig.step, lolStep, Contig.insert, hbl]
    by_cases hi : i < s.length
    · rw [if_pos hi]
      obtain ⟨A, p, B, hs, hA, _⟩ := split_at s i hi
      subst hs hA
      rw [getElem?_mid, beginOff_mid h, endOff_mid h, Nat.add_sub_cancel_left]
      simp only [atList_mid]
      refine ⟨⟨?_, ?_⟩, rfl⟩
      · show mutateU c.bounds A.length (A ++ p :: B).length (· + 1) = _
        rw [← hbl]
        exact bounds_update h (p.take pos ++ a :: p.drop pos) (· + 1) (by intro n; simp; omega)
      · show c.data.insertIdx _ a = _
        rw [data_mid h, insertIdx_mid _ _ _ _ _ (by omega)]
        by_cases hp : pos ≤ p.length
        · rw [Nat.min_eq_left hp]; simp
        · rw [Nat.min_eq_right (by omega), List.take_of_length_le (Nat.le_refl _), List.drop_of_length_le (Nat.le_refl _),
            List.take_of_length_le (by omega), List.drop_of_length_le (by omega)]
          simp
    · rw [if_neg hi, List.getElem?_eq_none (by omega)]; exact h
  | erase i pos =>
    simp only [Contig.step, lolStep, Contig.erase, hbl]
    by_cases hi : i < s.length
    · rw [if_pos hi]
      obtain ⟨A, p, B, hs, hA, _⟩ := split_at s i hi
      subst hs hA
      rw [getElem?_mid, beginOff_mid h, endOff_mid h, Nat.add_sub_cancel_left]
      simp only [atList_mid]
      by_cases hp : p.length ≤ pos
      · rw [if_pos (by omega)]
        refine ⟨?_, rfl⟩
        rw [List.take_of_length_le hp, List.drop_of_length_le (by omega)]
        simpa using h
      · rw [if_neg (by omega)]
        refine ⟨⟨?_, ?_⟩, rfl⟩
        · show mutateU c.bounds A.length (A ++ p :: B).length (· - 1) = _
          rw [← hbl]
          exact bounds_update h (p.take pos ++ p.drop (pos + 1)) (· - 1) (by intro n; simp; omega)
        · show c.data.eraseIdx _ = _
          rw [data_mid h, eraseIdx_mid _ _ _ _ (by omega), Nat.min_eq_left (by omega)]
          simp
    · rw [if_neg hi, List.getElem?_eq_none (by omega)]; exact ⟨h, rfl⟩
  | eraseRange i p j q =>
    simp only [Contig.step, lolStep, Contig.eraseRange, hbl]
    by_cases hi : i < s.length
    · by_cases hj : j < s.length
      · obtain ⟨A, l, B, hs, hA, hl⟩ := split_at s i hi
        obtain ⟨A', l', B', hs', hA', hl'⟩ := split_at s j hj
        have e1 : c.endOff i - c.beginOff i = l.length := by
          subst hs hA; rw [beginOff_mid h, endOff_mid h]; omega
        have e2 : c.endOff j - c.beginOff j = l'.length := by
          subst hs' hA'; rw [beginOff_mid h, endOff_mid h]; omega
        rw [e1, e2, List.getElem?_eq_getElem hi, List.getElem?_eq_getElem hj, hl, hl']
        simp only
        by_cases hpq : p ≤ l.length ∧ q ≤ l'.length
        · rw [if_pos ⟨hi, hj, hpq.1, hpq.2⟩, if_pos hpq]
          by_cases hij : i = j
          · rw [if_pos hij, if_pos hij]
            have hll : l = l' := by subst hij; rw [← hl, ← hl']
            by_cases hlt : p < q
            · rw [if_pos hlt, if_pos hlt]
              subst hs hA
              rw [beginOff_mid h, atList_mid]
              refine ⟨⟨?_, ?_⟩, rfl⟩
              · show mutateU c.bounds A.length (A ++ l :: B).length (· - (q - p)) = _
                rw [← hbl]
                exact bounds_update h (l.take p ++ l.drop q) (· - (q - p)) (by intro n; simp; rw [← hll] at hpq; omega)
              · show c.data.take _ ++ c.data.drop _ = _
                rw [data_mid h, List.append_assoc A.flatten, List.take_length_add_append, List.drop_length_add_append,
                  List.take_append_of_le_length hpq.1, List.drop_append_of_le_length (by rw [hll]; exact hpq.2)]
                simp
            · rw [if_neg hlt, if_neg hlt]; exact ⟨h, rfl⟩
          · rw [if_neg hij, if_neg hij]; exact h
        · rw [if_neg hpq]
          split <;> (try split) <;> (try split) <;> trivial
      · rw [if_neg (by omega), List.getElem?_eq_getElem hi, List.getElem?_eq_none (by omega)]; trivial
    · rw [if_neg (by omega), List.getElem?_eq_none (by omega)]; trivial
  | clear => exact ⟨⟨rfl, rfl⟩, rfl⟩
  | partition i =>
    simp only [Contig.step, lolStep]
    by_cases hi : i < s.length
    · obtain ⟨A, p, B, hs, hA, _⟩ := split_at s i hi
      subst hs hA
      rw [getElem?_mid]
      refine ⟨h, ?_⟩
      unfold Contig.partition
      rw [beginOff_mid h, endOff_mid h, data_mid h, slice_mid]
    · rw [List.getElem?_eq_none (by omega)]; trivial
  | numPartitions => simp only [Contig.step, lolStep, hbl]; exact ⟨h, rfl⟩
  | size => simp only [Contig.step, lolStep]; rw [h.2]; exact ⟨⟨h.1, h.2⟩, rfl⟩

theorem pushAll_spec {c : Contig α} {A : List (List α)} {p : List α} (l : List α) (h : R c (A ++ [p])) :
    ∃ c', c.pushAll A.length l = .ret c' .unit ∧ R c' (A ++ [p ++ l]) := by
  induction l generalizing c p with
  | nil => exact ⟨c, rfl, by simpa using h⟩
  | cons a t ih =>
    obtain ⟨c1, h1, h2⟩ := pushBack_spec h a
    obtain ⟨c2, h3, h4⟩ := ih h2
    refine ⟨c2, ?_, by simpa using h4⟩
    simp only [Contig.pushAll, h1, h3]

theorem initLoop_spec {c : Contig α} {A : List (List α)} (ls : List (List α)) (h : R c A) :
    ∃ c', c.initLoop A.length ls = .ret c' .unit ∧ R c' (A ++ ls) := by
  induction ls generalizing c A with
  | nil => exact ⟨c, rfl, by simpa using h⟩
  | cons l ls ih =>
    simp only [Contig.initLoop, addSlot_spec h]
    obtain ⟨c1, h1, h2⟩ := pushAll_spec (c := ⟨sums 0 (A ++ [[]]), (A ++ [[]]).flatten⟩) (A := A) (p := []) l ⟨rfl, rfl⟩
    rw [h1]
    simp only [List.nil_append] at h2
    obtain ⟨c2, h3, h4⟩ := ih h2
    refine ⟨c2, ?_, by simpa using h4⟩
    simpa using h3

theorem init_spec (ls : List (List α)) : ∃ c, Contig.init ls = .ret c .unit ∧ R c ls := by
  obtain ⟨c, h1, h2⟩ := initLoop_spec (c := ⟨[], []⟩) (A := []) ls ⟨rfl, rfl⟩
  exact ⟨c, h1, by simpa using h2⟩

theorem set_mid (A B : List (List α)) (p q : List α) : (A ++ p :: B).set A.length q = A ++ q :: B := by
  simp

theorem foldl_len (s : List (List α)) (n : Nat) : s.foldl (fun n b => n + b.length) n = n + s.flatten.length := by
  induction s generalizing n with
  | nil => simp
  | cons a t ih => simp [ih]; omega

theorem bucket_sim (s : List (List α)) (o : Op α) (hd : ¬ Differs s o) : bucketStep s o = lolStep s o := by
  cases o with
  | addSlot => rfl
  | insertSlot pos =>
    simp only [bucketStep, lolStep]
    split
    · rw [Monotonic.insertIdx_split _ _ _ (by omega)]
    · rw [List.take_of_length_le (by omega), List.drop_of_length_le (by omega)]
  | eraseSlot n =>
    simp only [bucketStep, lolStep]
    split
    · rw [List.eraseIdx_eq_take_drop_succ]
    · rw [List.take_of_length_le (by omega), List.drop_of_length_le (by omega)]; simp
  | swapPartitions i j =>
    simp only [bucketStep, lolStep]
    by_cases h : i < s.length ∧ j < s.length
    · rw [if_pos h, if_pos h]
      have hx : exchange s i j = (s.set i (s[j]'h.2)).set j (s[i]'h.1) := by
        apply List.ext_getElem?
        intro k
        simp only [exchange, List.getElem?_mapIdx, List.getElem?_set, List.length_set]
        by_cases hk : k = j
        · subst hk
          by_cases hki : k = i
          · subst hki; simp [List.getElem?_eq_getElem h.1, h.1]
          · simp [hki, List.getElem?_eq_getElem h.1, List.getElem?_eq_getElem h.2, h.2]
        · by_cases hki : k = i
          · subst hki; simp [hk, Ne.symm hk, List.getElem?_eq_getElem h.1, List.getElem?_eq_getElem h.2, h.1]
          · simp [hk, hki, Ne.symm hk, Ne.symm hki]
      by_cases hij : i = j
      · subst hij; simp [hx]
      · rw [if_pos hij, hx]; simp [iterSwap, List.getElem?_eq_getElem h.1, List.getElem?_eq_getElem h.2, ofRes]
    · rw [if_neg h, if_neg h]
  | pushBack i a =>
    simp only [bucketStep, lolStep]
    by_cases h : i < s.length
    · rw [dif_pos h, if_pos h]
      obtain ⟨A, p, B, rfl, rfl, hp⟩ := split_at s i h
      rw [hp, set_mid, atList_mid]
    · rw [dif_neg h, if_neg h]
  | insert i pos a =>
    simp only [bucketStep, lolStep]
    by_cases h : i < s.length
    · rw [dif_pos h]
      obtain ⟨A, p, B, rfl, rfl, hp⟩ := split_at s i h
      have : pos ≤ p.length := by
        apply Nat.le_of_not_lt
        intro hc
        exact hd ⟨p, getElem?_mid A p B, hc⟩
      rw [hp, if_neg (by omega), set_mid, getElem?_mid]
      simp only [atList_mid]
      rw [Monotonic.insertIdx_split _ _ _ this, Nat.min_eq_left this]
    · rw [dif_neg h, List.getElem?_eq_none (by omega)]
  | erase i pos =>
    simp only [bucketStep, lolStep]
    have hne : s ≠ [] := hd
    rw [if_neg (by simpa using hne)]
    by_cases h : i < s.length
    · rw [dif_pos h]
      obtain ⟨A, p, B, rfl, rfl, hp⟩ := split_at s i h
      rw [hp, getElem?_mid]
      simp only [atList_mid, set_mid]
      by_cases hl : p.length ≤ pos
      · rw [Nat.min_eq_right hl, if_pos rfl, List.take_of_length_le hl, List.drop_of_length_le (by omega)]; simp
      · rw [Nat.min_eq_left (by omega), if_neg (by omega), List.eraseIdx_eq_take_drop_succ]
    · rw [dif_neg h, List.getElem?_eq_none (by omega)]
  | eraseRange i p j q =>
    simp only [bucketStep, lolStep]
    by_cases h : i < s.length ∧ j < s.length
    · rw [dif_pos h, List.getElem?_eq_getElem h.1, List.getElem?_eq_getElem h.2]
      simp only
      by_cases hpq : p ≤ s[i].length ∧ q ≤ s[j].length
      · rw [if_pos hpq, if_pos hpq]
        by_cases hij : i = j
        · rw [if_pos hij, if_pos hij]
          by_cases hlt : p < q
          · rw [if_pos hlt, if_pos hlt]
            obtain ⟨A, l, B, rfl, rfl, hp⟩ := split_at s i h.1
            rw [hp, set_mid, atList_mid]
          · rw [if_neg hlt, if_neg hlt]
        · rw [if_neg hij, if_neg hij]
      · rw [if_neg hpq, if_neg hpq]
    · rw [dif_neg h]
      by_cases hi : i < s.length
      · rw [List.getElem?_eq_getElem hi, List.getElem?_eq_none (by omega)]
      · rw [List.getElem?_eq_none (by omega)]
  | clear => rfl
  | partition i =>
    have hlt : i < s.length := by
      apply Nat.lt_of_not_le; exact hd
    simp only [bucketStep, lolStep]
    rw [if_neg (by intro hc; simp at hc; subst hc; simp at hlt), dif_pos hlt, List.getElem?_eq_getElem hlt]
  | numPartitions => rfl
  | size => simp only [bucketStep, lolStep]; rw [foldl_len]; simp

theorem bucket_run (s : List (List α)) (ops : List (Op α)) (h : Agreed s ops) :
    run bucketStep s ops = run lolStep s ops := by
  induction ops generalizing s with
  | nil => rfl
  | cons o os ih =>
    obtain ⟨h1, h2⟩ := h
    unfold run
    rw [bucket_sim s o h1]
    revert h2
    cases lolStep s o with
    | ret s' b => intro h2; simp only [ih s' h2]
    | threw s' => intro h2; simp only [ih s' h2]
    | ub => intro _; rfl

end Verif.Partitioned
