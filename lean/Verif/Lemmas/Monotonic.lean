import Verif.Spec.Monotonic
import Verif.Spec.Order

namespace Verif.Monotonic
open Verif.Spec
variable {α : Type} {cmp : α → α → Bool}

theorem insertIdx_split (s : List α) (pos : Nat) (v : α) (h : pos ≤ s.length) :
    s.insertIdx pos v = s.take pos ++ v :: s.drop pos := by
  induction s generalizing pos with
  | nil => have : pos = 0 := by simpa using h
           subst this; rfl
  | cons a s ih =>
    cases pos with
    | zero => rfl
    | succ pos => simp only [List.insertIdx_succ_cons, List.take_succ_cons, List.drop_succ_cons, List.cons_append]
                  rw [ih pos (by simpa using h)]

theorem monotone_cons {a b : α} {t : List α} :
    Monotone cmp (a :: b :: t) ↔ cmp a b = false ∧ Monotone cmp (b :: t) := by
  constructor
  · intro h
    refine ⟨h 0 (by simp), fun i hi => ?_⟩
    exact h (i + 1) (by simpa using hi)
  · rintro ⟨h1, h2⟩ i hi
    cases i with
    | zero => exact h1
    | succ i => exact h2 i (by simpa using hi)

theorem check_iff (l : List α) : check cmp l = false ↔ Monotone cmp l := by
  induction l with
  | nil => exact ⟨fun _ i hi => by simp at hi, fun _ => rfl⟩
  | cons a t ih =>
    cases t with
    | nil => exact ⟨fun _ i hi => by simp at hi, fun _ => rfl⟩
    | cons b t =>
      rw [monotone_cons, ← ih]
      simp only [check]
      split <;> simp [*]

theorem monotone_append {s t : List α} :
    Monotone cmp (s ++ t) ↔ Monotone cmp s ∧ Monotone cmp t ∧ ∀ a b, s.getLast? = some a → t.head? = some b → cmp a b = false := by
  induction s with
  | nil => simp [Monotone]
  | cons a s ih =>
    cases s with
    | nil =>
      cases t with
      | nil => simp [Monotone]
      | cons b t =>
        simp only [List.singleton_append, monotone_cons]
        constructor
        · rintro ⟨h1, h2⟩; exact ⟨fun i hi => by simp at hi, h2, by simpa using h1⟩
        · rintro ⟨_, h2, h3⟩; exact ⟨h3 _ _ rfl rfl, h2⟩
    | cons b s =>
      rw [List.cons_append, List.cons_append, monotone_cons, ← List.cons_append, ih, monotone_cons]
      simp only [List.getLast?_cons_cons, and_assoc]

/-- The scan finds a violation exactly if there is one in its window. -/
theorem scan_spec (tmp : List α) (f l : Nat) (hfl : f ≤ l) (hl : l ≤ tmp.length) :
    ∃ b, scan cmp tmp f l = .ok b ∧
      (b = false ↔ ∀ i (h : i + 1 < tmp.length), f ≤ i → i < l → cmp tmp[i] tmp[i + 1] = false) := by
  induction hd : tmp.length - f generalizing f with
  | zero =>
    refine ⟨false, ?_, ?_⟩
    · unfold scan; rw [dif_neg (by omega)]
    · simp only [true_iff]; intro i h; omega
  | succ d ih =>
    unfold scan
    by_cases hc : f ≠ l ∧ f + 1 ≠ tmp.length
    · rw [dif_pos hc, dif_pos (by omega)]
      split
      · rename_i hv
        refine ⟨true, rfl, ?_⟩
        simp only [Bool.true_eq_false, false_iff]
        intro hall
        have := hall f (by omega) (by omega) (by omega)
        simp [this] at hv
      · rename_i hv
        obtain ⟨b, h1, h2⟩ := ih (f + 1) (by omega) (by omega)
        refine ⟨b, h1, h2.trans ?_⟩
        constructor
        · intro h i hi hfi hil
          by_cases hfi' : f = i
          · subst hfi'; simpa using hv
          · exact h i hi (by omega) hil
        · intro h i hi hfi hil; exact h i hi (by omega) hil
    · rw [dif_neg hc]
      refine ⟨false, rfl, ?_⟩
      simp only [true_iff]
      intro i hi hfi hil; omega

theorem mapOp_length {op : α → Res α} {l m : List α} (h : mapOp op l = .ok m) : m.length = l.length := by
  induction l generalizing m with
  | nil => simp [mapOp] at h; simp [← h]
  | cons a t ih =>
    simp only [mapOp] at h
    cases ha : op a with
    | throws => rw [ha] at h; cases h
    | ub => rw [ha] at h; cases h
    | ok b =>
      rw [ha] at h
      cases ht : mapOp op t with
      | throws => rw [ht] at h; cases h
      | ub => rw [ht] at h; cases h
      | ok u =>
        rw [ht] at h
        simp only [Res.ok_bind, Res.pure_eq, Res.ok.injEq] at h
        subst h
        simp [ih ht]

theorem applyTo_after (first last : Nat) (op : α → Res α) (i : Nat) (s : List α) (h : last ≤ i) :
    applyTo first last op i s = .ok s := by
  induction s generalizing i with
  | nil => rfl
  | cons a t ih =>
    simp only [applyTo]; rw [if_neg (by omega), ih (i + 1) (by omega)]; rfl

/-- `applyTo` in terms of the three segments of the sequence. -/
theorem applyTo_eq (first last : Nat) (op : α → Res α) (i : Nat) (s : List α) (hif : i ≤ first) (hfl : first ≤ last)
    (hl : last ≤ i + s.length) :
    applyTo first last op i s =
      (do let mid ← mapOp op ((s.drop (first - i)).take (last - first))
          pure (s.take (first - i) ++ mid ++ s.drop (last - i))) := by
  induction s generalizing i first with
  | nil =>
    simp [applyTo, mapOp]
  | cons a t ih =>
    simp only [List.length_cons] at hl
    by_cases h1 : i < first
    · have e1 : first - i = (first - (i + 1)) + 1 := by omega
      have e2 : last - i = (last - (i + 1)) + 1 := by omega
      simp only [applyTo]
      rw [if_neg (by omega), ih first (i + 1) (by omega) hfl (by omega), e1, e2]
      simp only [Res.ok_bind, List.drop_succ_cons, List.take_succ_cons]
      cases mapOp op ((t.drop (first - (i + 1))).take (last - first)) <;> rfl
    · have : i = first := by omega
      subst this
      by_cases h2 : i < last
      · simp only [applyTo]
        rw [if_pos ⟨Nat.le_refl _, h2⟩]
        have e2 : last - i = (last - (i + 1)) + 1 := by omega
        have key : applyTo i last op (i + 1) t = applyTo (i + 1) last op (i + 1) t := by
          have : ∀ (j : Nat) (u : List α), i + 1 ≤ j → applyTo i last op j u = applyTo (i + 1) last op j u := by
            intro j u
            induction u generalizing j with
            | nil => intros; rfl
            | cons b u ihu =>
              intro hj
              simp only [applyTo]
              rw [ihu (j + 1) (by omega)]
              have : (i ≤ j ∧ j < last) ↔ (i + 1 ≤ j ∧ j < last) := by omega
              simp only [this]
          exact this _ _ (Nat.le_refl _)
        rw [key, ih (i + 1) (i + 1) (Nat.le_refl _) (by omega) (by omega)]
        simp only [Nat.sub_self, List.drop_zero, List.take_zero, List.nil_append, e2, List.take_succ_cons, mapOp,
          List.drop_succ_cons]
        cases op a with
        | throws => rfl
        | ub => rfl
        | ok b =>
          simp only [Res.ok_bind]
          cases mapOp op (t.take (last - (i + 1))) <;> rfl
      · have : i = last := by omega
        subst this
        rw [applyTo_after _ _ _ _ _ (Nat.le_refl _)]
        simp [mapOp]

open Classical in
theorem mutate_spec (s : List α) (hs : Monotone cmp s) (first last : Nat) (op : α → Res α) :
    step cmp s (.mutate first last op) = monotonicStep cmp s (.mutate first last op) := by
  simp only [step, mutate, monotonicStep, effect]
  by_cases hr : first ≤ last ∧ last ≤ s.length
  · rw [if_pos hr, if_pos hr]
    rw [applyTo_eq first last op 0 s (by omega) hr.1 (by omega)]
    simp only [Nat.sub_zero]
    by_cases he : first = last
    · subst he
      simp [mapOp, hs]
    · rw [if_neg he]
      cases hm : mapOp op ((s.drop first).take (last - first)) with
      | throws => rfl
      | ub => rfl
      | ok mid =>
        have hlen : mid.length = last - first := by
          rw [mapOp_length hm]; simp; omega
        have htl : (s.take first ++ mid ++ s.drop last).length = s.length := by simp; omega
        have hlo : ∀ i (h : i < (s.take first ++ mid ++ s.drop last).length) (h' : i < s.length), i < first →
            (s.take first ++ mid ++ s.drop last)[i] = s[i] := by
          intro i h h' hi
          rw [List.getElem_append_left (by simp; omega), List.getElem_append_left (by simp; omega)]
          simp
        have hhi : ∀ i (h : i < (s.take first ++ mid ++ s.drop last).length) (h' : i < s.length), last ≤ i →
            (s.take first ++ mid ++ s.drop last)[i] = s[i] := by
          intro i h h' hi
          rw [List.getElem_append_right (by simp; omega)]
          simp only [List.getElem_drop]
          congr 1
          simp; omega
        simp only [Res.ok_bind, Res.pure_eq]
        generalize s.take first ++ mid ++ s.drop last = tmp at *
        obtain ⟨b, hb, hbi⟩ := scan_spec (cmp := cmp) tmp (if first ≠ 0 then first - 1 else first)
          (if last ≠ tmp.length then last + 1 else last) (by split <;> split <;> omega) (by split <;> omega)
        rw [hb]
        have hiff : b = false ↔ Monotone cmp tmp := by
          rw [hbi]
          constructor
          · intro h i hi
            by_cases h1 : i + 1 < first
            · rw [hlo i (by omega) (by omega) (by omega), hlo (i + 1) hi (by omega) h1]; exact hs i (by omega)
            · by_cases h2 : last ≤ i
              · rw [hhi i (by omega) (by omega) h2, hhi (i + 1) hi (by omega) (by omega)]; exact hs i (by omega)
              · exact h i hi (by split <;> omega) (by split <;> omega)
          · intro h i hi _ _; exact h i hi
        cases b with
        | false => rw [if_pos (hiff.1 rfl)]
        | true => rw [if_neg (by rw [← hiff]; simp)]
  · rw [if_neg hr, if_neg hr]

open Classical in
theorem step_spec (hc : StrictWeak cmp) (s : List α) (hs : Monotone cmp s) (o : Op α) :
    step cmp s o = monotonicStep cmp s o := by
  cases o with
  | pushBack v =>
    simp only [step, monotonicStep, effect]
    cases hl : s.getLast? with
    | none =>
      have : s = [] := by simpa using hl
      subst this
      rw [if_pos (by intro i hi; simp at hi)]
    | some b =>
      have : Monotone cmp (s ++ [v]) ↔ cmp b v = false := by
        rw [monotone_append]
        constructor
        · rintro ⟨_, _, h⟩; exact h b v hl rfl
        · intro h
          refine ⟨hs, fun i hi => by simp at hi, ?_⟩
          intro a c ha hcv
          rw [hl] at ha
          simp at ha hcv
          subst ha hcv; exact h
      simp only
      cases hcv : cmp b v with
      | true => rw [if_pos rfl, if_neg (by rw [this, hcv]; simp)]
      | false => rw [if_neg (by simp), if_pos (by rw [this, hcv])]
  | insert pos v =>
    simp only [step, insert, monotonicStep, effect]
    by_cases hp : pos ≤ s.length
    · rw [dif_pos hp, if_pos hp]
      have hsplit := insertIdx_split s pos v hp
      have hs' := hs
      rw [← List.take_append_drop pos s, monotone_append] at hs'
      have : Monotone cmp (s.insertIdx pos v) ↔
          (∀ b, (s.drop pos).head? = some b → cmp v b = false) ∧ (∀ a, (s.take pos).getLast? = some a → cmp a v = false) := by
        rw [hsplit, monotone_append, show v :: s.drop pos = [v] ++ s.drop pos from rfl, monotone_append]
        constructor
        · rintro ⟨_, ⟨_, _, h1⟩, h2⟩
          exact ⟨fun b hb => h1 v b rfl hb, fun a ha => h2 a v ha rfl⟩
        · rintro ⟨h1, h2⟩
          refine ⟨hs'.1, ⟨fun i hi => by simp at hi, hs'.2.1, ?_⟩, ?_⟩
          · intro a b ha hb; simp at ha; subst ha; exact h1 b hb
          · intro a b ha hb; simp at hb; subst hb; exact h2 a ha
      have hh : (s.drop pos).head? = s[pos]? := by simp
      have hg : (s.take pos).getLast? = if pos = 0 then none else s[pos - 1]? := by
        rw [List.getLast?_eq_getElem?]
        by_cases h0 : pos = 0
        · simp [h0]
        · rw [if_neg h0]; simp only [List.length_take, List.getElem?_take]
          rw [Nat.min_eq_left hp, if_pos (by omega)]
      rw [hh, hg] at this
      have h1 : (∀ b, s[pos]? = some b → cmp v b = false) ↔
          (if h : pos ≠ s.length then cmp v (s[pos]'(by omega)) else false) = false := by
        by_cases h : pos = s.length
        · simp [h]
        · rw [dif_pos h, List.getElem?_eq_getElem (by omega)]; simp
      have h2 : (∀ a, (if pos = 0 then none else s[pos - 1]?) = some a → cmp a v = false) ↔
          (if h : pos ≠ 0 then cmp (s[pos - 1]'(by omega)) v else false) = false := by
        by_cases h : pos = 0
        · simp [h]
        · rw [dif_pos h, if_neg h, List.getElem?_eq_getElem (by omega)]; simp
      rw [h1, h2] at this
      simp only
      by_cases hv : Monotone cmp (s.insertIdx pos v)
      · have := this.1 hv
        rw [if_pos hv, if_neg (by simp [this.1, this.2])]
      · rw [if_neg hv, if_pos]
        rw [this] at hv
        rw [Bool.or_eq_true]
        rcases Classical.not_and_iff_not_or_not.1 hv with h | h
        · left; simpa using h
        · right; simpa using h
    · rw [dif_neg hp, if_neg hp]
  | erase pos =>
    simp only [step, monotonicStep, effect]
    by_cases hp : pos < s.length
    · rw [if_pos hp, if_pos hp]
      simp only
      rw [if_pos]
      intro i hi
      have hlen : (s.eraseIdx pos).length = s.length - 1 := List.length_eraseIdx_of_lt hp
      simp only [List.getElem_eraseIdx]
      by_cases h1 : i + 1 < pos
      · rw [dif_pos (by omega), dif_pos h1]; exact hs i (by omega)
      · rw [dif_neg h1]
        by_cases h2 : i < pos
        · rw [dif_pos h2]
          exact hc.negTrans _ _ _ (hs i (by omega)) (hs (i + 1) (by omega))
        · rw [dif_neg h2]; exact hs (i + 1) (by omega)
    · rw [if_neg hp, if_neg hp]
  | eraseRange first last =>
    simp only [step, monotonicStep, effect]
    by_cases hr : first ≤ last ∧ last ≤ s.length
    · rw [if_pos hr, if_pos hr]
      simp only
      rw [if_pos]
      have hpw : ∀ i d (h : i + d + 1 < s.length), cmp s[i] s[i + d + 1] = false := by
        intro i d
        induction d with
        | zero => intro h; exact hs i h
        | succ d ih => intro h; exact hc.negTrans _ _ _ (ih (by omega)) (hs (i + d + 1) h)
      rw [monotone_append]
      refine ⟨?_, ?_, ?_⟩
      · intro i hi
        simp only [List.length_take] at hi
        simp only [List.getElem_take]; exact hs i (by omega)
      · intro i hi
        simp only [List.length_drop] at hi
        simp only [List.getElem_drop]; exact hs (last + i) (by omega)
      · intro a b ha hb
        rw [List.getLast?_eq_getElem?] at ha
        simp only [List.length_take, List.getElem?_take, List.head?_drop] at ha hb
        rw [Nat.min_eq_left (by omega)] at ha
        by_cases h0 : first = 0
        · subst h0; simp at ha
        · rw [if_pos (by omega)] at ha
          rw [List.getElem?_eq_some_iff] at ha hb
          obtain ⟨ha1, rfl⟩ := ha
          obtain ⟨hb1, rfl⟩ := hb
          have := hpw (first - 1) (last - first) (by omega)
          simpa [show first - 1 + (last - first) + 1 = last by omega] using this
    · rw [if_neg hr, if_neg hr]
  | clear =>
    simp only [step, monotonicStep, effect]
    rw [if_pos (by intro i hi; simp at hi)]
  | mutate first last op => exact mutate_spec s hs first last op

end Verif.Monotonic
