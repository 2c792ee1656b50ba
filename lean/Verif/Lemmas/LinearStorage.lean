import Verif.Model.LinearStorage
namespace Verif.LinearStorage

theorem bound_eq {upper n p k : Nat} (h : k * n ≤ upper) (hp : p < k) : bound upper n p = (p + 1) * n := by
  have : (p + 1) * n ≤ k * n := Nat.mul_le_mul_right n hp
  unfold bound
  rw [Nat.mod_eq_of_lt]
  · rw [Nat.succ_mul]; omega
  · rw [Nat.succ_mul] at this; omega

variable {T : Type}

/-- The elements position by position. -/
def reads (n : Nat) (list : List (List T)) : Nat → Nat → Res (List T)
  | 0, _ => .ok []
  | m + 1, i =>
    match (list[i / n]?).bind (·[i % n]?) with
    | none => .ub
    | some x => (reads n list m (i + 1)).bind fun xs => .ok (x :: xs)

theorem element_eq {upper n k : Nat} (list : List (List T)) (hk : list.length = k) (h : k * n ≤ upper) (i p : Nat) (hi : i < k * n) (hp : p < k) (h1 : p * n ≤ i) (h2 : i ≤ (p + 1) * n) :
    element upper n list i p = match (list[i / n]?).bind (·[i % n]?) with | none => .ub | some x => .ok (x, i / n) := by
  have hn : 0 < n := by
    rcases Nat.eq_zero_or_pos n with h0 | h0
    · rw [h0] at hi; simp at hi
    · exact h0
  have hf : find upper n i (list.length + 1) p = .ok (i / n) := by
    rw [find, bound_eq h hp]
    by_cases he : i = (p + 1) * n
    · rw [if_pos he]
      have hp1 : p + 1 < k := by
        apply Nat.lt_of_mul_lt_mul_right (a := n)
        rw [← he]; exact hi
      have hmod : (p + 1) % (upper + 1) = p + 1 := Nat.mod_eq_of_lt (by have := Nat.mul_le_mul_left k hn; omega)
      have hl : list.length = (list.length - 1) + 1 := by omega
      rw [hmod, hl, find, bound_eq h hp1, if_neg]
      · rw [he, Nat.mul_div_cancel _ hn]
      · rw [he, Nat.succ_mul (p + 1)]; omega
    · rw [if_neg he]
      congr 1
      symm
      rw [Nat.div_eq_iff hn]
      rw [Nat.succ_mul] at h2 he
      rw [Nat.mul_comm]
      constructor
      · rw [Nat.mul_comm]; omega
      · rw [Nat.mul_comm]; omega
  unfold element
  rw [hf]
  simp only [Res.bind]
  have hq : i / n < k := by rw [Nat.div_lt_iff_lt_mul hn]; exact hi
  have hb : (if i / n = 0 then 0 else bound upper n (i / n - 1)) = i / n * n := by
    by_cases h0 : i / n = 0
    · rw [if_pos h0, h0]; simp
    · rw [if_neg h0, bound_eq h (by omega)]
      rw [Nat.sub_add_cancel (Nat.pos_of_ne_zero h0)]
  have hm := Nat.div_add_mod i n
  rw [Nat.mul_comm] at hm
  rw [hb, if_neg (by omega)]
  have : i - i / n * n = i % n := by omega
  rw [this]
  cases (list[i / n]?).bind (·[i % n]?) <;> rfl

theorem elements_eq {upper n k : Nat} (list : List (List T)) (hk : list.length = k) (h : k * n ≤ upper) : ∀ (m i p : Nat), i + m = k * n → (0 < m → p < k ∧ p * n ≤ i ∧ i ≤ (p + 1) * n) →
    elements upper n list m i p = reads n list m i := by
  intro m
  induction m with
  | zero => intro i p _ _; rfl
  | succ m ih =>
    intro i p hm hp
    obtain ⟨hp1, hp2, hp3⟩ := hp (by omega)
    have hn : 0 < n := by
      rcases Nat.eq_zero_or_pos n with h0 | h0
      · rw [h0] at hm; simp at hm
      · exact h0
    rw [elements, reads, element_eq list hk h i p (by omega) hp1 hp2 hp3]
    cases (list[i / n]?).bind (·[i % n]?) with
    | none => rfl
    | some x =>
      simp only [Res.bind]
      rw [ih (i + 1) (i / n) (by omega)]
      intro _
      have hlt := Nat.lt_div_mul_add hn (a := i)
      have hle := Nat.div_mul_le_self i n
      refine ⟨by rw [Nat.div_lt_iff_lt_mul hn]; omega, by omega, ?_⟩
      rw [Nat.succ_mul]; omega

theorem reads_ub (n : Nat) (list : List (List T)) : ∀ (m i j : Nat), i ≤ j → j < i + m → (list[j / n]?).bind (·[j % n]?) = none → reads n list m i = .ub := by
  intro m
  induction m with
  | zero => intro i j h1 h2; omega
  | succ m ih =>
    intro i j h1 h2 hj
    rw [reads]
    by_cases he : i = j
    · subst he; rw [hj]
    · cases (list[i / n]?).bind (·[i % n]?) with
      | none => rfl
      | some x =>
        simp only
        rw [ih (i + 1) j (by omega) (by omega) hj]; rfl

theorem flatten_get (n : Nat) (hn : 0 < n) : ∀ (list : List (List T)), (∀ l ∈ list, l.length = n) → ∀ i, list.flatten[i]? = (list[i / n]?).bind (·[i % n]?) := by
  intro list
  induction list with
  | nil => intro _ i; simp
  | cons l list ih =>
    intro h i
    have hl := h l (List.mem_cons_self ..)
    rw [List.flatten_cons]
    by_cases hi : i < n
    · rw [List.getElem?_append_left (by omega), Nat.div_eq_of_lt hi, Nat.mod_eq_of_lt hi]; rfl
    · rw [List.getElem?_append_right (by omega), ih (fun l hl => h l (List.mem_cons_of_mem _ hl)), hl]
      have h1 : i / n = (i - n) / n + 1 := by
        have := Nat.sub_add_cancel (Nat.le_of_not_lt hi)
        conv => lhs; rw [← this]
        rw [Nat.add_div_right _ hn]
      have h2 : i % n = (i - n) % n := Nat.mod_eq_sub_mod (Nat.le_of_not_lt hi)
      rw [h1, h2, List.getElem?_cons_succ]

theorem reads_flatten (n : Nat) (list : List (List T)) (h : ∀ l ∈ list, l.length = n) : ∀ (m i : Nat), i + m = list.flatten.length → reads n list m i = .ok (list.flatten.drop i) := by
  intro m
  induction m with
  | zero => intro i hi; rw [reads, List.drop_eq_nil_of_le (by omega)]
  | succ m ih =>
    intro i hi
    have hn : 0 < n := by
      rcases Nat.eq_zero_or_pos n with h0 | h0
      · subst h0
        have : list.flatten.length = 0 := by
          rw [List.length_eq_zero_iff, List.flatten_eq_nil_iff]
          intro l hl
          exact List.eq_nil_of_length_eq_zero (h l hl)
        omega
      · exact h0
    have hlt : i < list.flatten.length := by omega
    have hg := flatten_get n hn list h i
    rw [List.getElem?_eq_getElem hlt] at hg
    rw [reads, ← hg]
    simp only
    rw [ih (i + 1) (by omega), List.drop_eq_getElem_cons hlt]; rfl

theorem sum_eq_of_all {n : Nat} : ∀ (l : List Nat), (∀ x ∈ l, x = n) → l.sum = l.length * n
  | [], _ => by simp
  | x :: l, h => by
    have := sum_eq_of_all l (fun y hy => h y (List.mem_cons_of_mem _ hy))
    rw [List.sum_cons, this, h x (List.mem_cons_self ..), List.length_cons, Nat.succ_mul]; omega

/-- If the lists have the right length together but not each then one is too short. -/
theorem exists_short {n : Nat} : ∀ (l : List Nat), l.sum ≤ l.length * n → (∃ x ∈ l, x ≠ n) → ∃ x ∈ l, x < n
  | [], _, h => by simp at h
  | x :: l, hs, h => by
    by_cases hx : x < n
    · exact ⟨x, List.mem_cons_self .., hx⟩
    · rw [List.sum_cons, List.length_cons, Nat.succ_mul] at hs
      have hs' : l.sum ≤ l.length * n := by omega
      by_cases hxn : x = n
      · obtain ⟨y, hy, hyn⟩ := h
        rcases List.mem_cons.mp hy with h1 | h1
        · exact absurd (h1.trans hxn) hyn
        · obtain ⟨z, hz, hzn⟩ := exists_short l hs' ⟨y, h1, hyn⟩
          exact ⟨z, List.mem_cons_of_mem _ hz, hzn⟩
      · by_cases hall : ∀ y ∈ l, y = n
        · rw [sum_eq_of_all l hall] at hs; omega
        · have : ∃ y ∈ l, y ≠ n := by
            apply Classical.byContradiction
            intro hc
            exact hall fun y hy => Classical.byContradiction fun hne => hc ⟨y, hy, hne⟩
          obtain ⟨z, hz, hzn⟩ := exists_short l hs' this
          exact ⟨z, List.mem_cons_of_mem _ hz, hzn⟩

end Verif.LinearStorage
