/-
Lemmas about searching and replacing in texts.
-/
import Verif.Spec.Text

namespace Verif.Text

open Verif.Spec.Text

theorem search_none {p : Str} : ∀ {s : Str}, search p s = none ↔ ¬ p <:+: s
  | [] => by
    cases p <;> simp [search, List.isPrefixOf]
  | c :: t => by
    have ih := search_none (p := p) (s := t)
    by_cases h : p.isPrefixOf (c :: t)
    · simp only [search, h, if_true]
      have : p <+: c :: t := by simpa [List.isPrefixOf_iff_prefix] using h
      simp [this.isInfix]
    · have h' : ¬ p <+: c :: t := by simpa [List.isPrefixOf_iff_prefix] using h
      simp [search, h, List.infix_cons_iff, h', ih]

theorem search_some {p : Str} : ∀ {s : Str} {i : Nat}, search p s = some i → ∃ a b, s = a ++ p ++ b ∧ a.length = i ∧ First p a b
  | [], i, h => by
    cases p with
    | nil => simp [search] at h; exact ⟨[], [], by simp, by simp [h], by intro a' b' _; simp⟩
    | cons x p => simp [search, List.isPrefixOf] at h
  | c :: t, i, h => by
    by_cases hp : p.isPrefixOf (c :: t)
    · simp only [search, hp, if_true, Option.some.injEq] at h
      have : p <+: c :: t := by simpa [List.isPrefixOf_iff_prefix] using hp
      obtain ⟨b, hb⟩ := this
      exact ⟨[], b, by simp [hb], by simp [h], by intro a' b' _; simp⟩
    · have h' : ¬ p <+: c :: t := by simpa [List.isPrefixOf_iff_prefix] using hp
      simp only [search, hp] at h
      obtain ⟨j, hj, rfl⟩ := Option.map_eq_some_iff.mp (by simpa using h)
      obtain ⟨a, b, hs, ha, hf⟩ := search_some hj
      refine ⟨c :: a, b, by simp [hs], by simp [ha], ?_⟩
      intro a' b' he
      cases a' with
      | nil => exact absurd ⟨b', by simpa [hs] using he⟩ h'
      | cons x a' =>
        simp only [List.cons_append, List.cons.injEq] at he
        have := hf a' b' he.2
        simpa using this

theorem find_append (d s p : Str) : find (d ++ s) p d.length = (search p s).map (d.length + ·) := by
  simp [find]

theorem find_beyond {s p : Str} {n : Nat} (h : s.length < n) : find s p n = none := by
  simp [find]; omega

theorem splice_append (d a p b to : Str) {n : Nat} (hn : n = d.length + a.length) : splice (d ++ (a ++ p ++ b)) n p.length to = (d ++ a ++ to) ++ b := by
  subst hn
  have h1 : (d ++ (a ++ p ++ b)).take (d.length + a.length) = d ++ a := by
    rw [show d ++ (a ++ p ++ b) = (d ++ a) ++ (p ++ b) by simp, ← List.length_append, List.take_left]
  have h2 : (d ++ (a ++ p ++ b)).drop (d.length + a.length + p.length) = b := by
    rw [show d ++ (a ++ p ++ b) = (d ++ a ++ p) ++ b by simp, ← List.length_append, ← List.length_append, List.drop_left]
  rw [splice, h1, h2]

theorem First.eq {p a b a' b' : Str} (h : First p a b) (h' : First p a' b') (he : a ++ p ++ b = a' ++ p ++ b') : a = a' ∧ b = b' := by
  have h1 := h a' b' he.symm
  have h2 := h' a b he
  have hl : a.length = a'.length := by omega
  have := List.append_inj (by simpa using he) hl
  exact ⟨this.1, List.append_cancel_left this.2⟩

theorem replaced_functional {p to s r r' : Str} (h : Replaced p to s r) : Replaced p to s r' → r = r' := by
  induction h generalizing r' with
  | none hn =>
    intro h'
    cases h' with
    | none => rfl
    | step => exact absurd ⟨_, _, rfl⟩ hn
  | @step a b r hf hr ih =>
    intro h'
    generalize hs : a ++ p ++ b = s at h'
    cases h' with
    | none hn => exact absurd ⟨_, _, hs⟩ hn
    | @step a' b' r' hf' hr' =>
      obtain ⟨rfl, rfl⟩ := First.eq hf hf' hs
      rw [ih hr']

theorem replaceAllFrom_spec {p to : Str} : ∀ {f : Nat} {s d r : Str}, replaceAllFrom p to f (d ++ s) d.length = some r →
    ∃ u, r = d ++ u ∧ Replaced p to s u
  | 0, _, _, _, h => by simp [replaceAllFrom] at h
  | f + 1, s, d, r, h => by
    rw [replaceAllFrom, find_append] at h
    cases hs : search p s with
    | none =>
      simp [hs] at h
      exact ⟨s, h.symm, .none (search_none.mp hs)⟩
    | some i =>
      obtain ⟨a, b, rfl, ha, hf⟩ := search_some hs
      simp only [hs, Option.map_some] at h
      rw [splice_append d a p b to (by omega), show d.length + i + to.length = (d ++ a ++ to).length by simp; omega] at h
      obtain ⟨u, hr, hu⟩ := replaceAllFrom_spec h
      exact ⟨a ++ to ++ u, by simp [hr], .step hf hu⟩

theorem replaceAllFrom_total {p to : Str} (hp : p ≠ []) : ∀ (f : Nat) (s d : Str), s.length < f →
    ∃ r, replaceAllFrom p to f (d ++ s) d.length = some r
  | 0, _, _, h => by omega
  | f + 1, s, d, h => by
    rw [replaceAllFrom, find_append]
    cases hs : search p s with
    | none => simp
    | some i =>
      obtain ⟨a, b, rfl, ha, hf⟩ := search_some hs
      simp only [Option.map_some]
      rw [splice_append d a p b to (by omega), show d.length + i + to.length = (d ++ a ++ to).length by simp; omega]
      have : 0 < p.length := List.length_pos_iff.mpr hp
      exact replaceAllFrom_total hp f b _ (by simp at h; omega)

theorem replaceAllFrom_empty {to : Str} : ∀ (f : Nat) (s d : Str), replaceAllFrom [] to f (d ++ s) d.length = none
  | 0, _, _ => rfl
  | f + 1, s, d => by
    rw [replaceAllFrom, find_append]
    have : search [] s = some 0 := by cases s <;> simp [search]
    simp only [this, Option.map_some, Nat.add_zero]
    have h := splice_append d [] [] s to (n := d.length) (by simp)
    simp only [List.append_nil, List.nil_append, List.length_nil] at h
    simp only [List.length_nil]
    rw [h, show d.length + to.length = (d ++ to).length by simp]
    exact replaceAllFrom_empty f s _

theorem replaced_same {p s r : Str} (h : Replaced p p s r) : r = s := by
  induction h with
  | none => rfl
  | step _ _ ih => rw [ih]

theorem replaced_char {c : Char} {to s r : Str} (h : Replaced [c] to s r) : r = s.flatMap fun x => if x = c then to else [x] := by
  have key : ∀ a : Str, c ∉ a → a.flatMap (fun x => if x = c then to else [x]) = a := by
    intro a
    induction a with
    | nil => simp
    | cons x a ih =>
      intro h
      simp only [List.mem_cons, not_or] at h
      simp [List.flatMap_cons, ih h.2, Ne.symm h.1]
  induction h with
  | @none s hn =>
    refine (key s fun hc => hn ?_).symm
    obtain ⟨a, b, rfl⟩ := List.append_of_mem hc
    exact ⟨a, b, by simp⟩
  | @step a b r hf hr ih =>
    have : c ∉ a := by
      intro hc
      obtain ⟨x, y, rfl⟩ := List.append_of_mem hc
      have := hf x (y ++ [c] ++ b) (by simp)
      simp at this; omega
    simp [List.flatMap_append, key a this, ih]

theorem replaced_count {p to s r : Str} (h : Replaced p to s r) : ∃ n, s.length + n * to.length = r.length + n * p.length ∧ (p <:+: s ↔ 0 < n) := by
  induction h with
  | none hn => exact ⟨0, by simp, by simpa using hn⟩
  | @step a b r hf hr ih =>
    obtain ⟨n, hn, _⟩ := ih
    refine ⟨n + 1, ?_, by simp only [Nat.succ_pos, iff_true]; exact ⟨a, b, rfl⟩⟩
    simp only [List.length_append, Nat.succ_mul]
    omega

/-! ### replace_all_recursive -/

theorem splice_rec (d a p b to : Str) {n : Nat} (hn : n = d.length + a.length) :
    (to ++ b = [] ∧ splice (d ++ (a ++ p ++ b)) n p.length to = d ++ a) ∨
    ∃ c t, to ++ b = c :: t ∧ splice (d ++ (a ++ p ++ b)) n p.length to = (d ++ a ++ [c]) ++ t ∧ n + 1 = (d ++ a ++ [c]).length := by
  rw [splice_append d a p b to hn]
  cases h : to ++ b with
  | nil =>
    left; simp only [List.append_eq_nil_iff] at h; simp [h]
  | cons c t =>
    right; exact ⟨c, t, rfl, by rw [List.append_assoc, h]; simp, by simp [hn]; omega⟩

theorem replaceRecFrom_total {p to : Str} (hp : to = [] ∨ ¬ p <:+: to.tail) : ∀ (n f : Nat) (s d : Str), n < f →
    (∀ a b, s = a ++ p ++ b → First p a b → b.length < n) → ∃ r, replaceRecFrom p to f (d ++ s) d.length = some r
  | n, 0, _, _, h, _ => by omega
  | n, f + 1, s, d, h, hm => by
    rw [replaceRecFrom, find_append]
    cases hs : search p s with
    | none => simp
    | some i =>
      obtain ⟨a, b, rfl, ha, hf⟩ := search_some hs
      simp only [Option.map_some]
      have hb := hm a b rfl hf
      rcases splice_rec d a p b to (n := d.length + i) (by omega) with ⟨h0, he⟩ | ⟨c, t, h0, he, hn⟩
      · rw [he]
        cases f with
        | zero => omega
        | succ f =>
          rw [replaceRecFrom, find_beyond (by simp; omega)]
          simp
      · rw [he, hn]
        refine replaceRecFrom_total hp b.length f t _ (by omega) ?_
        intro a' b' ht _
        cases to with
        | nil =>
          simp only [List.nil_append] at h0
          simp [h0, ht]; omega
        | cons x to =>
          simp only [reduceCtorEq, false_or, List.tail_cons] at hp
          simp only [List.cons_append, List.cons.injEq] at h0
          rw [ht] at h0
          rcases Nat.lt_or_ge b'.length b.length with h1 | h1
          · exact h1
          · exfalso
            have hle : (a' ++ p).length ≤ to.length := by
              have := congrArg List.length h0.2
              simp at this ⊢; omega
            have hpre : a' ++ p <+: to := List.prefix_of_prefix_length_le ⟨b', rfl⟩ ⟨b, h0.2⟩ hle
            obtain ⟨z, hz⟩ := hpre
            exact hp ⟨a', z, hz⟩

theorem replaceRecFrom_diverges {p to : Str} (hto : to ≠ []) (hp : p <:+: to.tail) : ∀ (f : Nat) (s d : Str), p <:+: s →
    replaceRecFrom p to f (d ++ s) d.length = none
  | 0, _, _, _ => rfl
  | f + 1, s, d, h => by
    rw [replaceRecFrom, find_append]
    cases hs : search p s with
    | none => exact absurd h (search_none.mp hs)
    | some i =>
      obtain ⟨a, b, rfl, ha, hf⟩ := search_some hs
      simp only [Option.map_some]
      rcases splice_rec d a p b to (n := d.length + i) (by omega) with ⟨h0, he⟩ | ⟨c, t, h0, he, hn⟩
      · simp only [List.append_eq_nil_iff] at h0
        exact absurd h0.1 hto
      · rw [he, hn]
        refine replaceRecFrom_diverges hto hp f t _ ?_
        cases to with
        | nil => exact absurd rfl hto
        | cons x to =>
          simp only [List.cons_append, List.cons.injEq, List.tail_cons] at h0 hp
          rw [← h0.2]
          exact hp.trans (List.prefix_append _ _).isInfix

theorem replaceRecFrom_clean {p to : Str} (hp : Safe p to) (hne : p ≠ []) : ∀ {f : Nat} {s d r : Str},
    (∀ u v, d ++ s = u ++ p ++ v → d.length ≤ u.length) → replaceRecFrom p to f (d ++ s) d.length = some r → ¬ p <:+: r
  | 0, _, _, _, _, h => by simp [replaceRecFrom] at h
  | f + 1, s, d, r, hi, h => by
    rw [replaceRecFrom, find_append] at h
    cases hs : search p s with
    | none =>
      simp [hs] at h
      subst h
      rintro ⟨u, v, huv⟩
      have hl := hi u v huv.symm
      have : d <+: u := List.prefix_of_prefix_length_le (l₃ := d ++ s) ⟨s, rfl⟩ ⟨p ++ v, by simpa using huv⟩ hl
      obtain ⟨w, rfl⟩ := this
      exact search_none.mp hs ⟨w, v, by simpa using huv⟩
    | some i =>
      obtain ⟨a, b, rfl, ha, hf⟩ := search_some hs
      simp only [hs, Option.map_some] at h
      -- every occurrence of the old text begins at or after the replaced one
      have hold : ∀ u v, d ++ (a ++ p ++ b) = u ++ p ++ v → (d ++ a).length ≤ u.length := by
        intro u v huv
        have hl := hi u v huv
        have : d <+: u := List.prefix_of_prefix_length_le (l₃ := u ++ p ++ v) ⟨_, huv⟩ ⟨p ++ v, by simp⟩ hl
        obtain ⟨w, rfl⟩ := this
        have := hf w v (by simpa using huv.symm)
        simp; omega
      have hto : to ≠ [] := by
        rintro rfl
        exact (hp [] p rfl hne (.inr List.nil_prefix)).1 rfl
      -- every occurrence of the new text begins after it
      have hnew : ∀ u v, (d ++ a) ++ (to ++ b) = u ++ p ++ v → (d ++ a).length + 1 ≤ u.length := by
        intro u v huv
        refine Classical.byContradiction fun hlt => ?_
        have : u <+: d ++ a := List.prefix_of_prefix_length_le (l₃ := u ++ p ++ v) ⟨p ++ v, by simp⟩ ⟨_, huv⟩ (by omega)
        obtain ⟨x, hx⟩ := this
        rw [← hx] at huv
        have huv' : x ++ (to ++ b) = p ++ v := by simpa using huv
        rcases Nat.lt_or_ge x.length p.length with h1 | h1
        · have : x <+: p := List.prefix_of_prefix_length_le (l₃ := p ++ v) ⟨_, huv'⟩ ⟨_, rfl⟩ (by omega)
          obtain ⟨y, rfl⟩ := this
          have hy : y ≠ [] := by rintro rfl; simp at h1
          have hyv : to ++ b = y ++ v := by simpa using huv'
          have hcmp : y <+: to ∨ to <+: y := by
            rcases Nat.le_total y.length to.length with h2 | h2
            · exact .inl (List.prefix_of_prefix_length_le (l₃ := y ++ v) ⟨_, rfl⟩ ⟨_, hyv⟩ h2)
            · exact .inr (List.prefix_of_prefix_length_le (l₃ := y ++ v) ⟨_, hyv⟩ ⟨_, rfl⟩ h2)
          obtain ⟨hx0, z, hz⟩ := hp x y rfl hy hcmp
          have := hold u (z ++ b) (by
            rw [show d ++ (a ++ (x ++ y) ++ b) = (d ++ a) ++ (x ++ y) ++ b by simp, ← hx]
            have hzb : x ++ y ++ b = y ++ (z ++ b) := by rw [← hz]; simp
            rw [show u ++ x ++ (x ++ y) ++ b = u ++ x ++ (x ++ y ++ b) by simp, hzb]
            simp)
          rw [← hx] at this
          have hx1 : 0 < x.length := List.length_pos_iff.mpr hx0
          simp at this; omega
        · have : p <+: x := List.prefix_of_prefix_length_le (l₃ := p ++ v) ⟨_, rfl⟩ ⟨_, huv'⟩ h1
          obtain ⟨w, rfl⟩ := this
          have := hold u (w ++ p ++ b) (by
            rw [show d ++ (a ++ p ++ b) = (d ++ a) ++ p ++ b by simp, ← hx]; simp)
          rw [← hx] at this
          have hp1 : 0 < p.length := List.length_pos_iff.mpr hne
          simp at this; omega
      rcases splice_rec d a p b to (n := d.length + i) (by omega) with ⟨h0, he⟩ | ⟨c, t, h0, he, hn⟩
      · simp only [List.append_eq_nil_iff] at h0
        exact absurd h0.1 hto
      · rw [he, hn] at h
        refine replaceRecFrom_clean hp hne ?_ h
        intro u v huv
        have := hnew u v (by rw [h0]; simpa using huv)
        simp at this ⊢; omega

end Verif.Text
