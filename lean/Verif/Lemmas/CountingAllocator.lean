import Verif.Spec.CountingAllocator
/- Lemmas about counting allocators. -/
namespace Verif.CountingAllocator
open Verif.Spec.CountingAllocator (State Block)

/-- Where the counters of a family are. -/
def ofFamily (f : Nat) : Obj := ⟨2 * f, 2 * f + 1⟩

/-- The counters of each family are next to each other, and hold the numbers of calls. -/
structure R (w : World) (s : State) : Prop where
  objs : w.objs = s.family.map ofFamily
  len : w.cells.length = 2 * s.families
  bound : ∀ f ∈ s.family, f < s.families
  allocs : ∀ f, f < s.families → w.cells[2 * f]? = some (s.calls.count (f, true))
  deallocs : ∀ f, f < s.families → w.cells[2 * f + 1]? = some (s.calls.count (f, false))
  none : ∀ f a, s.families ≤ f → (f, a) ∉ s.calls
  small : ∀ f a, s.calls.count (f, a) < 2 ^ 31
  live : w.live = s.live.map Block.id
  next : w.next = s.next

theorem R.get {w : World} {s : State} (h : R w s) (i : Nat) : w.objs[i]? = (s.family[i]?).map ofFamily := by
  rw [h.objs, List.getElem?_map]

theorem count_cons_other {l : List (Nat × Bool)} {x y : Nat × Bool} (h : x ≠ y) : (x :: l).count y = l.count y := by
  rw [List.count_cons]; simp [h]

/-- Counting a call. -/
theorem R.count {w : World} {s : State} (h : R w s) {f : Nat} (hf : f < s.families) (a : Bool) (n : Nat) (hs : (s.called f a n).count (f, a) < 2 ^ 31)
    {lw : List Nat} {ls : List Block} {k : Nat} (hl : lw = ls.map Block.id) :
    ∃ c, CountingAllocator.count w.cells (if a then (ofFamily f).allocs else (ofFamily f).deallocs) n = some c ∧
      R ⟨c, w.objs, lw, k⟩ ⟨s.family, s.families, s.called f a n, ls, k⟩ := by
  unfold CountingAllocator.count State.called at *
  by_cases hn : n = 0
  · simp only [hn, if_true] at *
    exact ⟨w.cells, rfl, ⟨h.objs, h.len, h.bound, h.allocs, h.deallocs, h.none, h.small, hl, rfl⟩⟩
  · simp only [hn, if_false] at *
    rw [List.count_cons_self] at hs
    have hsmall : ∀ g b, ((f, a) :: s.calls).count (g, b) < 2 ^ 31 := by
      intro g b
      by_cases he : (f, a) = (g, b)
      · cases he; rw [List.count_cons_self]; exact hs
      · rw [count_cons_other he]; exact h.small g b
    have hnone : ∀ g b, s.families ≤ g → (g, b) ∉ (f, a) :: s.calls := by
      intro g b hg hm
      rcases List.mem_cons.1 hm with he | he
      · cases he; omega
      · exact h.none g b hg he
    have h1 := h.allocs f hf
    have h2 := h.deallocs f hf
    cases a with
    | true =>
      refine ⟨w.cells.set (2 * f) (s.calls.count (f, true) + 1), ?_, ?_⟩
      · simp only [if_true, ofFamily, bump, h1]
        rw [if_pos (by omega)]
      · refine ⟨h.objs, by simpa using h.len, h.bound, ?_, ?_, hnone, hsmall, hl, rfl⟩
        · intro g hg
          by_cases he : f = g
          · subst he
            rw [List.getElem?_set_self (by rw [h.len]; omega), List.count_cons_self]
          · rw [List.getElem?_set_ne (by omega), h.allocs g hg, count_cons_other (by simp [he])]
        · intro g hg
          rw [List.getElem?_set_ne (by omega), h.deallocs g hg, count_cons_other (by simp)]
    | false =>
      refine ⟨w.cells.set (2 * f + 1) (s.calls.count (f, false) + 1), ?_, ?_⟩
      · simp only [Bool.false_eq_true, if_false, ofFamily, bump, h2]
        rw [if_pos (by omega)]
      · refine ⟨h.objs, by simpa using h.len, h.bound, ?_, ?_, hnone, hsmall, hl, rfl⟩
        · intro g hg
          rw [List.getElem?_set_ne (by omega), h.allocs g hg, count_cons_other (by simp)]
        · intro g hg
          by_cases he : f = g
          · subst he
            rw [List.getElem?_set_self (by rw [h.len]; omega), List.count_cons_self]
          · rw [List.getElem?_set_ne (by omega), h.deallocs g hg, count_cons_other (by simp [he])]

theorem sim (size : Nat) (avail : Nat → Nat → Bool) (w : World) (s : State) (op : Op) (h : R w s) :
    OutRef R (step size avail w op) (Spec.CountingAllocator.step size avail s op) := by
  have hb : ∀ {i f : Nat}, s.family[i]? = some f → f < s.families := fun hi => h.bound _ (List.mem_of_getElem? hi)
  cases op with
  | create =>
    refine ⟨⟨?_, ?_, ?_, ?_, ?_, ?_, h.small, h.live, h.next⟩, rfl⟩
    · simp [h.objs, h.len, ofFamily]
    · simp [h.len]; omega
    · intro f hf
      rcases List.mem_append.1 hf with hf | hf
      · have := h.bound f hf; simp only; omega
      · simp at hf; simp only; omega
    · intro f hf
      simp only at hf ⊢
      by_cases he : f = s.families
      · subst he
        rw [List.getElem?_append_right (by rw [h.len]; exact Nat.le_refl _), h.len, Nat.sub_self]
        rw [List.count_eq_zero.2 (h.none _ _ (Nat.le_refl _))]; rfl
      · rw [List.getElem?_append_left (by rw [h.len]; omega)]
        exact h.allocs f (by omega)
    · intro f hf
      simp only at hf ⊢
      by_cases he : f = s.families
      · subst he
        rw [List.getElem?_append_right (by rw [h.len]; omega), h.len, show 2 * s.families + 1 - 2 * s.families = 1 by omega]
        rw [List.count_eq_zero.2 (h.none _ _ (Nat.le_refl _))]; rfl
      · rw [List.getElem?_append_left (by rw [h.len]; omega)]
        exact h.deallocs f (by omega)
    · intro f a hf
      exact h.none f a (by simp only at hf; omega)
  | copy i =>
    simp only [step, Spec.CountingAllocator.step, h.get]
    cases hi : s.family[i]? with
    | none => trivial
    | some f =>
      refine ⟨⟨by simp [h.objs], h.len, ?_, h.allocs, h.deallocs, h.none, h.small, h.live, h.next⟩, rfl⟩
      intro g hg
      rcases List.mem_append.1 hg with hg | hg
      · exact h.bound g hg
      · simp at hg; subst hg; exact hb hi
  | assign i j =>
    simp only [step, Spec.CountingAllocator.step, h.get]
    cases hi : s.family[i]? with
    | none => cases s.family[j]? <;> trivial
    | some f =>
      cases hj : s.family[j]? with
      | none => trivial
      | some g =>
        refine ⟨⟨by simp [h.objs, List.map_set], h.len, ?_, h.allocs, h.deallocs, h.none, h.small, h.live, h.next⟩, rfl⟩
        intro x hx
        rcases List.mem_or_eq_of_mem_set hx with hx | rfl
        · exact h.bound x hx
        · exact hb hj
  | allocate i n =>
    simp only [step, Spec.CountingAllocator.step, h.get]
    cases hi : s.family[i]? with
    | none => trivial
    | some f =>
      simp only [Option.map_some]
      by_cases hbig : 2 ^ 64 ≤ n * size
      · simp only [if_pos hbig, OutRef]
      · simp only [if_neg hbig, Nat.mod_eq_of_lt (Nat.lt_of_not_le hbig), h.next]
        cases ha : avail s.next (n * size) with
        | false => exact h
        | true =>
          by_cases hc : 2 ^ 31 ≤ (s.called f true n).count (f, true)
          · simp only [if_pos hc, if_true, Bool.true_eq_false, if_false, OutRef]
          · obtain ⟨c, h1, h2⟩ := h.count (hb hi) true n (by omega) (lw := w.live ++ [s.next]) (ls := s.live ++ [⟨s.next, f, n⟩]) (k := s.next + 1) (by simp [h.live])
            simp only [if_true] at h1
            simp only [if_neg hc, if_true, Bool.true_eq_false, if_false, h1]
            exact ⟨h2, rfl⟩
  | deallocate i b n =>
    simp only [step, Spec.CountingAllocator.step, h.get]
    cases hi : s.family[i]? with
    | none => trivial
    | some f =>
      simp only [Option.map_some]
      by_cases hm : ⟨b, f, n⟩ ∈ s.live ∧ (s.called f false n).count (f, false) < 2 ^ 31
      · have hl : b ∈ w.live := by rw [h.live]; exact List.mem_map.2 ⟨_, hm.1, rfl⟩
        obtain ⟨c, h1, h2⟩ := h.count (hb hi) false n hm.2 (lw := w.live.filter (· ≠ b)) (ls := s.live.filter fun x => x.id ≠ b) (k := w.next)
          (by rw [h.live, List.filter_map]; rfl)
        simp only [Bool.false_eq_true, if_false] at h1
        simp only [if_pos hm, if_pos hl, h1]
        rw [h.next] at h2
        exact ⟨by rw [h.next]; exact h2, rfl⟩
      · simp only [if_neg hm, OutRef]
  | allocs i =>
    simp only [step, Spec.CountingAllocator.step, h.get]
    cases hi : s.family[i]? with
    | none => trivial
    | some f =>
      have := h.allocs f (hb hi)
      simp only [Option.map_some, ofFamily, this]
      exact ⟨h, rfl⟩
  | deallocs i =>
    simp only [step, Spec.CountingAllocator.step, h.get]
    cases hi : s.family[i]? with
    | none => trivial
    | some f =>
      have := h.deallocs f (hb hi)
      simp only [Option.map_some, ofFamily, this]
      exact ⟨h, rfl⟩
  | equal i j =>
    simp only [step, Spec.CountingAllocator.step, h.get]
    cases hi : s.family[i]? with
    | none => cases s.family[j]? <;> trivial
    | some f =>
      cases hj : s.family[j]? with
      | none => trivial
      | some g =>
        refine ⟨h, ?_⟩
        simp only [Val.bool.injEq, ofFamily, Obj.mk.injEq]
        exact decide_eq_decide.2 ⟨fun h => by omega, fun h => by omega⟩

/-- What the numbers of calls have to do with the blocks in use. -/
structure Balanced (s : State) : Prop where
  balance : ∀ f, s.calls.count (f, true) = s.calls.count (f, false) + (s.live.filter fun b => b.family = f ∧ b.objects ≠ 0).length
  fresh : ∀ b ∈ s.live, b.id < s.next
  nodup : (s.live.map Block.id).Nodup

theorem filter_remove {l : List Block} (hn : (l.map Block.id).Nodup) {x : Block} (hx : x ∈ l) (p : Block → Bool) :
    (l.filter p).length = ((l.filter fun b => b.id ≠ x.id).filter p).length + (if p x then 1 else 0) := by
  induction l with
  | nil => simp at hx
  | cons y l ih =>
    simp only [List.map_cons, List.nodup_cons] at hn
    rcases List.mem_cons.1 hx with rfl | hx
    · have : l.filter (fun b => b.id ≠ x.id) = l := by
        rw [List.filter_eq_self]
        intro b hb
        simp
        intro he
        exact hn.1 (he ▸ List.mem_map.2 ⟨b, hb, rfl⟩)
      have h2 : (x :: l).filter (fun b => b.id ≠ x.id) = l := by
        rw [List.filter_cons_of_neg (by simp), this]
      rw [h2, List.filter_cons]
      split <;> simp
    · have hne : y.id ≠ x.id := fun he => hn.1 (he ▸ List.mem_map.2 ⟨x, hx, rfl⟩)
      have h2 : (y :: l).filter (fun b => b.id ≠ x.id) = y :: l.filter (fun b => b.id ≠ x.id) := List.filter_cons_of_pos (by simpa using hne)
      rw [h2, List.filter_cons, List.filter_cons]
      have := ih hn.2 hx
      by_cases hp : p y = true
      · rw [if_pos hp, if_pos hp, List.length_cons, List.length_cons, this]; omega
      · rw [if_neg hp, if_neg hp, this]

theorem balanced_step (size : Nat) (avail : Nat → Nat → Bool) (s : State) (op : Op) (h : Balanced s) :
    match Spec.CountingAllocator.step size avail s op with
    | .ret s' _ => Balanced s'
    | .threw s' => Balanced s'
    | .ub => True := by
  cases op with
  | create => exact ⟨h.balance, h.fresh, h.nodup⟩
  | copy i =>
    simp only [Spec.CountingAllocator.step]
    cases s.family[i]? with
    | none => trivial
    | some f => exact ⟨h.balance, h.fresh, h.nodup⟩
  | assign i j =>
    simp only [Spec.CountingAllocator.step]
    cases s.family[i]? <;> cases s.family[j]? <;> first | trivial | exact ⟨h.balance, h.fresh, h.nodup⟩
  | allocate i n =>
    simp only [Spec.CountingAllocator.step]
    cases s.family[i]? with
    | none => trivial
    | some f =>
      simp only
      by_cases h1 : 2 ^ 64 ≤ n * size
      · simp only [if_pos h1]
      · by_cases h2 : avail s.next (n * size) = false
        · simp only [if_neg h1, if_pos h2]; exact h
        · by_cases h3 : 2 ^ 31 ≤ (s.called f true n).count (f, true)
          · simp only [if_neg h1, if_neg h2, if_pos h3]
          · simp only [if_neg h1, if_neg h2, if_neg h3]
            refine ⟨?_, ?_, ?_⟩
            · intro g
              have hg := h.balance g
              simp only [List.filter_append, List.length_append]
              unfold State.called
              by_cases hn : n = 0
              · simp [hn, hg]
              · simp only [if_neg hn]
                rw [count_cons_other (x := (f, true)) (y := (g, false)) (by simp)]
                by_cases he : f = g
                · subst he
                  rw [List.count_cons_self, hg]; simp [hn]; omega
                · rw [count_cons_other (by simp [he]), hg]; simp [he]
            · intro b hb
              rcases List.mem_append.1 hb with hb | hb
              · have := h.fresh b hb; simp only; omega
              · simp at hb; subst hb; simp only; omega
            · simp only [List.map_append, List.map_cons, List.map_nil]
              rw [List.nodup_append]
              refine ⟨h.nodup, by simp, ?_⟩
              intro a ha b hb
              simp at hb; subst hb
              obtain ⟨x, hx, rfl⟩ := List.mem_map.1 ha
              have := h.fresh x hx; omega
  | deallocate i b n =>
    simp only [Spec.CountingAllocator.step]
    cases s.family[i]? with
    | none => trivial
    | some f =>
      simp only
      by_cases hm : ⟨b, f, n⟩ ∈ s.live ∧ (s.called f false n).count (f, false) < 2 ^ 31
      · simp only [if_pos hm]
        refine ⟨?_, ?_, ?_⟩
        · intro g
          have hg := h.balance g
          have hr := filter_remove h.nodup hm.1 fun x => x.family = g ∧ x.objects ≠ 0
          unfold State.called
          by_cases hn : n = 0
          · simp only [hn, if_true]
            rw [hg, hr]
            simp [hn]
          · simp only [if_neg hn]
            rw [count_cons_other (x := (f, false)) (y := (g, true)) (by simp)]
            by_cases he : f = g
            · subst he
              rw [List.count_cons_self, hg, hr]; simp [hn]; omega
            · rw [count_cons_other (by simp [he]), hg, hr]; simp [he]
        · intro x hx
          exact h.fresh x (List.mem_filter.1 hx).1
        · exact h.nodup.sublist ((List.filter_sublist).map _)
      · simp only [if_neg hm]
  | allocs i =>
    simp only [Spec.CountingAllocator.step]
    cases s.family[i]? <;> first | trivial | exact h
  | deallocs i =>
    simp only [Spec.CountingAllocator.step]
    cases s.family[i]? <;> first | trivial | exact h
  | equal i j =>
    simp only [Spec.CountingAllocator.step]
    cases s.family[i]? <;> cases s.family[j]? <;> first | trivial | exact h

end Verif.CountingAllocator
