import Verif.Spec.Iterators
import Verif.Lemmas.Partitioned
set_option linter.unusedSimpArgs false
set_option linter.unusedVariables false
set_option linter.unusedSectionVars false
namespace Verif.Iterators
open Verif.Partitioned Verif.Spec Verif.Spec.Iterators

variable {α A ρ : Type}

@[simp] theorem bind_ok {α β : Type} (a : α) (f : α → Res β) : (Res.ok a).bind f = f a := rfl

/-- the list `l` lies in a vector -/
def Loc (mem : List (List α)) (l : List α) (block off : Nat) : Prop :=
  ∃ X Y, mem[block]? = some (X ++ l ++ Y) ∧ X.length = off

/-- the underlying iterator at offset `k` -/
def here (block off len : Nat) (rev : Bool) (k : Nat) : Base := ⟨block, if rev then off + len - k else off + k, rev⟩

section
variable {mem : List (List α)} {l : List α} {block off : Nat}

theorem add_here (h : Loc mem l block off) (rev : Bool) (k : Nat) (n : Int) (hk : k ≤ l.length) (h0 : 0 ≤ (k : Int) + n)
    (h1 : (k : Int) + n ≤ l.length) :
    (here block off l.length rev k).add mem n = .ok (here block off l.length rev ((k : Int) + n).toNat) := by
  obtain ⟨X, Y, hm, hX⟩ := h
  have hs : sizeAt mem (here block off l.length rev k) = X.length + l.length + Y.length := by
    simp [sizeAt, here, hm]; omega
  unfold Base.add
  rw [hs]
  cases rev
  · simp only [here, Bool.false_eq_true, if_false]
    rw [if_pos (by omega)]
    simp only [Res.ok.injEq, Base.mk.injEq, true_and, and_true]
    omega
  · simp only [here, if_true]
    rw [if_pos (by omega)]
    simp only [Res.ok.injEq, Base.mk.injEq, true_and, and_true]
    omega

theorem deref_here (h : Loc mem l block off) (rev : Bool) (k : Nat) (hk : k < (visited rev l).length) :
    (here block off l.length rev k).deref mem = .ok (visited rev l)[k] := by
  obtain ⟨X, Y, hm, hX⟩ := h
  unfold Base.deref
  cases rev
  · simp only [visited, Bool.false_eq_true, if_false] at hk ⊢
    simp only [here, Bool.false_eq_true, if_false, hm, false_and]
    rw [List.getElem?_append_left (by simp; omega), List.getElem?_append_right (by omega)]
    have : off + k - X.length = k := by omega
    rw [this, List.getElem?_eq_getElem hk]
  · simp only [visited, if_true, List.length_reverse] at hk ⊢
    simp only [here, if_true, hm]
    rw [if_neg (by omega)]
    rw [List.getElem?_append_left (by simp; omega), List.getElem?_append_right (by omega)]
    have : off + l.length - k - 1 - X.length = l.length - 1 - k := by omega
    rw [this, List.getElem?_eq_getElem (by omega)]
    simp

theorem sub_here (rev : Bool) (k j : Nat) (hk : k ≤ l.length) (hj : j ≤ l.length) :
    (here block off l.length rev k).sub (here block off l.length rev j) = .ok ((k : Int) - j) := by
  unfold Base.sub
  rw [if_pos (by simp [here])]
  cases rev
  · simp [here]; omega
  · simp [here]; omega

theorem move_here (h : Loc mem l block off) (rev : Bool) (a : A) (k : Nat) (m : Move) (hk : k ≤ l.length)
    (h0 : 0 ≤ (k : Int) + Move.by m) (h1 : (k : Int) + Move.by m ≤ l.length) :
    Iter.move mem ⟨a, here block off l.length rev k⟩ m =
      .ok ⟨a, here block off l.length rev ((k : Int) + Move.by m).toNat⟩ := by
  cases m <;>
  · simp only [Move.by] at h0 h1 ⊢
    simp only [Iter.move, Iter.inc, Iter.dec, Iter.postInc, Iter.postDec, Iter.addAssign, Iter.subAssign, Iter.plus,
      Iter.plus', Iter.minus]
    rw [add_here h rev k _ hk h0 h1]
    simp

theorem walk_here (h : Loc mem l block off) (rev : Bool) (a : A) (ms : List Move) :
    ∀ (k : Nat) (e : Int), k ≤ l.length → travel l.length k ms = some e →
      0 ≤ e ∧ e ≤ l.length ∧
      Iter.walk mem ⟨a, here block off l.length rev k⟩ ms = .ok ⟨a, here block off l.length rev e.toNat⟩ := by
  induction ms with
  | nil =>
    intro k e hk ht
    simp only [travel, Option.some.injEq] at ht
    subst ht
    simp [Iter.walk]; omega
  | cons m ms ih =>
    intro k e hk ht
    unfold travel at ht
    split at ht
    · rename_i hc
      have hn : (((k : Int) + Move.by m).toNat : Int) = (k : Int) + Move.by m := by omega
      obtain ⟨a1, a2, a3⟩ := ih (((k : Int) + Move.by m).toNat) e (by omega) (by rw [hn]; exact ht)
      refine ⟨a1, a2, ?_⟩
      simp only [Iter.walk, move_here h rev a k m hk hc.1 hc.2, bind_ok]
      exact a3
    · cases ht

theorem loop_here (h : Loc mem l block off) (rev : Bool) (a a' : A) (get : Base → Res ρ) (f : α → ρ)
    (hget : ∀ b x, b.deref mem = .ok x → get b = .ok (f x)) :
    ∀ (n fuel k : Nat), k + n = l.length → n < fuel →
      Iter.loop mem get ⟨a', here block off l.length rev l.length⟩ fuel ⟨a, here block off l.length rev k⟩ =
        .ok (some (((visited rev l).drop k).map f)) := by
  have hv : (visited rev l).length = l.length := by cases rev <;> simp [visited]
  intro n
  induction n with
  | zero =>
    intro fuel k hk hf
    obtain ⟨fuel, rfl⟩ : ∃ m, fuel = m + 1 := ⟨fuel - 1, by omega⟩
    simp only [Iter.loop, Iter.eq, sub_here (l := l) (block := block) (off := off) rev k l.length (by omega) (by omega), bind_ok]
    rw [if_pos (by simp; omega)]
    rw [List.drop_eq_nil_of_le (by omega)]; rfl
  | succ n ih =>
    intro fuel k hk hf
    obtain ⟨fuel, rfl⟩ : ∃ m, fuel = m + 1 := ⟨fuel - 1, by omega⟩
    simp only [Iter.loop, Iter.eq, sub_here (l := l) (block := block) (off := off) rev k l.length (by omega) (by omega), bind_ok]
    rw [if_neg (by simp; omega)]
    simp only [Iter.star, hget _ _ (deref_here h rev k (by omega)), bind_ok, Iter.inc]
    rw [add_here h rev k 1 (by omega) (by omega) (by omega)]
    have e1 : ((k : Int) + 1).toNat = k + 1 := by omega
    simp only [bind_ok, e1, ih fuel (k + 1) (by omega) (by omega), Option.map_some]
    have : List.drop k (visited rev l) = (visited rev l)[k]'(by omega) :: List.drop (k + 1) (visited rev l) :=
      List.drop_eq_getElem_cons (by omega)
    rw [this]; rfl

end

/-- partition `i` of the storage -/
structure Part (st : Storage α) (s : List (List α)) (i : Nat) (l : List α) (block off : Nat) : Prop where
  loc : Loc st.mem l block off
  first : ∀ rev, st.first rev i = .ok ⟨some i, here block off l.length rev 0⟩
  last : ∀ rev, st.last rev i = .ok ⟨some i, here block off l.length rev l.length⟩

theorem reached_R {c : Contig α} {s : List (List α)} (h : Reached (.contig c) s) : R c s := by
  obtain ⟨ls, ops, outs, c₀, h1, h2, h3⟩ := h
  obtain ⟨c', hc, hR⟩ := init_spec ls
  rw [h1] at hc
  cases hc
  obtain ⟨c', h4, h5⟩ := run_ref (R := R) (fun c s o h => Contig.sim c s o h) c₀ ls hR ops s outs h3
  rw [h2] at h4
  cases h4
  exact h5

/-- where partition `i` starts -/
def blockOf (st : Storage α) (i : Nat) : Nat := match st with | .contig _ => 0 | .bucket _ => i
def offOf (st : Storage α) (s : List (List α)) (i : Nat) : Nat :=
  match st with | .contig _ => (s.take i).flatten.length | .bucket _ => 0

theorem part_of {st : Storage α} {s : List (List α)} (h : Reached st s) {i : Nat} {l : List α} (hl : s[i]? = some l) :
    Part st s i l (blockOf st i) (offOf st s i) := by
  obtain ⟨hi, he⟩ := List.getElem?_eq_some_iff.1 hl
  cases st with
  | bucket b =>
    simp only [Reached] at h
    subst h
    have hne : b.isEmpty = false := by cases b <;> simp_all
    refine ⟨⟨[], [], by simp [Storage.mem, blockOf, hl], rfl⟩, ?_, ?_⟩
    · intro rev
      simp only [Storage.first, hne, hl, blockOf, offOf]
      cases rev <;> simp [here]
    · intro rev
      simp only [Storage.last, hne, hl, blockOf, offOf]
      cases rev <;> simp [here]
  | contig c =>
    have hR := reached_R h
    obtain ⟨X, Y, hs, hx⟩ : ∃ X Y, s = X ++ l :: Y ∧ X.length = i :=
      ⟨s.take i, s.drop (i + 1), by rw [← he, ← List.drop_eq_getElem_cons hi, List.take_append_drop], by simp; omega⟩
    subst hs
    subst hx
    have hb := beginOff_mid hR
    have hen := endOff_mid hR
    have hlen := bounds_len hR
    simp only [List.length_append, List.length_cons] at hlen
    have hd := data_mid hR
    have hoff : offOf (Storage.contig c) (X ++ l :: Y) X.length = X.flatten.length := by simp [offOf]
    have hsz : c.data.length = X.flatten.length + l.length + Y.flatten.length := by rw [hd]; simp only [List.length_append]
    rw [hoff]
    refine ⟨⟨X.flatten, Y.flatten, by simp [Storage.mem, blockOf, hd], rfl⟩, ?_, ?_⟩
    all_goals
      clear hoff
      generalize X.flatten.length = n at hb hen hsz ⊢
    · intro rev
      cases rev
      · simp only [Storage.first, Bool.false_eq_true, if_false, contigBegin, Iter.plus, Iter.addAssign, Base.add, hb]
        rw [if_pos (by simp [sizeAt]; omega)]
        simp [here, blockOf]; omega
      · simp only [Storage.first, if_true, contigEnd, Iter.minus, Iter.subAssign, Base.add, hen]
        rw [if_pos (by simp [sizeAt]; omega), if_pos (by omega)]
        simp [here, blockOf]; omega
    · intro rev
      cases rev
      · simp only [Storage.last, Bool.false_eq_true, if_false, contigEnd, Iter.plus, Iter.addAssign, Base.add, hen]
        rw [if_pos (by simp [sizeAt]; omega), if_pos (by omega)]
        simp [here, blockOf]; omega
      · simp only [Storage.last, if_true, contigBegin, Iter.minus, Iter.subAssign, Base.add, hb]
        rw [if_pos (by simp [sizeAt]; omega)]
        simp [here, blockOf]; omega

theorem run_snoc' {σ op β : Type} (step : σ → op → Outcome σ β) (o : op) (b : β) (t' : σ) :
    ∀ (ops : List op) (s t : σ) (outs : List (Option β)), run step s ops = some (t, outs) → step t o = .ret t' b →
      run step s (ops ++ [o]) = some (t', outs ++ [some b]) := by
  intro ops
  induction ops with
  | nil =>
    intro s t outs h ho
    simp only [run, Option.some.injEq, Prod.mk.injEq] at h
    obtain ⟨rfl, rfl⟩ := h
    simp [run, ho]
  | cons p ps ih =>
    intro s t outs h ho
    simp only [List.cons_append, run] at h ⊢
    split at h
    · rename_i s' c' hc
      cases hr : run step s' ps with
      | none => simp [hr] at h
      | some r =>
        simp only [hr, Option.map_some, Option.some.injEq, Prod.mk.injEq] at h
        obtain ⟨rfl, rfl⟩ := h
        simp [ih s' r.1 r.2 hr ho]
    · rename_i s' hc
      cases hr : run step s' ps with
      | none => simp [hr] at h
      | some r =>
        simp only [hr, Option.map_some, Option.some.injEq, Prod.mk.injEq] at h
        obtain ⟨rfl, rfl⟩ := h
        simp [ih s' r.1 r.2 hr ho]
    · cases h

theorem reached_step {c c' : Contig α} {s s' : List (List α)} (h : Reached (.contig c) s) (o : Op α) (v : Val α)
    (h1 : c.step o = .ret c' v) (h2 : lolStep s o = .ret s' v) : Reached (.contig c') s' := by
  obtain ⟨ls, ops, outs, c₀, a1, a2, a3⟩ := h
  exact ⟨ls, ops ++ [o], outs ++ [some v], c₀, a1, run_snoc' _ o v c' ops c₀ c outs a2 h1,
    run_snoc' _ o v s' ops ls s outs a3 h2⟩

theorem set_atList (s : List (List α)) (i : Nat) (l m : List α) (f : List α → List α) (hl : s[i]? = some l)
    (hm : f l = m) : s.set i m = atList s i f := by
  apply List.ext_getElem?
  intro j
  unfold atList
  rw [List.getElem?_mapIdx, List.getElem?_set]
  by_cases hij : i = j
  · subst hij
    have := (List.getElem?_eq_some_iff.1 hl).1
    rw [if_pos rfl, if_pos this, hl]
    simp [hm]
  · simp [hij]
    cases s[j]? <;> simp <;> omega

theorem atList_get (s : List (List α)) (i : Nat) (l : List α) (f : List α → List α) (hl : s[i]? = some l) :
    (atList s i f)[i]? = some (f l) := by
  unfold atList
  rw [List.getElem?_mapIdx, hl]; simp

theorem atList_take (s : List (List α)) (i : Nat) (f : List α → List α) : (atList s i f).take i = s.take i := by
  apply List.ext_getElem?
  intro j
  unfold atList
  by_cases hj : j < i
  · rw [List.getElem?_take_of_lt hj, List.getElem?_take_of_lt hj, List.getElem?_mapIdx]
    cases s[j]? <;> simp <;> omega
  · rw [List.getElem?_take_eq_none (by omega), List.getElem?_take_eq_none (by omega)]

theorem insertIdx_eq (l : List α) (k : Nat) (a : α) (hk : k ≤ l.length) : l.insertIdx k a = l.take k ++ a :: l.drop k := by
  have := insertIdx_mid ([] : List α) l [] k a hk
  simpa using this

theorem eraseIdx_eq (l : List α) (k : Nat) : l.eraseIdx k = l.take k ++ l.drop (k + 1) := List.eraseIdx_eq_take_drop_succ ..

theorem insertAt_here {st : Storage α} {s : List (List α)} (h : Reached st s) {i : Nat} {l : List α} (hl : s[i]? = some l)
    (k : Nat) (hk : k ≤ l.length) (a : α) :
    ∃ st', st.insertAt ⟨some i, here (blockOf st i) (offOf st s i) l.length false k⟩ a =
        .ret st' ⟨some i, here (blockOf st i) (offOf st s i) l.length false k⟩ ∧
      Reached st' (atList s i fun l => l.take k ++ a :: l.drop k) ∧ blockOf st' i = blockOf st i ∧
      offOf st' (atList s i fun l => l.take k ++ a :: l.drop k) i = offOf st s i := by
  have hP := part_of h hl
  obtain ⟨hi, he⟩ := List.getElem?_eq_some_iff.1 hl
  cases st with
  | bucket b =>
    simp only [Reached] at h
    subst h
    refine ⟨.bucket (b.set i (l.insertIdx k a)), ?_, ?_, rfl, rfl⟩
    · simp [Storage.insertAt, hl, here, blockOf, offOf, emplace, hk, lift]
    · simp only [Reached]
      exact set_atList b i l _ _ hl (insertIdx_eq l k a hk).symm
  | contig c =>
    have hR := reached_R h
    obtain ⟨X, Y, hs, hx⟩ : ∃ X Y, s = X ++ l :: Y ∧ X.length = i :=
      ⟨s.take i, s.drop (i + 1), by rw [← he, ← List.drop_eq_getElem_cons hi, List.take_append_drop], by simp; omega⟩
    subst hs
    subst hx
    have hb := beginOff_mid hR
    have hen := endOff_mid hR
    have hlen := bounds_len hR
    simp only [List.length_append, List.length_cons] at hlen
    have hd := data_mid hR
    have hoff : offOf (Storage.contig c) (X ++ l :: Y) X.length = X.flatten.length := by simp [offOf]
    have hsz : c.data.length = X.flatten.length + l.length + Y.flatten.length := by rw [hd]; simp only [List.length_append]
    refine ⟨.contig ⟨mutateU c.bounds X.length c.bounds.length (· + 1), c.data.insertIdx (X.flatten.length + k) a⟩, ?_, ?_,
      rfl, ?_⟩
    · simp only [Storage.insertAt, hoff, here, blockOf, Bool.false_eq_true, if_false]
      rw [if_pos (by omega), if_pos (by simp)]
      simp only [emplace]
      rw [if_pos (by omega)]
      rfl
    · refine reached_step h (.insert X.length k a) (.iter X.length k) ?_ ?_
      · simp only [Contig.step, Contig.insert, hb, hen]
        rw [if_pos (by omega)]
        have : min k (X.flatten.length + l.length - X.flatten.length) = k := by omega
        rw [this]
      · simp only [lolStep, hl]
        have : min k l.length = k := by omega
        rw [this]
    · simp only [offOf, atList_take]

theorem eraseAt_here {st : Storage α} {s : List (List α)} (h : Reached st s) {i : Nat} {l : List α} (hl : s[i]? = some l)
    (k : Nat) (hk : k ≤ l.length) :
    ∃ st', st.eraseAt ⟨some i, here (blockOf st i) (offOf st s i) l.length false k⟩ =
        .ret st' ⟨some i, here (blockOf st i) (offOf st s i) l.length false k⟩ ∧
      Reached st' (atList s i fun l => l.take k ++ l.drop (k + 1)) ∧ blockOf st' i = blockOf st i ∧
      offOf st' (atList s i fun l => l.take k ++ l.drop (k + 1)) i = offOf st s i := by
  have hP := part_of h hl
  obtain ⟨hi, he⟩ := List.getElem?_eq_some_iff.1 hl
  have hnum : st.numPartitions = s.length := by
    cases st with
    | bucket b => simp only [Reached] at h; subst h; rfl
    | contig c => exact bounds_len (reached_R h)
  unfold Storage.eraseAt
  simp only [hP.last]
  rw [if_neg (by omega)]
  simp only [lift, Iter.eq, sub_here (l := l) (block := blockOf st i) (off := offOf st s i) false k l.length hk (by omega), bind_ok]
  by_cases hkl : k = l.length
  · subst hkl
    simp only [Int.sub_self, decide_true, if_true]
    have hsame : (atList s i fun l_1 => List.take l.length l_1 ++ List.drop (l.length + 1) l_1) = s := by
      rw [← set_atList s i l l (fun l_1 => List.take l.length l_1 ++ List.drop (l.length + 1) l_1) hl (by simp)]
      rw [← he]; exact List.set_getElem_self _
    rw [hsame]
    exact ⟨st, rfl, h, rfl, rfl⟩
  · have hne : ¬ ((k : Int) - l.length = 0) := by omega
    simp only [hne, decide_false, Bool.false_eq_true, if_false]
    have hk' : k < l.length := by omega
    cases st with
    | bucket b =>
      simp only [Reached] at h
      subst h
      refine ⟨.bucket (b.set i (l.eraseIdx k)), ?_, ?_, rfl, rfl⟩
      · simp [hl, here, blockOf, offOf, Iterators.eraseAt, hk', lift]
      · simp only [Reached]
        exact set_atList b i l _ _ hl (eraseIdx_eq l k).symm
    | contig c =>
      have hR := reached_R h
      obtain ⟨X, Y, hs, hx⟩ : ∃ X Y, s = X ++ l :: Y ∧ X.length = i :=
        ⟨s.take i, s.drop (i + 1), by rw [← he, ← List.drop_eq_getElem_cons hi, List.take_append_drop], by simp; omega⟩
      subst hs
      subst hx
      have hb := beginOff_mid hR
      have hen := endOff_mid hR
      have hlen := bounds_len hR
      simp only [List.length_append, List.length_cons] at hlen
      have hd := data_mid hR
      have hoff : offOf (Storage.contig c) (X ++ l :: Y) X.length = X.flatten.length := by simp [offOf]
      have hsz : c.data.length = X.flatten.length + l.length + Y.flatten.length := by
        rw [hd]; simp only [List.length_append]
      refine ⟨.contig ⟨mutateU c.bounds X.length c.bounds.length (· - 1), c.data.eraseIdx (X.flatten.length + k)⟩, ?_, ?_,
        rfl, ?_⟩
      · simp only [hoff, here, blockOf, Bool.false_eq_true, if_false, Iterators.eraseAt]
        rw [if_pos (by omega)]
      · refine reached_step h (.erase X.length k) (.iter X.length k) ?_ ?_
        · simp only [Contig.step, Contig.erase, hb, hen]
          rw [if_pos (by omega)]
          have : min k (X.flatten.length + l.length - X.flatten.length) = k := by omega
          rw [this, if_neg (by omega)]
        · simp only [lolStep, hl]
          have : min k l.length = k := by omega
          rw [this]
      · simp only [offOf, atList_take]

end Verif.Iterators
