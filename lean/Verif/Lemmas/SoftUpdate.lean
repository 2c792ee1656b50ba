import Verif.Spec.SoftUpdate
/- Lemmas about the update of directories. -/
set_option linter.unusedSectionVars false

namespace Verif.SoftUpdate
open Verif.Spec.SoftUpdate

section
variable {N C S : Type} [LinearOrder N] [DecidableEq C] {nm : Naming N} {reduce : C → C → C}

/-- Sorted, without two entries of the same name. -/
def Strict (l : Entries N C S) : Prop := l.Pairwise fun x y => x.1 < y.1

theorem mem_keys {n : N} {l : Entries N C S} : n ∈ keys l ↔ ∃ x ∈ l, x.1 = n := by simp [keys]

theorem lookup_none {n : N} {l : Entries N C S} : lookup n l = none ↔ n ∉ keys l := by
  unfold lookup keys
  rw [Option.map_eq_none_iff, List.find?_eq_none]
  simp only [decide_eq_true_eq, List.mem_map, not_exists, not_and]

theorem lookup_append (n : N) (l m : Entries N C S) : lookup n (l ++ m) = (lookup n l).or (lookup n m) := by
  unfold lookup
  rw [List.find?_append]
  cases l.find? _ <;> rfl

theorem lookup_singleton (n m : N) (v : C ⊕ S) : lookup n [(m, v)] = if m = n then some v else none := by
  unfold lookup
  by_cases h : m = n <;> simp [h]

theorem lookup_append_left {n : N} {l m : Entries N C S} (h : n ∉ keys m) : lookup n (l ++ m) = lookup n l := by
  rw [lookup_append, lookup_none.mpr h]; cases lookup n l <;> rfl

theorem lookup_append_right {n : N} {l m : Entries N C S} (h : n ∉ keys l) : lookup n (l ++ m) = lookup n m := by
  rw [lookup_append, lookup_none.mpr h]; rfl

theorem lookup_mem {n : N} {v : C ⊕ S} {l : Entries N C S} (h : lookup n l = some v) : (n, v) ∈ l := by
  unfold lookup at h
  rw [Option.map_eq_some_iff] at h
  obtain ⟨e, h1, h2⟩ := h
  have := List.find?_some h1
  simp only [decide_eq_true_eq] at this
  subst this; subst h2
  exact List.mem_of_find?_eq_some h1

theorem lookup_of_mem {n : N} {v : C ⊕ S} {l : Entries N C S} (hd : (keys l).Nodup) (h : (n, v) ∈ l) : lookup n l = some v := by
  induction l with
  | nil => simp at h
  | cons e l ih =>
    simp only [keys, List.map_cons, List.nodup_cons] at hd
    unfold lookup
    rw [List.find?_cons]
    rcases List.mem_cons.mp h with rfl | h
    · simp
    · have hne : ¬ e.1 = n := by
        rintro rfl
        exact hd.1 (List.mem_map.mpr ⟨_, h, rfl⟩)
      simp only [hne, decide_false]
      exact ih hd.2 h

theorem strict_nodup {l : Entries N C S} (h : Strict l) : (keys l).Nodup := by
  unfold keys List.Nodup
  rw [List.pairwise_map]
  exact h.imp fun h => ne_of_lt h

theorem lookup_perm {l m : Entries N C S} (h : l.Perm m) (hd : (keys l).Nodup) (n : N) : lookup n l = lookup n m := by
  have hd' : (keys m).Nodup := (h.map (fun x : N × (C ⊕ S) => x.1)).nodup_iff.mp hd
  cases hl : lookup n l with
  | none =>
    have := lookup_none.mp hl
    exact (lookup_none.mpr fun hm => this ((h.map (fun x : N × (C ⊕ S) => x.1)).mem_iff.mpr hm)).symm
  | some v => exact (lookup_of_mem hd' (h.mem_iff.mp (lookup_mem hl))).symm

theorem insertEntry_perm (x : N × (C ⊕ S)) : ∀ l : Entries N C S, (insertEntry x l).Perm (x :: l)
  | [] => .refl _
  | y :: l => by
    unfold insertEntry
    split
    · exact ((insertEntry_perm x l).cons y).trans (.swap x y l)
    · exact .refl _

theorem sortEntries_perm : ∀ l : Entries N C S, (sortEntries l).Perm l
  | [] => .refl _
  | x :: l => (insertEntry_perm x _).trans ((sortEntries_perm l).cons x)

theorem insertEntry_strict {x : N × (C ⊕ S)} : ∀ {l : Entries N C S}, Strict l → x.1 ∉ keys l → Strict (insertEntry x l)
  | [], _, _ => by simp [insertEntry, Strict]
  | y :: l, h, hx => by
    have hne : ¬ y.1 = x.1 := fun h => hx (by simp [keys, h])
    have h' := List.pairwise_cons.mp h
    unfold insertEntry less
    rw [if_neg hne]
    simp only [decide_eq_true_eq]
    split
    · rename_i hlt
      refine List.pairwise_cons.mpr ⟨?_, insertEntry_strict h'.2 fun hm => hx (List.mem_cons_of_mem _ hm)⟩
      intro z hz
      rcases List.mem_cons.mp ((insertEntry_perm x l).mem_iff.mp hz) with rfl | hz
      · exact hlt
      · exact h'.1 z hz
    · rename_i hlt
      have hxy : x.1 < y.1 := lt_of_le_of_ne (not_lt.mp hlt) fun h => hne h.symm
      refine List.pairwise_cons.mpr ⟨?_, h⟩
      intro z hz
      rcases List.mem_cons.mp hz with rfl | hz
      · exact hxy
      · exact lt_trans hxy (h'.1 z hz)

theorem sortEntries_strict : ∀ {l : Entries N C S}, (keys l).Nodup → Strict (sortEntries l)
  | [], _ => List.Pairwise.nil
  | x :: l, hd => by
    have hd' := List.nodup_cons.mp (show (x.1 :: keys l).Nodup from hd)
    refine insertEntry_strict (sortEntries_strict hd'.2) fun hm => hd'.1 ?_
    exact ((sortEntries_perm l).map (fun x : N × (C ⊕ S) => x.1)).mem_iff.mp hm

theorem strict_append {l m : Entries N C S} (h : Strict (l ++ m)) : Strict l ∧ Strict m ∧ ∀ a ∈ l, ∀ b ∈ m, a.1 < b.1 := by
  unfold Strict at *
  rwa [List.pairwise_append] at h

variable {sub : S → S → Res (S × S)} {Sub : S → S → S → S → Prop}

/-- What holds while two sorted lists of entries are worked through. -/
structure Inv (nm : Naming N) (reduce : C → C → C) (Sub : S → S → S → S → Prop) (F T : Entries N C S) (s : Done N C S) (frm to pf pt : Entries N C S) : Prop where
  eqF : F = pf ++ frm
  eqT : T = pt ++ to
  keysTo : keys s.to = keys pf
  keysFrm : keys s.frm = keys pf
  before : ∀ a ∈ pf, ∀ y ∈ to, a.1 < y.1
  removed : ∀ b ∈ pt, ∀ x ∈ frm, b.1 < x.1 ∨ (b.1 = x.1 ∧ kind b.2 = 1 ∧ kind x.2 = 2)
  settled : ∀ n, n ∉ keys frm → n ∉ keys to → UpdatedAt nm reduce Sub (fun n => lookup n F) (fun n => lookup n T) (fun n => lookup n s.frm) (fun n => lookup n s.to) n

/-- Only names before the present one matter for what has been settled. -/
theorem updatedAt_congr {f o g w g' w' : N → Option (C ⊕ S)} {n : N} (h : UpdatedAt nm reduce Sub f o g w n) (hg : g' n = g n) (hw : w' n = w n)
    (hlt : ∀ c, f n = some (.inl c) → ∀ m < n, w' m = w m) : UpdatedAt nm reduce Sub f o g' w' n := by
  have hsame : ∀ c c' d, f n = some (.inl d) → (Same nm reduce o w' n c c' ↔ Same nm reduce o w n c c') := by
    intro c c' d hd
    have : patterns nm o w' n = patterns nm o w n := by
      unfold patterns
      split
      · rfl
      · split
        · rename_i h; exact hlt d hd _ h
        · rfl
    unfold Same
    rw [this]
  unfold UpdatedAt at *
  rw [hg, hw]
  split at h
  · exact h
  · exact h
  · rename_i hf ho
    rw [hsame _ _ _ hf]
    exact h
  · exact h
  · exact h
  · exact h

theorem updatedAt_none {f o g w : N → Option (C ⊕ S)} {n : N} (h : f n = none) (hg : g n = none) (hw : w n = none) : UpdatedAt nm reduce Sub f o g w n := by
  unfold UpdatedAt
  rw [h]
  exact ⟨hg, hw⟩

theorem Inv.pair {F T frm to pf pt : Entries N C S} {s s' : Done N C S} {x y : N × (C ⊕ S)} (hF : Strict F) (hT : Strict T)
    (hsub : ∀ d d' e e', sub d d' = .ok (e, e') → Sub d d' e e') (h : Inv nm reduce Sub F T s (x :: frm) (y :: to) pf pt)
    (he : equiv x y = true) (hp : pair nm reduce sub x.1 x.2 y.2 (y :: to) s = .ok s') : Inv nm reduce Sub F T s' frm to (pf ++ [x]) (pt ++ [y]) := by
  unfold equiv at he
  simp only [Bool.and_eq_true, decide_eq_true_eq] at he
  have hF' := hF; have hT' := hT
  rw [h.eqF] at hF'
  rw [h.eqT] at hT'
  obtain ⟨_, f2, f3⟩ := strict_append hF'
  obtain ⟨_, t2, t3⟩ := strict_append hT'
  have f4 : ∀ b ∈ frm, x.1 < b.1 := (List.pairwise_cons.mp f2).1
  have t4 : ∀ b ∈ to, y.1 < b.1 := (List.pairwise_cons.mp t2).1
  -- what the pair does
  obtain ⟨vf, vt, e1, e2⟩ : ∃ vf vt, s'.frm = s.frm ++ [(x.1, vf)] ∧ s'.to = s.to ++ [(x.1, vt)] := by
    unfold SoftUpdate.pair at hp
    split at hp
    · cases hr : reduced nm reduce x.1 _ _ (s.to ++ y :: to) with
      | ok r => rw [hr] at hp; cases hp; exact ⟨_, _, rfl, rfl⟩
      | throws => rw [hr] at hp; cases hp
      | ub => rw [hr] at hp; cases hp
    · cases hr : sub _ _ with
      | ok r => rw [hr] at hp; cases hp; exact ⟨_, _, rfl, rfl⟩
      | throws => rw [hr] at hp; cases hp
      | ub => rw [hr] at hp; cases hp
    · cases hp
  have hxto : x.1 ∉ keys s.to := by
    rw [h.keysTo, mem_keys]
    rintro ⟨a, ha, hx⟩
    exact absurd hx (ne_of_lt (f3 a ha x (by simp)))
  have hxfrm : x.1 ∉ keys s.frm := by rw [h.keysFrm, ← h.keysTo]; exact hxto
  have lf : ∀ n, lookup n s'.frm = if x.1 = n then some vf else lookup n s.frm := by
    intro n
    rw [e1]
    split
    · rename_i hx; subst hx; rw [lookup_append_right hxfrm, lookup_singleton, if_pos rfl]
    · rename_i hx; rw [lookup_append_left]; simpa [keys] using fun h => hx h.symm
  have lt : ∀ n, lookup n s'.to = if x.1 = n then some vt else lookup n s.to := by
    intro n
    rw [e2]
    split
    · rename_i hx; subst hx; rw [lookup_append_right hxto, lookup_singleton, if_pos rfl]
    · rename_i hx; rw [lookup_append_left]; simpa [keys] using fun h => hx h.symm
  refine ⟨by rw [h.eqF]; simp, by rw [h.eqT]; simp, ?_, ?_, ?_, ?_, ?_⟩
  · rw [e2, keys, List.map_append, ← keys, h.keysTo]; simp [keys]
  · rw [e1, keys, List.map_append, ← keys, h.keysFrm]; simp [keys]
  · intro a ha b hb
    rcases List.mem_append.mp ha with ha | ha
    · exact h.before a ha b (by simp [hb])
    · have : a = x := by simpa using ha
      rw [this, he.1]
      exact t4 b hb
  · intro b hb a ha
    left
    rcases List.mem_append.mp hb with hb | hb
    · exact lt_trans (by rw [he.1]; exact t3 b hb y (by simp)) (f4 a ha)
    · have : b = y := by simpa using hb
      rw [this, ← he.1]
      exact f4 a ha
  · intro n hn1 hn2
    by_cases hx : x.1 = n
    · subst hx
      have lF : lookup x.1 F = some x.2 := lookup_of_mem (strict_nodup hF) (by rw [h.eqF]; simp)
      have lT : lookup x.1 T = some y.2 := by
        rw [he.1]
        exact lookup_of_mem (strict_nodup hT) (by rw [h.eqT]; simp)
      unfold UpdatedAt
      simp only [lF, lT]
      unfold SoftUpdate.pair at hp
      split at hp
      · rename_i c c' hxc hyc
        have hpat : ∀ m, (if m < x.1 then lookup m s'.to else lookup m T) = lookup m (s.to ++ y :: to) := by
          intro m
          split
          · rename_i hm
            rw [lt, if_neg (ne_of_gt hm), lookup_append_left]
            rw [mem_keys]
            rintro ⟨b, hb, rfl⟩
            rw [he.1] at hm
            rcases List.mem_cons.mp hb with rfl | hb
            · exact absurd hm (lt_irrefl _)
            · exact absurd (lt_trans hm (t4 b hb)) (lt_irrefl _)
          · rename_i hm
            rw [h.eqT, lookup_append_right, lookup_append_right]
            · rw [h.keysTo, mem_keys]
              rintro ⟨b, hb, rfl⟩
              exact hm (f3 b hb x (by simp))
            · rw [mem_keys]
              rintro ⟨b, hb, rfl⟩
              exact hm (by rw [he.1]; exact t3 b hb y (by simp))
        have hred : ∃ r r', reduced nm reduce x.1 c c' (s.to ++ y :: to) = .ok (r, r') ∧ vf = .inl c ∧ vt = .inl (if r ≠ r' then c else c') := by
          cases hr : reduced nm reduce x.1 c c' (s.to ++ y :: to) with
          | ok r =>
            rw [hr] at hp
            obtain ⟨r, r'⟩ := r
            simp only [Res.bind, Res.ok.injEq] at hp
            subst hp
            simp only [List.append_cancel_left_eq, List.cons.injEq, Prod.mk.injEq, true_and, and_true] at e1 e2
            exact ⟨r, r', rfl, e1.symm, e2.symm⟩
          | throws => rw [hr] at hp; cases hp
          | ub => rw [hr] at hp; cases hp
        obtain ⟨r, r', hr, rfl, rfl⟩ := hred
        have hsame : Same nm reduce (fun n => lookup n T) (fun n => lookup n s'.to) x.1 c c' ↔ r = r' := by
          unfold Same patterns
          unfold reduced at hr
          by_cases hip : nm.isPattern x.1 = true
          · rw [if_pos hip] at hr ⊢
            cases hr
            exact Iff.rfl
          · rw [if_neg hip] at hr ⊢
            simp only
            rw [hpat]
            cases hl : lookup (nm.patternOf x.1) (s.to ++ y :: to) with
            | none => rw [hl] at hr; cases hr; exact Iff.rfl
            | some v =>
              rw [hl] at hr
              cases v with
              | inl p => cases hr; exact Iff.rfl
              | inr d => cases hr
        rw [hxc, hyc]
        refine ⟨by rw [lf, if_pos rfl], ?_, ?_⟩
        · intro hs
          rw [lt, if_pos rfl, if_neg (by simpa using hsame.mp hs)]
        · intro hs
          rw [lt, if_pos rfl, if_pos (fun h => hs (hsame.mpr h))]
      · rename_i d d' hxd hyd
        cases hr : sub d d' with
        | ok r =>
          obtain ⟨e, e'⟩ := r
          rw [hr] at hp
          simp only [Res.bind, Res.ok.injEq] at hp
          subst hp
          simp only [List.append_cancel_left_eq, List.cons.injEq, Prod.mk.injEq, true_and, and_true] at e1 e2
          subst e1; subst e2
          rw [hxd, hyd]
          exact ⟨e, e', by rw [lf, if_pos rfl], by rw [lt, if_pos rfl], hsub _ _ _ _ hr⟩
        | throws => rw [hr] at hp; cases hp
        | ub => rw [hr] at hp; cases hp
      · cases hp
    · have hn1' : n ∉ keys (x :: frm) := by
        rw [mem_keys]; rintro ⟨b, hb, rfl⟩
        rcases List.mem_cons.mp hb with rfl | hb
        · exact hx rfl
        · exact hn1 (mem_keys.mpr ⟨b, hb, rfl⟩)
      have hn2' : n ∉ keys (y :: to) := by
        rw [mem_keys]; rintro ⟨b, hb, rfl⟩
        rcases List.mem_cons.mp hb with rfl | hb
        · exact hx he.1
        · exact hn2 (mem_keys.mpr ⟨b, hb, rfl⟩)
      refine updatedAt_congr (h.settled n hn1' hn2') (by simp only [lf, if_neg hx]) (by simp only [lt, if_neg hx]) ?_
      intro c hc m hm
      have hmem := lookup_mem hc
      rw [h.eqF] at hmem
      rcases List.mem_append.mp hmem with hmem | hmem
      · have := f3 _ hmem x (by simp)
        simp only at this
        rw [lt, if_neg (ne_of_gt (lt_trans hm this))]
      · exact absurd (mem_keys.mpr ⟨_, hmem, rfl⟩) hn1'

theorem Inv.copy {F T frm to pf pt : Entries N C S} {s : Done N C S} {x : N × (C ⊕ S)} (hF : Strict F) (hT : Strict T)
    (h : Inv nm reduce Sub F T s (x :: frm) to pf pt) (hle : goesFirst x to = true)
    (hl : lookup x.1 (s.to ++ to) = none) : Inv nm reduce Sub F T ⟨s.frm ++ [x], s.to ++ [x]⟩ frm to (pf ++ [x]) pt := by
  have hF' := hF; have hT' := hT
  rw [h.eqF] at hF'
  rw [h.eqT] at hT'
  obtain ⟨_, f2, f3⟩ := strict_append hF'
  obtain ⟨_, t2, t3⟩ := strict_append hT'
  have f4 : ∀ b ∈ frm, x.1 < b.1 := (List.pairwise_cons.mp f2).1
  have hxn := lookup_none.mp hl
  have hxto : x.1 ∉ keys s.to := fun h => hxn (by simp only [keys, List.map_append, List.mem_append] at h ⊢; exact .inl h)
  have hxt : x.1 ∉ keys to := fun h => hxn (by simp only [keys, List.map_append, List.mem_append] at h ⊢; exact .inr h)
  have hxfrm : x.1 ∉ keys s.frm := by rw [h.keysFrm, ← h.keysTo]; exact hxto
  have hlt : ∀ b ∈ to, x.1 < b.1 := by
    cases to with
    | nil => simp
    | cons y to =>
      have hle : less x y = true := hle
      have hne : ¬ x.1 = y.1 := fun h => hxt (mem_keys.mpr ⟨y, by simp, h.symm⟩)
      unfold less at hle
      rw [if_neg hne, decide_eq_true_eq] at hle
      intro b hb
      rcases List.mem_cons.mp hb with rfl | hb
      · exact hle
      · exact lt_trans hle ((List.pairwise_cons.mp t2).1 b hb)
  have lf : ∀ n, lookup n (s.frm ++ [x]) = if x.1 = n then some x.2 else lookup n s.frm := by
    intro n
    split
    · rename_i hx; subst hx; rw [lookup_append_right hxfrm, lookup_singleton, if_pos rfl]
    · rename_i hx; rw [lookup_append_left]; simpa [keys] using fun h => hx h.symm
  have lt : ∀ n, lookup n (s.to ++ [x]) = if x.1 = n then some x.2 else lookup n s.to := by
    intro n
    split
    · rename_i hx; subst hx; rw [lookup_append_right hxto, lookup_singleton, if_pos rfl]
    · rename_i hx; rw [lookup_append_left]; simpa [keys] using fun h => hx h.symm
  refine ⟨by rw [h.eqF]; simp, h.eqT, ?_, ?_, ?_, ?_, ?_⟩
  · simp only [keys, List.map_append]; have := h.keysTo; unfold keys at this; rw [this]
  · simp only [keys, List.map_append]; have := h.keysFrm; unfold keys at this; rw [this]
  · intro a ha b hb
    rcases List.mem_append.mp ha with ha | ha
    · exact h.before a ha b hb
    · have : a = x := by simpa using ha
      rw [this]; exact hlt b hb
  · intro b hb a ha
    exact h.removed b hb a (by simp [ha])
  · intro n hn1 hn2
    by_cases hx : x.1 = n
    · subst hx
      have lF : lookup x.1 F = some x.2 := lookup_of_mem (strict_nodup hF) (by rw [h.eqF]; simp)
      have e1 := lf x.1
      have e2 := lt x.1
      rw [if_pos rfl] at e1 e2
      unfold UpdatedAt
      simp only [lF, e1, e2]
      -- what has been removed under that name
      have hrem : lookup x.1 T = none ∨ ∃ c, lookup x.1 T = some (.inl c) ∧ kind x.2 = 2 := by
        rw [h.eqT, lookup_append_left hxt]
        cases hlp : lookup x.1 pt with
        | none => exact .inl rfl
        | some v =>
          right
          rcases h.removed _ (lookup_mem hlp) x (by simp) with h | ⟨_, h1, h2⟩
          · exact absurd h (lt_irrefl _)
          · cases v with
            | inl c => exact ⟨c, rfl, h2⟩
            | inr d => simp [kind] at h1
      rcases hrem with h0 | ⟨c, h0, hk⟩
      · rw [h0]
        cases x.2 <;> exact ⟨rfl, rfl⟩
      · rw [h0]
        cases hv : x.2 with
        | inl _ => rw [hv] at hk; simp [kind] at hk
        | inr _ => exact ⟨rfl, rfl⟩
    · have hn1' : n ∉ keys (x :: frm) := by
        rw [mem_keys]; rintro ⟨b, hb, rfl⟩
        rcases List.mem_cons.mp hb with rfl | hb
        · exact hx rfl
        · exact hn1 (mem_keys.mpr ⟨b, hb, rfl⟩)
      refine updatedAt_congr (h.settled n hn1' hn2) (by simp only [lf, if_neg hx]) (by simp only [lt, if_neg hx]) ?_
      intro c hc m hm
      have hmem := lookup_mem hc
      rw [h.eqF] at hmem
      rcases List.mem_append.mp hmem with hmem | hmem
      · have := f3 _ hmem x (by simp)
        simp only at this
        rw [lt, if_neg (ne_of_gt (lt_trans hm this))]
      · exact absurd (mem_keys.mpr ⟨_, hmem, rfl⟩) hn1'

theorem Inv.remove {F T frm to pf pt : Entries N C S} {s : Done N C S} {x y : N × (C ⊕ S)} (hF : Strict F)
    (h : Inv nm reduce Sub F T s (x :: frm) (y :: to) pf pt) (hle : less y x = true) : Inv nm reduce Sub F T s (x :: frm) to pf (pt ++ [y]) := by
  have hF' := hF
  rw [h.eqF] at hF'
  obtain ⟨_, f2, f3⟩ := strict_append hF'
  have f4 : ∀ b ∈ frm, x.1 < b.1 := (List.pairwise_cons.mp f2).1
  have hyx : y.1 < x.1 ∨ (y.1 = x.1 ∧ kind y.2 = 1 ∧ kind x.2 = 2) := by
    unfold less at hle
    split at hle
    · rename_i he
      right
      refine ⟨he, ?_⟩
      simp only [decide_eq_true_eq] at hle
      cases hy : y.2 <;> cases hx : x.2 <;> rw [hy, hx] at hle <;> simp [kind] at hle ⊢
    · left; simpa using hle
  refine ⟨h.eqF, by rw [h.eqT]; simp, h.keysTo, h.keysFrm, fun a ha b hb => h.before a ha b (by simp [hb]), ?_, ?_⟩
  · intro b hb a ha
    rcases List.mem_append.mp hb with hb | hb
    · exact h.removed b hb a ha
    · have : b = y := by simpa using hb
      subst this
      rcases List.mem_cons.mp ha with rfl | ha
      · exact hyx
      · left
        rcases hyx with h | h
        · exact lt_trans h (f4 a ha)
        · rw [h.1]; exact f4 a ha
  · intro n hn1 hn2
    by_cases hy : y.1 = n
    · subst hy
      have hpf : y.1 ∉ keys pf := by
        rw [mem_keys]; rintro ⟨b, hb, he⟩
        exact absurd he (ne_of_lt (h.before b hb y (by simp)))
      refine updatedAt_none ?_ ?_ ?_
      · rw [h.eqF, lookup_append_left hn1, lookup_none.mpr hpf]
      · rw [lookup_none, h.keysFrm]; exact hpf
      · rw [lookup_none, h.keysTo]; exact hpf
    · refine h.settled n hn1 ?_
      rw [mem_keys]; rintro ⟨b, hb, rfl⟩
      rcases List.mem_cons.mp hb with rfl | hb
      · exact hy rfl
      · exact hn2 (mem_keys.mpr ⟨b, hb, rfl⟩)

/-- Once the entries of the source have all been dealt with, what remains of the destination is removed. -/
theorem Inv.finish {F T to pf pt : Entries N C S} {s : Done N C S} (h : Inv nm reduce Sub F T s [] to pf pt) (n : N) :
    UpdatedAt nm reduce Sub (fun n => lookup n F) (fun n => lookup n T) (fun n => lookup n s.frm) (fun n => lookup n s.to) n := by
  by_cases hn : n ∈ keys to
  · obtain ⟨y, hy, rfl⟩ := mem_keys.mp hn
    have hpf : y.1 ∉ keys pf := by
      rw [mem_keys]; rintro ⟨b, hb, he⟩
      exact absurd he (ne_of_lt (h.before b hb y hy))
    refine updatedAt_none ?_ ?_ ?_
    · simp only [h.eqF, List.append_nil]; exact lookup_none.mpr hpf
    · rw [lookup_none, h.keysFrm]; exact hpf
    · rw [lookup_none, h.keysTo]; exact hpf
  · exact h.settled n (by simp [keys]) hn

theorem Inv.finalKeys {F T to pf pt : Entries N C S} {s : Done N C S} (h : Inv nm reduce Sub F T s [] to pf pt) : keys s.frm = keys F ∧ keys s.to = keys F := by
  rw [h.keysFrm, h.keysTo, h.eqF, List.append_nil]
  exact ⟨rfl, rfl⟩

theorem common_inv {F T : Entries N C S} (hF : Strict F) (hT : Strict T) (hsub : ∀ d d' e e', sub d d' = .ok (e, e') → Sub d d' e e') :
    ∀ (frm to : Entries N C S) {s s' : Done N C S} {frm' to' pf pt : Entries N C S}, Inv nm reduce Sub F T s frm to pf pt →
      common nm reduce sub frm to s = .ok (s', frm', to') → ∃ pf pt, Inv nm reduce Sub F T s' frm' to' pf pt
  | [], _, _, _, _, _, pf, pt, h, hc => by cases hc; exact ⟨pf, pt, h⟩
  | _ :: _, [], _, _, _, _, pf, pt, h, hc => by cases hc; exact ⟨pf, pt, h⟩
  | x :: frm, y :: to, s, s', frm', to', pf, pt, h, hc => by
    unfold common at hc
    split at hc
    · rename_i he
      cases hp : pair nm reduce sub x.1 x.2 y.2 (y :: to) s with
      | ok s₁ => rw [hp] at hc; exact common_inv hF hT hsub frm to (Inv.pair hF hT hsub h he hp) hc
      | throws => rw [hp] at hc; cases hc
      | ub => rw [hp] at hc; cases hc
    · cases hc; exact ⟨pf, pt, h⟩

theorem copyLoop_inv {F T : Entries N C S} (hF : Strict F) (hT : Strict T) (to : Entries N C S) :
    ∀ (frm : Entries N C S) {s s' : Done N C S} {frm' pf pt : Entries N C S}, Inv nm reduce Sub F T s frm to pf pt →
      copyLoop to frm s = .ok (s', frm') → ∃ pf pt, Inv nm reduce Sub F T s' frm' to pf pt
  | [], _, _, _, pf, pt, h, hc => by cases hc; exact ⟨pf, pt, h⟩
  | x :: frm, s, s', frm', pf, pt, h, hc => by
    unfold copyLoop at hc
    by_cases hle : goesFirst x to = true
    · rw [if_pos hle] at hc
      cases hl : lookup x.1 (s.to ++ to) with
      | some v => rw [hl] at hc; cases hc
      | none =>
        rw [hl] at hc
        exact copyLoop_inv hF hT to frm (Inv.copy hF hT h hle hl) hc
    · rw [if_neg hle] at hc
      cases hc; exact ⟨pf, pt, h⟩

theorem removeLoop_inv {F T frm : Entries N C S} (hF : Strict F) {s : Done N C S} {x : N × (C ⊕ S)} :
    ∀ (to : Entries N C S) {pf pt : Entries N C S}, Inv nm reduce Sub F T s (x :: frm) to pf pt → ∃ pf pt, Inv nm reduce Sub F T s (x :: frm) (removeLoop x to) pf pt
  | [], pf, pt, h => ⟨pf, pt, h⟩
  | y :: to, pf, pt, h => by
    unfold removeLoop
    rw [List.dropWhile_cons]
    split
    · rename_i hle
      exact removeLoop_inv hF to (Inv.remove hF h hle)
    · exact ⟨pf, pt, h⟩

theorem update_inv {F T : Entries N C S} (hF : Strict F) (hT : Strict T) (hsub : ∀ d d' e e', sub d d' = .ok (e, e') → Sub d d' e e') (fuel : Nat) :
    ∀ {frm to pf pt : Entries N C S} {s s' : Done N C S}, Inv nm reduce Sub F T s frm to pf pt → update nm reduce sub fuel frm to s = .ok s' →
      (keys s'.frm = keys F ∧ keys s'.to = keys F) ∧
        ∀ n, UpdatedAt nm reduce Sub (fun n => lookup n F) (fun n => lookup n T) (fun n => lookup n s'.frm) (fun n => lookup n s'.to) n := by
  induction fuel with
  | zero => intro _ _ _ _ _ _ _ h; cases h
  | succ fuel ih =>
    intro frm to pf pt s s' h hu
    unfold update at hu
    cases hc : common nm reduce sub frm to s with
    | throws => rw [hc] at hu; cases hu
    | ub => rw [hc] at hu; cases hu
    | ok r =>
      obtain ⟨s₁, frm₁, to₁⟩ := r
      obtain ⟨pf₁, pt₁, h₁⟩ := common_inv hF hT hsub frm to h hc
      rw [hc] at hu
      simp only [Res.bind] at hu
      cases frm₁ with
      | nil => cases hu; exact ⟨h₁.finalKeys, h₁.finish⟩
      | cons x frm₁ =>
        simp only at hu
        cases hl : copyLoop to₁ (x :: frm₁) s₁ with
        | throws => rw [hl] at hu; cases hu
        | ub => rw [hl] at hu; cases hu
        | ok r =>
          obtain ⟨s₂, frm₂⟩ := r
          obtain ⟨pf₂, pt₂, h₂⟩ := copyLoop_inv hF hT to₁ _ h₁ hl
          rw [hl] at hu
          simp only at hu
          cases to₁ with
          | nil =>
            cases hu
            have hnil : frm₂ = [] := by
              have : ∀ (l : Entries N C S) (s s' : Done N C S) (l' : Entries N C S), copyLoop [] l s = .ok (s', l') → l' = [] := by
                intro l
                induction l with
                | nil => intro s s' l' h; cases h; rfl
                | cons x l ih =>
                  intro s s' l' h
                  unfold copyLoop at h
                  rw [if_pos (show goesFirst x ([] : Entries N C S) = true from rfl)] at h
                  split at h
                  · cases h
                  · exact ih _ _ _ h
              exact this _ _ _ _ hl
            subst hnil
            exact ⟨h₂.finalKeys, h₂.finish⟩
          | cons y to₁ =>
            cases frm₂ with
            | nil => cases hu
            | cons z frm₂ =>
              simp only at hu
              obtain ⟨pf₃, pt₃, h₃⟩ := removeLoop_inv hF (y :: to₁) h₂
              exact ih h₃ hu

theorem Inv.start {F T : Entries N C S} : Inv nm reduce Sub F T ⟨[], []⟩ F T [] [] := by
  refine ⟨rfl, rfl, rfl, rfl, by simp, by simp, ?_⟩
  intro n h _
  exact updatedAt_none (lookup_none.mpr h) rfl rfl

/-! ### The files which are copied back -/

theorem copyInto_spec {n : N} {c : C} {l l' : Entries N C S} (h : copyInto n c l = .ok l') (hd : (keys l).Nodup) :
    (keys l').Nodup ∧ (∀ m, lookup m l' = if n = m then some (.inl c) else lookup m l) := by
  unfold copyInto at h
  cases hl : lookup n l with
  | none =>
    rw [hl] at h
    cases h
    have hn := lookup_none.mp hl
    refine ⟨?_, ?_⟩
    · unfold keys
      rw [List.map_append, List.nodup_append]
      refine ⟨hd, by simp, ?_⟩
      intro a ha b hb
      simp only [List.map_cons, List.map_nil, List.mem_singleton] at hb
      rintro rfl
      exact hn (hb ▸ ha)
    · intro m
      split
      · rename_i h; subst h; rw [lookup_append_right hn, lookup_singleton, if_pos rfl]
      · rename_i h; rw [lookup_append_left]; simpa [keys] using fun e => h e.symm
  | some v =>
    rw [hl] at h
    cases v with
    | inr d => cases h
    | inl c0 =>
      cases h
      have hk : keys (l.map fun e => if e.1 = n then (n, .inl c) else e) = keys l := by
        unfold keys
        rw [List.map_map]
        apply List.map_congr_left
        intro e _
        simp only [Function.comp]
        split
        · rename_i h; exact h.symm
        · rfl
      refine ⟨by rw [hk]; exact hd, ?_⟩
      intro m
      split
      · rename_i h; subst h
        apply lookup_of_mem (by rw [hk]; exact hd)
        rw [List.mem_map]
        exact ⟨_, lookup_mem hl, by simp⟩
      · rename_i h
        cases hm : lookup m l with
        | none => rw [lookup_none, hk]; exact lookup_none.mp hm
        | some v =>
          apply lookup_of_mem (by rw [hk]; exact hd)
          rw [List.mem_map]
          exact ⟨_, lookup_mem hm, by rw [if_neg (fun e => h e.symm)]⟩

theorem copyInto_ok {n : N} {c : C} {l : Entries N C S} (h : ∀ d, lookup n l ≠ some (.inr d)) : ∃ l', copyInto n c l = .ok l' := by
  unfold copyInto
  cases hl : lookup n l with
  | none => exact ⟨_, rfl⟩
  | some v =>
    cases v with
    | inl _ => exact ⟨_, rfl⟩
    | inr d => exact absurd hl (h d)

theorem any_iff {frm : Entries N C S} {n : N} : (frm.any fun w => nm.stem w.1 = nm.stem n && !nm.isPattern w.1) = true ↔
    ∃ w, lookup w frm ≠ none ∧ nm.stem w = nm.stem n ∧ nm.isPattern w = false := by
  rw [List.any_eq_true]
  simp only [Bool.and_eq_true, decide_eq_true_eq, Bool.not_eq_true']
  constructor
  · rintro ⟨x, hx, h1, h2⟩
    refine ⟨x.1, ?_, h1, h2⟩
    rw [Ne, lookup_none, Classical.not_not]
    exact mem_keys.mpr ⟨x, hx, rfl⟩
  · rintro ⟨w, hw, h1, h2⟩
    rw [Ne, lookup_none, Classical.not_not] at hw
    obtain ⟨x, hx, rfl⟩ := mem_keys.mp hw
    exact ⟨x, hx, h1, h2⟩

/-- Whether a file has a partner does not depend on what has been copied back. -/
theorem partner_congr {frm g : N → Option (C ⊕ S)} {n : N} (hk : ∀ k, nm.isKeep k = true → nm.stem k ≠ nm.stem n)
    (h : ∀ w, nm.isPattern w = false → nm.isKeep w = false → g w = frm w) :
    (∃ w, g w ≠ none ∧ nm.stem w = nm.stem n ∧ nm.isPattern w = false) ↔ (∃ w, frm w ≠ none ∧ nm.stem w = nm.stem n ∧ nm.isPattern w = false) := by
  have h1 : ∀ w, nm.stem w = nm.stem n → nm.isPattern w = false → g w = frm w := by
    intro w hs hp
    apply h w hp
    cases hkw : nm.isKeep w with
    | false => rfl
    | true => exact absurd hs (hk w hkw)
  constructor
  · rintro ⟨w, a, b, c⟩; exact ⟨w, by rw [← h1 w b c]; exact a, b, c⟩
  · rintro ⟨w, a, b, c⟩; exact ⟨w, by rw [h1 w b c]; exact a, b, c⟩

/-- The state of the source after files have been copied back. -/
theorem copyBack_spec (frm₀ : N → Option (C ⊕ S)) (to₀ : Entries N C S) (hto : (keys to₀).Nodup) (hk : NoPatternForKeep nm to₀) :
    ∀ (to done frm frm' : Entries N C S), to₀ = done ++ to → (keys frm).Nodup →
      (∀ n, (n ∈ keys done ∧ Special nm frm₀ (fun n => lookup n to₀) n → lookup n frm = lookup n to₀) ∧
        (¬ (n ∈ keys done ∧ Special nm frm₀ (fun n => lookup n to₀) n) → lookup n frm = frm₀ n)) →
      copyBack nm to frm = .ok frm' → (keys frm').Nodup ∧
      ∀ n, (Special nm frm₀ (fun n => lookup n to₀) n → lookup n frm' = lookup n to₀) ∧ (¬ Special nm frm₀ (fun n => lookup n to₀) n → lookup n frm' = frm₀ n)
  | [], done, frm, frm', hd, hn, h, hc => by
    cases hc
    rw [List.append_nil] at hd
    refine ⟨hn, fun n => ⟨fun hs => (h n).1 ⟨?_, hs⟩, fun hs => (h n).2 fun h => hs h.2⟩⟩
    obtain ⟨c, h1⟩ := hs.1
    rw [← hd]
    exact mem_keys.mpr ⟨_, lookup_mem h1, rfl⟩
  | (n, v) :: to, done, frm, frm', hd, hn, h, hc => by
    have hd' : to₀ = (done ++ [(n, v)]) ++ to := by rw [hd]; simp
    have hln : lookup n to₀ = some v := lookup_of_mem hto (by rw [hd]; simp)
    have hmem : ∀ m, m ∈ keys (done ++ [(n, v)]) ↔ m ∈ keys done ∨ m = n := by
      intro m; simp [keys, eq_comm]
    have hndone : n ∉ keys done := by
      rw [hd] at hto
      simp only [keys, List.map_append, List.map_cons] at hto
      rw [List.nodup_append] at hto
      intro hm
      exact hto.2.2 n hm n (by simp) rfl
    -- an entry which is not copied
    have hskip : ¬ Special nm frm₀ (fun n => lookup n to₀) n → copyBack nm to frm = .ok frm' → (keys frm').Nodup ∧
      ∀ n, (Special nm frm₀ (fun n => lookup n to₀) n → lookup n frm' = lookup n to₀) ∧ (¬ Special nm frm₀ (fun n => lookup n to₀) n → lookup n frm' = frm₀ n) := by
      intro hns hc
      refine copyBack_spec frm₀ to₀ hto hk to _ frm frm' hd' hn ?_ hc
      intro m
      rw [hmem]
      constructor
      · rintro ⟨hm | rfl, hs⟩
        · exact (h m).1 ⟨hm, hs⟩
        · exact absurd hs hns
      · intro hm
        exact (h m).2 fun hh => hm ⟨.inl hh.1, hh.2⟩
    have hcopy : ∀ c, v = .inl c → Special nm frm₀ (fun n => lookup n to₀) n → (copyInto n c frm).bind (copyBack nm to) = .ok frm' → (keys frm').Nodup ∧
      ∀ n, (Special nm frm₀ (fun n => lookup n to₀) n → lookup n frm' = lookup n to₀) ∧ (¬ Special nm frm₀ (fun n => lookup n to₀) n → lookup n frm' = frm₀ n) := by
      intro c hv hs hc
      cases hi : copyInto n c frm with
      | throws => rw [hi] at hc; cases hc
      | ub => rw [hi] at hc; cases hc
      | ok frm₁ =>
        rw [hi] at hc
        obtain ⟨i1, i2⟩ := copyInto_spec hi hn
        refine copyBack_spec frm₀ to₀ hto hk to _ frm₁ frm' hd' i1 ?_ hc
        intro m
        rw [hmem, i2]
        constructor
        · rintro ⟨hm | rfl, hs'⟩
          · rw [if_neg (by rintro rfl; exact hndone hm)]
            exact (h m).1 ⟨hm, hs'⟩
          · rw [if_pos rfl, hln, hv]
        · intro hm
          rw [if_neg (by rintro rfl; exact hm ⟨.inr rfl, hs⟩)]
          exact (h m).2 fun hh => hm ⟨.inl hh.1, hh.2⟩
    cases v with
    | inr d =>
      refine hskip ?_ hc
      rintro ⟨⟨c, h1⟩, _⟩
      simp only [hln] at h1
      cases h1
    | inl c =>
      unfold copyBack at hc
      by_cases hp : nm.isPattern n = true
      · rw [if_pos hp] at hc
        have hpk := hk (n, .inl c) (by rw [hd]; simp) hp
        have hcong : (∃ w, lookup w frm ≠ none ∧ nm.stem w = nm.stem n ∧ nm.isPattern w = false) ↔ (∃ w, frm₀ w ≠ none ∧ nm.stem w = nm.stem n ∧ nm.isPattern w = false) := by
          refine partner_congr (g := fun w => lookup w frm) hpk ?_
          intro w h1 h2
          refine (h w).2 ?_
          rintro ⟨_, _, h3 | h3⟩
          · rw [h1] at h3; cases h3.1
          · rw [h2] at h3; cases h3.2
        by_cases ha : (frm.any fun w => nm.stem w.1 = nm.stem n && !nm.isPattern w.1) = true
        · rw [if_pos ha] at hc
          exact hcopy c rfl ⟨⟨c, hln⟩, .inl ⟨hp, hcong.mp (any_iff.mp ha)⟩⟩ hc
        · rw [if_neg ha] at hc
          refine hskip ?_ hc
          rintro ⟨_, ⟨_, h2⟩ | ⟨h2, _⟩⟩
          · exact ha (any_iff.mpr (hcong.mpr h2))
          · rw [hp] at h2; cases h2
      · rw [if_neg hp] at hc
        by_cases hkp : nm.isKeep n = true
        · rw [if_pos hkp] at hc
          exact hcopy c rfl ⟨⟨c, hln⟩, .inr ⟨by simpa using hp, hkp⟩⟩ hc
        · rw [if_neg hkp] at hc
          refine hskip ?_ hc
          rintro ⟨_, ⟨h2, _⟩ | ⟨_, h2⟩⟩
          · exact hp h2
          · exact hkp h2

/-- Copying back succeeds if there are no directories named like the files which are copied. -/
theorem copyBack_ok : ∀ (to frm : Entries N C S), (keys frm).Nodup → (∀ n d, lookup n frm = some (.inr d) → nm.isPattern n = false ∧ nm.isKeep n = false) →
    ∃ frm', copyBack nm to frm = .ok frm'
  | [], frm, _, _ => ⟨frm, rfl⟩
  | (n, .inr d) :: to, frm, hn, h => by
    unfold copyBack
    exact copyBack_ok to frm hn h
  | (n, .inl c) :: to, frm, hn, h => by
    have hcopy : nm.isPattern n = true ∨ nm.isKeep n = true → ∃ frm', (copyInto n c frm).bind (copyBack nm to) = .ok frm' := by
      intro hs
      obtain ⟨frm₁, hi⟩ := copyInto_ok (n := n) (c := c) (l := frm) (by
        intro d hd
        obtain ⟨h1, h2⟩ := h n d hd
        rw [h1, h2] at hs
        simp at hs)
      obtain ⟨i1, i2⟩ := copyInto_spec hi hn
      rw [hi]
      refine copyBack_ok to frm₁ i1 ?_
      intro m d hm
      rw [i2] at hm
      split at hm
      · cases hm
      · exact h m d hm
    unfold copyBack
    by_cases hp : nm.isPattern n = true
    · rw [if_pos hp]
      split
      · exact hcopy (.inl hp)
      · exact copyBack_ok to frm hn h
    · rw [if_neg hp]
      split
      · rename_i hkp; exact hcopy (.inr hkp)
      · exact copyBack_ok to frm hn h

end
end Verif.SoftUpdate
