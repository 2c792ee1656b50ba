import Verif.Lemmas.Embedded
/- Erasing edges and nodes of embedded graphs. -/
set_option linter.unusedSectionVars false

namespace Verif.Graph
open EdgeLike Spec
variable {W M ι : Type} {L : Lab ι W M} {D : ι → Nat → Nat → Prop} {hole : Nat} {a : Edges ι} {s : Edges (EEdge W M)}

theorem has_blk (hu : Uniq a) {i k : Nat} {x y : ι} (hx : edgeAt a i k = some x) :
    Has (blk a i k 1) y ↔ y ≠ x ∧ Has a y := by
  have hk : k + 1 ≤ degree a i := (lt_degree_iff a i k).2 ⟨x, hx⟩
  constructor
  · rintro ⟨j, l, h⟩
    rw [edgeAt_blk _ _ _ _ hk] at h
    split at h
    · refine ⟨?_, _, _, h⟩
      rintro rfl
      have := hu _ _ _ _ _ h hx; omega
    · refine ⟨?_, _, _, h⟩
      rintro rfl
      have := hu _ _ _ _ _ h hx; omega
  · rintro ⟨hne, j, l, h⟩
    by_cases c : j = i ∧ k ≤ l
    · obtain ⟨rfl, c⟩ := c
      have : l ≠ k := by rintro rfl; rw [hx] at h; exact hne (Option.some.inj h).symm
      refine ⟨j, l - 1, ?_⟩
      rw [edgeAt_blk _ _ _ _ hk, if_pos ⟨rfl, by omega⟩, show l - 1 + 1 = l by omega]; exact h
    · exact ⟨j, l, by rw [edgeAt_blk _ _ _ _ hk, if_neg c]; exact h⟩

/-- Erasing two consecutive positions is erasing one after the other. -/
theorem blk_two {E : Type} (a : Edges E) (i k : Nat) (hk : k + 2 ≤ degree a i) :
    blk a i k 2 = blk (blk a i (k + 1) 1) i k 1 := by
  have h1 : k + 1 + 1 ≤ degree a i := by omega
  have h2 : k + 1 ≤ degree (blk a i (k + 1) 1) i := by rw [degree_blk _ _ _ _ _ h1, if_pos rfl]; omega
  apply edges_ext
  · unfold blk; rw [length_onNode, length_onNode, length_onNode]
  · intro j l
    rw [edgeAt_blk _ _ _ _ hk, edgeAt_blk _ _ _ _ h2, edgeAt_blk _ _ _ _ h1, edgeAt_blk _ _ _ _ h1]
    by_cases c : j = i ∧ k ≤ l
    · rw [if_pos c, if_pos c, if_pos ⟨rfl, by omega⟩]
    · rw [if_neg c, if_neg c, if_neg (by omega)]

theorem blk_of_lt {E : Type} {a : Edges E} {i k d j l : Nat} (hk : k + d ≤ degree a i) (h : j ≠ i ∨ l < k) :
    edgeAt (blk a i k d) j l = edgeAt a j l := by
  rw [edgeAt_blk _ _ _ _ hk, if_neg (by omega)]

variable {hs : Embedded s}

/-- The layout left by removing an edge. -/
abbrev dropPair {E : Type} (a : Edges E) (n k t c : Nat) : Edges E :=
  removeAt a fun i x => decide ((i, x) = (n, k) ∨ (i, x) = (t, c))

theorem dropPair_ne {E : Type} (a : Edges E) (n k t c : Nat) (h : n ≠ t) : blk (blk a n k 1) t c 1 = dropPair a n k t c := by
  rw [← blk_one, ← blk_one, erase_two_nodes a n k t c h]

theorem dropPair_lt {E : Type} (a : Edges E) (n k c : Nat) (h : k < c) : blk (blk a n c 1) n k 1 = dropPair a n k n c := by
  rw [← blk_one, ← blk_one, onNode_onNode]
  apply erase_one_node
  intro l _
  rw [keepIdx_erase_lt _ l k c h (fun x => rfl)]

theorem dropPair_comm {E : Type} (a : Edges E) (n k t c : Nat) : dropPair a n k t c = dropPair a t c n k := by
  unfold dropPair
  congr 1
  funext i x
  simp only [decide_eq_decide]
  exact or_comm

/-- Erasing an edge. -/
theorem eraseEdgeEmbedded_rep (hs : Embedded s) {n k : Nat} {e : EEdge W M} (he : edgeAt s n k = some e) :
    ∃ s', eraseEdgeEmbedded s n k = .ok s' ∧
      Rep (labOf s hs none none none) (fun _ _ _ => True) n (fun m => m) (dropPair (lay s) n k e.target e.comp) s' := by
  obtain ⟨hne, e', he', h1, h2, h3⟩ := hs n k e he
  have hu := uniq_lay s
  have hx : edgeAt (lay s) n k = some (.inl (n, k)) := by rw [edgeAt_lay, he]; rfl
  have hy : edgeAt (lay s) e.target e.comp = some (.inl (e.target, e.comp)) := by rw [edgeAt_lay, he']; rfl
  have hxy : (Sum.inl (n, k) : Pos) ≠ .inl (e.target, e.comp) := by
    intro h; exact hne (Sum.inl.inj h).symm
  have mx : (labOf s hs none none none).mate (.inl (n, k)) = .inl (e.target, e.comp) := mate_inl he
  have my : (labOf s hs none none none).mate (.inl (e.target, e.comp)) = .inl (n, k) := by
    rw [mate_inl he', h1, h2]
  generalize hL : labOf s hs none none none = L at *
  have hrep : Rep L (fun _ _ _ => False) 0 (fun m => m) (lay s) s := by rw [← hL]; exact rep_lay
  have hfull : Full L (lay s) := by rw [← hL]; exact full_lay
  have hmate : ∀ z, Has (lay s) z → z ≠ .inl (n, k) → z ≠ .inl (e.target, e.comp) →
      L.mate z ≠ .inl (n, k) ∧ L.mate z ≠ .inl (e.target, e.comp) := by
    intro z ⟨_, _, hz⟩ hz1 hz2
    have hinv := L.invol z (hrep.lab _ _ _ hz)
    refine ⟨?_, ?_⟩
    · intro h; rw [h, mx] at hinv; exact hz2 hinv.symm
    · intro h; rw [h, my] at hinv; exact hz1 hinv.symm
  have hsn : n < s.length := edgeAt_lt_length he
  have hne' : s.isEmpty = false := by cases hs' : s with | nil => rw [hs'] at hsn; simp at hsn | cons => rfl
  have hk : k < degree (lay s) n := (lt_degree_iff _ _ _).2 ⟨_, hx⟩
  have hc : e.comp < degree (lay s) e.target := (lt_degree_iff _ _ _).2 ⟨_, hy⟩
  have hl : s[n]? = some s[n] := List.getElem?_eq_getElem hsn
  have hlk : s[n][k]? = some e := by
    unfold edgeAt at he; rw [hl] at he; exact he
  have hlen : s[n].length = degree (lay s) n := by rw [degree_lay, degree_of_getElem? hl]
  unfold eraseEdgeEmbedded
  rw [if_neg (by simp [hne'])]
  simp only [hl, hlk]
  by_cases ht : n = e.target
  · rw [if_neg (by simp [ht])]
    -- two positions of the same node
    have pair : ∀ A B, A < B → ((Sum.inl (n, A) : Pos) = .inl (n, k) ∧ (Sum.inl (n, B) : Pos) = .inl (e.target, e.comp) ∨
        (Sum.inl (n, B) : Pos) = .inl (n, k) ∧ (Sum.inl (n, A) : Pos) = .inl (e.target, e.comp)) →
        edgeAt (lay s) n A = some (.inl (n, A)) → edgeAt (lay s) n B = some (.inl (n, B)) →
        (∀ z, Has (lay s) z → z ≠ .inl (n, A) → z ≠ .inl (n, B) → L.mate z ≠ .inl (n, A) ∧ L.mate z ≠ .inl (n, B)) ∧
        L.mate (.inl (n, A)) = .inl (n, B) := by
      intro A B _ h _ _
      rcases h with ⟨ha, hb⟩ | ⟨hb, ha⟩
      · rw [ha, hb]
        exact ⟨fun z hz h1 h2 => hmate z hz h1 h2, mx⟩
      · rw [ha, hb]
        exact ⟨fun z hz h1 h2 => (hmate z hz h2 h1).symm, my⟩
    -- adjacent
    have adj : ∀ A, ((Sum.inl (n, A) : Pos) = .inl (n, k) ∧ (Sum.inl (n, A + 1) : Pos) = .inl (e.target, e.comp) ∨
        (Sum.inl (n, A + 1) : Pos) = .inl (n, k) ∧ (Sum.inl (n, A) : Pos) = .inl (e.target, e.comp)) →
        edgeAt (lay s) n A = some (.inl (n, A)) → edgeAt (lay s) n (A + 1) = some (.inl (n, A + 1)) →
        ∃ s', decrement 2 n A (blk s n A 2) = .ok s' ∧
          Rep L (fun _ _ _ => True) n (fun m => m) (blk (lay s) n A 2) s' := by
      intro A h ha hb
      obtain ⟨hp, _⟩ := pair A (A + 1) (by omega) h ha hb
      have hd : A + 2 ≤ degree (lay s) n := (lt_degree_iff _ _ _).2 ⟨_, hb⟩
      refine blk_decrement hrep hu (by omega) hd ?_
      intro q z _ hz
      have hd1 : A + 1 + 1 ≤ degree (lay s) n := by omega
      have ha' : edgeAt (blk (lay s) n (A + 1) 1) n A = some (.inl (n, A)) := by
        rw [blk_of_lt hd1 (.inr (by omega))]; exact ha
      have hz' : Has (blk (lay s) n A 2) z := ⟨_, _, hz⟩
      rw [blk_two _ _ _ hd, has_blk (uniq_blk hu hd1) ha', has_blk hu hb] at hz' ⊢
      obtain ⟨hz1, hz2, hz3⟩ := hz'
      obtain ⟨h1, h2⟩ := hp z hz3 hz1 hz2
      exact ⟨h1, h2, hfull z hz3⟩
    by_cases c1 : e.comp = k + 1
    · rw [if_pos c1]
      obtain ⟨s', ha, hb⟩ := adj k (.inl ⟨rfl, by rw [← ht, c1]⟩) hx (by rw [← c1]; rw [← ht] at hy; exact hy)
      refine ⟨s', ha, ?_⟩
      rw [blk_two _ _ _ (by rw [← ht] at hc; omega), dropPair_lt _ _ _ _ (by omega), ← c1, ht] at hb
      rw [← ht] at hb ⊢
      exact hb
    · rw [if_neg c1]
      by_cases c2 : e.comp + 1 = k
      · rw [if_pos c2]
        have c2' : k - 1 = e.comp := by omega
        obtain ⟨s', ha, hb⟩ := adj e.comp (.inr ⟨by rw [c2], by rw [← ht]⟩) (by rw [← ht] at hy; exact hy)
          (by rw [c2]; exact hx)
        refine ⟨s', ?_, ?_⟩
        · rw [c2', show k + 1 = e.comp + 2 by omega]; exact ha
        · rw [blk_two _ _ _ (by omega), dropPair_lt _ _ _ _ (by omega), c2, dropPair_comm] at hb
          rw [← ht]; exact hb
      · rw [if_neg c2]
        have far : ∀ A B, A < B → ((Sum.inl (n, A) : Pos) = .inl (n, k) ∧ (Sum.inl (n, B) : Pos) = .inl (e.target, e.comp) ∨
            (Sum.inl (n, B) : Pos) = .inl (n, k) ∧ (Sum.inl (n, A) : Pos) = .inl (e.target, e.comp)) →
            edgeAt (lay s) n A = some (.inl (n, A)) → edgeAt (lay s) n B = some (.inl (n, B)) →
            ∃ s₁ s', eraseHalf s n B = .ok s₁ ∧ eraseHalf s₁ n A = .ok s' ∧
              Rep L (fun _ _ _ => True) n (fun m => m) (dropPair (lay s) n A n B) s' := by
          intro A B hAB h ha hb
          obtain ⟨hp, hm⟩ := pair A B hAB h ha hb
          have hBd : B + 1 ≤ degree (lay s) n := (lt_degree_iff _ _ _).2 ⟨_, hb⟩
          have huB := uniq_blk hu hBd
          have ha' : edgeAt (blk (lay s) n B 1) n A = some (.inl (n, A)) := by
            rw [blk_of_lt hBd (.inr hAB)]; exact ha
          obtain ⟨s₁, g1, g2⟩ := eraseHalf_rep hrep hu (i := n) (k := B) hBd (by
            intro q z hq hz
            have hz' : Has (blk (lay s) n B 1) z := ⟨_, _, hz⟩
            rw [has_blk hu hb] at hz' ⊢
            refine ⟨?_, hfull z hz'.2⟩
            have hzA : z ≠ .inl (n, A) := by
              rintro rfl
              have := huB _ _ _ _ _ hz ha'; omega
            exact (hp z hz'.2 hzA hz'.1).2)
          obtain ⟨s', g3, g4⟩ := eraseHalf_rep g2 huB (i := n) (k := A) ((lt_degree_iff _ _ _).2 ⟨_, ha'⟩) (by
            intro q z hq hz
            have hz' : Has (blk (blk (lay s) n B 1) n A 1) z := ⟨_, _, hz⟩
            rw [has_blk huB ha', has_blk hu hb] at hz' ⊢
            obtain ⟨hz1, hz2, hz3⟩ := hz'
            obtain ⟨h1, h2⟩ := hp z hz3 hz1 hz2
            exact ⟨h1, h2, hfull z hz3⟩)
          rw [dropPair_lt _ _ _ _ hAB] at g4
          exact ⟨s₁, s', g1, g3, g4⟩
        have hck : e.comp ≠ k := by
          intro h; exact hne (by rw [← ht, h])
        by_cases c3 : e.comp < k
        · obtain ⟨s₁, s', g1, g2, g3⟩ := far e.comp k c3 (.inr ⟨rfl, by rw [← ht]⟩) (by rw [← ht] at hy; exact hy) hx
          refine ⟨s', ?_, ?_⟩
          · simp only [if_pos c3]
            rw [if_pos (by omega), g1]; exact g2
          · rw [← ht, dropPair_comm]; exact g3
        · obtain ⟨s₁, s', g1, g2, g3⟩ := far k e.comp (by omega) (.inl ⟨rfl, by rw [← ht]⟩) hx (by rw [← ht] at hy; exact hy)
          refine ⟨s', ?_, ?_⟩
          · simp only [if_neg c3]
            rw [← ht] at hc
            rw [if_pos (by omega), g1]; exact g2
          · rw [← ht]; exact g3
  · rw [if_pos ht]
    have hkd : k + 1 ≤ degree (lay s) n := hk
    have huK := uniq_blk hu hkd
    have hy' : edgeAt (blk (lay s) n k 1) e.target e.comp = some (.inl (e.target, e.comp)) := by
      rw [blk_of_lt hkd (.inl (Ne.symm ht))]; exact hy
    obtain ⟨s₁, g1, g2⟩ := eraseHalf_rep hrep hu (i := n) (k := k) hkd (by
      intro q z hq hz
      have hz' : Has (blk (lay s) n k 1) z := ⟨_, _, hz⟩
      rw [has_blk hu hx] at hz' ⊢
      refine ⟨?_, hfull z hz'.2⟩
      have hzA : z ≠ .inl (e.target, e.comp) := by
        rintro rfl
        exact ht (huK _ _ _ _ _ hz hy').1
      exact (hmate z hz'.2 hz'.1 hzA).1)
    obtain ⟨s', g3, g4⟩ := eraseHalf_rep g2 huK (i := e.target) (k := e.comp) ((lt_degree_iff _ _ _).2 ⟨_, hy'⟩) (by
      intro q z hq hz
      have hz' : Has (blk (blk (lay s) n k 1) e.target e.comp 1) z := ⟨_, _, hz⟩
      rw [has_blk huK hy', has_blk hu hx] at hz' ⊢
      obtain ⟨hz1, hz2, hz3⟩ := hz'
      obtain ⟨h1, h2⟩ := hmate z hz3 hz2 hz1
      exact ⟨h2, h1, hfull z hz3⟩)
    rw [dropPair_ne _ _ _ _ _ ht] at g4
    refine ⟨s', ?_, g4.move n⟩
    rw [g1]
    simp only [Res.bind]
    rw [if_pos, g3]
    rw [← g2.deg]
    exact (lt_degree_iff _ _ _).2 ⟨_, hy'⟩

/-! ### In terms of positions -/

theorem rank_succ (p : Nat → Bool) (k : Nat) :
    rank p (k + 1) = (if p 0 then 1 else 0) + rank (fun k => p (k + 1)) k := by
  unfold rank
  rw [List.range_succ_eq_map, List.countP_cons, List.countP_map]
  simp only [Function.comp_def, Nat.succ_eq_add_one]
  omega

theorem getElem?_keepIdx {E : Type} (p : Nat → Bool) (l : List E) (m : Nat) (e : E) :
    (keepIdx p l)[m]? = some e ↔ ∃ k, l[k]? = some e ∧ p k = true ∧ m = rank p k := by
  induction l generalizing p m with
  | nil => simp [keepIdx]
  | cons x l ih =>
    unfold keepIdx
    by_cases hp : p 0 = true
    · rw [if_pos hp]
      cases m with
      | zero =>
        constructor
        · intro h; exact ⟨0, h, hp, rfl⟩
        · rintro ⟨k, h1, h2, h3⟩
          cases k with
          | zero => exact h1
          | succ k => rw [rank_succ, if_pos hp] at h3; omega
      | succ m =>
        rw [List.getElem?_cons_succ, ih]
        constructor
        · rintro ⟨k, h1, h2, h3⟩
          exact ⟨k + 1, h1, h2, by rw [rank_succ, if_pos hp, h3]; omega⟩
        · rintro ⟨k, h1, h2, h3⟩
          cases k with
          | zero => simp [rank] at h3
          | succ k => exact ⟨k, h1, h2, by rw [rank_succ, if_pos hp] at h3; omega⟩
    · rw [if_neg hp, ih]
      constructor
      · rintro ⟨k, h1, h2, h3⟩
        exact ⟨k + 1, h1, h2, by rw [rank_succ, if_neg hp, h3]; omega⟩
      · rintro ⟨k, h1, h2, h3⟩
        cases k with
        | zero => exact absurd h2 hp
        | succ k => exact ⟨k, h1, h2, by rw [rank_succ, if_neg hp] at h3; omega⟩

theorem edgeAt_removeAt {E : Type} (s : Edges E) (P : Nat → Nat → Bool) (i m : Nat) (e : E) :
    edgeAt (removeAt s P) i m = some e ↔
      ∃ k, edgeAt s i k = some e ∧ P i k = false ∧ m = rank (fun k => !P i k) k := by
  unfold edgeAt
  rw [getElem?_removeAt]
  cases s[i]? with
  | none => simp
  | some l =>
    simp only [Option.map_some, Option.bind_some]
    rw [getElem?_keepIdx]
    simp

theorem has_removeAt {P : Nat → Nat → Bool} {i k : Nat} :
    Has (removeAt (lay s) P) (.inl (i, k)) ↔ Has (lay s) (.inl (i, k)) ∧ P i k = false := by
  constructor
  · rintro ⟨j, m, h⟩
    rw [edgeAt_removeAt] at h
    obtain ⟨k', h1, h2, h3⟩ := h
    have := (lay_iff.1 h1).1
    simp only [Sum.inl.injEq, Prod.mk.injEq] at this
    obtain ⟨rfl, rfl⟩ := this
    exact ⟨⟨_, _, h1⟩, h2⟩
  · rintro ⟨⟨j, m, h⟩, hP⟩
    have := (lay_iff.1 h).1
    simp only [Sum.inl.injEq, Prod.mk.injEq] at this
    obtain ⟨rfl, rfl⟩ := this
    exact ⟨i, _, (edgeAt_removeAt _ _ _ _ _).2 ⟨k, h, hP, rfl⟩⟩

theorem uniq_removeAt (P : Nat → Nat → Bool) : Uniq (removeAt (lay s) P) := by
  intro i k j l x h1 h2
  rw [edgeAt_removeAt] at h1 h2
  obtain ⟨k', h1, _, rfl⟩ := h1
  obtain ⟨l', h2, _, rfl⟩ := h2
  obtain ⟨rfl, rfl⟩ := uniq_lay s _ _ _ _ _ h1 h2
  exact ⟨rfl, rfl⟩

/-- Removing whole edges from a labelled graph. -/
theorem Rep.removed {w : Option W} {m₁ m₂ : Option M} {P : Nat → Nat → Bool} {s' : Edges (EEdge W M)} {D : Pos → Nat → Nat → Prop}
    (h : Rep (labOf s hs w m₁ m₂) D hole (fun m => m) (removeAt (lay s) P) s')
    (hP : ∀ i k e, edgeAt s i k = some e → P e.target e.comp = P i k) :
    s' = removeAtE s P ∧ Full (labOf s hs w m₁ m₂) (removeAt (lay s) P) := by
  have hfull : Full (labOf s hs w m₁ m₂) (removeAt (lay s) P) := by
    rintro x ⟨i, m, hx⟩
    rw [edgeAt_removeAt] at hx
    obtain ⟨k, hx, hk, _⟩ := hx
    obtain ⟨rfl, e, he⟩ := lay_iff.1 hx
    rw [mate_inl he, has_removeAt, hP i k e he]
    refine ⟨?_, hk⟩
    have := full_lay (hs := hs) (w := w) (m₁ := m₁) (m₂ := m₂) (.inl (i, k)) ⟨_, _, hx⟩
    rw [mate_inl he] at this
    exact this
  refine ⟨?_, hfull⟩
  have hAt : ∀ i m, edgeAt (removeAtE s P) i m =
      (edgeAt (removeAt s P) i m).map fun e => { e with comp := rank (fun k => !P e.target k) e.comp } := by
    intro i m
    unfold removeAtE edgeAt
    rw [List.getElem?_map]
    cases (removeAt s P)[i]? with
    | none => rfl
    | some l => simp
  apply edges_ext
  · rw [← h.order]; unfold removeAtE; rw [List.length_map, length_removeAt, length_removeAt, length_lay]
  · intro i m
    rw [hAt]
    cases he' : edgeAt s' i m with
    | none =>
      symm
      rw [Option.map_eq_none_iff]
      cases he : edgeAt (removeAt s P) i m with
      | none => rfl
      | some e =>
        exfalso
        rw [edgeAt_removeAt] at he
        obtain ⟨k, he, hk, rfl⟩ := he
        have : edgeAt (removeAt (lay s) P) i (rank (fun k => !P i k) k) = some (.inl (i, k)) :=
          (edgeAt_removeAt _ _ _ _ _).2 ⟨k, by rw [edgeAt_lay, he]; rfl, hk, rfl⟩
        obtain ⟨e'', he''⟩ := h.edge this
        rw [he'] at he''; cases he''
    | some e' =>
      obtain ⟨x, hx⟩ := h.label he'
      obtain ⟨k, hx0, hk, hm⟩ := (edgeAt_removeAt _ _ _ _ _).1 hx
      obtain ⟨rfl, e, he⟩ := lay_iff.1 hx0
      have he2 : edgeAt (removeAt s P) i m = some e := (edgeAt_removeAt _ _ _ _ _).2 ⟨k, he, hk, hm⟩
      rw [he2, Option.map_some]
      obtain ⟨_, e₂, he₂, _⟩ := hs i k e he
      have hmate : edgeAt (removeAt (lay s) P) e.target (rank (fun k => !P e.target k) e.comp) =
          some ((labOf s hs w m₁ m₂).mate (.inl (i, k))) := by
        rw [mate_inl he]
        exact (edgeAt_removeAt _ _ _ _ _).2 ⟨e.comp, by rw [edgeAt_lay, he₂]; rfl, by rw [hP i k e he, hk], rfl⟩
      have hl := h.link _ _ _ _ _ _ hx he' hmate
      have hd := h.data _ _ _ _ hx he'
      have hw : (labOf s hs w m₁ m₂).wt (.inl (i, k)) = some e.weight := by simp [labOf, he]
      have hmd : (labOf s hs w m₁ m₂).md (.inl (i, k)) = some e.md := by simp [labOf, he]
      rw [hw, hmd] at hd
      have h5 : e'.comp = rank (fun k => !P e.target k) e.comp := by rw [hl.2]; split <;> rfl
      congr 1
      cases e'
      simp only [Option.some.injEq] at hd h5 hl
      rw [hl.1, h5, hd.1, hd.2]

/-- Erasing an edge: what is left. -/
theorem eraseEdgeEmbedded_spec (hs : Embedded s) {n k : Nat} {e : EEdge W M} (he : edgeAt s n k = some e) :
    eraseEdgeEmbedded s n k =
      .ok (removeAtE s fun i x => decide ((i, x) = (n, k) ∨ (i, x) = (e.target, e.comp))) ∧
    Embedded (removeAtE s fun i x => decide ((i, x) = (n, k) ∨ (i, x) = (e.target, e.comp))) := by
  obtain ⟨s', h1, h2⟩ := eraseEdgeEmbedded_rep hs he
  obtain ⟨_, e', he', g1, g2, _⟩ := hs n k e he
  obtain ⟨h3, h4⟩ := h2.removed (by
    intro i l e₂ he₂
    obtain ⟨_, e₃, he₃, g3, g4, _⟩ := hs i l e₂ he₂
    rw [decide_eq_decide]
    constructor
    · rintro (h | h)
      · right
        obtain ⟨ha, hb⟩ := Prod.mk.inj h
        rw [ha, hb, he] at he₃
        cases he₃
        rw [g3, g4]
      · left
        obtain ⟨ha, hb⟩ := Prod.mk.inj h
        rw [ha, hb, he'] at he₃
        cases he₃
        rw [← g3, ← g4, g1, g2]
    · rintro (h | h)
      · right
        obtain ⟨rfl, rfl⟩ := Prod.mk.inj h
        rw [he] at he₂; cases he₂; rfl
      · left
        obtain ⟨rfl, rfl⟩ := Prod.mk.inj h
        rw [he'] at he₂; cases he₂
        rw [g1, g2])
  rw [h1, ← h3]
  exact ⟨rfl, h2.embedded h4⟩

/-! ### Erasing nodes -/

/-- The node a label belongs to. -/
def home : Pos → Nat
  | .inl p => p.1
  | .inr _ => 0

theorem degree_append {E : Type} {a : Edges E} {i : Nat} {l₁ l₂ : List E} (h : a[i]? = some (l₁ ++ l₂)) :
    degree a i = l₁.length + l₂.length := by rw [degree_of_getElem? h, List.length_append]

theorem blk_append {E : Type} {a : Edges E} {i : Nat} {l₁ l₂ : List E} {x : E} (h : a[i]? = some (l₁ ++ x :: l₂)) :
    (blk a i l₁.length 1)[i]? = some (l₁ ++ l₂) := by
  unfold blk
  rw [getElem?_onNode, if_pos rfl, h, Option.map_some]
  congr 1
  simp [List.drop_append]

/-- The loop over one partition. -/
theorem eraseLoop_rep {L : Lab Pos W M} {n part : Nat} (hpn : part ≠ n) (fuel : Nat) :
    ∀ (a : Edges Pos) (s : Edges (EEdge W M)) (l₁ l₂ : List Pos),
      Rep L (fun _ _ _ => True) 0 (fun m => m) a s → Uniq a → (∀ i k x, edgeAt a i k = some x → home x = i) →
      (∀ k x, edgeAt a part k = some x → Has a (L.mate x)) → a[part]? = some (l₁ ++ l₂) → l₂.length ≤ fuel →
      ∃ s', eraseLoop n part fuel l₁.length s = .ok s' ∧
        Rep L (fun _ _ _ => True) 0 (fun m => m)
          (onNode a part fun _ => l₁ ++ l₂.filter fun x => decide (home (L.mate x) ≠ n)) s' ∧
        Uniq (onNode a part fun _ => l₁ ++ l₂.filter fun x => decide (home (L.mate x) ≠ n)) := by
  have self : ∀ (a : Edges Pos) (l : List Pos), a[part]? = some l → (onNode a part fun _ => l) = a := by
    intro a l h
    apply List.ext_getElem?
    intro i
    rw [getElem?_onNode]
    split
    · rename_i hi; subst hi; rw [h]; rfl
    · rfl
  induction fuel with
  | zero =>
    intro a s l₁ l₂ h hu _ _ hl hf
    have : l₂ = [] := List.length_eq_zero_iff.1 (by omega)
    subst this
    refine ⟨s, rfl, ?_⟩
    rw [List.filter_nil, self a _ hl]
    exact ⟨h, hu⟩
  | succ fuel ih =>
    intro a s l₁ l₂ h hu hh hmates hl hf
    cases l₂ with
    | nil =>
      refine ⟨s, ?_, ?_⟩
      · unfold eraseLoop
        have : edgeAt s part l₁.length = none := by
          rw [edgeAt_none, ← h.deg, degree_append hl]; simp
        have this' : s[part]?.bind (·[l₁.length]?) = none := this
        simp only [this']
      · rw [List.filter_nil, self a _ hl]
        exact ⟨h, hu⟩
    | cons x l₂ =>
      have hx : edgeAt a part l₁.length = some x := by
        unfold edgeAt; rw [hl]; simp
      obtain ⟨e, he⟩ := h.edge hx
      have he' : s[part]?.bind (·[l₁.length]?) = some e := he
      obtain ⟨j, l, hm⟩ := hmates _ x hx
      have hlink := h.link _ _ _ _ _ _ hx he hm
      have htgt : e.target = home (L.mate x) := by rw [hlink.1, hh _ _ _ hm]
      unfold eraseLoop
      simp only [he']
      by_cases ht : e.target = n
      · rw [if_pos ht]
        have hdeg : l₁.length < degree a part := (lt_degree_iff _ _ _).2 ⟨_, hx⟩
        have keep : ∀ z, Has (blk a part l₁.length 1) z → (∃ k, edgeAt a part k = some z) →
            Has (blk a part l₁.length 1) (L.mate z) := by
          intro z hz ⟨k, hk⟩
          rw [has_blk hu hx] at hz ⊢
          refine ⟨?_, hmates k z hk⟩
          intro hc
          have hz' : z = L.mate x := by rw [← hc, L.invol z (h.lab _ _ _ hk)]
          have h1 := hh _ _ _ hk
          rw [hz', ← htgt, ht] at h1
          exact hpn h1.symm
        have back : ∀ k z, edgeAt (blk a part l₁.length 1) part k = some z → ∃ k', edgeAt a part k' = some z := by
          intro k z hz
          rw [edgeAt_blk _ _ _ _ hdeg] at hz
          split at hz
          · exact ⟨_, hz⟩
          · exact ⟨_, hz⟩
        obtain ⟨s₁, g1, g2⟩ := eraseHalf_rep h hu (i := part) (k := l₁.length) hdeg
          (fun q z _ hz => keep z ⟨_, _, hz⟩ (back q z hz))
        obtain ⟨s', g3, g4⟩ := ih (blk a part l₁.length 1) s₁ l₁ l₂ (g2.move 0) (uniq_blk hu hdeg)
          (by
            intro i k z hz
            rw [edgeAt_blk _ _ _ _ hdeg] at hz
            split at hz
            · rename_i c; rw [c.1]; exact hh _ _ _ hz
            · exact hh _ _ _ hz)
          (fun k z hz => keep z ⟨_, _, hz⟩ (back k z hz)) (blk_append hl) (by simp at hf; omega)
        refine ⟨s', by rw [g1]; exact g3, ?_⟩
        have : (onNode (blk a part l₁.length 1) part fun _ => l₁ ++ l₂.filter fun x => decide (home (L.mate x) ≠ n)) =
            (onNode a part fun _ => l₁ ++ (x :: l₂).filter fun x => decide (home (L.mate x) ≠ n)) := by
          unfold blk
          rw [onNode_onNode, List.filter_cons_of_neg (by simp [← htgt, ht])]
        rw [← this]
        exact g4
      · rw [if_neg ht]
        obtain ⟨s', g3, g4⟩ := ih a s (l₁ ++ [x]) l₂ h hu hh hmates (by rw [hl]; simp) (by simp at hf; omega)
        refine ⟨s', ?_, ?_⟩
        · rw [List.length_append] at g3; exact g3
        · rw [List.filter_cons_of_pos (by simp [← htgt, ht])]
          simp only [List.append_assoc] at g4
          exact g4

/-- The loop over the partitions. -/
theorem eraseParts_rep {L : Lab Pos W M} {n : Nat} (ns : List Nat) :
    ∀ (a : Edges Pos) (s : Edges (EEdge W M)), Rep L (fun _ _ _ => True) 0 (fun m => m) a s → Uniq a →
      (∀ i k x, edgeAt a i k = some x → home x = i) →
      (∀ i k x, i ≠ n → edgeAt a i k = some x → Has a (L.mate x)) → (∀ i ∈ ns, i < a.length ∧ i ≠ n) → ns.Nodup →
      ∃ s' a', eraseParts n ns s = .ok s' ∧ Rep L (fun _ _ _ => True) 0 (fun m => m) a' s' ∧ a'.length = a.length ∧
        ∀ i, a'[i]? = if i ∈ ns then a[i]?.map (fun l => l.filter fun x => decide (home (L.mate x) ≠ n)) else a[i]? := by
  induction ns with
  | nil => intro a s h _ _ _ _ _; exact ⟨s, a, rfl, h, rfl, by simp⟩
  | cons p ps ih =>
    intro a s h hu hh hmates hns hnd
    obtain ⟨hpl, hpn⟩ := hns p (by simp)
    rw [List.nodup_cons] at hnd
    have hl : a[p]? = some ([] ++ a[p]) := by rw [List.nil_append]; exact List.getElem?_eq_getElem hpl
    have hdeg : degree s p = a[p].length := by rw [← h.deg, degree_append hl]; simp
    obtain ⟨s₁, g1, g2, g3⟩ := eraseLoop_rep (L := L) (n := n) (part := p) hpn a[p].length a s [] a[p] h hu hh
      (fun k x hx => hmates p k x hpn hx) hl (Nat.le_refl _)
    generalize ha₁ : (onNode a p fun _ => [] ++ a[p].filter fun x => decide (home (L.mate x) ≠ n)) = a₁ at g2 g3
    have hget : ∀ i, a₁[i]? = if i = p then a[i]?.map (fun l => l.filter fun x => decide (home (L.mate x) ≠ n)) else a[i]? := by
      intro i
      rw [← ha₁, getElem?_onNode]
      split
      · rename_i hi; subst hi; rw [List.getElem?_eq_getElem hpl]; rfl
      · rfl
    have hlen : a₁.length = a.length := by rw [← ha₁, length_onNode]
    have sub : ∀ i k x, edgeAt a₁ i k = some x → ∃ k', edgeAt a i k' = some x ∧ (i = p → home (L.mate x) ≠ n) := by
      intro i k x hx
      unfold edgeAt at hx
      rw [hget] at hx
      split at hx
      · rename_i hi
        obtain ⟨l, hl, hk⟩ := Option.bind_eq_some_iff.1 hx
        obtain ⟨l', hl', rfl⟩ := Option.map_eq_some_iff.1 hl
        have hmem := List.mem_of_getElem? hk
        rw [List.mem_filter] at hmem
        obtain ⟨k', hk'⟩ := List.mem_iff_getElem?.1 hmem.1
        exact ⟨k', by unfold edgeAt; rw [hl']; exact hk', fun _ => by simpa using hmem.2⟩
      · rename_i hi
        exact ⟨k, hx, fun h => absurd h hi⟩
    have sup : ∀ x, Has a x → home (L.mate x) ≠ n → Has a₁ x := by
      rintro x ⟨i, k, hx⟩ hne
      by_cases hi : i = p
      · obtain ⟨l, hl, hk⟩ := Option.bind_eq_some_iff.1 hx
        have hmem : x ∈ l.filter fun x => decide (home (L.mate x) ≠ n) :=
          List.mem_filter.2 ⟨List.mem_of_getElem? hk, by simpa using hne⟩
        obtain ⟨k', hk'⟩ := List.mem_iff_getElem?.1 hmem
        refine ⟨i, k', ?_⟩
        unfold edgeAt
        rw [hget, if_pos hi, hl]; exact hk'
      · exact ⟨i, k, by unfold edgeAt; rw [hget, if_neg hi]; exact hx⟩
    obtain ⟨s', a', g4, g5, g6, g7⟩ := ih a₁ s₁ g2 g3
      (by
        intro i k x hx
        obtain ⟨k', hx', _⟩ := sub i k x hx
        exact hh _ _ _ hx')
      (by
        intro i k x hi hx
        obtain ⟨k', hx', _⟩ := sub i k x hx
        apply sup _ (hmates _ _ _ hi hx')
        rw [L.invol x (h.lab _ _ _ hx'), hh _ _ _ hx']
        exact hi)
      (by intro i hi; rw [hlen]; exact hns i (by simp [hi])) hnd.2
    refine ⟨s', a', ?_, g5, by rw [g6, hlen], ?_⟩
    · unfold eraseParts
      rw [if_pos (by rw [← h.order]; exact hpl), hdeg]
      rw [show (0 : Nat) = ([] : List Pos).length from rfl, g1]
      exact g4
    · intro i
      rw [g7, hget]
      by_cases hip : i = p
      · subst hip; simp [hnd.1]
      · simp [hip]

theorem getElem?_filter {E : Type} (p : E → Bool) (l : List E) (m : Nat) (e : E) :
    (l.filter p)[m]? = some e ↔ ∃ k, l[k]? = some e ∧ p e = true ∧ m = (l.take k).countP p := by
  induction l generalizing m with
  | nil => simp
  | cons x l ih =>
    by_cases hp : p x = true
    · rw [List.filter_cons_of_pos hp]
      cases m with
      | zero =>
        constructor
        · intro h
          have : x = e := by simpa using h
          subst this
          exact ⟨0, rfl, hp, rfl⟩
        · rintro ⟨k, h1, h2, h3⟩
          cases k with
          | zero => exact h1
          | succ k => simp [hp] at h3
      | succ m =>
        rw [List.getElem?_cons_succ, ih]
        constructor
        · rintro ⟨k, h1, h2, h3⟩
          exact ⟨k + 1, h1, h2, by simp [hp, h3]⟩
        · rintro ⟨k, h1, h2, h3⟩
          cases k with
          | zero => simp at h3
          | succ k => exact ⟨k, h1, h2, by simp [hp] at h3; exact h3⟩
    · rw [List.filter_cons_of_neg hp, ih]
      constructor
      · rintro ⟨k, h1, h2, h3⟩
        exact ⟨k + 1, h1, h2, by simp [hp, h3]⟩
      · rintro ⟨k, h1, h2, h3⟩
        cases k with
        | zero =>
          have : x = e := by simpa using h1
          rw [this] at hp; exact absurd h2 hp
        | succ k => exact ⟨k, h1, h2, by simp [hp] at h3; exact h3⟩

theorem Embedded.inRange (hs : Embedded s) : InRange s := by
  rw [inRange_iff]
  intro n l hl e he
  obtain ⟨k, hk⟩ := List.mem_iff_getElem?.1 he
  obtain ⟨_, e', he', _⟩ := hs n k e (by unfold edgeAt; rw [hl]; exact hk)
  exact edgeAt_lt_length he'

theorem Embedded.targetSym (hs : Embedded s) : TargetSym s := by
  intro n l e hl he
  obtain ⟨k, hk⟩ := List.mem_iff_getElem?.1 he
  obtain ⟨_, e', he', h1, _⟩ := hs n k e (by unfold edgeAt; rw [hl]; exact hk)
  obtain ⟨l', hl', hk'⟩ := Option.bind_eq_some_iff.1 he'
  exact ⟨l', hl', e', List.mem_of_getElem? hk', h1⟩

/-- Counting along a layout is counting along the edges. -/
theorem countP_lay {n i c : Nat} {l : List (EEdge W M)} {w : Option W} {m₁ m₂ : Option M} (hl : s[i]? = some l)
    {x : List Pos} (hx : (lay s)[i]? = some x) :
    (x.take c).countP (fun y => decide (home ((labOf s hs w m₁ m₂).mate y) ≠ n)) =
      (l.take c).countP fun e => decide (e.target ≠ n) := by
  have : x.map (fun y => home ((labOf s hs w m₁ m₂).mate y)) = l.map (·.target) := by
    apply List.ext_getElem?
    intro k
    rw [List.getElem?_map, List.getElem?_map]
    have h1 : edgeAt (lay s) i k = x[k]? := by unfold edgeAt; rw [hx]; rfl
    have h2 : edgeAt s i k = l[k]? := by unfold edgeAt; rw [hl]; rfl
    rw [← h1, ← h2, edgeAt_lay]
    cases he : edgeAt s i k with
    | none => rfl
    | some e => simp [mate_inl he, home]
  have h3 : ∀ (p : Nat → Bool), ((x.take c).countP fun y => p (home ((labOf s hs w m₁ m₂).mate y))) =
      (l.take c).countP fun e => p e.target := by
    intro p
    have e1 := List.countP_map (p := p) (f := fun y => home ((labOf s hs w m₁ m₂).mate y)) (l := x.take c)
    have e2 := List.countP_map (p := p) (f := fun e : EEdge W M => e.target) (l := l.take c)
    rw [List.map_take, this, ← List.map_take] at e1
    simp only [Function.comp_def] at e1 e2
    rw [← e1, ← e2]
  exact h3 fun t => decide (t ≠ n)

theorem edgeAt_relabelE (f : Nat → Nat) (s : Edges (EEdge W M)) (n i k : Nat) :
    edgeAt ((s.take n ++ s.drop (n + 1)).map (relabel f)) i k =
      (edgeAt s (raise n i) k).map fun e => { e with target := f e.target } := by
  unfold edgeAt
  rw [← List.eraseIdx_eq_take_drop_succ, List.getElem?_map, List.getElem?_eraseIdx]
  unfold raise
  have : ∀ o : Option (List (EEdge W M)), (o.map (relabel f)).bind (·[k]?) =
      (o.bind (·[k]?)).map fun e => { e with target := f e.target } := by
    intro o
    cases o with
    | none => rfl
    | some l => simp [relabel, retarget, target]
  rw [this]
  by_cases h : i < n
  · rw [if_pos h, if_neg (by omega)]
  · rw [if_neg h, if_pos (by omega)]

theorem lower_raise (n t : Nat) : lower n (raise n t) = t := by unfold lower raise; split <;> split <;> omega
theorem raise_lower {n t : Nat} (h : t ≠ n) : raise n (lower n t) = t := by unfold lower raise; split <;> split <;> omega
theorem raise_ne (n t : Nat) : raise n t ≠ n := by unfold raise; split <;> omega

/-- `erase_node` for embedded graphs. -/
theorem eraseNodeEmbedded_spec (hs : Embedded s) {n : Nat} (hn : n < s.length) :
    eraseNodeEmbedded s n = .ok (withoutNodeE s n) ∧ Embedded (withoutNodeE s n) := by
  have hl : s[n]? = some s[n] := List.getElem?_eq_getElem hn
  generalize hL : labOf s hs none none none = L
  have hrep : Rep L (fun _ _ _ => False) 0 (fun m => m) (lay s) s := by rw [← hL]; exact rep_lay
  have hfull : Full L (lay s) := by rw [← hL]; exact full_lay
  have hhome : ∀ i k x, edgeAt (lay s) i k = some x → home x = i := by
    intro i k x hx
    rw [(lay_iff.1 hx).1]; rfl
  have hvisit : ∀ t, t ∈ partitionsToVisit s[n] n ↔ t ≠ n ∧ ∃ e ∈ s[n], e.target = t := by
    intro t
    unfold partitionsToVisit
    rw [mem_sortUnique, List.mem_filter, List.mem_map]
    simp [target, and_comm]
  obtain ⟨s', a', g1, g2, g3, g4⟩ := eraseParts_rep (L := L) (n := n) (partitionsToVisit s[n] n) (lay s) s
    (hrep.weaken (fun _ _ _ h => h.elim)) (uniq_lay s) hhome (fun i k x _ hx => hfull x ⟨_, _, hx⟩)
    (by
      intro t ht
      rw [hvisit] at ht
      obtain ⟨hne, e, he, rfl⟩ := ht
      rw [length_lay]
      exact ⟨(inRange_iff s).1 (Embedded.inRange hs) n _ hl e he, hne⟩)
    (sortUnique_nodup _)
  -- the layout of all nodes but n
  have hget : ∀ i, i ≠ n → a'[i]? = (lay s)[i]?.map (fun l => l.filter fun x => decide (home (L.mate x) ≠ n)) := by
    intro i hi
    rw [g4]
    split
    · rfl
    · rename_i hv
      cases hx : (lay s)[i]? with
      | none => rfl
      | some l =>
        rw [Option.map_some]
        congr 1
        symm
        rw [List.filter_eq_self]
        intro x hxl
        obtain ⟨k, hk⟩ := List.mem_iff_getElem?.1 hxl
        have hxa : edgeAt (lay s) i k = some x := by unfold edgeAt; rw [hx]; exact hk
        obtain ⟨rfl, e, he⟩ := lay_iff.1 hxa
        rw [← hL, mate_inl he]
        apply decide_eq_true
        intro ht
        replace ht : e.target = n := ht
        apply hv
        rw [hvisit]
        refine ⟨hi, ?_⟩
        obtain ⟨_, e', he', h1, _⟩ := hs i k e he
        obtain ⟨l', hl', hk'⟩ := Option.bind_eq_some_iff.1 he'
        rw [ht, hl] at hl'
        cases hl'
        exact ⟨e', List.mem_of_getElem? hk', h1⟩
  have hat : ∀ i m x, i ≠ n → (edgeAt a' i m = some x ↔ ∃ k e l, x = .inl (i, k) ∧ edgeAt s i k = some e ∧
      e.target ≠ n ∧ s[i]? = some l ∧ m = (l.take k).countP fun e => decide (e.target ≠ n)) := by
    intro i m x hi
    unfold edgeAt
    rw [hget i hi]
    cases hx : (lay s)[i]? with
    | none =>
      have : s[i]? = none := by
        rw [List.getElem?_eq_none_iff] at hx ⊢
        rw [length_lay] at hx; exact hx
      simp [this]
    | some y =>
      have hil : i < s.length := by
        have := (List.getElem?_eq_some_iff.1 hx).1; rwa [length_lay] at this
      simp only [Option.map_some, Option.bind_some]
      rw [getElem?_filter]
      constructor
      · rintro ⟨k, h1, h2, h3⟩
        have hxa : edgeAt (lay s) i k = some x := by unfold edgeAt; rw [hx]; exact h1
        obtain ⟨rfl, e, he⟩ := lay_iff.1 hxa
        refine ⟨k, e, s[i], rfl, he, ?_, List.getElem?_eq_getElem hil, ?_⟩
        · rw [← hL, mate_inl he] at h2
          exact of_decide_eq_true h2
        · rw [h3, ← hL]
          exact countP_lay (List.getElem?_eq_getElem hil) hx
      · rintro ⟨k, e, l, rfl, he, ht, hl', hm⟩
        have hxa : edgeAt (lay s) i k = some (.inl (i, k)) := by
          rw [edgeAt_lay]; unfold edgeAt; rw [he]; rfl
        refine ⟨k, ?_, ?_, ?_⟩
        · unfold edgeAt at hxa; rw [hx] at hxa; exact hxa
        · rw [← hL, mate_inl (show edgeAt s i k = some e from he)]
          exact decide_eq_true ht
        · rw [hm, ← hL]
          exact (countP_lay hl' hx).symm
  -- the edges of all nodes but n
  have hedge : ∀ i m e', i ≠ n → (edgeAt s' i m = some e' ↔ ∃ k e l t, edgeAt s i k = some e ∧ e.target ≠ n ∧
      s[i]? = some l ∧ m = ((l.take k).countP fun e => decide (e.target ≠ n)) ∧ s[e.target]? = some t ∧
      e' = { e with comp := (t.take e.comp).countP fun e' => decide (e'.target ≠ n) }) := by
    have fwd : ∀ i m x e', i ≠ n → edgeAt a' i m = some x → edgeAt s' i m = some e' → ∃ k e l t,
        edgeAt s i k = some e ∧ e.target ≠ n ∧ s[i]? = some l ∧ m = ((l.take k).countP fun e => decide (e.target ≠ n)) ∧
        s[e.target]? = some t ∧ e' = { e with comp := (t.take e.comp).countP fun e' => decide (e'.target ≠ n) } := by
      intro i m x e' hi hx he'
      obtain ⟨k, e, l, rfl, he, ht, hl', hm⟩ := (hat i m x hi).1 hx
      obtain ⟨_, e₂, he₂, h21, h22, _⟩ := hs i k e he
      obtain ⟨t, htt, _⟩ := Option.bind_eq_some_iff.1 he₂
      refine ⟨k, e, l, t, he, ht, hl', hm, htt, ?_⟩
      have hm' : edgeAt a' e.target ((t.take e.comp).countP fun e' => decide (e'.target ≠ n)) =
          some (L.mate (.inl (i, k))) := by
        rw [hat _ _ _ ht]
        refine ⟨e.comp, e₂, t, by rw [← hL, mate_inl he], he₂, by rw [h21]; exact hi, htt, rfl⟩
      have hlk := g2.link _ _ _ _ _ _ hx he' hm'
      have hd := g2.data _ _ _ _ hx he'
      have hw : L.wt (.inl (i, k)) = some e.weight := by rw [← hL]; simp [labOf, he]
      have hmd : L.md (.inl (i, k)) = some e.md := by rw [← hL]; simp [labOf, he]
      rw [hw, hmd] at hd
      have h5 : e'.comp = (t.take e.comp).countP fun e' => decide (e'.target ≠ n) := by
        rw [hlk.2]; split <;> rfl
      cases e'
      simp only [Option.some.injEq] at hd h5 hlk
      rw [hlk.1, h5, hd.1, hd.2]
    intro i m e' hi
    constructor
    · intro he'
      obtain ⟨x, hx⟩ := g2.label he'
      exact fwd i m x e' hi hx he'
    · rintro ⟨k, e, l, t, he, ht, hl', hm, htt, rfl⟩
      have hx : edgeAt a' i m = some (.inl (i, k)) := (hat i m _ hi).2 ⟨k, e, l, rfl, he, ht, hl', hm⟩
      obtain ⟨e₃, he₃⟩ := g2.edge hx
      obtain ⟨k', e', l', t', f1, f2, f3, f4, f5, f6⟩ := fwd i m _ e₃ hi hx he₃
      obtain ⟨k'', e'', l'', q1, q2, q3, q4, q5⟩ := (hat i m _ hi).1 hx
      have hk : k' = k := by
        have hx2 : edgeAt a' i m = some (.inl (i, k')) := (hat i m _ hi).2 ⟨k', e', l', rfl, f1, f2, f3, f4⟩
        rw [hx] at hx2
        simpa using hx2.symm
      subst hk
      rw [he] at f1; cases f1
      rw [htt] at f5; cases f5
      rw [he₃, f6]
  have hres : eraseNodeEmbedded s n = .ok (eraseSlotFix s' n) := by
    unfold eraseNodeEmbedded
    rw [hl]
    simp only
    rw [g1]; rfl
  have hslot := eraseSlotFix_spec s' n
  have hlen' : s'.length = s.length := by rw [← g2.order, g3, length_lay]
  have hEq : eraseSlotFix s' n = withoutNodeE s n := by
    rw [hslot]
    apply edges_ext
    · unfold withoutNodeE; simp only [List.length_map, List.length_append, List.length_take, List.length_drop]; omega
    · intro i m
      rw [edgeAt_relabelE]
      have hr : edgeAt (withoutNodeE s n) i m = s[raise n i]?.bind fun l =>
          ((l.filter fun e => decide (e.target ≠ n))[m]?).map fun e =>
            { e with
              target := lower n e.target
              comp := match s[e.target]? with
                | some t => (t.take e.comp).countP fun e' => decide (e'.target ≠ n)
                | none => 0 } := by
        unfold edgeAt withoutNodeE
        rw [← List.eraseIdx_eq_take_drop_succ, List.getElem?_map, List.getElem?_eraseIdx]
        have : (if i < n then s[i]? else s[i + 1]?) = s[raise n i]? := by
          unfold raise
          by_cases h : i < n
          · rw [if_pos h, if_neg (by omega)]
          · rw [if_neg h, if_pos (by omega)]
        rw [this]
        cases s[raise n i]? with
        | none => rfl
        | some l =>
          simp only [Option.map_some, Option.bind_some, List.getElem?_map]
          rfl
      rw [hr]
      apply Option.ext
      intro e₀
      rw [Option.map_eq_some_iff, Option.bind_eq_some_iff]
      constructor
      · rintro ⟨e', he', rfl⟩
        obtain ⟨k, e, l, t, f1, f2, f3, f4, f5, rfl⟩ := (hedge _ _ _ (raise_ne n i)).1 he'
        refine ⟨l, f3, ?_⟩
        rw [Option.map_eq_some_iff]
        refine ⟨e, (getElem?_filter _ _ _ _).2 ⟨k, ?_, by simpa using f2, f4⟩, by rw [f5]⟩
        unfold edgeAt at f1; rw [f3] at f1; exact f1
      · rintro ⟨l, f3, h⟩
        rw [Option.map_eq_some_iff] at h
        obtain ⟨e, h1, rfl⟩ := h
        obtain ⟨k, h2, h3, h4⟩ := (getElem?_filter _ _ _ _).1 h1
        have he : edgeAt s (raise n i) k = some e := by unfold edgeAt; rw [f3]; exact h2
        obtain ⟨_, e₂, he₂, _⟩ := hs _ k e he
        obtain ⟨t, htt, _⟩ := Option.bind_eq_some_iff.1 he₂
        refine ⟨{ e with comp := (t.take e.comp).countP fun e' => decide (e'.target ≠ n) },
          (hedge _ _ _ (raise_ne n i)).2 ⟨k, e, l, t, he, by simpa using h3, f3, h4, htt, rfl⟩, by rw [htt]⟩
  refine ⟨by rw [hres, hEq], ?_⟩
  rw [← hEq, hslot]
  intro i m e₀ he₀
  rw [edgeAt_relabelE] at he₀
  obtain ⟨e', he', rfl⟩ := Option.map_eq_some_iff.1 he₀
  obtain ⟨k, e, l, t, f1, f2, f3, f4, f5, rfl⟩ := (hedge _ _ _ (raise_ne n i)).1 he'
  obtain ⟨hne, e₂, he₂, h21, h22, h23⟩ := hs _ k e f1
  have hmate := (hedge e.target ((t.take e.comp).countP fun e' => decide (e'.target ≠ n)) _ f2).2
    ⟨e.comp, e₂, t, l, he₂, by rw [h21]; exact raise_ne n i, f5, rfl, by rw [h21]; exact f3, rfl⟩
  refine ⟨?_, ?_⟩
  · intro hc
    obtain ⟨c1, c2⟩ := Prod.mk.inj hc
    simp only at c1 c2
    have c1' : e.target = raise n i := by rw [← c1, raise_lower f2]
    -- the same position of the same node
    have hx1 : edgeAt a' (raise n i) m = some (.inl (raise n i, k)) :=
      (hat _ _ _ (raise_ne n i)).2 ⟨k, e, l, rfl, f1, f2, f3, f4⟩
    have hx2 : edgeAt a' (raise n i) m = some (.inl (raise n i, e.comp)) := by
      rw [← c2]
      refine (hat _ _ _ (raise_ne n i)).2 ⟨e.comp, e₂, t, rfl, by rw [← c1']; exact he₂, by rw [h21]; exact raise_ne n i,
        by rw [← c1']; exact f5, rfl⟩
    rw [hx1] at hx2
    simp only [Option.some.injEq, Sum.inl.injEq, Prod.mk.injEq, true_and] at hx2
    exact hne (by rw [c1', hx2])
  · refine ⟨_, by rw [edgeAt_relabelE]; simp only; rw [raise_lower f2, hmate]; rfl, ?_, ?_, ?_⟩
    · simp only; rw [h21, lower_raise]
    · simp only; rw [h22, f4]
    · exact h23

end Verif.Graph
