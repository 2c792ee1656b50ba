import Verif.Lemmas.EmbeddedErase
/-
Remaining operations on embedded graphs: what they do, without reference to labellings, and that the complementary
indices stay consistent.
-/
set_option linter.unusedSectionVars false
namespace Verif.Graph
open Spec EdgeLike

variable {W M : Type} {s s' : Edges (EEdge W M)}

theorem edgeAt_removeAtE (s : Edges (EEdge W M)) (P : Nat → Nat → Bool) (i m : Nat) :
    edgeAt (removeAtE s P) i m =
      (edgeAt (removeAt s P) i m).map fun e => { e with comp := rank (fun k => !P e.target k) e.comp } := by
  unfold removeAtE edgeAt
  rw [List.getElem?_map]
  cases (removeAt s P)[i]? with
  | none => rfl
  | some l => simp

theorem length_removeAtE (s : Edges (EEdge W M)) (P : Nat → Nat → Bool) : (removeAtE s P).length = s.length := by
  unfold removeAtE; rw [List.length_map, length_removeAt]

theorem degree_removeAt {E : Type} (s : Edges E) (P : Nat → Nat → Bool) (i : Nat) :
    degree (removeAt s P) i = rank (fun k => !P i k) (degree s i) := by
  unfold degree
  rw [getElem?_removeAt]
  cases s[i]? with
  | none => rfl
  | some l =>
    simp only [Option.map_some]
    generalize hp : (fun k => !P i k) = p
    clear hp
    induction l generalizing p with
    | nil => rfl
    | cons e l ih =>
      unfold keepIdx
      rw [List.length_cons, rank_succ]
      by_cases h : p 0 = true
      · rw [if_pos h, if_pos h, List.length_cons, ih]; omega
      · rw [if_neg h, if_neg h, ih]; omega

theorem degree_removeAtE (s : Edges (EEdge W M)) (P : Nat → Nat → Bool) (i : Nat) :
    degree (removeAtE s P) i = rank (fun k => !P i k) (degree s i) := by
  rw [← degree_removeAt]
  unfold removeAtE degree
  rw [List.getElem?_map]
  cases (removeAt s P)[i]? with
  | none => rfl
  | some l => simp

/-- Removing whole edges from a labelled graph. -/
theorem Rep.remove {ι : Type} {L : Lab ι W M} {D : ι → Nat → Nat → Prop} {hole : Nat} {a : Edges ι}
    (h : Rep L D hole (fun m => m) a s) (P : Nat → Nat → Bool) :
    Rep L (fun _ _ _ => True) 0 (fun m => m) (removeAt a P) (removeAtE s P) := by
  refine ⟨?_, ?_, ?_, ?_, ?_, fun _ _ _ _ _ _ _ => trivial⟩
  · rw [length_removeAt, length_removeAtE, h.order]
  · intro i; rw [degree_removeAt, degree_removeAtE, h.deg]
  · intro i k x hx
    obtain ⟨k', hx', _⟩ := (edgeAt_removeAt _ _ _ _ _).1 hx
    exact h.lab _ _ _ hx'
  · intro i m x e hx he
    obtain ⟨k, hx', hk, hm⟩ := (edgeAt_removeAt _ _ _ _ _).1 hx
    obtain ⟨e₀, he₀⟩ := h.edge hx'
    have : edgeAt (removeAt s P) i m = some e₀ := (edgeAt_removeAt _ _ _ _ _).2 ⟨k, he₀, hk, hm⟩
    rw [edgeAt_removeAtE, this, Option.map_some, Option.some.injEq] at he
    subst he
    have := h.data _ _ _ _ hx' he₀
    exact this
  · intro i m x e j l hx he hl
    obtain ⟨k, hx', hk, hm⟩ := (edgeAt_removeAt _ _ _ _ _).1 hx
    obtain ⟨e₀, he₀⟩ := h.edge hx'
    have : edgeAt (removeAt s P) i m = some e₀ := (edgeAt_removeAt _ _ _ _ _).2 ⟨k, he₀, hk, hm⟩
    rw [edgeAt_removeAtE, this, Option.map_some, Option.some.injEq] at he
    subst he
    obtain ⟨k₂, hl', hk₂, hm₂⟩ := (edgeAt_removeAt _ _ _ _ _).1 hl
    have hlink := h.link _ _ _ _ _ _ hx' he₀ hl'
    have h2 : e₀.comp = k₂ := by rw [hlink.2]; split <;> rfl
    refine ⟨hlink.1, ?_⟩
    simp only [ite_self]
    rw [hlink.1, h2, hm₂]

theorem insert_erase_two {E : Type} (a : Edges E) {n p m q : Nat} (x y : E) (hnm : n ≠ m) :
    removeAt (ins (ins a n p x) m q y) (fun i k => decide ((i, k) = (n, p) ∨ (i, k) = (m, q))) = a := by
  rw [← erase_two_nodes _ _ _ _ _ hnm]
  apply List.ext_getElem?
  intro i
  unfold ins
  simp only [getElem?_onNode]
  by_cases h1 : i = n
  · subst h1
    simp only [if_neg hnm, if_true]
    cases a[i]? with
    | none => rfl
    | some l => simp [List.eraseIdx_insertIdx_self]
  · by_cases h2 : i = m
    · subst h2
      simp only [if_neg h1, if_true]
      cases a[i]? with
      | none => rfl
      | some l => simp [List.eraseIdx_insertIdx_self]
    · simp only [if_neg h1, if_neg h2]

theorem insert_erase_one {E : Type} (a : Edges E) {n p q : Nat} (x y : E) :
    removeAt (ins (ins a n p x) n q y)
      (fun i k => decide ((i, k) = (n, if q ≤ p then p + 1 else p) ∨ (i, k) = (n, q))) = a := by
  rw [← erase_one_node (ins (ins a n p x) n q y) n (if q ≤ p then p + 1 else p) q
    (fun l => (l.eraseIdx q).eraseIdx p)]
  · unfold ins
    rw [onNode_onNode, onNode_onNode]
    apply List.ext_getElem?
    intro i
    rw [getElem?_onNode]
    split
    · cases a[i]? with
      | none => rfl
      | some l => simp [List.eraseIdx_insertIdx_self]
    · rfl
  · intro l _
    by_cases h : q ≤ p
    · simp only [if_pos h]
      rw [keepIdx_erase_gt _ l q (p + 1) (by omega) (by intro k; rw [decide_eq_decide]; exact and_comm)]
      rfl
    · simp only [if_neg h]
      rw [keepIdx_erase_lt _ l p q (by omega) (by intro k; rfl)]

/-- From the layout with two new half edges to what the user sees. -/
theorem joined_of_rep {w : W} {m₁ m₂ : M} {hs : Embedded s} {D : Pos → Nat → Nat → Prop} {hole n p m q p' : Nat}
    (hn : n < s.length) (hm : m < s.length) (hp : p ≤ degree s n) (hq : q ≤ degree s m + if n = m then 1 else 0)
    (hp' : p' = if n = m ∧ q ≤ p then p + 1 else p)
    (h : Rep (labOf s hs (some w) (some m₁) (some m₂)) D hole (fun m => m)
      (ins (ins (lay s) n p (.inr false)) m q (.inr true)) s') :
    Embedded s' ∧ JoinedE s s' n p' m q w m₁ m₂ := by
  have hn' : n < (lay s).length := by rw [length_lay]; exact hn
  have hp1 : p ≤ degree (lay s) n := by rw [degree_lay]; exact hp
  have hm' : m < (ins (lay s) n p (.inr false)).length := by rw [length_ins, length_lay]; exact hm
  have hq' : q ≤ degree (ins (lay s) n p (.inr false)) m := by
    rw [degree_ins _ _ _ _ _ hn' hp1, degree_lay, degree_lay]
    by_cases hnm : n = m
    · subst hnm; simpa using hq
    · rw [if_neg (Ne.symm hnm)]; rw [if_neg hnm] at hq; exact hq
  have hu := uniq_ins (uniq_lay s) hn' hp1 (not_has_lay s false)
  have hno : ¬ Has (ins (lay s) n p (.inr false)) (.inr true) := by
    rintro ⟨j, l, h⟩; exact no_mate_true hn' hp1 j l h
  have hu2 := uniq_ins hu hm' hq' hno
  have hfull := full_two (hs := hs) (w := some w) (m₁ := some m₁) (m₂ := some m₂) hn' hp1 hq' (by rw [length_lay]; exact hm)
  have htrue : edgeAt (ins (ins (lay s) n p (.inr false)) m q (.inr true)) m q = some (.inr true) := at_ins_self hm' hq'
  have hfalse : edgeAt (ins (ins (lay s) n p (.inr false)) m q (.inr true)) n p' = some (.inr false) := by
    rw [edgeAt_ins _ _ _ _ hm' hq']
    by_cases hnm : n = m
    · subst hnm
      by_cases hqp : q ≤ p
      · rw [if_pos ⟨rfl, hqp⟩] at hp'
        rw [if_pos ⟨rfl, by omega⟩, show p' - 1 = p by omega]
        exact at_ins_self hn' hp1
      · rw [if_neg (by omega)] at hp'
        rw [if_neg (by omega), if_neg (by omega), hp']
        exact at_ins_self hn' hp1
    · rw [if_neg (by omega)] at hp'
      rw [if_neg (by omega), if_neg (by omega), hp']
      exact at_ins_self hn' hp1
  refine ⟨h.embedded hfull, ?_, ?_, ?_⟩
  · obtain ⟨e, he⟩ := h.edge hfalse
    have h1 := h.link _ _ _ _ _ _ hfalse he htrue
    have h2 := h.data _ _ _ _ hfalse he
    rw [he]
    have h5 : e.comp = q := by rw [h1.2]; split <;> rfl
    cases e
    simp only at h1 h5
    have h3 : some _ = some w ∧ some _ = some m₁ := h2
    simp only [Option.some.injEq] at h3
    rw [h1.1, h5, h3.1, h3.2]
  · obtain ⟨e, he⟩ := h.edge htrue
    have h1 := h.link _ _ _ _ _ _ htrue he hfalse
    have h2 := h.data _ _ _ _ htrue he
    rw [he]
    have h5 : e.comp = p' := by rw [h1.2]; split <;> rfl
    cases e
    simp only at h1 h5
    have h3 : some _ = some w ∧ some _ = some m₂ := h2
    simp only [Option.some.injEq] at h3
    rw [h1.1, h5, h3.1, h3.2]
  · have hr := h.remove (fun i k => decide ((i, k) = (n, p') ∨ (i, k) = (m, q)))
    have hlay : removeAt (ins (ins (lay s) n p (.inr false)) m q (.inr true))
        (fun i k => decide ((i, k) = (n, p') ∨ (i, k) = (m, q))) = lay s := by
      by_cases hnm : n = m
      · subst hnm
        rw [hp']
        simp only [true_and]
        exact insert_erase_one _ _ _
      · rw [if_neg (by omega)] at hp'
        rw [hp']
        exact insert_erase_two _ _ _ hnm
    rw [hlay] at hr
    exact hr.unique rep_lay full_lay

/-- `insert_join` with a position. -/
theorem insertJoinPos_spec (hs : Embedded s) {w : W} {m₁ m₂ : M} {n p q : Nat} (hn : n < s.length) (hp : p ≤ degree s n)
    (hq : q ≤ degree s n + 1) :
    ∃ s', insertJoinPos s n p q w m₁ m₂ = .ok (s', if q ≤ p then p + 1 else p, q) ∧ Embedded s' ∧
      JoinedE s s' n (if q ≤ p then p + 1 else p) n q w m₁ m₂ := by
  obtain ⟨s', h1, h2⟩ := insertJoinPos_rep (hs := hs) (w := w) (m₁ := m₁) (m₂ := m₂) hn hp hq
  exact ⟨s', h1, joined_of_rep hn hn hp (by simpa using hq) (by simp) h2⟩

/-- `insert_join` with two iterators. -/
theorem insertJoin_spec (hs : Embedded s) {w : W} {m₁ m₂ : M} {n p m q : Nat} (hn : n < s.length) (hm : m < s.length)
    (hp : p ≤ degree s n) (hq : q ≤ degree s m) :
    ∃ s', insertJoin s n p m q w m₁ m₂ = .ok (s', if n = m ∧ q ≤ p then p + 1 else p, q) ∧ Embedded s' ∧
      JoinedE s s' n (if n = m ∧ q ≤ p then p + 1 else p) m q w m₁ m₂ := by
  unfold insertJoin
  rw [List.getElem?_eq_getElem hn, List.getElem?_eq_getElem hm]
  have h1 := degree_of_getElem? (List.getElem?_eq_getElem hn)
  have h2 := degree_of_getElem? (List.getElem?_eq_getElem hm)
  simp only
  rw [if_pos ⟨by omega, by omega⟩]
  by_cases hnm : n = m
  · subst hnm
    rw [if_pos rfl]
    simp only [true_and]
    exact insertJoinPos_spec hs hn hp (by omega)
  · rw [if_neg hnm]
    simp only [hnm, false_and, if_false]
    obtain ⟨s₁, s', g1, g2, g3⟩ := insertJoin_ne_rep (hs := hs) (w := w) (m₁ := m₁) (m₂ := m₂) hn hm hnm hp hq
    refine ⟨s', by rw [g1]; simp only [Res.bind]; rw [g2], ?_⟩
    exact joined_of_rep hn hm hp (by omega) (by simp [hnm]) g3

/-- `join`. -/
theorem joinEmbedded_spec (hs : Embedded s) {w : W} {m₁ m₂ : M} {i j : Nat} (hi : i < s.length) (hj : j < s.length) :
    ∃ s', joinEmbedded s i j w m₁ m₂ = .ok s' ∧ Embedded s' ∧
      JoinedE s s' i (degree s i) j (if i = j then degree s j + 1 else degree s j) w m₁ m₂ := by
  obtain ⟨s', h1, h2⟩ := joinEmbedded_rep (hs := hs) (w := w) (m₁ := m₁) (m₂ := m₂) hi hj
  refine ⟨s', h1, joined_of_rep hi hj (Nat.le_refl _) ?_ ?_ h2⟩
  · split <;> omega
  · by_cases h : i = j
    · subst h; rw [if_pos rfl, if_neg (by omega)]
    · rw [if_neg (by simp [h])]

/-! ### Node operations and weights -/

theorem edgeAt_transposed {i j : Nat} (h : Transposed s s' i j) (n k : Nat) :
    edgeAt s' n k = (edgeAt s (transpose i j n) k).map fun e => { e with target := transpose i j e.target } := by
  unfold edgeAt
  rw [h.2 n]
  cases s[transpose i j n]? with
  | none => rfl
  | some l => simp [relabel, retarget, target]

theorem transposed_embedded {i j : Nat} (h : Transposed s s' i j) (hs : Embedded s) : Embedded s' := by
  intro n k e he
  rw [edgeAt_transposed h] at he
  obtain ⟨e₀, he₀, rfl⟩ := Option.map_eq_some_iff.1 he
  obtain ⟨h1, e', he', h2, h3, h4⟩ := hs _ _ _ he₀
  refine ⟨?_, { e' with target := transpose i j e'.target }, ?_, ?_, h3, h4⟩
  · intro hc
    obtain ⟨c1, c2⟩ := Prod.mk.inj hc
    apply h1
    simp only at c1 c2
    rw [← c1, transpose_transpose, c2]
  · rw [edgeAt_transposed h]
    simp only
    rw [transpose_transpose, he']; rfl
  · simp only; rw [h2, transpose_transpose]

theorem edgeAt_withNode {n : Nat} (hn : n ≤ s.length) (i k : Nat) :
    edgeAt (withNode s n) i k =
      if i = n then none else (edgeAt s (lower n i) k).map fun e => { e with target := raise n e.target } := by
  unfold edgeAt
  rw [getElem?_withNode s n i hn]
  split
  · rfl
  · cases s[lower n i]? with
    | none => rfl
    | some l => simp [relabel, retarget, target]

theorem withNode_embedded {n : Nat} (hn : n ≤ s.length) (hs : Embedded s) : Embedded (withNode s n) := by
  intro i k e he
  rw [edgeAt_withNode hn] at he
  split at he
  · cases he
  · rename_i hi
    obtain ⟨e₀, he₀, rfl⟩ := Option.map_eq_some_iff.1 he
    obtain ⟨h1, e', he', h2, h3, h4⟩ := hs _ _ _ he₀
    refine ⟨?_, { e' with target := raise n e'.target }, ?_, ?_, h3, h4⟩
    · intro hc
      obtain ⟨c1, c2⟩ := Prod.mk.inj hc
      apply h1
      simp only at c1 c2
      rw [← c1, lower_raise, c2]
    · rw [edgeAt_withNode hn, if_neg (raise_ne n _)]
      simp only
      rw [lower_raise, he']; rfl
    · simp only; rw [h2, raise_lower hi]

theorem changeAt_embedded (hs : Embedded s) {n k : Nat} {e : EEdge W M} (he : edgeAt s n k = some e) (w : W) :
    Embedded (changeAt s (fun i x => decide ((i, x) = (n, k) ∨ (i, x) = (e.target, e.comp))) (·.setWeight w)) := by
  obtain ⟨_, e', he', h2, h3, _⟩ := hs n k e he
  intro i x f hf
  rw [edgeAt_changeAt] at hf
  obtain ⟨f₀, hf₀, rfl⟩ := Option.map_eq_some_iff.1 hf
  obtain ⟨g1, f', hf', g2, g3, g4⟩ := hs i x f₀ hf₀
  have hsame : ((f₀.target, f₀.comp) = (n, k) ∨ (f₀.target, f₀.comp) = (e.target, e.comp)) ↔
      ((i, x) = (n, k) ∨ (i, x) = (e.target, e.comp)) := by
    constructor
    · rintro (h | h)
      · obtain ⟨h5, h6⟩ := Prod.mk.inj h
        rw [h5, h6, he] at hf'; cases hf'
        right; rw [g2, g3]
      · obtain ⟨h5, h6⟩ := Prod.mk.inj h
        rw [h5, h6, he'] at hf'; cases hf'
        left; rw [← g2, ← g3, h2, h3]
    · rintro (h | h)
      · obtain ⟨h5, h6⟩ := Prod.mk.inj h
        rw [h5, h6, he] at hf₀; cases hf₀
        right; rfl
      · obtain ⟨h5, h6⟩ := Prod.mk.inj h
        rw [h5, h6, he'] at hf₀; cases hf₀
        left; rw [h2, h3]
  by_cases hd : (i, x) = (n, k) ∨ (i, x) = (e.target, e.comp)
  · rw [if_pos (by simpa using hd)]
    refine ⟨g1, f'.setWeight w, ?_, g2, g3, rfl⟩
    show edgeAt _ f₀.target f₀.comp = _
    rw [edgeAt_changeAt, hf', Option.map_some, if_pos (by simpa using hsame.2 hd)]
  · rw [if_neg (by simpa using hd)]
    refine ⟨g1, f', ?_, g2, g3, g4⟩
    rw [edgeAt_changeAt, hf', Option.map_some, if_neg (by simpa using fun h => hd (hsame.1 h))]

theorem setWeightEmbedded_spec (hs : Embedded s) {n k : Nat} {e : EEdge W M} (he : edgeAt s n k = some e) (w : W) :
    setWeightEmbedded s n k w =
      .ok (changeAt s (fun i x => decide ((i, x) = (n, k) ∨ (i, x) = (e.target, e.comp))) (·.setWeight w)) := by
  obtain ⟨h1, e', he', _⟩ := hs n k e he
  have he2 : s[n]?.bind (·[k]?) = some e := he
  unfold setWeightEmbedded
  rw [he2]
  simp only
  have : (onEdge s e.target e.comp fun e => e.setWeight w)[e.target]?.bind (·[e.comp]?) = some (e'.setWeight w) := by
    show edgeAt _ _ _ = _
    rw [edgeAt_onEdge, if_pos rfl, he']; rfl
  rw [this]
  simp only
  rw [← changeAt_two s n k e.target e.comp (·.setWeight w) (·.setWeight w) h1 (fun _ _ => rfl)]
  rfl

theorem mutateWeightEmbedded_spec (hs : Embedded s) {n k : Nat} {e : EEdge W M} (he : edgeAt s n k = some e) (f : W → W) :
    mutateWeightEmbedded s n k f = .ok (changeAt s
      (fun i x => decide ((i, x) = (n, k) ∨ (i, x) = (e.target, e.comp))) (·.setWeight (f e.weight))) := by
  obtain ⟨h1, e', he', _, _, h4⟩ := hs n k e he
  have he2 : s[n]?.bind (·[k]?) = some e := he
  have he3 : s[e.target]?.bind (·[e.comp]?) = some e' := he'
  unfold mutateWeightEmbedded
  rw [he2]
  simp only
  rw [he3]
  simp only
  congr 1
  apply edges_ext
  · rw [length_onEdge, length_onEdge, length_changeAt]
  · intro i x
    rw [edgeAt_changeAt, edgeAt_onEdge, edgeAt_onEdge]
    by_cases c1 : (i, x) = (n, k)
    · have c2 : (i, x) ≠ (e.target, e.comp) := fun h => h1 (by rw [← h, c1])
      rw [if_pos c1, if_neg c2]
      obtain ⟨rfl, rfl⟩ := Prod.mk.inj c1
      rw [he]
      simp
    · rw [if_neg c1]
      by_cases c2 : (i, x) = (e.target, e.comp)
      · rw [if_pos c2]
        obtain ⟨h5, h6⟩ := Prod.mk.inj c2
        rw [h5, h6, he']
        simp [h4]
      · rw [if_neg c2]
        have : decide ((i, x) = (n, k) ∨ (i, x) = (e.target, e.comp)) = false := by simp only [decide_eq_false_iff_not]; rintro (h | h); exact c1 h; exact c2 h
        simp only [this]
        cases edgeAt s i x <;> rfl

end Verif.Graph
