import Verif.Lemmas.Undirected
/- The operations on embedded graphs keep the complementary indices right.

The proofs give each half edge a label.  A layout is the list, for each node, of the labels of its half edges; `mate`
takes a label to that of the other half.  `Rep` says that the edges of a graph are those of a layout, with each half
edge knowing the position of its mate, except that positions within the node `hole` may be recorded as seen through
`σ`. -/
set_option linter.unusedSectionVars false

namespace Verif.Graph
open EdgeLike Spec
variable {W M : Type}

/-! ### Positions -/
section positions
variable {E : Type}

theorem lt_degree_iff (s : Edges E) (i k : Nat) : k < degree s i ↔ ∃ e, edgeAt s i k = some e := by
  unfold degree edgeAt
  cases s[i]? with
  | none => simp
  | some l => simp [List.getElem?_eq_some_iff]

theorem edgeAt_none {s : Edges E} {i k : Nat} : edgeAt s i k = none ↔ degree s i ≤ k := by
  have := lt_degree_iff s i k
  cases h : edgeAt s i k with
  | none => simp only [h, reduceCtorEq, exists_false, iff_false] at this; simp; omega
  | some e => simp only [h, Option.some.injEq, exists_eq', iff_true] at this; simp; omega

theorem degree_of_getElem? {s : Edges E} {i : Nat} {l : List E} (h : s[i]? = some l) : degree s i = l.length := by
  unfold degree; rw [h]

theorem degree_lt_length {s : Edges E} {i k : Nat} (h : k < degree s i) : i < s.length := by
  unfold degree at h
  cases hs : s[i]? with
  | none => rw [hs] at h; simp at h
  | some l => exact (List.getElem?_eq_some_iff.1 hs).1

theorem edgeAt_lt_length {s : Edges E} {i k : Nat} {e : E} (h : edgeAt s i k = some e) : i < s.length :=
  degree_lt_length ((lt_degree_iff s i k).2 ⟨e, h⟩)

/-- Erase `d` consecutive positions. -/
def blk (s : Edges E) (i k d : Nat) : Edges E := onNode s i fun l => l.take k ++ l.drop (k + d)

theorem blk_one (s : Edges E) (i k : Nat) : onNode s i (·.eraseIdx k) = blk s i k 1 := by
  unfold blk
  congr 1
  funext l
  exact List.eraseIdx_eq_take_drop_succ l k

theorem degree_onNode (s : Edges E) (i : Nat) (f : List E → List E) (j : Nat) :
    degree (onNode s i f) j = if j = i then (match s[i]? with | some l => (f l).length | none => 0) else degree s j := by
  unfold degree
  rw [getElem?_onNode]
  by_cases h : j = i
  · subst h; rw [if_pos rfl, if_pos rfl]; cases s[j]? <;> rfl
  · rw [if_neg h, if_neg h]

theorem degree_blk (s : Edges E) (i k d j : Nat) (h : k + d ≤ degree s i) :
    degree (blk s i k d) j = if j = i then degree s i - d else degree s j := by
  unfold blk
  rw [degree_onNode]
  split
  · unfold degree at h ⊢
    cases hs : s[i]? with
    | none => rw [hs] at h; simp at h ⊢
    | some l => rw [hs] at h; simp at h ⊢; omega
  · rfl

theorem edgeAt_blk (s : Edges E) (i k d : Nat) (h : k + d ≤ degree s i) (j l : Nat) :
    edgeAt (blk s i k d) j l = if j = i ∧ k ≤ l then edgeAt s i (l + d) else edgeAt s j l := by
  unfold edgeAt blk
  rw [getElem?_onNode]
  by_cases hj : j = i
  · subst hj
    rw [if_pos rfl]
    cases hs : s[j]? with
    | none => simp
    | some L =>
      rw [degree_of_getElem? hs] at h
      simp only [Option.map_some, Option.bind_some, true_and]
      rw [List.getElem?_append]
      have : (L.take k).length = k := by simp; omega
      rw [this]
      by_cases hl : k ≤ l
      · rw [if_neg (by omega), if_pos hl, List.getElem?_drop]; congr 1; omega
      · rw [if_pos (by omega), if_neg hl, List.getElem?_take_of_lt (by omega)]
  · rw [if_neg hj, if_neg (by simp [hj])]

/-- Insert at a position. -/
def ins (s : Edges E) (i p : Nat) (e : E) : Edges E := onNode s i (·.insertIdx p e)

theorem degree_ins (s : Edges E) (i p : Nat) (e : E) (j : Nat) (hi : i < s.length) (h : p ≤ degree s i) :
    degree (ins s i p e) j = if j = i then degree s i + 1 else degree s j := by
  unfold ins
  rw [degree_onNode]
  split
  · unfold degree at h ⊢
    rw [List.getElem?_eq_getElem hi] at h ⊢
    simp only at h ⊢
    rw [List.length_insertIdx_of_le_length h]
  · rfl

theorem edgeAt_ins (s : Edges E) (i p : Nat) (e : E) (hi : i < s.length) (h : p ≤ degree s i) (j l : Nat) :
    edgeAt (ins s i p e) j l =
      if j = i ∧ p < l then edgeAt s i (l - 1) else if j = i ∧ p = l then some e else edgeAt s j l := by
  unfold edgeAt ins
  rw [getElem?_onNode]
  by_cases hj : j = i
  · subst hj
    rw [if_pos rfl]
    rw [degree_of_getElem? (List.getElem?_eq_getElem hi)] at h
    rw [List.getElem?_eq_getElem hi]
    simp only [Option.map_some, Option.bind_some, true_and]
    rw [List.getElem?_insertIdx]
    by_cases hl : p < l
    · rw [if_neg (by omega), if_neg (by omega), if_pos hl]
    · by_cases hl' : p = l
      · subst hl'; rw [if_neg hl, if_pos rfl, if_pos (by omega), if_neg hl, if_pos rfl]
      · rw [if_pos (by omega), if_neg hl, if_neg hl']
  · rw [if_neg hj, if_neg (by simp [hj]), if_neg (by simp [hj])]

theorem append_eq_ins (s : Edges E) (i : Nat) (e : E) : onNode s i (· ++ [e]) = ins s i (degree s i) e := by
  unfold ins
  apply List.ext_getElem?
  intro j
  rw [getElem?_onNode, getElem?_onNode]
  split
  · rename_i h
    subst h
    cases hs : s[j]? with
    | none => rfl
    | some l =>
      rw [degree_of_getElem? hs]
      simp
  · rfl

end positions

/-! ### Labelled layouts -/

/-- Labels, the mate of each, and the data of the half edges. -/
structure Lab (ι W M : Type) where
  S : ι → Prop
  mate : ι → ι
  wt : ι → Option W
  md : ι → Option M
  mem : ∀ x, S x → S (mate x)
  invol : ∀ x, S x → mate (mate x) = x
  ne : ∀ x, S x → mate x ≠ x
  wtm : ∀ x, S x → wt (mate x) = wt x

variable {ι : Type}

/-- No label occurs twice. -/
def Uniq (a : Edges ι) : Prop := ∀ i k j l x, edgeAt a i k = some x → edgeAt a j l = some x → i = j ∧ k = l

/-- The label occurs. -/
def Has (a : Edges ι) (x : ι) : Prop := ∃ j l, edgeAt a j l = some x

structure Rep (L : Lab ι W M) (D : ι → Nat → Nat → Prop) (hole : Nat) (σ : Nat → Nat) (a : Edges ι)
    (s : Edges (EEdge W M)) : Prop where
  order : a.length = s.length
  deg : ∀ i, degree a i = degree s i
  lab : ∀ i k x, edgeAt a i k = some x → L.S x
  data : ∀ i k x e, edgeAt a i k = some x → edgeAt s i k = some e → some e.weight = L.wt x ∧ some e.md = L.md x
  link : ∀ i k x e j l, edgeAt a i k = some x → edgeAt s i k = some e → edgeAt a j l = some (L.mate x) →
    e.target = j ∧ e.comp = if j = hole then σ l else l
  dang : ∀ i k x e, edgeAt a i k = some x → edgeAt s i k = some e → ¬ Has a (L.mate x) → D x e.target e.comp

variable {L : Lab ι W M} {D : ι → Nat → Nat → Prop} {hole : Nat} {σ : Nat → Nat} {a : Edges ι}
  {s : Edges (EEdge W M)}

theorem Rep.edge (h : Rep L D hole σ a s) {i k : Nat} {x : ι} (hx : edgeAt a i k = some x) :
    ∃ e, edgeAt s i k = some e := by
  rw [← lt_degree_iff, ← h.deg, lt_degree_iff]; exact ⟨x, hx⟩

theorem Rep.label (h : Rep L D hole σ a s) {i k : Nat} {e : EEdge W M} (he : edgeAt s i k = some e) :
    ∃ x, edgeAt a i k = some x := by
  rw [← lt_degree_iff, h.deg, lt_degree_iff]; exact ⟨e, he⟩

/-- The view `σ` matters on the positions of the hole only. -/
theorem Rep.congr (h : Rep L D hole σ a s) {σ' : Nat → Nat} (hσ : ∀ m, m < degree a hole → σ m = σ' m) :
    Rep L D hole σ' a s := by
  refine ⟨h.order, h.deg, h.lab, h.data, ?_, h.dang⟩
  intro i k x e j l hx he hm
  have := h.link i k x e j l hx he hm
  refine ⟨this.1, ?_⟩
  rw [this.2]
  split
  · rename_i hj; subst hj
    exact hσ l ((lt_degree_iff _ _ _).2 ⟨_, hm⟩)
  · rfl

/-- With the identity as view the hole is immaterial. -/
theorem Rep.move (h : Rep L D hole (fun m => m) a s) (hole' : Nat) : Rep L D hole' (fun m => m) a s := by
  refine ⟨h.order, h.deg, h.lab, h.data, ?_, h.dang⟩
  intro i k x e j l hx he hm
  have := h.link i k x e j l hx he hm
  simpa using this

theorem Rep.weaken (h : Rep L D hole σ a s) {D' : ι → Nat → Nat → Prop} (hD : ∀ x t c, D x t c → D' x t c) :
    Rep L D' hole σ a s :=
  ⟨h.order, h.deg, h.lab, h.data, h.link, fun i k x e hx he hn => hD _ _ _ (h.dang i k x e hx he hn)⟩

theorem length_setC (s : Edges (EEdge W M)) (j l : Nat) (f : Nat → Nat) :
    (onEdge s j l fun e => { e with comp := f e.comp }).length = s.length := length_onEdge _ _ _ _

theorem degree_onEdge {E : Type} (s : Edges E) (n k : Nat) (f : E → E) (i : Nat) :
    degree (onEdge s n k f) i = degree s i := by
  unfold onEdge
  rw [degree_onNode]
  split
  · rename_i h; subst h
    unfold degree
    cases s[i]? with
    | none => rfl
    | some l => simp
  · rfl

/-- Correcting the position recorded by one half edge. -/
theorem Rep.setComp (h : Rep L D hole σ a s) (hu : Uniq a) {q j l : Nat} {x : ι} (f : Nat → Nat)
    (hx : edgeAt a hole q = some x) (hm : edgeAt a j l = some (L.mate x)) :
    ∃ s', setComp s j l f = .ok s' ∧ Rep L D hole (fun m => if m = q then f (σ m) else σ m) a s' := by
  obtain ⟨e₀, he₀⟩ := h.edge hm
  have hS := h.lab _ _ _ hx
  refine ⟨onEdge s j l fun e => { e with comp := f e.comp }, ?_, ?_⟩
  · unfold Graph.setComp
    have : s[j]?.bind (·[l]?) = some e₀ := he₀
    rw [this]
  have key : ∀ i k e, edgeAt (onEdge s j l fun e => { e with comp := f e.comp }) i k = some e →
      ∃ e', edgeAt s i k = some e' ∧ e.weight = e'.weight ∧ e.md = e'.md ∧ e.target = e'.target ∧
        e.comp = if (i, k) = (j, l) then f e'.comp else e'.comp := by
    intro i k e he
    rw [edgeAt_onEdge] at he
    by_cases hik : (i, k) = (j, l)
    · rw [if_pos hik] at he
      obtain ⟨e', he', rfl⟩ := Option.map_eq_some_iff.1 he
      exact ⟨e', he', rfl, rfl, rfl, by rw [if_pos hik]⟩
    · rw [if_neg hik] at he
      exact ⟨e, he, rfl, rfl, rfl, by rw [if_neg hik]⟩
  refine ⟨by rw [length_onEdge]; exact h.order, fun i => by rw [degree_onEdge]; exact h.deg i, h.lab, ?_, ?_, ?_⟩
  · intro i k y e hy he
    obtain ⟨e', he', h1, h2, _, _⟩ := key i k e he
    rw [h1, h2]; exact h.data i k y e' hy he'
  · intro i k y e j' l' hy he hm'
    obtain ⟨e', he', _, _, h3, h4⟩ := key i k e he
    have hl := h.link i k y e' j' l' hy he' hm'
    refine ⟨h3.trans hl.1, ?_⟩
    rw [h4]
    by_cases hik : (i, k) = (j, l)
    · rw [if_pos hik]
      obtain ⟨rfl, rfl⟩ := Prod.mk.inj hik
      have hyx : y = L.mate x := by rw [hm] at hy; exact (Option.some.inj hy).symm
      rw [hyx, L.invol x hS] at hm'
      obtain ⟨rfl, rfl⟩ := hu _ _ _ _ _ hx hm'
      rw [hl.2, if_pos rfl, if_pos rfl, if_pos rfl]
    · rw [if_neg hik, hl.2]
      split
      · rename_i hj'
        subst hj'
        rw [if_neg]
        rintro rfl
        rw [hx] at hm'
        have hyx : y = L.mate x := by
          rw [Option.some.inj hm', L.invol y (h.lab _ _ _ hy)]
        rw [hyx] at hy
        obtain ⟨rfl, rfl⟩ := hu _ _ _ _ _ hy hm
        exact hik rfl
      · rfl
  · intro i k y e hy he hn
    obtain ⟨e', he', _, _, h3, h4⟩ := key i k e he
    have := h.dang i k y e' hy he' hn
    rw [h3, h4, if_neg]
    · exact this
    · intro hik
      obtain ⟨rfl, rfl⟩ := Prod.mk.inj hik
      have hyx : y = L.mate x := by rw [hm] at hy; exact (Option.some.inj hy).symm
      apply hn
      rw [hyx, L.invol x hS]
      exact ⟨_, _, hx⟩

/-- `modify_comp_indices` corrects the positions recorded for a range of half edges. -/
theorem modifyComp_rep (f : Nat → Nat) (n : Nat) (hu : Uniq a) :
    ∀ (p : Nat) (s : Edges (EEdge W M)) (σ : Nat → Nat), Rep L D hole σ a s →
    (∀ q, p ≤ q → q < p + n → ∃ x j l, edgeAt a hole q = some x ∧ edgeAt a j l = some (L.mate x) ∧
      (j = hole → (l < q → (if p ≤ l then f (σ l) else σ l) = l ∧ f l ≤ q) ∧
        (q < l → f (σ l) = l))) →
    ∃ s', modifyComp f hole p n s = .ok s' ∧
      Rep L D hole (fun m => if p ≤ m ∧ m < p + n then f (σ m) else σ m) a s' := by
  induction n with
  | zero =>
    intro p s σ h _
    exact ⟨s, rfl, h.congr fun m _ => by rw [if_neg (by omega)]⟩
  | succ n ih =>
    intro p s σ h hc
    obtain ⟨x, j, l, hx, hm, hjl⟩ := hc p (by omega) (by omega)
    obtain ⟨e, he⟩ := h.edge hx
    have hlink := h.link _ _ _ _ _ _ hx he hm
    obtain ⟨s₁, h1, h2⟩ := h.setComp hu f hx hm
    have hstep : (if hole ≠ e.target then Graph.setComp s e.target e.comp f
        else if f e.comp ≤ p then Graph.setComp s e.target e.comp f
        else Graph.setComp s e.target (f e.comp) f) = .ok s₁ := by
      rw [hlink.1, hlink.2]
      by_cases hj : j = hole
      · rw [if_neg (by simp [hj]), if_pos hj]
        obtain ⟨hb, hc⟩ := hjl hj
        have hne : l ≠ p := by
          rintro rfl
          subst hj
          rw [hx] at hm
          exact L.ne x (h.lab _ _ _ hx) (Option.some.inj hm).symm
        by_cases hlp : l < p
        · obtain ⟨hb1, hb2⟩ := hb hlp
          rw [if_neg (by omega)] at hb1
          rw [hb1, if_pos hb2, h1]
        · have := hc (by omega)
          rw [this, if_neg (by omega), h1]
      · rw [if_pos (Ne.symm hj), if_neg hj, h1]
    obtain ⟨s', h3, h4⟩ := ih (p + 1) s₁ _ h2 (by
      intro q hq1 hq2
      obtain ⟨x', j', l', hx', hm', hjl'⟩ := hc q (by omega) (by omega)
      refine ⟨x', j', l', hx', hm', ?_⟩
      intro hj'
      obtain ⟨hb, hc⟩ := hjl' hj'
      refine ⟨?_, ?_⟩
      · intro hlq
        refine ⟨?_, (hb hlq).2⟩
        have := (hb hlq).1
        by_cases hp : p + 1 ≤ l'
        · rw [if_pos (by omega)] at this
          rw [if_pos hp, if_neg (by omega), this]
        · rw [if_neg hp]
          by_cases hlp : l' = p
          · subst hlp
            rw [if_pos (by omega)] at this
            rw [if_pos rfl, this]
          · rw [if_neg (by omega)] at this
            rw [if_neg hlp, this]
      · intro hql
        rw [if_neg (by omega)]
        exact hc hql)
    refine ⟨s', ?_, h4.congr ?_⟩
    · unfold modifyComp
      have he' : s[hole]?.bind (·[p]?) = some e := he
      simp only [he']
      rw [hstep]
      exact h3
    · intro m _
      by_cases hm1 : m = p
      · subst hm1; rw [if_neg (by omega), if_pos rfl, if_pos (by omega)]
      · by_cases hm2 : p + 1 ≤ m ∧ m < p + 1 + n
        · rw [if_pos hm2, if_neg hm1, if_pos (by omega)]
        · rw [if_neg hm2, if_neg hm1, if_neg (by omega)]

/-! ### Erasing half edges -/

theorem uniq_blk (hu : Uniq a) {i k d : Nat} (hk : k + d ≤ degree a i) : Uniq (blk a i k d) := by
  intro i₁ k₁ i₂ k₂ x h1 h2
  rw [edgeAt_blk _ _ _ _ hk] at h1 h2
  split at h1 <;> split at h2
  · rename_i c1 c2
    obtain ⟨_, h⟩ := hu _ _ _ _ _ h1 h2
    omega
  · rename_i c1 c2
    obtain ⟨h, h'⟩ := hu _ _ _ _ _ h1 h2
    omega
  · rename_i c1 c2
    obtain ⟨h, h'⟩ := hu _ _ _ _ _ h1 h2
    omega
  · exact hu _ _ _ _ _ h1 h2

theorem Rep.blk (h : Rep L D hole (fun m => m) a s) {i k d : Nat} (hk : k + d ≤ degree a i) :
    Rep L (fun _ _ _ => True) i (fun m => if k ≤ m then m + d else m) (blk a i k d) (blk s i k d) := by
  have hk' : k + d ≤ degree s i := by rw [← h.deg]; exact hk
  refine ⟨by unfold Graph.blk; rw [length_onNode, length_onNode]; exact h.order, ?_, ?_, ?_, ?_, fun _ _ _ _ _ _ _ => trivial⟩
  · intro j; rw [degree_blk _ _ _ _ _ hk, degree_blk _ _ _ _ _ hk', h.deg, h.deg]
  · intro j l x hx
    rw [edgeAt_blk _ _ _ _ hk] at hx
    split at hx
    · exact h.lab _ _ _ hx
    · exact h.lab _ _ _ hx
  · intro j l x e hx he
    rw [edgeAt_blk _ _ _ _ hk] at hx
    rw [edgeAt_blk _ _ _ _ hk'] at he
    split at hx
    · rename_i c; rw [if_pos c] at he; exact h.data _ _ _ _ hx he
    · rename_i c; rw [if_neg c] at he; exact h.data _ _ _ _ hx he
  · intro j l x e j' l' hx he hm
    have main : ∀ i₂ k₂, edgeAt a i₂ k₂ = some x → edgeAt s i₂ k₂ = some e →
        e.target = j' ∧ e.comp = if j' = i then (if k ≤ l' then l' + d else l') else l' := by
      intro i₂ k₂ hx he
      rw [edgeAt_blk _ _ _ _ hk] at hm
      split at hm
      · rename_i c
        have := h.link _ _ _ _ _ _ hx he hm
        rw [if_pos c.1, if_pos c.2]
        refine ⟨by rw [this.1, c.1], ?_⟩
        rw [this.2]; split <;> rfl
      · rename_i c
        have := h.link _ _ _ _ _ _ hx he hm
        refine ⟨this.1, ?_⟩
        rw [this.2]
        by_cases hj : j' = i
        · rw [if_pos hj, if_neg (fun hh => c ⟨hj, hh⟩)]; split <;> rfl
        · rw [if_neg hj]; split <;> rfl
    rw [edgeAt_blk _ _ _ _ hk] at hx
    rw [edgeAt_blk _ _ _ _ hk'] at he
    split at hx
    · rename_i c; rw [if_pos c] at he; exact main _ _ hx he
    · rename_i c; rw [if_neg c] at he; exact main _ _ hx he

/-- Erasing consecutive half edges and decrementing, provided that the half edges after them still have mates. -/
theorem blk_decrement (h : Rep L D hole (fun m => m) a s) (hu : Uniq a) {i k d : Nat} (hd : 0 < d)
    (hk : k + d ≤ degree a i)
    (hmates : ∀ q x, k ≤ q → edgeAt (blk a i k d) i q = some x → Has (blk a i k d) (L.mate x)) :
    ∃ s', decrement d i k (blk s i k d) = .ok s' ∧
      Rep L (fun _ _ _ => True) i (fun m => m) (blk a i k d) s' := by
  have h1 := h.blk hk
  have hu1 := uniq_blk hu hk
  unfold decrement
  have hdeg : degree (blk s i k d) i = degree (blk a i k d) i := (h1.deg i).symm
  rw [hdeg]
  have hkd : k ≤ degree (blk a i k d) i := by rw [degree_blk _ _ _ _ _ hk, if_pos rfl]; omega
  obtain ⟨s', h2, h3⟩ := modifyComp_rep (L := L) (hole := i) (dec d) (degree (blk a i k d) i - k) hu1 k _ _ h1 (by
    intro q hq1 hq2
    obtain ⟨x, hx⟩ := (lt_degree_iff (blk a i k d) i q).1 (by omega)
    obtain ⟨j, l, hm⟩ := hmates q x hq1 hx
    refine ⟨x, j, l, hx, hm, ?_⟩
    intro _
    refine ⟨?_, ?_⟩
    · intro hlq
      refine ⟨?_, ?_⟩
      · unfold dec
        by_cases hkl : k ≤ l
        · rw [if_pos hkl, if_pos hkl, if_pos (by omega)]; omega
        · rw [if_neg hkl, if_neg hkl]
      · unfold dec; split <;> omega
    · intro hql
      rw [if_pos (by omega)]
      unfold dec
      rw [if_pos (by omega)]; omega)
  refine ⟨s', h2, h3.congr ?_⟩
  intro m hm
  by_cases hkm : k ≤ m
  · rw [if_pos ⟨hkm, by omega⟩, if_pos hkm]; unfold dec; rw [if_pos (by omega)]; omega
  · rw [if_neg (by omega), if_neg hkm]

theorem eraseHalf_rep (h : Rep L D hole (fun m => m) a s) (hu : Uniq a) {i k : Nat} (hk : k < degree a i)
    (hmates : ∀ q x, k ≤ q → edgeAt (blk a i k 1) i q = some x → Has (blk a i k 1) (L.mate x)) :
    ∃ s', eraseHalf s i k = .ok s' ∧ Rep L (fun _ _ _ => True) i (fun m => m) (blk a i k 1) s' := by
  unfold eraseHalf
  rw [blk_one]
  exact blk_decrement h hu (by omega) (by omega) hmates

/-! ### Inserting half edges -/

theorem uniq_ins (hu : Uniq a) {i p : Nat} {x : ι} (hi : i < a.length) (hp : p ≤ degree a i) (hx : ¬ Has a x) :
    Uniq (ins a i p x) := by
  have main : ∀ i₁ k₁ i₂ k₂ y, edgeAt (ins a i p x) i₁ k₁ = some y → edgeAt (ins a i p x) i₂ k₂ = some y →
      y ≠ x → i₁ = i₂ ∧ k₁ = k₂ := by
    intro i₁ k₁ i₂ k₂ y h1 h2 hne
    rw [edgeAt_ins _ _ _ _ hi hp] at h1 h2
    split at h1
    · split at h2
      · obtain ⟨_, h⟩ := hu _ _ _ _ _ h1 h2; omega
      · split at h2
        · cases h2; exact absurd rfl hne
        · obtain ⟨h, h'⟩ := hu _ _ _ _ _ h1 h2; omega
    · split at h1
      · cases h1; exact absurd rfl hne
      · split at h2
        · obtain ⟨_, h⟩ := hu _ _ _ _ _ h1 h2; omega
        · split at h2
          · cases h2; exact absurd rfl hne
          · exact hu _ _ _ _ _ h1 h2
  have hpos : ∀ i₁ k₁, edgeAt (ins a i p x) i₁ k₁ = some x → i₁ = i ∧ k₁ = p := by
    intro i₁ k₁ h1
    rw [edgeAt_ins _ _ _ _ hi hp] at h1
    split at h1
    · exact absurd ⟨_, _, h1⟩ hx
    · split at h1
      · rename_i c; exact ⟨c.1, c.2.symm⟩
      · exact absurd ⟨_, _, h1⟩ hx
  intro i₁ k₁ i₂ k₂ y h1 h2
  by_cases hy : y = x
  · subst hy
    obtain ⟨rfl, rfl⟩ := hpos _ _ h1
    obtain ⟨rfl, rfl⟩ := hpos _ _ h2
    exact ⟨rfl, rfl⟩
  · exact main _ _ _ _ _ h1 h2 hy

theorem has_ins {i p : Nat} {x y : ι} (hi : i < a.length) (hp : p ≤ degree a i) :
    Has (ins a i p x) y ↔ y = x ∨ Has a y := by
  constructor
  · rintro ⟨j, l, h⟩
    rw [edgeAt_ins _ _ _ _ hi hp] at h
    split at h
    · exact .inr ⟨_, _, h⟩
    · split at h
      · cases h; exact .inl rfl
      · exact .inr ⟨_, _, h⟩
  · rintro (rfl | ⟨j, l, h⟩)
    · exact ⟨i, p, by rw [edgeAt_ins _ _ _ _ hi hp, if_neg (by omega), if_pos ⟨rfl, rfl⟩]⟩
    · by_cases c : j = i ∧ p ≤ l
      · refine ⟨j, l + 1, ?_⟩
        rw [edgeAt_ins _ _ _ _ hi hp, if_pos ⟨c.1, by omega⟩, ← c.1]; exact h
      · refine ⟨j, l, ?_⟩
        rw [edgeAt_ins _ _ _ _ hi hp, if_neg (by omega), if_neg (by omega)]; exact h

/-- Insertion of a half edge. -/
theorem Rep.ins (h : Rep L D hole (fun m => m) a s) (hu : Uniq a) {i p : Nat} {x : ι} {e₀ : EEdge W M} (hi : i < a.length)
    (hp : p ≤ degree a i) (hx : ¬ Has a x) (hS : L.S x) (hdata : some e₀.weight = L.wt x ∧ some e₀.md = L.md x)
    (D' : ι → Nat → Nat → Prop)
    (hlink : ∀ j l, edgeAt (ins a i p x) j l = some (L.mate x) → e₀.target = j ∧ e₀.comp = l)
    (hback : ∀ t c, D (L.mate x) t c → t = i ∧ c = p)
    (hself : ¬ Has a (L.mate x) → D' x e₀.target e₀.comp)
    (hD : ∀ y t c, Has a y → L.mate y ≠ x → D y t c → D' y t c) (σ : Nat → Nat)
    (hσ₁ : ∀ m, p < m → edgeAt (ins a i p x) i m ≠ some (L.mate x) → σ m = m - 1)
    (hσ₂ : ∀ m, m ≤ p ∨ edgeAt (ins a i p x) i m = some (L.mate x) → σ m = m) :
    Rep L D' i σ (ins a i p x) (ins s i p e₀) := by
  have hi' : i < s.length := by rw [← h.order]; exact hi
  have hp' : p ≤ degree s i := by rw [← h.deg]; exact hp
  have hu' := uniq_ins hu hi hp hx
  have hxat : edgeAt (Graph.ins a i p x) i p = some x := by
    rw [edgeAt_ins _ _ _ _ hi hp, if_neg (by omega), if_pos ⟨rfl, rfl⟩]
  -- each label of the new layout is the new one or an old one
  have key : ∀ j l y e, edgeAt (Graph.ins a i p x) j l = some y → edgeAt (Graph.ins s i p e₀) j l = some e →
      (y = x ∧ e = e₀) ∨ (y ≠ x ∧ ∃ j₀ l₀, edgeAt a j₀ l₀ = some y ∧ edgeAt s j₀ l₀ = some e ∧ j₀ = j ∧
        l₀ = if j = i ∧ p < l then l - 1 else l) := by
    intro j l y e hy he
    rw [edgeAt_ins _ _ _ _ hi hp] at hy
    rw [edgeAt_ins _ _ _ _ hi' hp'] at he
    have hne : Has a y → y ≠ x := by rintro hh rfl; exact hx hh
    split at hy
    · rename_i c
      rw [if_pos c] at he
      exact .inr ⟨hne ⟨_, _, hy⟩, i, l - 1, hy, he, c.1.symm, by rw [if_pos c]⟩
    · rename_i c
      rw [if_neg c] at he
      split at hy
      · rename_i c2
        rw [if_pos c2] at he
        cases hy; cases he
        exact .inl ⟨rfl, rfl⟩
      · rename_i c2
        rw [if_neg c2] at he
        exact .inr ⟨hne ⟨_, _, hy⟩, j, l, hy, he, rfl, by rw [if_neg c]⟩
  refine ⟨?_, ?_, ?_, ?_, ?_, ?_⟩
  · unfold Graph.ins; rw [length_onNode, length_onNode]; exact h.order
  · intro j; rw [degree_ins _ _ _ _ _ hi hp, degree_ins _ _ _ _ _ hi' hp', h.deg, h.deg]
  · intro j l y hy
    rw [edgeAt_ins _ _ _ _ hi hp] at hy
    split at hy
    · exact h.lab _ _ _ hy
    · split at hy
      · cases hy; exact hS
      · exact h.lab _ _ _ hy
  · intro j l y e hy he
    rcases key j l y e hy he with ⟨rfl, rfl⟩ | ⟨_, j₀, l₀, hy₀, he₀, _⟩
    · exact hdata
    · exact h.data _ _ _ _ hy₀ he₀
  · intro j l y e j' l' hy he hm
    rcases key j l y e hy he with ⟨rfl, rfl⟩ | ⟨hne, j₀, l₀, hy₀, he₀', hj₀, hl₀⟩
    · have := hlink j' l' hm
      refine ⟨this.1, ?_⟩
      rw [this.2]
      split
      · rename_i hj'
        subst hj'
        exact (hσ₂ _ (.inr hm)).symm
      · rfl
    · obtain ⟨e', he'⟩ : ∃ e', edgeAt (Graph.ins s i p e₀) j' l' = some e' := by
        rw [← lt_degree_iff, degree_ins _ _ _ _ _ hi' hp', ← h.deg, ← h.deg, ← degree_ins _ _ _ _ _ hi hp,
          lt_degree_iff]
        exact ⟨_, hm⟩
      have hSy := h.lab _ _ _ hy₀
      rcases key j' l' _ e' hm he' with ⟨hmx, rfl⟩ | ⟨hne', j₁, l₁, hy₁, _, hj₁, hl₁⟩
      · -- the mate is the new half
        have hyx : y = L.mate x := by rw [← hmx, L.invol y hSy]
        rw [hmx] at hm
        obtain ⟨rfl, rfl⟩ := hu' _ _ _ _ _ hm hxat
        have hd := h.dang _ _ _ _ hy₀ he₀' (by rw [hmx]; exact hx)
        rw [hyx] at hd
        obtain ⟨h1, h2⟩ := hback _ _ hd
        refine ⟨h1, ?_⟩
        rw [h2]
        rw [if_pos rfl, hσ₂ _ (.inl (by omega))]
      · have hl := h.link _ _ _ _ _ _ hy₀ he₀' hy₁
        refine ⟨by rw [hl.1, hj₁], ?_⟩
        rw [hl.2]
        rw [show (if j₁ = hole then l₁ else l₁) = l₁ by split <;> rfl, hl₁]
        by_cases hj' : j' = i
        · subst hj'
          rw [if_pos rfl]
          by_cases hpl : p < l'
          · rw [if_pos ⟨rfl, hpl⟩, hσ₁ _ hpl]
            intro hz
            rw [hm] at hz
            apply hne
            rw [← L.invol y hSy, Option.some.inj hz, L.invol x hS]
          · rw [if_neg (by omega), hσ₂ _ (.inl (by omega))]
        · rw [if_neg (by simp [hj']), if_neg hj']
  · intro j l y e hy he hn
    rw [has_ins hi hp, not_or] at hn
    rcases key j l y e hy he with ⟨rfl, rfl⟩ | ⟨_, j₀, l₀, hy₀, he₀', _⟩
    · exact hself hn.2
    · exact hD _ _ _ ⟨_, _, hy₀⟩ hn.1 (h.dang _ _ _ _ hy₀ he₀' hn.2)

/-- `insert_to_partition`. -/
theorem insertHalf_rep (h : Rep L D hole (fun m => m) a s) (hu : Uniq a) {i p : Nat} {x : ι} {e₀ : EEdge W M}
    (hi : i < a.length) (hp : p ≤ degree a i) (hx : ¬ Has a x) (hS : L.S x)
    (hdata : some e₀.weight = L.wt x ∧ some e₀.md = L.md x) (D' : ι → Nat → Nat → Prop)
    (hlink : ∀ j l, edgeAt (ins a i p x) j l = some (L.mate x) → e₀.target = j ∧ e₀.comp = l)
    (hback : ∀ t c, D (L.mate x) t c → t = i ∧ c = p)
    (hself : ¬ Has a (L.mate x) → D' x e₀.target e₀.comp)
    (hD : ∀ y t c, Has a y → L.mate y ≠ x → D y t c → D' y t c)
    (hno : ∀ m, p < m → edgeAt (ins a i p x) i m ≠ some (L.mate x))
    (hmates : ∀ q z, p < q → edgeAt (ins a i p x) i q = some z → Has (ins a i p x) (L.mate z)) :
    ∃ s', insertHalf s i p e₀ = .ok s' ∧ Rep L D' i (fun m => m) (ins a i p x) s' := by
  have hS' := h.ins hu hi hp hx hS hdata D' hlink hback hself hD (fun m => if p < m then m - 1 else m)
    (fun m hm _ => if_pos hm) (by
      rintro m (hm | hm)
      · exact if_neg (by omega)
      · by_cases hpm : p < m
        · exact absurd hm (hno m hpm)
        · exact if_neg hpm)
  have hu' := uniq_ins hu hi hp hx
  have hdeg : degree (ins s i p e₀) i = degree (ins a i p x) i := (hS'.deg i).symm
  have hpd : p < degree (ins a i p x) i := by rw [degree_ins _ _ _ _ _ hi hp, if_pos rfl]; omega
  obtain ⟨s', h1, h2⟩ := modifyComp_rep (L := L) (hole := i) (· + 1) (degree (ins a i p x) i - (p + 1)) hu' (p + 1) _ _
    hS' (by
      intro q hq1 hq2
      obtain ⟨z, hz⟩ := (lt_degree_iff (ins a i p x) i q).1 (by omega)
      obtain ⟨j, l, hm⟩ := hmates q z (by omega) hz
      refine ⟨z, j, l, hz, hm, ?_⟩
      intro _
      refine ⟨?_, ?_⟩
      · intro hlq
        refine ⟨?_, by omega⟩
        by_cases hpl : p + 1 ≤ l
        · rw [if_pos hpl, if_pos (by omega)]; omega
        · rw [if_neg hpl, if_neg (by omega)]
      · intro hql
        rw [if_pos (by omega)]; omega)
  refine ⟨s', ?_, h2.congr ?_⟩
  · unfold insertHalf
    show increment i (p + 1) (degree (ins s i p e₀) i) (ins s i p e₀) = _
    rw [hdeg]; exact h1
  · intro m hm
    by_cases hpm : p + 1 ≤ m
    · rw [if_pos ⟨hpm, by omega⟩, if_pos (by omega)]; omega
    · rw [if_neg (by omega), if_neg (by omega)]

/-! ### Complete layouts and the invariant -/

/-- Every half edge has its mate. -/
def Full (L : Lab ι W M) (a : Edges ι) : Prop := ∀ x, Has a x → Has a (L.mate x)

theorem Rep.embedded (h : Rep L D hole (fun m => m) a s) (hf : Full L a) : Embedded s := by
  intro n k e he
  obtain ⟨x, hx⟩ := h.label he
  have hS := h.lab _ _ _ hx
  obtain ⟨j, l, hm⟩ := hf x ⟨_, _, hx⟩
  have hl := h.link _ _ _ _ _ _ hx he hm
  have hl2 : e.comp = l := by rw [hl.2]; split <;> rfl
  obtain ⟨e', he'⟩ := h.edge hm
  have hb := h.link _ _ _ _ n k hm he' (by rw [L.invol x hS]; exact hx)
  have hb2 : e'.comp = k := by rw [hb.2]; split <;> rfl
  rw [hl.1, hl2]
  refine ⟨?_, e', he', hb.1, hb2, ?_⟩
  · intro hc
    obtain ⟨rfl, rfl⟩ := Prod.mk.inj hc
    rw [hx] at hm
    exact L.ne x hS (Option.some.inj hm).symm
  · have h1 := (h.data _ _ _ _ hx he).1
    have h2 := (h.data _ _ _ _ hm he').1
    rw [L.wtm x hS, ← h1] at h2
    exact Option.some.inj h2

/-- A complete layout determines the graph. -/
theorem Rep.unique {D' : ι → Nat → Nat → Prop} {hole' : Nat} {s' : Edges (EEdge W M)}
    (h : Rep L D hole (fun m => m) a s) (h' : Rep L D' hole' (fun m => m) a s') (hf : Full L a) : s = s' := by
  apply edges_ext
  · rw [← h.order, h'.order]
  · intro i k
    cases he : edgeAt s i k with
    | none =>
      symm
      rw [edgeAt_none, ← h'.deg, h.deg, ← edgeAt_none]; exact he
    | some e =>
      obtain ⟨x, hx⟩ := h.label he
      obtain ⟨e', he'⟩ := h'.edge hx
      rw [he']
      obtain ⟨j, l, hm⟩ := hf x ⟨_, _, hx⟩
      have h1 := h.link _ _ _ _ _ _ hx he hm
      have h2 := h'.link _ _ _ _ _ _ hx he' hm
      have h3 := h.data _ _ _ _ hx he
      have h4 := h'.data _ _ _ _ hx he'
      have h5 : e.comp = e'.comp := by
        rw [h1.2, h2.2]; split <;> split <;> rfl
      have h6 : e.target = e'.target := h1.1.trans h2.1.symm
      have h7 := h3.1.trans h4.1.symm
      have h8 := h3.2.trans h4.2.symm
      cases e; cases e'
      simp only [Option.some.injEq] at h5 h6 h7 h8
      subst h5; subst h6; subst h7; subst h8; rfl

/-- Labels: the present position of each half edge, and two more. -/
abbrev Pos := (Nat × Nat) ⊕ Bool

/-- The layout in which each half edge is labelled by its position. -/
def lay {E : Type} (s : Edges E) : Edges Pos := s.mapIdx fun i l => l.mapIdx fun k _ => .inl (i, k)

theorem edgeAt_lay {E : Type} (s : Edges E) (i k : Nat) :
    edgeAt (lay s) i k = (edgeAt s i k).map fun _ => .inl (i, k) := by
  unfold edgeAt lay
  rw [List.getElem?_mapIdx]
  cases s[i]? with
  | none => rfl
  | some l => simp [List.getElem?_mapIdx]

theorem lay_iff {E : Type} {s : Edges E} {i k : Nat} {x : Pos} :
    edgeAt (lay s) i k = some x ↔ x = .inl (i, k) ∧ ∃ e, edgeAt s i k = some e := by
  rw [edgeAt_lay]
  cases edgeAt s i k with
  | none => simp
  | some e => simp [eq_comm]

theorem length_lay {E : Type} (s : Edges E) : (lay s).length = s.length := by simp [lay]

theorem degree_lay {E : Type} (s : Edges E) (i : Nat) : degree (lay s) i = degree s i := by
  unfold degree lay
  rw [List.getElem?_mapIdx]
  cases s[i]? <;> simp

theorem uniq_lay {E : Type} (s : Edges E) : Uniq (lay s) := by
  intro i k j l x h1 h2
  rw [lay_iff] at h1 h2
  have := h1.1.symm.trans h2.1
  simpa using this

theorem not_has_lay {E : Type} (s : Edges E) (b : Bool) : ¬ Has (lay s) (.inr b) := by
  rintro ⟨j, l, h⟩
  rw [lay_iff] at h
  exact absurd h.1 (by simp)

/-- The labelling of an embedded graph, with weight and meta data for two further half edges. -/
def labOf (s : Edges (EEdge W M)) (hs : Embedded s) (w : Option W) (m₁ m₂ : Option M) : Lab Pos W M where
  S x := match x with | .inl p => (edgeAt s p.1 p.2).isSome | .inr _ => True
  mate x := match x with
    | .inl p => (match edgeAt s p.1 p.2 with | some e => .inl (e.target, e.comp) | none => .inl p)
    | .inr b => .inr !b
  wt x := match x with | .inl p => (edgeAt s p.1 p.2).map (·.weight) | .inr _ => w
  md x := match x with | .inl p => (edgeAt s p.1 p.2).map (·.md) | .inr b => if b then m₂ else m₁
  mem x hx := by
    match x with
    | .inl p =>
      obtain ⟨e, he⟩ := Option.isSome_iff_exists.1 hx
      obtain ⟨_, e', he', _⟩ := hs p.1 p.2 e he
      simp [he, he']
    | .inr b => trivial
  invol x hx := by
    match x with
    | .inl p =>
      obtain ⟨e, he⟩ := Option.isSome_iff_exists.1 hx
      obtain ⟨_, e', he', h1, h2, _⟩ := hs p.1 p.2 e he
      simp [he, he', h1, h2]
    | .inr b => simp
  ne x hx := by
    match x with
    | .inl p =>
      obtain ⟨e, he⟩ := Option.isSome_iff_exists.1 hx
      obtain ⟨h0, e', he', h1, h2, _⟩ := hs p.1 p.2 e he
      simp only [he]
      intro hc
      exact h0 (Sum.inl.inj hc)
    | .inr b => simp
  wtm x hx := by
    match x with
    | .inl p =>
      obtain ⟨e, he⟩ := Option.isSome_iff_exists.1 hx
      obtain ⟨_, e', he', h1, h2, h3⟩ := hs p.1 p.2 e he
      simp [he, he', h3]
    | .inr b => rfl

variable {hs : Embedded s} {w : Option W} {m₁ m₂ : Option M}

theorem mate_inl {i k : Nat} {e : EEdge W M} (he : edgeAt s i k = some e) :
    (labOf s hs w m₁ m₂).mate (.inl (i, k)) = .inl (e.target, e.comp) := by
  simp [labOf, he]

theorem full_lay : Full (labOf s hs w m₁ m₂) (lay s) := by
  rintro x ⟨j, l, h⟩
  rw [lay_iff] at h
  obtain ⟨rfl, e, he⟩ := h
  obtain ⟨_, e', he', _⟩ := hs j l e he
  rw [mate_inl he]
  exact ⟨e.target, e.comp, by rw [edgeAt_lay, he']; rfl⟩

theorem rep_lay : Rep (labOf s hs w m₁ m₂) (fun _ _ _ => False) 0 (fun m => m) (lay s) s := by
  refine ⟨length_lay s, degree_lay s, ?_, ?_, ?_, ?_⟩
  · intro i k x hx
    rw [lay_iff] at hx
    obtain ⟨rfl, e, he⟩ := hx
    simp [labOf, he]
  · intro i k x e hx he
    rw [lay_iff] at hx
    obtain ⟨rfl, _⟩ := hx
    simp [labOf, he]
  · intro i k x e j l hx he hm
    rw [lay_iff] at hx
    obtain ⟨rfl, _⟩ := hx
    rw [mate_inl he, lay_iff] at hm
    have := Prod.mk.inj (Sum.inl.inj hm.1)
    refine ⟨this.1, ?_⟩
    rw [this.2]; split <;> rfl
  · intro i k x e hx _ hn
    exact hn (full_lay x ⟨_, _, hx⟩)


/-! ### Joining -/

theorem at_ins_self {E : Type} {a : Edges E} {i p : Nat} {x : E} (hi : i < a.length) (hp : p ≤ degree a i) :
    edgeAt (ins a i p x) i p = some x := by
  rw [edgeAt_ins _ _ _ _ hi hp, if_neg (by omega), if_pos ⟨rfl, rfl⟩]

theorem length_ins {E : Type} (a : Edges E) (i p : Nat) (x : E) : (ins a i p x).length = a.length := by
  unfold ins; exact length_onNode _ _ _

/-- The dangling half edge after the first of two insertions. -/
def First (t c : Nat) : Pos → Nat → Nat → Prop := fun y t' c' => y = .inr false ∧ t' = t ∧ c' = c

/-- Layouts which are complete apart from the first new half edge. -/
theorem mates_after_first {i p : Nat} (hi : i < (lay s).length) (hp : p ≤ degree (lay s) i) {z : Pos}
    (hz : Has (ins (lay s) i p (.inr false)) z) (hne : z ≠ .inr false) :
    Has (ins (lay s) i p (.inr false)) ((labOf s hs w m₁ m₂).mate z) := by
  rw [has_ins hi hp] at hz ⊢
  rcases hz with hz | hz
  · exact absurd hz hne
  · exact .inr (full_lay z hz)

theorem mate_false : (labOf s hs w m₁ m₂).mate (.inr false) = .inr true := rfl
theorem mate_true : (labOf s hs w m₁ m₂).mate (.inr true) = .inr false := rfl

/-- The layout with both new half edges is complete. -/
theorem full_two {i p j q : Nat} (hi : i < (lay s).length) (hp : p ≤ degree (lay s) i)
    (hq : q ≤ degree (ins (lay s) i p (.inr false)) j) (hj : j < (lay s).length) :
    Full (labOf s hs w m₁ m₂) (ins (ins (lay s) i p (.inr false)) j q (.inr true)) := by
  have hj' : j < (ins (lay s) i p (.inr false)).length := by rw [length_ins]; exact hj
  intro x hx
  rw [has_ins hj' hq, has_ins hi hp] at hx ⊢
  rcases hx with rfl | rfl | hx
  · exact .inr (.inl rfl)
  · exact .inl rfl
  · exact .inr (.inr (full_lay x hx))

theorem no_mate_true {i p : Nat} (hi : i < (lay s).length) (hp : p ≤ degree (lay s) i) (j l : Nat) :
    edgeAt (ins (lay s) i p (.inr false)) j l ≠ some (.inr true) := by
  intro h
  have : Has (ins (lay s) i p (.inr false)) (.inr true) := ⟨j, l, h⟩
  rw [has_ins hi hp] at this
  rcases this with h | h
  · simp at h
  · exact not_has_lay s true h

theorem first_insert {w : W} {m₁ m₂ : M} {i p t c : Nat} (hi : i < s.length) (hp : p ≤ degree s i) :
    ∃ s', insertHalf s i p ⟨t, c, w, m₁⟩ = .ok s' ∧
      Rep (labOf s hs (some w) (some m₁) (some m₂)) (First t c) i (fun m => m) (ins (lay s) i p (.inr false)) s' := by
  have hi' : i < (lay s).length := by rw [length_lay]; exact hi
  have hp' : p ≤ degree (lay s) i := by rw [degree_lay]; exact hp
  refine insertHalf_rep (rep_lay (hs := hs)) (uniq_lay s) hi' hp' (not_has_lay s false) trivial ⟨rfl, rfl⟩ _ ?_ ?_ ?_ ?_ ?_ ?_
  · intro j l h
    exact absurd h (no_mate_true hi' hp' j l)
  · intro _ _ h; exact h.elim
  · intro _; exact ⟨rfl, rfl, rfl⟩
  · intro _ _ _ _ _ h; exact h.elim
  · intro m _; exact no_mate_true hi' hp' i m
  · intro q z hq hz
    refine mates_after_first hi' hp' ⟨_, _, hz⟩ ?_
    rintro rfl
    have := uniq_ins (uniq_lay s) hi' hp' (not_has_lay s false) _ _ _ _ _ hz (at_ins_self hi' hp')
    omega

/-- `insert_join` between two different nodes. -/
theorem insertJoin_ne_rep {w : W} {m₁ m₂ : M} {n p m q : Nat} (hn : n < s.length) (hm : m < s.length) (hnm : n ≠ m)
    (hp : p ≤ degree s n) (hq : q ≤ degree s m) :
    ∃ s₁ s', insertHalf s n p ⟨m, q, w, m₁⟩ = .ok s₁ ∧ insertHalf s₁ m q ⟨n, p, w, m₂⟩ = .ok s' ∧
      Rep (labOf s hs (some w) (some m₁) (some m₂)) (fun _ _ _ => False) m (fun m => m)
        (ins (ins (lay s) n p (.inr false)) m q (.inr true)) s' := by
  have hn' : n < (lay s).length := by rw [length_lay]; exact hn
  have hp' : p ≤ degree (lay s) n := by rw [degree_lay]; exact hp
  have hm' : m < (ins (lay s) n p (.inr false)).length := by rw [length_ins, length_lay]; exact hm
  have hq' : q ≤ degree (ins (lay s) n p (.inr false)) m := by
    rw [degree_ins _ _ _ _ _ hn' hp', if_neg (Ne.symm hnm), degree_lay]; exact hq
  obtain ⟨s₁, h1, h2⟩ := first_insert (hs := hs) (w := w) (m₁ := m₁) (m₂ := m₂) (t := m) (c := q) hn hp
  have hu := uniq_ins (uniq_lay s) hn' hp' (not_has_lay s false)
  have hno : ¬ Has (ins (lay s) n p (.inr false)) (.inr true) := by
    rintro ⟨j, l, h⟩; exact no_mate_true hn' hp' j l h
  have hu2 := uniq_ins hu hm' hq' hno
  have hfalse : edgeAt (ins (ins (lay s) n p (.inr false)) m q (.inr true)) n p = some (.inr false) := by
    rw [edgeAt_ins _ _ _ _ hm' hq', if_neg (by simp [hnm]), if_neg (by simp [hnm])]
    exact at_ins_self hn' hp'
  obtain ⟨s', h3, h4⟩ := insertHalf_rep (e₀ := ⟨n, p, w, m₂⟩) h2 hu hm' hq' hno trivial ⟨rfl, rfl⟩
    (fun _ _ _ => False)
    (by
      intro j l h
      exact hu2 _ _ _ _ _ hfalse h)
    (by rintro t c ⟨_, h⟩; exact h)
    (by intro h; exact absurd ⟨n, p, at_ins_self hn' hp'⟩ h)
    (by
      rintro y t c _ hne ⟨rfl, _⟩
      exact hne rfl)
    (by
      intro k _ h
      exact hnm (hu2 _ _ _ _ _ hfalse h).1)
    (by
      intro k z hk hz
      have := full_two (hs := hs) (w := some w) (m₁ := some m₁) (m₂ := some m₂) hn' hp' hq'
        (by rw [length_lay]; exact hm)
      exact this z ⟨_, _, hz⟩)
  exact ⟨s₁, s', h1, h3, h4⟩

/-- `insert_join` within one node. -/
theorem insertJoinPos_rep {w : W} {m₁ m₂ : M} {n p q : Nat} (hn : n < s.length)
    (hp : p ≤ degree s n) (hq : q ≤ degree s n + 1) :
    ∃ s', insertJoinPos s n p q w m₁ m₂ = .ok (s', if q ≤ p then p + 1 else p, q) ∧
      Rep (labOf s hs (some w) (some m₁) (some m₂)) (fun _ _ _ => False) n (fun m => m)
        (ins (ins (lay s) n p (.inr false)) n q (.inr true)) s' := by
  have hn' : n < (lay s).length := by rw [length_lay]; exact hn
  have hp' : p ≤ degree (lay s) n := by rw [degree_lay]; exact hp
  have hm' : n < (ins (lay s) n p (.inr false)).length := by rw [length_ins, length_lay]; exact hn
  have hdeg₁ : degree (ins (lay s) n p (.inr false)) n = degree s n + 1 := by
    rw [degree_ins _ _ _ _ _ hn' hp', if_pos rfl, degree_lay]
  have hq' : q ≤ degree (ins (lay s) n p (.inr false)) n := by omega
  have hsn : s[n]? = some s[n] := List.getElem?_eq_getElem hn
  have hlen : s[n].length = degree s n := (degree_of_getElem? hsn).symm
  obtain ⟨s₁, h1, h2⟩ := first_insert (hs := hs) (w := w) (m₁ := m₁) (m₂ := m₂) (t := n) (c := q) hn hp
  generalize hpos : (if q ≤ p then p + 1 else p) = pos₁
  have hu := uniq_ins (uniq_lay s) hn' hp' (not_has_lay s false)
  have hno : ¬ Has (ins (lay s) n p (.inr false)) (.inr true) := by
    rintro ⟨j, l, h⟩; exact no_mate_true hn' hp' j l h
  have hu2 := uniq_ins hu hm' hq' hno
  have hfull := full_two (hs := hs) (w := some w) (m₁ := some m₁) (m₂ := some m₂) hn' hp' hq'
        (by rw [length_lay]; exact hn)
  have htrue : edgeAt (ins (ins (lay s) n p (.inr false)) n q (.inr true)) n q = some (.inr true) := at_ins_self hm' hq'
  have hfalse : edgeAt (ins (ins (lay s) n p (.inr false)) n q (.inr true)) n pos₁ = some (.inr false) := by
    rw [edgeAt_ins _ _ _ _ hm' hq']
    by_cases hqp : q ≤ p
    · rw [if_pos hqp] at hpos
      rw [if_pos ⟨rfl, by omega⟩, show pos₁ - 1 = p by omega]
      exact at_ins_self hn' hp'
    · rw [if_neg hqp] at hpos
      rw [if_neg (by omega), if_neg (by omega), ← hpos]
      exact at_ins_self hn' hp'
  have hpq : pos₁ ≠ q := by rw [← hpos]; split <;> omega
  have hdeg₂ : degree (ins (ins (lay s) n p (.inr false)) n q (.inr true)) n = degree s n + 2 := by
    rw [degree_ins _ _ _ _ _ hm' hq', if_pos rfl, hdeg₁]
  have hS := h2.ins (e₀ := ⟨n, pos₁, w, m₂⟩) hu hm' hq' hno trivial ⟨rfl, rfl⟩ (fun _ _ _ => False)
    (by
      intro j l h
      exact hu2 _ _ _ _ _ hfalse h)
    (by rintro t c ⟨_, h⟩; exact h)
    (by intro h; exact absurd ⟨n, p, at_ins_self hn' hp'⟩ h)
    (by
      rintro y t c _ hne ⟨rfl, _⟩
      exact hne rfl)
    (fun m => if q < m ∧ m ≠ pos₁ then m - 1 else m)
    (by
      intro m hm hne
      refine if_pos ⟨hm, ?_⟩
      rintro rfl
      exact hne hfalse)
    (by
      rintro m (hm | hm)
      · exact if_neg (by omega)
      · refine if_neg ?_
        have := hu2 _ _ _ _ _ hfalse hm
        omega)
  generalize hA : ins (ins (lay s) n p (.inr false)) n q (.inr true) = A at *
  -- the mates of half edges other than the two new ones are not the new ones
  have hmate : ∀ k z, edgeAt A n k = some z → k ≠ q → k ≠ pos₁ → ∃ j l, edgeAt A j l =
      some ((labOf s hs (some w) (some m₁) (some m₂)).mate z) ∧ (j = n → l ≠ q ∧ l ≠ pos₁) := by
    intro k z hz hkq hkp
    obtain ⟨j, l, hm⟩ := hfull z ⟨_, _, hz⟩
    refine ⟨j, l, hm, ?_⟩
    rintro rfl
    have hSz := hS.lab _ _ _ hz
    have hinv := (labOf s hs (some w) (some m₁) (some m₂)).invol z hSz
    refine ⟨?_, ?_⟩
    · rintro rfl
      rw [htrue] at hm
      have : z = .inr false := by rw [← hinv, ← Option.some.inj hm]; rfl
      rw [this] at hz
      exact hkp (hu2 _ _ _ _ _ hz hfalse).2
    · rintro rfl
      rw [hfalse] at hm
      have : z = .inr true := by rw [← hinv, ← Option.some.inj hm]; rfl
      rw [this] at hz
      exact hkq (hu2 _ _ _ _ _ hz htrue).2
  have hsdeg : degree (ins s₁ n q ⟨n, pos₁, w, m₂⟩) n = degree s n + 2 := by rw [← hS.deg, hdeg₂]
  by_cases hlt : pos₁ < q
  · obtain ⟨s', h3, h4⟩ := modifyComp_rep (· + 1) (degree s n + 2 - (q + 1)) hu2 (q + 1) _ _ hS (by
      intro k hk1 hk2
      obtain ⟨z, hz⟩ := (lt_degree_iff A n k).1 (by omega)
      obtain ⟨j, l, hm, hj⟩ := hmate k z hz (by omega) (by omega)
      refine ⟨z, j, l, hz, hm, ?_⟩
      intro hjn
      obtain ⟨hl1, hl2⟩ := hj hjn
      refine ⟨?_, ?_⟩
      · intro hlk
        refine ⟨?_, by omega⟩
        by_cases hql : q + 1 ≤ l
        · rw [if_pos hql, if_pos (by omega)]; omega
        · rw [if_neg hql, if_neg (by omega)]
      · intro hkl
        rw [if_pos (by omega)]; omega)
    refine ⟨s', ?_, h4.congr ?_⟩
    · unfold insertJoinPos
      rw [hsn]
      simp only
      rw [if_neg (by omega), if_neg (by omega), h1]
      simp only [Res.bind, hpos]
      rw [if_pos hlt]
      show Res.bind (increment n (q + 1) (degree (ins s₁ n q ⟨n, pos₁, w, m₂⟩) n) (ins s₁ n q ⟨n, pos₁, w, m₂⟩)) _ = _
      rw [hsdeg]
      unfold increment
      rw [h3]; rfl
    · intro m hm
      by_cases hqm : q + 1 ≤ m
      · rw [if_pos ⟨hqm, by omega⟩, if_pos (by omega)]; omega
      · rw [if_neg (by omega), if_neg (by omega)]
  · obtain ⟨s₃, h3, h4⟩ := modifyComp_rep (· + 1) (pos₁ - (q + 1)) hu2 (q + 1) _ _ hS (by
      intro k hk1 hk2
      have hpd : pos₁ < degree A n := (lt_degree_iff A n pos₁).2 ⟨_, hfalse⟩
      obtain ⟨z, hz⟩ := (lt_degree_iff A n k).1 (by omega)
      obtain ⟨j, l, hm, hj⟩ := hmate k z hz (by omega) (by omega)
      refine ⟨z, j, l, hz, hm, ?_⟩
      intro hjn
      obtain ⟨hl1, hl2⟩ := hj hjn
      refine ⟨?_, ?_⟩
      · intro hlk
        refine ⟨?_, by omega⟩
        by_cases hql : q + 1 ≤ l
        · rw [if_pos hql, if_pos (by omega)]; omega
        · rw [if_neg hql, if_neg (by omega)]
      · intro hkl
        rw [if_pos (by omega)]; omega)
    have hdeg₃ : degree s₃ n = degree s n + 2 := by rw [← h4.deg, hdeg₂]
    obtain ⟨s', h5, h6⟩ := modifyComp_rep (· + 1) (degree s n + 2 - (pos₁ + 1)) hu2 (pos₁ + 1) _ _ h4 (by
      intro k hk1 hk2
      obtain ⟨z, hz⟩ := (lt_degree_iff A n k).1 (by omega)
      obtain ⟨j, l, hm, hj⟩ := hmate k z hz (by omega) (by omega)
      refine ⟨z, j, l, hz, hm, ?_⟩
      intro hjn
      obtain ⟨hl1, hl2⟩ := hj hjn
      refine ⟨?_, ?_⟩
      · intro hlk
        refine ⟨?_, by omega⟩
        by_cases hql : pos₁ + 1 ≤ l
        · rw [if_pos hql, if_neg (by omega), if_pos (by omega)]; omega
        · rw [if_neg hql]
          by_cases hc : q + 1 ≤ l
          · rw [if_pos (by omega), if_pos (by omega)]; omega
          · rw [if_neg (by omega), if_neg (by omega)]
      · intro hkl
        rw [if_neg (by omega), if_pos (by omega)]; omega)
    refine ⟨s', ?_, h6.congr ?_⟩
    · unfold insertJoinPos
      rw [hsn]
      simp only
      rw [if_neg (by omega), if_neg (by omega), h1]
      simp only [Res.bind, hpos]
      rw [if_neg hlt]
      show Res.bind (Res.bind (increment n (q + 1) pos₁ (ins s₁ n q ⟨n, pos₁, w, m₂⟩)) _) _ = _
      unfold increment
      rw [h3]
      simp only [Res.bind, hdeg₃, h5]
    · intro m hm
      by_cases hm1 : pos₁ + 1 ≤ m
      · rw [if_pos ⟨hm1, by omega⟩, if_neg (by omega), if_pos (by omega)]; omega
      · rw [if_neg (by omega)]
        by_cases hm2 : q + 1 ≤ m ∧ m < pos₁
        · rw [if_pos (by omega), if_pos (by omega)]; omega
        · rw [if_neg (by omega), if_neg (by omega)]

/-- `join`. -/
theorem joinEmbedded_rep {w : W} {m₁ m₂ : M} {i j : Nat} (hi : i < s.length) (hj : j < s.length) :
    ∃ s', joinEmbedded s i j w m₁ m₂ = .ok s' ∧
      Rep (labOf s hs (some w) (some m₁) (some m₂)) (fun _ _ _ => False) j (fun m => m)
        (ins (ins (lay s) i (degree s i) (.inr false)) j (if i = j then degree s j + 1 else degree s j) (.inr true)) s' := by
  have hi' : i < (lay s).length := by rw [length_lay]; exact hi
  have hp' : degree s i ≤ degree (lay s) i := by rw [degree_lay]; exact Nat.le_refl _
  have hu := uniq_ins (uniq_lay s) hi' hp' (not_has_lay s false)
  have hdeg₁ : degree (ins (lay s) i (degree s i) (.inr false)) j = if i = j then degree s j + 1 else degree s j := by
    rw [degree_ins _ _ _ _ _ hi' hp', degree_lay, degree_lay]
    by_cases h : j = i
    · rw [if_pos h, if_pos h.symm, h]
    · rw [if_neg h, if_neg (Ne.symm h)]
  have hm' : j < (ins (lay s) i (degree s i) (.inr false)).length := by rw [length_ins, length_lay]; exact hj
  have hno : ¬ Has (ins (lay s) i (degree s i) (.inr false)) (.inr true) := by
    rintro ⟨j, l, h⟩; exact no_mate_true hi' hp' j l h
  generalize hc : (if i = j then degree s j + 1 else degree s j) = c at *
  have hq' : c ≤ degree (ins (lay s) i (degree s i) (.inr false)) j := by omega
  have hu2 := uniq_ins hu hm' hq' hno
  have h1 := (rep_lay (hs := hs) (w := some w) (m₁ := some m₁) (m₂ := some m₂)).ins (e₀ := ⟨j, c, w, m₁⟩) (uniq_lay s)
    hi' hp' (not_has_lay s false) trivial ⟨rfl, rfl⟩ (First j c)
    (fun j l h => absurd h (no_mate_true hi' hp' j l)) (fun _ _ h => h.elim) (fun _ => ⟨rfl, rfl, rfl⟩)
    (fun _ _ _ _ _ h => h.elim) (fun m => if degree s i < m then m - 1 else m)
    (fun m hm _ => if_pos hm) (by
      rintro m (hm | hm)
      · exact if_neg (by omega)
      · exact absurd hm (no_mate_true hi' hp' i m))
  have h1' := h1.congr (σ' := fun m => m) (by
    intro m hm
    rw [degree_ins _ _ _ _ _ hi' hp', if_pos rfl, degree_lay] at hm
    exact if_neg (by omega))
  have hfalse : edgeAt (ins (ins (lay s) i (degree s i) (.inr false)) j c (.inr true)) i (degree s i) =
      some (.inr false) := by
    rw [edgeAt_ins _ _ _ _ hm' hq', if_neg, if_neg]
    · exact at_ins_self hi' hp'
    · rintro ⟨h1, h2⟩; rw [if_pos h1] at hc; rw [h1] at h2; omega
    · rintro ⟨h1, h2⟩; rw [if_pos h1] at hc; rw [h1] at h2; omega
  have h2 := h1'.ins (e₀ := ⟨i, degree s i, w, m₂⟩) hu hm' hq' hno trivial ⟨rfl, rfl⟩ (fun _ _ _ => False)
    (fun j' l h => hu2 _ _ _ _ _ hfalse h)
    (by rintro t c ⟨_, h⟩; exact h)
    (fun h => absurd ⟨i, _, at_ins_self hi' hp'⟩ h)
    (by rintro y t c _ hne ⟨rfl, _⟩; exact hne rfl)
    (fun m => if c < m ∧ edgeAt (ins (ins (lay s) i (degree s i) (.inr false)) j c (.inr true)) j m ≠ some (.inr false)
      then m - 1 else m)
    (fun m hm hne => if_pos ⟨hm, hne⟩)
    (by
      rintro m (hm | hm)
      · exact if_neg (by omega)
      · exact if_neg (fun h => h.2 hm))
  refine ⟨_, ?_, h2.congr ?_⟩
  · unfold joinEmbedded
    rw [if_pos ⟨hi, hj⟩]
    simp only [hc]
    rw [append_eq_ins, append_eq_ins]
    have hd : degree (ins s i (degree s i) ⟨j, c, w, m₁⟩) i = degree s i + 1 := by
      rw [degree_ins _ _ _ _ _ hi (Nat.le_refl _), if_pos rfl]
    have hd2 : degree (ins s i (degree s i) ⟨j, c, w, m₁⟩) j = c := by
      rw [← h1.deg, hdeg₁]
    rw [hd, hd2]; rfl
  · intro m hm
    rw [degree_ins _ _ _ _ _ hm' hq', if_pos rfl, hdeg₁] at hm
    exact if_neg (by omega)

end Verif.Graph
