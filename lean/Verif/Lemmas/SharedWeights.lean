import Verif.Spec.SharedWeights
import Verif.Lemmas.GraphHistory
/-
Lemmas on graphs with shared weights.
-/
set_option linter.unusedSectionVars false
set_option linter.unusedSimpArgs false

namespace Verif.Graph
open Verif.Spec EdgeLike

section uses
variable {E : Type} [HasAddr E]

theorem uses_cons (l : List E) (s : Edges E) (a : Nat) :
    uses (l :: s) a = l.countP (fun e => decide (addr e = a)) + uses s a := by simp [uses]

theorem uses_onNode (s : Edges E) (n : Nat) (f : List E → List E) (l : List E) (hl : s[n]? = some l) (a : Nat) :
    uses (onNode s n f) a + l.countP (fun e => decide (addr e = a)) =
      uses s a + (f l).countP (fun e => decide (addr e = a)) := by
  unfold uses onNode
  induction s generalizing n with
  | nil => simp at hl
  | cons b s ih =>
    cases n with
    | zero =>
      have : b = l := by simpa using hl
      subst this
      simp; omega
    | succ n =>
      have := ih n (by simpa using hl)
      simp at this ⊢
      omega

theorem uses_onNode_none (s : Edges E) (n : Nat) (f : List E → List E) (hl : s[n]? = none) : onNode s n f = s := by
  apply List.ext_getElem?
  intro i
  rw [getElem?_onNode]
  split
  · rename_i h; rw [h, hl]; rfl
  · rfl

theorem uses_onNode_perm {s : Edges E} {n : Nat} {f : List E → List E} (hf : ∀ l, s[n]? = some l → (f l).Perm l) (a : Nat) :
    uses (onNode s n f) a = uses s a := by
  cases hl : s[n]? with
  | none => rw [uses_onNode_none s n f hl]
  | some l =>
    have h1 := uses_onNode s n f l hl a
    rw [(hf l hl).countP_eq] at h1
    omega

theorem uses_map (s : Edges E) (f : E → E) (hf : ∀ e, addr (f e) = addr e) (a : Nat) : uses (s.map (·.map f)) a = uses s a := by
  unfold uses
  rw [List.map_map]
  congr 1
  apply List.map_congr_left
  intro l _
  rw [Function.comp, List.countP_map]
  congr 1
  funext e
  simp only [Function.comp, hf]

theorem uses_pos {s : Edges E} {n k : Nat} {e : E} (h : edgeAt s n k = some e) : 0 < uses s (addr e) := by
  obtain ⟨l, hl, hk⟩ := Option.bind_eq_some_iff.1 h
  have : 0 < l.countP (fun f => decide (addr f = addr e)) := by
    rw [List.countP_pos_iff]
    exact ⟨e, List.mem_of_getElem? hk, by simp⟩
  have h1 := uses_onNode s n (fun _ => []) l hl (addr e)
  simp only [List.countP_nil] at h1
  omega

theorem countP_eraseIdx' (l : List E) (k : Nat) (e : E) (h : l[k]? = some e) (p : E → Bool) :
    (l.eraseIdx k).countP p + (if p e then 1 else 0) = l.countP p := by
  induction l generalizing k with
  | nil => simp at h
  | cons x l ih =>
    cases k with
    | zero => simp at h; subst h; simp [List.countP_cons]
    | succ k =>
      have := ih k (by simpa using h)
      simp only [List.eraseIdx_cons_succ, List.countP_cons]
      omega

theorem uses_erase_one {s : Edges E} {n k : Nat} {e : E} (h : edgeAt s n k = some e) (a : Nat) :
    uses (onNode s n (·.eraseIdx k)) a + (if addr e = a then 1 else 0) = uses s a := by
  obtain ⟨l, hl, hk⟩ := Option.bind_eq_some_iff.1 h
  have h1 := uses_onNode s n (·.eraseIdx k) l hl a
  have h2 := countP_eraseIdx' l k e hk (fun e => decide (addr e = a))
  simp only [decide_eq_true_eq] at h2
  omega

theorem uses_removeAt_two {s : Edges E} {n k t p : Nat} {e e' : E} (h : edgeAt s n k = some e)
    (h' : edgeAt s t p = some e') (hne : (t, p) ≠ (n, k)) (a : Nat) :
    uses (removeAt s fun i x => decide ((i, x) = (n, k) ∨ (i, x) = (t, p))) a +
      (if addr e = a then 1 else 0) + (if addr e' = a then 1 else 0) = uses s a := by
  by_cases hnt : n = t
  · subst hnt
    have hkp : p ≠ k := fun h => hne (by rw [h])
    obtain ⟨l, hl, hk⟩ := Option.bind_eq_some_iff.1 h
    obtain ⟨l', hl', hp⟩ := Option.bind_eq_some_iff.1 h'
    rw [hl] at hl'; cases hl'
    have main : ∀ f : List E → List E, (∀ l, f l = keepIdx (fun x => decide (x ≠ k ∧ x ≠ p)) l) →
        (f l).countP (fun e => decide (addr e = a)) + (if addr e = a then 1 else 0) + (if addr e' = a then 1 else 0) =
          l.countP (fun e => decide (addr e = a)) →
        uses (removeAt s fun i x => decide ((i, x) = (n, k) ∨ (i, x) = (n, p))) a +
          (if addr e = a then 1 else 0) + (if addr e' = a then 1 else 0) = uses s a := by
      intro f hf hlen
      rw [← erase_one_node s n k p f (fun l _ => hf l)]
      have := uses_onNode s n f l hl a
      omega
    have h1 := countP_eraseIdx' l k e hk (fun e => decide (addr e = a))
    have h2 := countP_eraseIdx' l p e' hp (fun e => decide (addr e = a))
    simp only [decide_eq_true_eq] at h1 h2
    by_cases hlt : k < p
    · refine main (fun l => (l.eraseIdx p).eraseIdx k) (fun l => (keepIdx_erase_lt _ l k p hlt (fun _ => rfl)).symm) ?_
      have h3 := countP_eraseIdx' (l.eraseIdx p) k e (by rw [List.getElem?_eraseIdx_of_lt hlt]; exact hk)
        (fun e => decide (addr e = a))
      simp only [decide_eq_true_eq] at h3 ⊢
      omega
    · refine main (fun l => (l.eraseIdx k).eraseIdx p)
        (fun l => (keepIdx_erase_lt _ l p k (by omega) (fun _ => by rw [decide_eq_decide]; exact and_comm)).symm) ?_
      have h3 := countP_eraseIdx' (l.eraseIdx k) p e' (by rw [List.getElem?_eraseIdx_of_lt (by omega)]; exact hp)
        (fun e => decide (addr e = a))
      simp only [decide_eq_true_eq] at h3 ⊢
      omega
  · rw [← erase_two_nodes _ _ _ _ _ hnt]
    have h1 := uses_erase_one h a
    have h2 : edgeAt (onNode s n (·.eraseIdx k)) t p = some e' := by
      unfold edgeAt
      rw [getElem?_onNode, if_neg (Ne.symm hnt)]
      exact h'
    have h3 := uses_erase_one h2 a
    omega

/-- A weight used at most twice is used by no third half edge. -/
theorem no_third {s : Edges E} {n k t p i j : Nat} {e e' f : E} (h : edgeAt s n k = some e) (h' : edgeAt s t p = some e')
    (hne : (t, p) ≠ (n, k)) (ha : addr e' = addr e) (hf : edgeAt s i j = some f) (hfa : addr f = addr e)
    (h2 : uses s (addr e) ≤ 2) : (i, j) = (n, k) ∨ (i, j) = (t, p) := by
  by_contra hc
  have h3 := uses_removeAt_two h h' hne (addr e)
  rw [if_pos rfl, if_pos ha] at h3
  have h4 := (edgeAt_removeAt s (fun i x => decide ((i, x) = (n, k) ∨ (i, x) = (t, p))) i _ f).2 ⟨j, hf, by simpa using hc, rfl⟩
  have h5 := uses_pos h4
  rw [hfa] at h5
  omega

variable [EdgeLike E]

theorem uses_relabel (hr : ∀ (e : E) t, addr (retarget e t) = addr e) (f : Nat → Nat) (l : List E) (a : Nat) :
    (relabel f l).countP (fun e => decide (addr e = a)) = l.countP (fun e => decide (addr e = a)) := by
  unfold relabel
  rw [List.countP_map]
  congr 1
  funext e
  simp [Function.comp, hr]

theorem sum_map_le {α : Type} (f g : α → Nat) (l : List α) (h : ∀ a ∈ l, f a ≤ g a) : (l.map f).sum ≤ (l.map g).sum := by
  induction l with
  | nil => simp
  | cons a l ih =>
    have := h a (by simp)
    have := ih fun b hb => h b (by simp [hb])
    simp only [List.map_cons, List.sum_cons]
    omega

theorem sum_sublist_le {l l' : List Nat} (h : l.Sublist l') : l.sum ≤ l'.sum := by
  induction h with
  | slnil => simp
  | cons a _ ih => simp only [List.sum_cons]; omega
  | cons_cons a _ ih => simp only [List.sum_cons]; omega

theorem uses_removeAt_le (s : Edges E) (P : Nat → Nat → Bool) (a : Nat) : uses (removeAt s P) a ≤ uses s a := by
  have key : ∀ (l : List E) (p : Nat → Bool), (keepIdx p l).Sublist l := by
    intro l
    induction l with
    | nil => intro p; simp [keepIdx]
    | cons e l ih =>
      intro p
      unfold keepIdx
      split
      · exact (ih _).cons_cons _
      · exact (ih _).cons _
  unfold removeAt
  induction s generalizing P with
  | nil => simp [uses]
  | cons l s ih =>
    rw [List.mapIdx_cons, uses_cons, uses_cons]
    have h1 := (key l fun k => !P 0 k).countP_le (p := fun e => decide (addr e = a))
    have h2 := ih (fun i => P (i + 1))
    omega

theorem uses_take_drop_le (s : Edges E) (n a : Nat) : uses (s.take n ++ s.drop (n + 1)) a ≤ uses s a := by
  unfold uses
  apply sum_sublist_le
  apply List.Sublist.map
  rw [← List.eraseIdx_eq_take_drop_succ]
  exact List.eraseIdx_sublist _ _

theorem uses_withoutNode_le (hr : ∀ (e : E) t, addr (retarget e t) = addr e) (s : Edges E) (n a : Nat) :
    uses (withoutNode s n) a ≤ uses s a := by
  refine Nat.le_trans ?_ (uses_take_drop_le s n a)
  unfold withoutNode uses
  rw [List.map_map]
  apply sum_map_le
  intro l _
  simp only [Function.comp]
  rw [uses_relabel hr]
  exact List.Sublist.countP_le List.filter_sublist

theorem uses_withNode (hr : ∀ (e : E) t, addr (retarget e t) = addr e) (s : Edges E) (n a : Nat) :
    uses (withNode s n) a = uses s a := by
  unfold withNode uses
  rw [List.map_map]
  have : (fun l : List E => l.countP fun e => decide (addr e = a)) ∘ relabel (raise n) =
      fun l => l.countP fun e => decide (addr e = a) := by
    funext l; exact uses_relabel hr _ l a
  rw [this]
  conv => rhs; rw [← List.take_append_drop n s]
  simp only [List.map_append, List.sum_append, List.map_cons, List.sum_cons, List.countP_nil]
  omega

theorem uses_transposed (hr : ∀ (e : E) t, addr (retarget e t) = addr e) {s s' : Edges E} {i j : Nat} (hi : i < s.length)
    (hj : j < s.length) (h : Transposed s s' i j) (a : Nat) : uses s' a = uses s a := by
  unfold uses
  generalize hc : (fun l : List E => l.countP fun e => decide (addr e = a)) = c
  have hrel : ∀ f l, c (relabel f l) = c l := by intro f l; rw [← hc]; exact uses_relabel hr f l a
  apply List.Perm.sum_nat
  have : s'.map c = ((s.map c).set i (c s[j])).set j (c s[i]) := by
    apply List.ext_getElem?
    intro k
    rw [List.getElem?_map, h.2 k, List.getElem?_set, List.getElem?_set, Option.map_map]
    have hcr : (c ∘ relabel (transpose i j)) = c := by funext l; exact hrel _ l
    rw [hcr]
    by_cases h1 : j = k
    · subst h1
      have : transpose i j j = i := by unfold transpose; split <;> simp_all
      rw [this]
      simp [hi, hj]
    · by_cases h2 : i = k
      · subst h2
        have : transpose i j i = j := by unfold transpose; simp
        rw [this]
        simp [hi, hj, h1]
      · have : transpose i j k = k := by
          unfold transpose; rw [if_neg (fun h => h2 h.symm), if_neg (fun h => h1 h.symm)]
        rw [this]
        simp [h1, h2]
  rw [this]
  have h2 := set_swap_perm (s.map c) i j (c s[i]) (c s[j]) (by simp [hi]) (by simp [hj])
  exact h2

end uses

/-! ### Histories -/

theorem atMostTwo_mono {E : Type} [HasAddr E] {n n' : Nat} {s s' : Edges E} (h : AtMostTwo n s) (hn : n ≤ n')
    (hu : ∀ a, uses s' a ≤ uses s a) : AtMostTwo n' s' := by
  intro a
  have h1 := h a
  have h2 := hu a
  exact ⟨by omega, fun hle => by have := h1.2 (by omega); omega⟩

/-- One more weight, used twice. -/
theorem atMostTwo_add {E : Type} [HasAddr E] {n : Nat} {s s' : Edges E} (h : AtMostTwo n s)
    (hu : ∀ a, uses s' a = uses s a + if a = n then 2 else 0) : AtMostTwo (n + 1) s' := by
  intro a
  have h1 := h a
  have h2 := hu a
  by_cases ha : a = n
  · subst ha
    rw [if_pos rfl] at h2
    have := h1.2 (Nat.le_refl _)
    exact ⟨by omega, fun h => by omega⟩
  · rw [if_neg ha] at h2
    exact ⟨by omega, fun hle => by have := h1.2 (by omega); omega⟩

/-- The outcome for a graph with shared weights is defined and the state left satisfies the invariant. -/
def SGood {N W E : Type} (P : Nat → Edges E → Prop) (o : Outcome (SG N W E) Val) : Prop :=
  (∃ s' b, o = .ret s' b ∧ Inv (P s'.mem.next) s'.g) ∨ ∃ s', o = .threw s' ∧ Inv (P s'.mem.next) s'.g

theorem sgood_keepMem {N W E : Type} {P : Nat → Edges E → Prop} {m : Mem W} {o : Outcome (G N E) Val} (h : Good (P m.next) o) :
    SGood P (keepMem m o) := by
  rcases h with ⟨g', b, rfl, h⟩ | ⟨g', rfl, h⟩
  · exact .inl ⟨⟨m, g'⟩, b, rfl, h⟩
  · exact .inr ⟨⟨m, g'⟩, rfl, h⟩

section undirected
variable {N W M : Type} [DecidableEq M] {stdSort : {α : Type} → (α → α → Bool) → List α → List α}

theorem edgeAt_seen (m : Mem W) (s : Edges (Edge Nat M)) (n k : Nat) :
    edgeAt (seen m s) n k = (edgeAt s n k).map (Edge.see m) := by
  unfold edgeAt seen
  rw [List.getElem?_map]
  cases s[n]? <;> simp

theorem validEdge_seen {m : Mem W} {s : Edges (Edge Nat M)} {n k : Nat} (h : ValidEdge (seen m s) n k) :
    ValidEdge s n k := by
  obtain ⟨e, he⟩ := h
  rw [edgeAt_seen, Option.map_eq_some_iff] at he
  obtain ⟨e', he', _⟩ := he
  exact ⟨e', he'⟩

theorem validIter_seen {m : Mem W} {s : Edges (Edge Nat M)} {n k : Nat} (h : ValidIter (seen m s) n k) :
    ValidIter s n k := by
  obtain ⟨l, hl, hk⟩ := h
  unfold seen at hl
  rw [List.getElem?_map, Option.map_eq_some_iff] at hl
  obtain ⟨l', hl', rfl⟩ := hl
  exact ⟨l', hl', by simpa using hk⟩

theorem strictWeak_comp {α β : Type} (f : β → α) {lt : α → α → Bool} (h : StrictWeak lt) :
    StrictWeak fun a b => lt (f a) (f b) :=
  ⟨fun _ _ => h.asymm _ _, fun _ _ _ => h.negTrans _ _ _⟩

omit [DecidableEq M] in
theorem edge_addr (e : Edge Nat M) (t : Nat) : addr (retarget e t) = addr e := rfl
omit [DecidableEq M] in
theorem eedge_addr (e : EEdge Nat M) (t : Nat) : addr (retarget e t) = addr e := rfl

/-- Both halves of each edge are there and share a weight of their own. -/
def SharedOk (next : Nat) (s : Edges (Edge Nat M)) : Prop := Reciprocal s ∧ AtMostTwo next s

theorem uses_join {s s' : Edges (Edge Nat M)} {i j : Nat} {w : Nat} {m₁ m₂ : M} (h : joinUndirected s i j w m₁ m₂ = .ok s')
    (a : Nat) : uses s' a = uses s a + if a = w then 2 else 0 := by
  unfold joinUndirected at h
  split at h
  · rename_i hij
    cases h
    have hi := List.getElem?_eq_getElem hij.1
    have h1 := uses_onNode s i (· ++ [⟨j, w, m₁⟩]) _ hi a
    have hj : j < (onNode s i (· ++ [⟨j, w, m₁⟩])).length := by rw [length_onNode]; exact hij.2
    have h2 := uses_onNode (onNode s i (· ++ [⟨j, w, m₁⟩])) j (· ++ [⟨i, w, m₂⟩]) _ (List.getElem?_eq_getElem hj) a
    simp only [List.countP_append, List.countP_singleton, addr, decide_eq_true_eq] at h1 h2
    by_cases ha : a = w
    · subst ha
      simp only [if_true] at h1 h2 ⊢
      unfold addr at h1 h2
      omega
    · rw [if_neg (fun h => ha h.symm)] at h1 h2
      rw [if_neg ha]
      unfold addr at h1 h2
      omega
  · cases h

theorem shared_good (hsort : Permutes stdSort) (st : SG N W (Edge Nat M)) (hs : Inv (SharedOk st.mem.next) st.g)
    (o : Op N W M (Edge W M)) (hc : InContract .undirected ⟨st.g.nodes, seen st.mem st.g.edges⟩ o)
    (hno : ∀ lt n p m q, o ≠ .stableSortEdges lt n p m q) : SGood (fun n s => SharedOk n s) (sharedStep stdSort st o) := by
  obtain ⟨mem, g⟩ := st
  obtain ⟨hlen, hrec, hamt⟩ := hs
  have hg : Inv (SharedOk mem.next) g := ⟨hlen, hrec, hamt⟩
  have hsym := Reciprocal.targetSym hrec
  unfold sharedStep
  cases o with
  | addNode w =>
    exact sgood_keepMem (good_insertNode hg (fun n hn => ⟨withNode_reciprocal hn hrec,
      atMostTwo_mono hamt (Nat.le_refl _) fun a => Nat.le_of_eq (uses_withNode edge_addr _ _ a)⟩) _ w)
  | insertNode pos w =>
    exact sgood_keepMem (good_insertNode hg (fun n hn => ⟨withNode_reciprocal hn hrec,
      atMostTwo_mono hamt (Nat.le_refl _) fun a => Nat.le_of_eq (uses_withNode edge_addr _ _ a)⟩) _ w)
  | eraseNode n =>
    refine sgood_keepMem (good_eraseNode (s' := withoutNode g.edges n) hg (fun hn => eraseNodeUndirected_spec _ hsym _ hn) ?_
      (fun hn => ⟨⟨withoutNode_reciprocal hn hrec, ?_⟩, length_withoutNode _ _ hn⟩))
    · intro hn; unfold eraseNodeUndirected; simp only; rw [List.getElem?_eq_none (by simp only at hn; omega)]
    · exact atMostTwo_mono hamt (Nat.le_refl _) fun a => uses_withoutNode_le edge_addr _ _ a
  | swapNodes i j =>
    refine sgood_keepMem (good_swapNodes hg ?_)
    intro hi hj
    obtain ⟨s', h1, h2⟩ := swapNodesUndirected_spec g.edges hsym i j hi hj
    exact ⟨s', h1, ⟨transposed_reciprocal h2 hi hj hrec,
      atMostTwo_mono hamt (Nat.le_refl _) fun a => Nat.le_of_eq (uses_transposed edge_addr hi hj h2 a)⟩, h2.1⟩
  | clear =>
    refine sgood_keepMem (.inl ⟨_, _, rfl, rfl, ⟨by intro l hl; simp at hl, fun i j _ w => rfl, fun i w => ⟨0, rfl⟩⟩, ?_⟩)
    intro a
    simp [uses]
  | join i j w m m' =>
    simp only
    by_cases h : i < g.edges.length ∧ j < g.edges.length
    · have hr : ∃ s, joinUndirected g.edges i j mem.next m m' = .ok s := by unfold joinUndirected; rw [if_pos h]; exact ⟨_, rfl⟩
      obtain ⟨s, hr⟩ := hr
      refine sgood_keepMem (m := mem.alloc w) (.inl ⟨⟨g.nodes, s⟩, .unit, ?_, ?_, joinUndirected_reciprocal hr hrec, ?_⟩)
      · unfold undirectedStep onEdges; simp only; rw [hr]
      · simp only; rw [(joinUndirected_spec hr).2.2.1]; exact hlen
      · exact atMostTwo_add hamt fun a => uses_join hr a
    · refine sgood_keepMem (m := mem.alloc w) (.inr ⟨g, ?_, hlen, hrec, ?_⟩)
      · unfold undirectedStep onEdges joinUndirected; simp only; rw [if_neg h]
      · exact atMostTwo_mono hamt (Nat.le_succ _) fun a => Nat.le_refl _
  | insertJoin => exact absurd hc.1 (by simp)
  | insertJoinPos => exact absurd hc.1 (by simp)
  | eraseEdge n k =>
    have hc' : g.edges = [] ∨ ValidIter g.edges n k := by
      rcases hc with h | h
      · left; simpa [seen] using h
      · exact .inr (validIter_seen h)
    cases he : edgeAt g.edges n k with
    | none =>
      have hr := eraseEdgeUndirected_end hc' he
      refine sgood_keepMem (good_onEdges hg (by simp only; rw [hr]; simp) ?_)
      intro s hs
      rw [hr] at hs; cases hs
      exact ⟨⟨hrec, hamt⟩, rfl⟩
    | some e =>
      obtain ⟨s', p, e', h1, h2, h3, h4⟩ := eraseEdgeUndirected_spec he (Reciprocal.exists_partner hrec he)
      refine sgood_keepMem (good_onEdges hg (by simp only; rw [h1]; simp) ?_)
      intro s hs
      refine ⟨⟨eraseEdgeUndirected_reciprocal hs hrec, ?_⟩, ?_⟩
      · rw [h1] at hs; cases hs
        rw [h3]
        exact atMostTwo_mono hamt (Nat.le_refl _) fun a => uses_removeAt_le _ _ a
      · rw [h1] at hs; cases hs
        rw [h3, length_removeAt]
  | setWeight n k w =>
    obtain ⟨e, he⟩ := validEdge_seen hc
    have he' : g.edges[n]?.bind (·[k]?) = some e := he
    simp only [he']
    exact .inl ⟨_, _, rfl, hg⟩
  | mutateWeight n k f =>
    obtain ⟨e, he⟩ := validEdge_seen hc
    have he' : g.edges[n]?.bind (·[k]?) = some e := he
    simp only [he']
    exact .inl ⟨_, _, rfl, hg⟩
  | swapEdges n i j =>
    refine sgood_keepMem (good_onEdges hg (swapEdges_ne_ub _ _ _ _) ?_)
    intro s hs
    obtain ⟨f, rfl, hf⟩ := swapEdges_spec hs
    exact ⟨⟨onNode_perm_reciprocal hf hrec,
      atMostTwo_mono hamt (Nat.le_refl _) fun a => Nat.le_of_eq (uses_onNode_perm hf a)⟩, length_onNode _ _ _⟩
  | sortEdges lt n p m q =>
    obtain ⟨_, hlt, h1, h2, h3⟩ := hc
    refine sgood_keepMem (good_onEdges hg (sortEdges_ne_ub (validIter_seen h1) (validIter_seen h2) h3) ?_)
    intro s hs
    obtain ⟨f, rfl, hf⟩ := sortEdges_spec (hsort _ _ (strictWeak_comp _ hlt)) hs
    exact ⟨⟨onNode_perm_reciprocal hf hrec,
      atMostTwo_mono hamt (Nat.le_refl _) fun a => Nat.le_of_eq (uses_onNode_perm hf a)⟩, length_onNode _ _ _⟩
  | stableSortEdges lt n p m q => exact absurd rfl (hno lt n p m q)

theorem sharedOk_paired {next : Nat} {s : Edges (Edge Nat M)} (h : SharedOk next s) : AllPaired s := by
  rintro n k ⟨e, he⟩
  obtain ⟨p, e', h1, h2, h3, h4⟩ := Reciprocal.exists_partner h.1 he
  exact ⟨e.target, p, h4, e, e', he, h1, rfl, h2, h3, fun i j f hf ha =>
    no_third he h1 h4 h3 hf ha (h.2 e.weight).1⟩

/-- Writing through either half changes precisely the two halves. -/
theorem seen_write {s : Edges (Edge Nat M)} {n k t p : Nat} {e : Edge Nat M} (he : edgeAt s n k = some e)
    (h : SoleHalves s n k t p) (m : Mem W) (w : W) :
    seen (m.write e.weight w) s =
      changeAt (seen m s) (fun i x => decide ((i, x) = (n, k) ∨ (i, x) = (t, p))) (fun e => e.setWeight w) := by
  obtain ⟨_, e₁, e₂, h1, h2, _, _, h3, h4⟩ := h
  rw [he] at h1; cases h1
  apply edges_ext
  · rw [length_changeAt]; simp [seen]
  · intro i x
    rw [edgeAt_seen, edgeAt_changeAt, edgeAt_seen]
    cases hx : edgeAt s i x with
    | none => rfl
    | some f =>
      simp only [Option.map_some]
      congr 1
      by_cases hp : (i, x) = (n, k) ∨ (i, x) = (t, p)
      · rw [if_pos (by simpa using hp)]
        have : f.weight = e.weight := by
          rcases hp with hp | hp <;> cases hp
          · rw [hx] at he; cases he; rfl
          · rw [hx] at h2; cases h2; exact h3
        simp [Edge.see, Edge.setWeight, Mem.write, this]
      · rw [if_neg (by simpa using hp)]
        have : f.weight ≠ e.weight := fun h => hp (h4 i x f hx h)
        simp [Edge.see, Mem.write, this]

/-- The number of edges between two nodes is that summed over weight objects. -/
theorem mult_seen [DecidableEq W] {s : Edges (Edge Nat M)} {next : Nat} (hb : ∀ l ∈ s, ∀ e ∈ l, e.weight < next) (m : Mem W)
    (i j : Nat) (w : W) :
    mult (seen m s) i j w = ((List.range next).map fun a => if m.cell a = w then mult s i j a else 0).sum := by
  unfold mult seen
  rw [List.getElem?_map]
  cases hl : s[i]? with
  | none => simp
  | some l =>
    have hb' := hb l (List.mem_of_getElem? hl)
    simp only [Option.map_some]
    rw [List.countP_map]
    clear hl hb
    induction l with
    | nil => simp
    | cons e l ih =>
      rw [List.countP_cons, ih fun f hf => hb' f (by simp [hf])]
      have he := hb' e (by simp)
      have : ∀ n, e.weight < n →
          ((List.range n).map fun a => if m.cell a = w then (e :: l).countP (fun f => decide (f.target = j ∧ f.weight = a)) else 0).sum =
          ((List.range n).map fun a => if m.cell a = w then l.countP (fun f => decide (f.target = j ∧ f.weight = a)) else 0).sum +
            if e.target = j ∧ m.cell e.weight = w then 1 else 0 := by
        have low : ∀ n, n ≤ e.weight →
          ((List.range n).map fun a => if m.cell a = w then (e :: l).countP (fun f => decide (f.target = j ∧ f.weight = a)) else 0) =
          ((List.range n).map fun a => if m.cell a = w then l.countP (fun f => decide (f.target = j ∧ f.weight = a)) else 0) := by
          intro n hn
          apply List.map_congr_left
          intro a ha
          rw [List.mem_range] at ha
          rw [List.countP_cons_of_neg]
          simp; omega
        intro n hn
        induction n with
        | zero => omega
        | succ n ihn =>
          rw [List.range_succ, List.map_append, List.map_append, List.sum_append, List.sum_append]
          by_cases hlt : e.weight < n
          · rw [ihn hlt]
            have : (e :: l).countP (fun f => decide (f.target = j ∧ f.weight = n)) =
                l.countP (fun f => decide (f.target = j ∧ f.weight = n)) := by
              rw [List.countP_cons_of_neg]; simp; omega
            simp only [List.map_cons, List.map_nil, List.sum_cons, List.sum_nil]
            rw [this]
            omega
          · have hen : e.weight = n := by omega
            rw [low n (by omega)]
            simp only [List.map_cons, List.map_nil, List.sum_cons, List.sum_nil, List.countP_cons]
            rw [hen]
            by_cases h1 : m.cell n = w
            · by_cases h2 : e.target = j
              · simp [h1, h2]; omega
              · simp [h1, h2]
            · simp [h1]
      rw [this next he]
      congr 1
      by_cases hd : e.target = j ∧ m.cell e.weight = w
      · rw [if_pos hd, if_pos]
        exact decide_eq_true (p := (e.see m).target = j ∧ (e.see m).weight = w) hd
      · rw [if_neg hd, if_neg]
        exact fun h => hd (of_decide_eq_true (p := (e.see m).target = j ∧ (e.see m).weight = w) h)

theorem sum_map_dvd {α : Type} (f : α → Nat) (l : List α) (h : ∀ a ∈ l, 2 ∣ f a) : 2 ∣ (l.map f).sum := by
  induction l with
  | nil => simp
  | cons a l ih =>
    rw [List.map_cons, List.sum_cons]
    exact Nat.dvd_add (h a (by simp)) (ih fun b hb => h b (by simp [hb]))

theorem weight_lt {next : Nat} {s : Edges (Edge Nat M)} (h : AtMostTwo next s) : ∀ l ∈ s, ∀ e ∈ l, e.weight < next := by
  intro l hl e he
  obtain ⟨i, hi⟩ := List.mem_iff_getElem?.1 hl
  obtain ⟨k, hk⟩ := List.mem_iff_getElem?.1 he
  have h1 := uses_pos (s := s) (n := i) (k := k) (e := e) (by unfold edgeAt; rw [hi]; exact hk)
  have h2 := (h e.weight).2
  have : addr e = e.weight := rfl
  rw [this] at h1
  by_contra hc
  have := h2 (by omega)
  omega

/-- What is seen of a graph with shared weights is an undirected graph. -/
theorem seen_reciprocal [DecidableEq W] {next : Nat} {s : Edges (Edge Nat M)} (h : SharedOk next s) (m : Mem W) :
    Reciprocal (seen m s) := by
  have hb := weight_lt h.2
  refine ⟨?_, ?_, ?_⟩
  · intro l hl e he
    unfold seen at hl ⊢
    obtain ⟨l', hl', rfl⟩ := List.mem_map.1 hl
    obtain ⟨e', he', rfl⟩ := List.mem_map.1 he
    rw [List.length_map]
    exact h.1.inRange l' hl' e' he'
  · intro i j hij w
    rw [mult_seen hb, mult_seen hb]
    congr 1
    apply List.map_congr_left
    intro a _
    rw [h.1.links i j hij a]
  · intro i w
    rw [mult_seen hb]
    apply sum_map_dvd
    intro a _
    split
    · exact h.1.loops i a
    · simp

end undirected

section embedded
variable {N W M : Type}

theorem edgeAt_seenE (m : Mem W) (s : Edges (EEdge Nat M)) (n k : Nat) :
    edgeAt (seenE m s) n k = (edgeAt s n k).map (EEdge.see m) := by
  unfold edgeAt seenE
  rw [List.getElem?_map]
  cases s[n]? <;> simp

theorem validEdge_seenE {m : Mem W} {s : Edges (EEdge Nat M)} {n k : Nat} (h : ValidEdge (seenE m s) n k) :
    ValidEdge s n k := by
  obtain ⟨e, he⟩ := h
  rw [edgeAt_seenE, Option.map_eq_some_iff] at he
  obtain ⟨e', he', _⟩ := he
  exact ⟨e', he'⟩

theorem validIter_seenE {m : Mem W} {s : Edges (EEdge Nat M)} {n k : Nat} (h : ValidIter (seenE m s) n k) :
    ValidIter s n k := by
  obtain ⟨l, hl, hk⟩ := h
  unfold seenE at hl
  rw [List.getElem?_map, Option.map_eq_some_iff] at hl
  obtain ⟨l', hl', rfl⟩ := hl
  exact ⟨l', hl', by simpa using hk⟩

/-- Both halves of each edge are there and share a weight of their own. -/
def SharedOkE (next : Nat) (s : Edges (EEdge Nat M)) : Prop := Embedded s ∧ AtMostTwo next s

theorem uses_removeAtE (s : Edges (EEdge Nat M)) (P : Nat → Nat → Bool) (a : Nat) :
    uses (removeAtE s P) a = uses (removeAt s P) a := by
  unfold removeAtE
  exact uses_map (removeAt s P) (fun e => { e with comp := rank (fun k => !P e.target k) e.comp }) (fun _ => rfl) a

theorem uses_withoutNodeE_le (s : Edges (EEdge Nat M)) (n a : Nat) : uses (withoutNodeE s n) a ≤ uses s a := by
  refine Nat.le_trans ?_ (uses_take_drop_le s n a)
  unfold withoutNodeE uses
  rw [List.map_map]
  apply sum_map_le
  intro l _
  simp only [Function.comp, List.countP_map]
  exact List.Sublist.countP_le (p := fun e : EEdge Nat M => decide (addr e = a)) List.filter_sublist

theorem uses_joinedE {s s' : Edges (EEdge Nat M)} {n p m q : Nat} {w : Nat} {m₁ m₂ : M}
    (h : JoinedE s s' n p m q w m₁ m₂) (hs' : Embedded s') (a : Nat) : uses s' a = uses s a + if a = w then 2 else 0 := by
  have hne : (m, q) ≠ (n, p) := (hs' n p _ h.first).1
  have h1 := uses_removeAt_two h.first h.second hne a
  rw [← uses_removeAtE, h.rest] at h1
  simp only [addr] at h1
  by_cases ha : a = w
  · subst ha; simp only [if_true] at h1 ⊢; omega
  · rw [if_neg (fun h => ha h.symm)] at h1; rw [if_neg ha]; omega

theorem sharedE_good (st : SG N W (EEdge Nat M)) (hs : Inv (SharedOkE st.mem.next) st.g)
    (o : Op N W M (EEdge W M)) (hc : InContract .embedded ⟨st.g.nodes, seenE st.mem st.g.edges⟩ o) :
    SGood (fun n s => SharedOkE n s) (sharedEmbeddedStep st o) := by
  obtain ⟨mem, g⟩ := st
  obtain ⟨hlen, hemb, hamt⟩ := hs
  have hg : Inv (SharedOkE mem.next) g := ⟨hlen, hemb, hamt⟩
  have hsym := Embedded.targetSym hemb
  unfold sharedEmbeddedStep
  cases o with
  | addNode w =>
    exact sgood_keepMem (good_insertNode hg (fun n hn => ⟨withNode_embedded hn hemb,
      atMostTwo_mono hamt (Nat.le_refl _) fun a => Nat.le_of_eq (uses_withNode eedge_addr _ _ a)⟩) _ w)
  | insertNode pos w =>
    exact sgood_keepMem (good_insertNode hg (fun n hn => ⟨withNode_embedded hn hemb,
      atMostTwo_mono hamt (Nat.le_refl _) fun a => Nat.le_of_eq (uses_withNode eedge_addr _ _ a)⟩) _ w)
  | eraseNode n =>
    refine sgood_keepMem (good_eraseNode (s' := withoutNodeE g.edges n) hg (fun hn => (eraseNodeEmbedded_spec hemb hn).1) ?_
      (fun hn => ⟨⟨(eraseNodeEmbedded_spec hemb hn).2, ?_⟩, length_withoutNodeE _ _ hn⟩))
    · intro hn; unfold eraseNodeEmbedded; simp only; rw [List.getElem?_eq_none (by simp only at hn; omega)]
    · exact atMostTwo_mono hamt (Nat.le_refl _) fun a => uses_withoutNodeE_le _ _ a
  | swapNodes i j =>
    refine sgood_keepMem (good_swapNodes hg ?_)
    intro hi hj
    obtain ⟨s', h1, h2⟩ := swapNodesUndirected_spec g.edges hsym i j hi hj
    exact ⟨s', h1, ⟨transposed_embedded h2 hemb,
      atMostTwo_mono hamt (Nat.le_refl _) fun a => Nat.le_of_eq (uses_transposed eedge_addr hi hj h2 a)⟩, h2.1⟩
  | clear =>
    refine sgood_keepMem (.inl ⟨_, _, rfl, rfl, by intro n k e he; simp [edgeAt] at he, ?_⟩)
    intro a
    simp [uses]
  | join i j w m m' =>
    simp only
    by_cases h : i < g.edges.length ∧ j < g.edges.length
    · obtain ⟨s, h1, h2, h3⟩ := joinEmbedded_spec hemb (w := mem.next) (m₁ := m) (m₂ := m') h.1 h.2
      refine sgood_keepMem (m := mem.alloc w) (.inl ⟨⟨g.nodes, s⟩, .unit, ?_, ?_, h2, ?_⟩)
      · unfold embeddedStep onEdges; simp only; rw [h1]
      · simp only; rw [JoinedE.length h3]; exact hlen
      · exact atMostTwo_add hamt fun a => uses_joinedE h3 h2 a
    · refine sgood_keepMem (m := mem.alloc w) (.inr ⟨g, ?_, hlen, hemb, ?_⟩)
      · unfold embeddedStep onEdges joinEmbedded; simp only; rw [if_neg h]
      · exact atMostTwo_mono hamt (Nat.le_succ _) fun a => Nat.le_refl _
  | insertJoin n p m q w m₁ m₂ =>
    obtain ⟨_, hi1, hi2⟩ := hc
    have hi1 := ValidIter.lt (validIter_seenE hi1)
    have hi2 := ValidIter.lt (validIter_seenE hi2)
    obtain ⟨s, h1, h2, h3⟩ := insertJoin_spec hemb (w := mem.next) (m₁ := m₁) (m₂ := m₂) hi1.1 hi2.1 hi1.2 hi2.2
    refine sgood_keepMem (m := mem.alloc w) (.inl ⟨⟨g.nodes, s⟩, .iters n (if n = m ∧ q ≤ p then p + 1 else p) m q,
      ?_, ?_, h2, ?_⟩)
    · unfold embeddedStep onEdges2; simp only; rw [h1]
    · simp only; rw [JoinedE.length h3]; exact hlen
    · exact atMostTwo_add hamt fun a => uses_joinedE h3 h2 a
  | insertJoinPos n p q w m₁ m₂ =>
    obtain ⟨_, hi1⟩ := hc
    obtain ⟨hn, hp⟩ := ValidIter.lt (validIter_seenE hi1)
    have hn : n < g.edges.length := hn
    have hl := degree_of_getElem? (List.getElem?_eq_getElem hn)
    by_cases hq : q ≤ degree g.edges n + 1
    · obtain ⟨s, h1, h2, h3⟩ := insertJoinPos_spec hemb (w := mem.next) (m₁ := m₁) (m₂ := m₂) hn hp hq
      refine sgood_keepMem (m := mem.alloc w) (.inl ⟨⟨g.nodes, s⟩, .iters n (if q ≤ p then p + 1 else p) n q,
        ?_, ?_, h2, ?_⟩)
      · unfold embeddedStep onEdges2; simp only; rw [h1]
      · simp only; rw [JoinedE.length h3]; exact hlen
      · exact atMostTwo_add hamt fun a => uses_joinedE h3 h2 a
    · have hr : insertJoinPos g.edges n p q mem.next m₁ m₂ = .throws := by
        unfold insertJoinPos
        rw [List.getElem?_eq_getElem hn]
        simp only at hp ⊢
        rw [if_neg (by omega), if_pos (by omega)]
      refine sgood_keepMem (m := mem.alloc w) (.inr ⟨g, ?_, hlen, hemb, ?_⟩)
      · unfold embeddedStep onEdges2; simp only; rw [hr]
      · exact atMostTwo_mono hamt (Nat.le_succ _) fun a => Nat.le_refl _
  | eraseEdge n k =>
    have hc' : g.edges = [] ∨ ValidIter g.edges n k := by
      rcases hc with h | h
      · left; simpa [seenE] using h
      · exact .inr (validIter_seenE h)
    cases he : edgeAt g.edges n k with
    | none =>
      have hr := eraseEdgeEmbedded_end hc' he
      refine sgood_keepMem (good_onEdges hg (by simp only; rw [hr]; simp) ?_)
      intro s hs
      rw [hr] at hs; cases hs
      exact ⟨⟨hemb, hamt⟩, rfl⟩
    | some e =>
      obtain ⟨h1, h2⟩ := eraseEdgeEmbedded_spec hemb he
      refine sgood_keepMem (good_onEdges hg (by simp only; rw [h1]; simp) ?_)
      intro s hs
      rw [h1] at hs; cases hs
      refine ⟨⟨h2, ?_⟩, length_removeAtE _ _⟩
      exact atMostTwo_mono hamt (Nat.le_refl _) fun a => by rw [uses_removeAtE]; exact uses_removeAt_le _ _ a
  | setWeight n k w =>
    obtain ⟨e, he⟩ := validEdge_seenE hc
    have he' : g.edges[n]?.bind (·[k]?) = some e := he
    simp only [he']
    exact .inl ⟨_, _, rfl, hg⟩
  | mutateWeight n k f =>
    obtain ⟨e, he⟩ := validEdge_seenE hc
    have he' : g.edges[n]?.bind (·[k]?) = some e := he
    simp only [he']
    exact .inl ⟨_, _, rfl, hg⟩
  | swapEdges => exact absurd rfl hc
  | sortEdges => exact absurd hc.1 (by simp)
  | stableSortEdges => exact absurd hc.1 (by simp)

theorem sharedOkE_paired {next : Nat} {s : Edges (EEdge Nat M)} (h : SharedOkE next s) : AllPaired s := by
  rintro n k ⟨e, he⟩
  obtain ⟨h4, e', h1, h2, _, h3⟩ := h.1 n k e he
  exact ⟨e.target, e.comp, h4, e, e', he, h1, rfl, h2, h3, fun i j f hf ha =>
    no_third he h1 h4 h3 hf ha (h.2 e.weight).1⟩

theorem seenE_write {s : Edges (EEdge Nat M)} {n k t p : Nat} {e : EEdge Nat M} (he : edgeAt s n k = some e)
    (h : SoleHalves s n k t p) (m : Mem W) (w : W) :
    seenE (m.write e.weight w) s =
      changeAt (seenE m s) (fun i x => decide ((i, x) = (n, k) ∨ (i, x) = (t, p))) (fun e => e.setWeight w) := by
  obtain ⟨_, e₁, e₂, h1, h2, _, _, h3, h4⟩ := h
  rw [he] at h1; cases h1
  apply edges_ext
  · rw [length_changeAt]; simp [seenE]
  · intro i x
    rw [edgeAt_seenE, edgeAt_changeAt, edgeAt_seenE]
    cases hx : edgeAt s i x with
    | none => rfl
    | some f =>
      simp only [Option.map_some]
      congr 1
      by_cases hp : (i, x) = (n, k) ∨ (i, x) = (t, p)
      · rw [if_pos (by simpa using hp)]
        have : f.weight = e.weight := by
          rcases hp with hp | hp <;> cases hp
          · rw [hx] at he; cases he; rfl
          · rw [hx] at h2; cases h2; exact h3
        simp [EEdge.see, EEdge.setWeight, Mem.write, this]
      · rw [if_neg (by simpa using hp)]
        have : f.weight ≠ e.weight := fun h => hp (h4 i x f hx h)
        simp [EEdge.see, Mem.write, this]

/-- What is seen of an embedded graph with shared weights is an embedded graph. -/
theorem seenE_embedded {s : Edges (EEdge Nat M)} (h : Embedded s) (m : Mem W) : Embedded (seenE m s) := by
  intro n k e he
  rw [edgeAt_seenE, Option.map_eq_some_iff] at he
  obtain ⟨e₀, he₀, rfl⟩ := he
  obtain ⟨h1, e', h2, h3, h4, h5⟩ := h n k e₀ he₀
  refine ⟨h1, e'.see m, ?_, h3, h4, ?_⟩
  · rw [edgeAt_seenE]
    show Option.map _ (edgeAt s e₀.target e₀.comp) = _
    rw [h2]; rfl
  · show m.cell _ = m.cell _
    rw [h5]

end embedded

end Verif.Graph
