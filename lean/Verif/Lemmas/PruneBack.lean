import Verif.Lemmas.Prune

set_option linter.unusedSectionVars false
namespace Verif.Graph
open Verif.Spec EdgeLike

section
variable {W M N : Type} [DecidableEq W] [DecidableEq M]
variable {kind : TreeKind} {s : Edges (Edge W M)} {root : Nat} {par : Nat → Nat}

/-! ### Erasing nodes from an induced graph -/

theorem targetSym_inducedOn (h : TargetSym s) (K : Nat → Bool) : TargetSym (inducedOn s K) := by
  intro n l e hl he
  unfold inducedOn at hl
  rw [List.getElem?_map] at hl
  obtain ⟨l₀, h1, rfl⟩ := Option.map_eq_some_iff.1 hl
  obtain ⟨x, hx, hkx, rfl⟩ := (getElem?_keepIdx _ _ _ _).1 h1
  unfold relabel at he
  obtain ⟨e₀, he₀, rfl⟩ := List.mem_map.1 he
  rw [List.mem_filter] at he₀
  obtain ⟨l', hl', e', he', ht'⟩ := h x l₀ e₀ hx he₀.1
  refine ⟨_, inducedOn_get he₀.2 hl', retarget e' (rank K (target e')), ?_, ?_⟩
  · unfold relabel
    exact List.mem_map.2 ⟨e', List.mem_filter.2 ⟨he', by rw [ht']; exact hkx⟩, rfl⟩
  · rw [LawfulEdge.target_retarget, ht']

theorem erase_induced (ht : TreeOf kind s root par) (K : Nat → Bool) (q : Nat) (hq : q < s.length) (hK : K q = true) :
    eraseNodeOf kind (inducedOn s K) (rank K q) = .ok (inducedOn s (minus K q)) := by
  have h1 : rank K q < (inducedOn s K).length := by rw [length_inducedOn]; exact rank_lt hK hq
  unfold eraseNodeOf
  split
  · rename_i hk
    subst hk
    rw [eraseNodeUndirected_spec _ (targetSym_inducedOn (TreeOf.targetSym ht) K) _ h1, withoutNode_inducedOn _ _ _ hK]
  · rw [eraseNodeDirected_spec _ _ h1, withoutNode_inducedOn _ _ _ hK]

/-! ### The induced tree -/

theorem links_inducedOn {K : Nat → Bool} {a b : Nat} (ha : K a = true) (hb : K b = true) :
    links (inducedOn s K) (rank K a) (rank K b) = links s a b := by
  cases hl : s[a]? with
  | none =>
    rw [links_none hl, links_none]
    rw [List.getElem?_eq_none_iff] at hl ⊢
    rw [length_inducedOn]
    exact rank_mono K hl
  | some l =>
    rw [links_some hl, links_some (inducedOn_get ha hl),
      countP_relabel (rank K) _ b (rank K b) (fun e he => ⟨fun h => rank_inj (List.mem_filter.1 he).2 hb h, fun h => by rw [h]⟩),
      List.countP_filter]
    apply List.countP_congr
    intro e _
    simp only [Bool.and_eq_true, decide_eq_true_eq]
    exact ⟨fun h => h.1, fun h => ⟨h, by rw [h]; exact hb⟩⟩

/-- Which node a node of the induced graph was. -/
def unrank (K : Nat → Bool) (len y : Nat) : Nat := ((keepIdx K (List.range len))[y]?).getD 0

theorem unrank_rank {K : Nat → Bool} {len x : Nat} (hx : x < len) (hk : K x = true) : unrank K len (rank K x) = x := by
  unfold unrank
  rw [(getElem?_keepIdx K (List.range len) (rank K x) x).2 ⟨x, by simp [hx], hk, rfl⟩]
  rfl

theorem exists_rank {K : Nat → Bool} {len y : Nat} (hy : y < rank K len) : ∃ x < len, K x = true ∧ rank K x = y := by
  have h1 : (keepIdx K (List.range len)).length = rank K len := by rw [length_keepIdx, List.length_range]
  have h2 : (keepIdx K (List.range len))[y]? = some ((keepIdx K (List.range len))[y]'(by omega)) := List.getElem?_eq_getElem _
  obtain ⟨x, hx, hk, hr⟩ := (getElem?_keepIdx _ _ _ _).1 h2
  exact ⟨x, by have := (List.getElem?_eq_some_iff.1 hx).1; simpa using this, hk, hr.symm⟩

theorem inducedOn_inRange (hr : InRange s) (K : Nat → Bool) : InRange (inducedOn s K) := by
  intro l hl e he
  unfold inducedOn at hl
  obtain ⟨l₀, h1, rfl⟩ := List.mem_map.1 hl
  unfold relabel at he
  obtain ⟨e₀, he₀, rfl⟩ := List.mem_map.1 he
  rw [List.mem_filter] at he₀
  rw [LawfulEdge.target_retarget, length_inducedOn]
  exact rank_lt he₀.2 (hr l₀ (mem_keepIdx h1) e₀ he₀.1)

/-- The parents in the induced tree. -/
def inducedPar (K : Nat → Bool) (len : Nat) (par : Nat → Nat) (y : Nat) : Nat := rank K (par (unrank K len y))

theorem induced_tree (ht : TreeOf kind s root par) {K : Nat → Bool} (hK : DescClosed s.length root par K) (hkr : K root = true) :
    TreeOf kind (inducedOn s K) (rank K root) (inducedPar K s.length par) := by
  have hp : ∀ x < s.length, K x = true → inducedPar K s.length par (rank K x) = rank K (par x) := by
    intro x hx hk
    unfold inducedPar
    rw [unrank_rank hx hk]
  have hroot : ∀ x, K x = true → (rank K x = rank K root ↔ x = root) := fun x hk =>
    ⟨fun h => rank_inj hk hkr h, fun h => by rw [h]⟩
  refine ⟨by rw [length_inducedOn]; exact rank_lt hkr ht.root_lt, ?_, ?_, inducedOn_inRange ht.inRange K, ?_⟩
  · intro y hy hne
    rw [length_inducedOn] at hy ⊢
    obtain ⟨x, hx, hk, rfl⟩ := exists_rank hy
    have hxr : x ≠ root := fun h => hne ((hroot x hk).2 h)
    rw [hp x hx hk]
    exact rank_lt (hK x hx hxr hk) (ht.par_lt x hx hxr)
  · intro y hy
    rw [length_inducedOn] at hy
    obtain ⟨x, hx, hk, rfl⟩ := exists_rank hy
    have := ht.descends x hx
    clear hy
    induction this with
    | self => exact .self
    | @up z hz _ ih =>
      refine .up (fun h => hz ((hroot z hk).1 h)) ?_
      rw [hp z hx hk]
      exact ih (ht.par_lt z hx hz) (hK z hx hz hk)
  · intro a ha b hb
    rw [length_inducedOn] at ha hb
    obtain ⟨a, hax, hka, rfl⟩ := exists_rank ha
    obtain ⟨b, hbx, hkb, rfl⟩ := exists_rank hb
    have hpar : ∀ a b, a < s.length → b < s.length → K a = true → K b = true →
        (IsParent (rank K root) (inducedPar K s.length par) (rank K a) (rank K b) ↔ IsParent root par a b) := by
      intro a b ha hb hka hkb
      unfold IsParent
      rw [hp b hb hkb, Ne, not_congr (hroot b hkb)]
      constructor
      · rintro ⟨h1, h2⟩; exact ⟨h1, rank_inj (hK b hb h1 hkb) hka h2⟩
      · rintro ⟨h1, h2⟩; exact ⟨h1, by rw [h2]⟩
    rw [links_inducedOn hka hkb, ht.edges a hax b hbx]
    simp only [hpar a b hax hbx hka hkb, hpar b a hbx hax hkb hka]

theorem induced_parentsBefore (hb : ParentsBefore s.length root par) {K : Nat → Bool}
    (hK : DescClosed s.length root par K) :
    ParentsBefore (inducedOn s K).length (rank K root) (inducedPar K s.length par) := by
  intro y hy hne
  rw [length_inducedOn] at hy
  obtain ⟨x, hx, hk, rfl⟩ := exists_rank hy
  have hxr : x ≠ root := fun h => hne (by rw [h])
  unfold inducedPar
  rw [unrank_rank hx hk]
  exact rank_lt (hK x hx hxr hk) (hb x hx hxr)

theorem induced_parentFirst (hf : ParentFirst s root par) {K : Nat → Bool}
    (hK : DescClosed s.length root par K) :
    ParentFirst (inducedOn s K) (rank K root) (inducedPar K s.length par) := by
  intro y hy hne
  rw [length_inducedOn] at hy
  obtain ⟨x, hx, hk, rfl⟩ := exists_rank hy
  have hxr : x ≠ root := fun h => hne (by rw [h])
  obtain ⟨e, h1, h2⟩ := hf x hx hxr
  obtain ⟨l, hl⟩ : ∃ l, s[x]? = some l := ⟨_, List.getElem?_eq_getElem hx⟩
  unfold edgeAt at h1
  rw [hl] at h1
  have h1 : l[0]? = some e := h1
  cases l with
  | nil => simp at h1
  | cons e0 l' =>
    simp at h1
    subst h1
    have hke : K (target e0) = true := by rw [h2]; exact hK x hx hxr hk
    refine ⟨retarget e0 (rank K (target e0)), ?_, ?_⟩
    · unfold edgeAt
      rw [inducedOn_get hk hl, List.filter_cons, if_pos hke]
      rfl
    · rw [LawfulEdge.target_retarget]
      unfold inducedPar
      rw [unrank_rank hx hk, h2]

theorem keepIdx_nil {α : Type} {K : Nat → Bool} {l : List α} (h : ∀ t < l.length, K t = false) : keepIdx K l = [] := by
  apply List.eq_nil_of_length_eq_zero
  rw [length_keepIdx]
  unfold rank
  rw [List.countP_eq_zero]
  intro t ht
  simp [h t (List.mem_range.1 ht)]

/-- Whatever closed set of nodes is kept, a tree remains. -/
theorem induced_isTree (ht : TreeOf kind s root par) {K : Nat → Bool} (hK : DescClosed s.length root par K) :
    IsTree kind (inducedOn s K) := by
  cases hkr : K root with
  | true => exact .inr ⟨_, _, induced_tree ht hK hkr⟩
  | false =>
    left
    unfold inducedOn
    rw [keepIdx_nil]
    · rfl
    · intro t h
      cases hkt : K t with
      | false => rfl
      | true =>
        have := DescClosed.below hK ht.par_lt (ht.descends t h) h hkt
        rw [hkr] at this; cases this

/-! ### Backward trees -/

section backward
variable (ht : TreeOf .backward s root par)
include ht

theorem backward_edges {x : Nat} (hx : x < s.length) :
    (x = root ∧ s[x]? = some []) ∨ (x ≠ root ∧ ∃ e l, s[x]? = some (e :: l) ∧ e.target = par x) := by
  obtain ⟨l, hl⟩ : ∃ l, s[x]? = some l := ⟨_, List.getElem?_eq_getElem hx⟩
  have hmem : ∀ e ∈ l, e.target < s.length ∧ IsParent root par e.target x := by
    intro e he
    have hr : e.target < s.length := (inRange_iff _).1 ht.inRange x l hl e he
    refine ⟨hr, ?_⟩
    have h1 : 0 < links s x e.target := links_pos.2 ⟨l, hl, e, he, rfl⟩
    rw [ht.edges x hx _ hr] at h1
    by_cases h2 : IsParent root par e.target x
    · exact h2
    · simp [downwards, h2] at h1
  by_cases hxr : x = root
  · left
    refine ⟨hxr, ?_⟩
    cases l with
    | nil => exact hl
    | cons e l' => exact absurd hxr (hmem e (by simp)).2.1
  · right
    refine ⟨hxr, ?_⟩
    cases l with
    | nil =>
      have h1 : 0 < links s x (par x) := by
        rw [ht.edges x hx _ (ht.par_lt x hx hxr), if_pos (show upwards .backward = true ∧ IsParent root par (par x) x from ⟨rfl, hxr, rfl⟩)]
        omega
      rw [links_some hl] at h1
      simp at h1
    | cons e l' => exact ⟨e, l', hl, (hmem e (by simp)).2.2.symm⟩

/-- Only descendants are marked, and `n` is. -/
def Sound (len root : Nat) (par : Nat → Nat) (n : Nat) (td : List Bool) : Prop :=
  td.length = len ∧ (∀ x, td[x]? = some true → Below root par n x) ∧ td[n]? = some true

omit ht in
theorem Sound.set {len n x : Nat} {td : List Bool} (h : Sound len root par n td) (hx : x < len) (hb : Below root par n x) :
    Sound len root par n (td.set x true) ∧ (∀ y : Nat, td[y]? = some true → (td.set x true)[y]? = some true) ∧ (td.set x true)[x]? = some true := by
  have hm : ∀ y : Nat, td[y]? = some true → (td.set x true)[y]? = some true := by
    intro y hy
    rw [List.getElem?_set]
    split
    · rw [if_pos (by rw [h.1]; omega)]
    · exact hy
  refine ⟨⟨by simp [h.1], ?_, hm _ h.2.2⟩, hm, ?_⟩
  · intro y hy
    rw [List.getElem?_set] at hy
    split at hy
    · rename_i hxy; rw [← hxy]; exact hb
    · exact h.2.1 y hy
  · rw [List.getElem?_set, if_pos rfl, if_pos (by rw [h.1]; exact hx)]

theorem markUp_spec {n x : Nat} (hd : Below root par root x) (hx : x < s.length) (td : List Bool) (htd : Sound s.length root par n td) :
    ∃ td' f₀, (∀ f, f₀ ≤ f → markUp s f x td = some (.ok td')) ∧ Sound s.length root par n td' ∧
      (∀ y : Nat, td[y]? = some true → td'[y]? = some true) ∧ (Below root par n x → td'[x]? = some true) := by
  induction hd generalizing td with
  | self =>
    refine ⟨td, 1, ?_, htd, fun y h => h, ?_⟩
    · intro f hf
      obtain ⟨f, rfl⟩ : ∃ k, f = k + 1 := ⟨f - 1, by omega⟩
      rcases backward_edges ht hx with ⟨_, h⟩ | ⟨h, _⟩
      · unfold markUp; rw [h]
      · exact absurd rfl h
    · intro h
      cases h with
      | self => exact htd.2.2
      | up h _ => exact absurd rfl h
  | @up x hxr _ ih =>
    obtain ⟨e, l, hl, hte⟩ : ∃ e l, s[x]? = some (e :: l) ∧ e.target = par x := by
      rcases backward_edges ht hx with ⟨h, _⟩ | ⟨_, h⟩
      · exact absurd h hxr
      · exact h
    have hpx := ht.par_lt x hx hxr
    obtain ⟨b, hb⟩ : ∃ b, td[par x]? = some b := ⟨_, List.getElem?_eq_getElem (by rw [htd.1]; exact hpx)⟩
    cases b with
    | true =>
      have hbel : Below root par n x := .up hxr (htd.2.1 _ hb)
      obtain ⟨h1, h2, h3⟩ := htd.set hx hbel
      refine ⟨td.set x true, 1, ?_, h1, h2, fun _ => h3⟩
      intro f hf
      obtain ⟨f, rfl⟩ : ∃ k, f = k + 1 := ⟨f - 1, by omega⟩
      unfold markUp
      simp only [hl, hte, hb]
    | false =>
      obtain ⟨td', f₀, h1, h2, h3, h4⟩ := ih hpx td htd
      obtain ⟨b', hb'⟩ : ∃ b, td'[par x]? = some b := ⟨_, List.getElem?_eq_getElem (by rw [h2.1]; exact hpx)⟩
      cases b' with
      | true =>
        have hbel : Below root par n x := .up hxr (h2.2.1 _ hb')
        obtain ⟨k1, k2, k3⟩ := h2.set hx hbel
        refine ⟨td'.set x true, f₀ + 1, ?_, k1, fun y hy => k2 y (h3 y hy), fun _ => k3⟩
        intro f hf
        obtain ⟨f, rfl⟩ : ∃ k, f = k + 1 := ⟨f - 1, by omega⟩
        unfold markUp
        simp only [hl, hte, hb, h1 f (by omega), hb']
      | false =>
        refine ⟨td', f₀ + 1, ?_, h2, h3, ?_⟩
        · intro f hf
          obtain ⟨f, rfl⟩ : ∃ k, f = k + 1 := ⟨f - 1, by omega⟩
          unfold markUp
          simp only [hl, hte, hb, h1 f (by omega), hb']
        · intro hbel
          cases hbel with
          | self => exact h3 _ htd.2.2
          | up _ hbp => rw [h4 hbp] at hb'; cases hb'

theorem markAll_spec {n : Nat} (is : List Nat) (his : ∀ i ∈ is, i < s.length) (td : List Bool) (htd : Sound s.length root par n td) :
    ∃ td' f₀, (∀ f, f₀ ≤ f → markAll s f is td = some (.ok td')) ∧ Sound s.length root par n td' ∧
      (∀ y : Nat, td[y]? = some true → td'[y]? = some true) ∧ (∀ i ∈ is, Below root par n i → td'[i]? = some true) := by
  induction is generalizing td with
  | nil => exact ⟨td, 0, fun f _ => rfl, htd, fun y h => h, by simp⟩
  | cons i is ih =>
    have hi := his i (by simp)
    have his' : ∀ j ∈ is, j < s.length := fun j hj => his j (List.mem_cons_of_mem _ hj)
    obtain ⟨b, hb⟩ : ∃ b, td[i]? = some b := ⟨_, List.getElem?_eq_getElem (by rw [htd.1]; exact hi)⟩
    cases b with
    | true =>
      obtain ⟨td', f₀, h1, h2, h3, h4⟩ := ih his' td htd
      refine ⟨td', f₀, ?_, h2, h3, ?_⟩
      · intro f hf; unfold markAll; rw [hb]; exact h1 f hf
      · intro j hj hbel
        rcases List.mem_cons.1 hj with rfl | hj
        · exact h3 _ hb
        · exact h4 j hj hbel
    | false =>
      obtain ⟨td₁, f₁, k1, k2, k3, k4⟩ := markUp_spec ht (ht.descends i hi) hi td htd
      obtain ⟨td', f₀, h1, h2, h3, h4⟩ := ih his' td₁ k2
      refine ⟨td', max f₀ f₁, ?_, h2, fun y hy => h3 y (k3 y hy), ?_⟩
      · intro f hf
        unfold markAll
        simp only [hb, k1 f (by omega)]
        exact h1 f (by omega)
      · intro j hj hbel
        rcases List.mem_cons.1 hj with rfl | hj
        · exact h3 _ (k4 hbel)
        · exact h4 j hj hbel

/-- Keep what has not been looked at yet, and what is to be kept; counting down. -/
def downTo (keep : Nat → Bool) (j t : Nat) : Bool := decide (t < j) || keep t

theorem eraseMarked_spec (nodes : List N) (hlen : nodes.length = s.length) (td : List Bool) (htd : td.length = s.length) (keep : Nat → Bool)
    (hk : ∀ x < s.length, td[x]? = some (!keep x)) (j : Nat) (hj : j ≤ s.length) :
    eraseMarked td j ⟨keepIdx (downTo keep j) nodes, inducedOn s (downTo keep j)⟩ =
      .ret ⟨keepIdx keep nodes, inducedOn s keep⟩ .unit := by
  induction j with
  | zero =>
    have : downTo keep 0 = keep := by funext t; simp [downTo]
    rw [this]; rfl
  | succ j ih =>
    unfold eraseMarked
    rw [hk j (by omega)]
    cases hkj : keep j with
    | true =>
      have : downTo keep (j + 1) = downTo keep j := by
        funext t
        unfold downTo
        by_cases h : t = j
        · subst h; simp [hkj]
        · rw [show decide (t < j + 1) = decide (t < j) by rw [decide_eq_decide]; omega]
      rw [this]
      exact ih (by omega)
    | false =>
      have hm : minus (downTo keep (j + 1)) j = downTo keep j := by
        funext t
        unfold minus downTo
        by_cases h : t = j
        · subst h; simp [hkj]
        · rw [show decide (t < j + 1) = decide (t < j) by rw [decide_eq_decide]; omega]
          simp [h]
      have hkk : downTo keep (j + 1) j = true := by simp [downTo]
      have hrk : rank (downTo keep (j + 1)) j = j := by
        apply rank_true
        intro t ht; simp [downTo]; omega
      have her := erase_induced ht (downTo keep (j + 1)) j (by omega) hkk
      unfold eraseNodeOf at her
      rw [if_neg (by simp), hrk] at her
      simp only [Bool.not_false, her]
      unfold G.eraseNode
      simp only
      have hki := keepIdx_minus (downTo keep (j + 1)) j hkk nodes
      rw [hrk, hm] at hki
      have : j < (keepIdx (downTo keep (j + 1)) nodes).length := by
        rw [length_keepIdx]
        have := rank_lt hkk (show j < nodes.length by omega)
        omega
      rw [if_pos this, hki, hm]
      exact ih (by omega)

theorem pruneBackward_spec (nodes : List N) (hlen : nodes.length = s.length) {n : Nat} (hn : n < s.length) (keep : Nat → Bool)
    (hk : ∀ x < s.length, keep x = true ↔ ¬ Below root par n x) :
    ∃ f₀, ∀ f, f₀ ≤ f → pruneBackward f ⟨nodes, s⟩ n = some (.ret ⟨keepIdx keep nodes, inducedOn s keep⟩ .unit) := by
  have hs0 : Sound s.length root par n ((List.replicate s.length false).set n true) := by
    refine ⟨by simp, ?_, ?_⟩
    · intro x hx
      rw [List.getElem?_set] at hx
      split at hx
      · rename_i h; rw [← h]; exact .self
      · rw [List.getElem?_replicate] at hx
        split at hx <;> simp at hx
    · rw [List.getElem?_set, if_pos rfl, if_pos (by simpa using hn)]
  obtain ⟨td, f₀, h1, h2, _, h4⟩ := markAll_spec ht (List.range s.length) (by simp) _ hs0
  refine ⟨f₀, ?_⟩
  intro f hf
  unfold pruneBackward
  simp only
  rw [if_pos hn, h1 f hf]
  simp only
  have := eraseMarked_spec ht nodes hlen td h2.1 keep (by
    intro x hx
    obtain ⟨b, hb⟩ : ∃ b, td[x]? = some b := ⟨_, List.getElem?_eq_getElem (by rw [h2.1]; exact hx)⟩
    rw [hb]
    congr 1
    cases b with
    | true =>
      have : keep x ≠ true := fun h => (hk x hx).1 h (h2.2.1 x hb)
      simpa using this.symm
    | false =>
      have : keep x = true := (hk x hx).2 (fun h => by rw [h4 x (by simpa using hx) h] at hb; cases hb)
      simp [this]) s.length (Nat.le_refl _)
  rw [keepIdx_all _ (fun t ht => by simp [downTo]; omega)] at this
  rw [inducedOn_congr (K' := fun _ => true) ht.inRange (fun t ht => by simp [downTo, ht]), inducedOn_all] at this
  rw [this]

end backward

/-! ### Forward and symmetric trees -/

theorem pruneDown_top {er : Edges (Edge W M) → Nat → Res (Edges (Edge W M))} (her : er = eraseNodeOf kind) {sym : Bool} (nodes : List N)
    (hlen : nodes.length = s.length)
    (ht : TreeOf kind s root par) (hb : ParentsBefore s.length root par) (hch : ChildrenAt sym s root par) {n : Nat} (hn : n < s.length)
    (keep : Nat → Bool) (hk : ∀ x < s.length, keep x = true ↔ ¬ Below root par n x) :
    ∃ f₀, ∀ f, f₀ ≤ f → pruneDown er sym f ⟨nodes, s⟩ n = some (.ret ⟨keepIdx keep nodes, inducedOn s keep⟩ .unit) := by
  subst her
  obtain ⟨f₀, h⟩ := pruneDown_spec (er := eraseNodeOf kind) hlen ht.root_lt ht.par_lt ht.descends ht.inRange hb hch
    (erase_induced ht) _ n rfl hn (fun _ => true) (fun _ _ _ _ => rfl) rfl
  have hc : ∀ t < s.length, cut root par (fun _ => true) n t = keep t := by
    intro t ht
    rw [Bool.eq_iff_iff, cut_eq, hk t ht]
    simp
  rw [keepIdx_all _ (fun _ _ => rfl), inducedOn_all, rank_true _ _ (fun _ _ => rfl),
    keepIdx_congr _ (fun t ht => hc t (by omega)), inducedOn_congr ht.inRange hc] at h
  exact ⟨f₀, h⟩

end
end Verif.Graph
