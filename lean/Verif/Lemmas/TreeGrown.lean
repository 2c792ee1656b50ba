import Verif.Lemmas.PruneBack

set_option linter.unusedSectionVars false
namespace Verif.Graph
open Verif.Spec EdgeLike

section
variable {W M N : Type} [DecidableEq W] [DecidableEq M]

/-- What `prune` needs. -/
structure Nice (kind : TreeKind) (s : Edges (Edge W M)) (root : Nat) (par : Nat → Nat) : Prop where
  tree : TreeOf kind s root par
  before : ParentsBefore s.length root par
  first : upwards kind = true → ParentFirst s root par

theorem add_nice (kind : TreeKind) (dw : W) (dm : M) {g : G N (Edge W M)} (hg : g.nodes.length = g.edges.length) {root : Nat}
    {par : Nat → Nat} (h : Nice kind g.edges root par) {p : Nat} (hp : p < g.edges.length) (w : N) :
    ∃ s', addNodeToTree kind dw dm g p w = .ret ⟨g.nodes ++ [w], s'⟩ (.index g.edges.length) ∧ s'.length = g.edges.length + 1 ∧
      Nice kind s' root (fun x => if x = g.edges.length then p else par x) := by
  obtain ⟨s', h1, h2, h3, h4, h5⟩ := insert_tree kind dw dm hg h.tree (pos := g.edges.length) (p := p) w (by omega) (by omega)
  rw [Nat.min_self] at h1 h3 h4 h5
  have hroot := h.tree.root_lt
  have hr : raise g.edges.length root = root := by unfold raise; rw [if_neg (by omega)]
  have hpar : ∀ x < g.edges.length + 1, x ≠ root → parentsWith par g.edges.length p x = if x = g.edges.length then p else par x := by
    intro x hx hxr
    unfold parentsWith
    split
    · rfl
    · have := h.tree.par_lt x (by omega) hxr
      unfold raise lower
      rw [if_neg (show ¬ g.edges.length < x by omega), if_neg (by omega)]
  refine ⟨s', ?_, h2, ⟨?_, ?_, ?_⟩⟩
  · unfold addNodeToTree
    rw [h1, ← hg]
    simp
  · rw [hr] at h3
    have hPar : ∀ a b, b < s'.length → (IsParent root (parentsWith par g.edges.length p) a b ↔
        IsParent root (fun x => if x = g.edges.length then p else par x) a b) := by
      intro a b hb
      unfold IsParent
      constructor
      · rintro ⟨k1, k2⟩; exact ⟨k1, by rw [← k2, hpar b (by omega) k1]⟩
      · rintro ⟨k1, k2⟩; exact ⟨k1, by rw [← k2, hpar b (by omega) k1]⟩
    refine ⟨h3.root_lt, ?_, ?_, h3.inRange, ?_⟩
    · intro x hx hxr
      rw [← hpar x (by omega) hxr]
      exact h3.par_lt x hx hxr
    · intro x hx
      have hb := h3.descends x hx
      induction hb with
      | self => exact .self
      | @up z hz _ ih =>
        refine .up hz ?_
        rw [← hpar z (by omega) hz]
        exact ih (h3.par_lt z hx hz)
    · intro a ha b hb
      rw [h3.edges a ha b hb]
      simp only [hPar a b hb, hPar b a ha]
  · intro x hx hxr
    simp only
    split
    · omega
    · exact h.before x (by omega) hxr
  · intro hu x hx hxr
    simp only
    by_cases hxn : x = g.edges.length
    · subst hxn
      refine ⟨⟨p, dw, dm⟩, ?_, by rw [if_pos rfl]; rfl⟩
      unfold edgeAt
      rw [h4 hu]; rfl
    · rw [if_neg hxn]
      obtain ⟨e, k1, k2⟩ := h.first hu x (by omega) hxr
      have hw := getElem?_withNode g.edges g.edges.length x (Nat.le_refl _)
      rw [if_neg hxn, show lower g.edges.length x = x by unfold lower; rw [if_neg (by omega)]] at hw
      obtain ⟨l, hl⟩ : ∃ l, g.edges[x]? = some l := ⟨_, List.getElem?_eq_getElem (by omega)⟩
      rw [hl] at hw
      unfold edgeAt at k1
      rw [hl] at k1
      have k1 : l[0]? = some e := k1
      cases l with
      | nil => simp at k1
      | cons e0 l' =>
        simp at k1
        subst k1
        refine ⟨retarget e0 (raise g.edges.length (target e0)), ?_, ?_⟩
        · unfold edgeAt
          rw [h5 x hxn, hw]
          simp only [Option.map_some]
          split <;> rfl
        · rw [LawfulEdge.target_retarget, k2]
          have := h.tree.par_lt x (by omega) hxr
          unfold raise
          rw [if_neg (by omega)]

theorem nice_single (kind : TreeKind) : Nice kind ([[]] : Edges (Edge W M)) 0 (fun _ => 0) := by
  refine ⟨tree_single kind, ?_, ?_⟩
  · intro x hx h; simp at hx; omega
  · intro _ x hx h; simp at hx; omega

theorem Nice.congr {kind : TreeKind} {s : Edges (Edge W M)} {root : Nat} {par par' : Nat → Nat} (h : Nice kind s root par)
    (hp : ∀ x < s.length, x ≠ root → par x = par' x) : Nice kind s root par' := by
  have hPar : ∀ a b, b < s.length → (IsParent root par a b ↔ IsParent root par' a b) := by
    intro a b hb
    unfold IsParent
    constructor
    · rintro ⟨k1, k2⟩; exact ⟨k1, by rw [← k2, hp b hb k1]⟩
    · rintro ⟨k1, k2⟩; exact ⟨k1, by rw [← k2, hp b hb k1]⟩
  refine ⟨⟨h.tree.root_lt, ?_, ?_, h.tree.inRange, ?_⟩, ?_, ?_⟩
  · intro x hx hxr; rw [← hp x hx hxr]; exact h.tree.par_lt x hx hxr
  · intro x hx
    have hb := h.tree.descends x hx
    induction hb with
    | self => exact .self
    | @up z hz _ ih =>
      refine .up hz ?_
      rw [← hp z hx hz]
      exact ih (h.tree.par_lt z hx hz)
  · intro a ha b hb
    rw [h.tree.edges a ha b hb]
    simp only [hPar a b hb, hPar b a ha]
  · intro x hx hxr; rw [← hp x hx hxr]; exact h.before x hx hxr
  · intro hu x hx hxr
    obtain ⟨e, h1, h2⟩ := h.first hu x hx hxr
    exact ⟨e, h1, by rw [← hp x hx hxr]; exact h2⟩

/-- The parents when the given nodes have been added at the end. -/
def parents (len : Nat) (par : Nat → Nat) (l : List (N × Nat)) (x : Nat) : Nat := if x < len then par x else
  match l[x - len]? with
  | some (_, p) => p
  | none => 0

theorem buildChildren_spec (kind : TreeKind) (dw : W) (dm : M) (t : TreeInits N) {g : G N (Edge W M)}
    (hg : g.nodes.length = g.edges.length) {root : Nat} {par : Nat → Nat} (h : Nice kind g.edges root par) {p : Nat}
    (hp : p < g.edges.length) :
    ∃ s', buildChildren kind dw dm t p g = .ret ⟨g.nodes ++ (depthFirst t p g.edges.length).map Prod.fst, s'⟩ () ∧
      s'.length = g.edges.length + (depthFirst t p g.edges.length).length ∧
      Nice kind s' root (parents g.edges.length par (depthFirst t p g.edges.length)) := by
  induction t generalizing g p par with
  | nil =>
    refine ⟨g.edges, by simp [buildChildren, depthFirst], by simp [depthFirst], ?_⟩
    refine h.congr ?_
    intro x hx _
    unfold parents
    rw [if_pos hx]
  | cons w cs rest ihc ihr =>
    obtain ⟨s₁, h1, h2, h3⟩ := add_nice kind dw dm hg h hp w
    have hg₁ : (⟨g.nodes ++ [w], s₁⟩ : G N (Edge W M)).nodes.length = (⟨g.nodes ++ [w], s₁⟩ : G N (Edge W M)).edges.length := by
      simp only [List.length_append, List.length_singleton]; omega
    obtain ⟨s₂, k1, k2, k3⟩ := ihc hg₁ h3 (p := g.edges.length) (by simp only; omega)
    simp only [h2] at k1 k2 k3
    generalize hD : depthFirst cs g.edges.length (g.edges.length + 1) = D at *
    have hg₂ : (⟨g.nodes ++ [w] ++ D.map Prod.fst, s₂⟩ : G N (Edge W M)).nodes.length =
        (⟨g.nodes ++ [w] ++ D.map Prod.fst, s₂⟩ : G N (Edge W M)).edges.length := by
      simp only [List.length_append, List.length_singleton, List.length_map]; omega
    obtain ⟨s₃, m1, m2, m3⟩ := ihr hg₂ k3 (p := p) (by simp only; omega)
    simp only [k2] at m1 m2 m3
    refine ⟨s₃, ?_, ?_, ?_⟩
    · unfold buildChildren
      rw [h1]
      simp only
      rw [k1]
      simp only
      rw [m1]
      simp [depthFirst, hD]
    · rw [m2]; simp only [depthFirst, hD, List.length_append, List.length_cons]; omega
    · refine m3.congr ?_
      intro x hx _
      simp only [depthFirst, hD]
      unfold parents
      by_cases hx1 : x < g.edges.length
      · rw [if_pos (show x < g.edges.length + 1 + D.length by omega), if_pos (show x < g.edges.length + 1 by omega), if_pos hx1]
        simp only
        rw [if_neg (show ¬ x = g.edges.length by omega)]
      · rw [if_neg hx1]
        by_cases hx2 : x = g.edges.length
        · subst hx2
          rw [if_pos (show g.edges.length < g.edges.length + 1 + D.length by omega),
            if_pos (show g.edges.length < g.edges.length + 1 by omega)]
          simp
        · by_cases hx3 : x < g.edges.length + 1 + D.length
          · rw [if_pos hx3, if_neg (show ¬ x < g.edges.length + 1 by omega)]
            obtain ⟨k, rfl⟩ : ∃ k, x = g.edges.length + 1 + k := ⟨x - g.edges.length - 1, by omega⟩
            rw [show g.edges.length + 1 + k - (g.edges.length + 1) = k by omega,
              show g.edges.length + 1 + k - g.edges.length = k + 1 by omega]
            rw [List.cons_append, List.getElem?_cons_succ, List.getElem?_append_left (by omega)]
          · rw [if_neg hx3]
            obtain ⟨k, rfl⟩ : ∃ k, x = g.edges.length + 1 + D.length + k := ⟨x - g.edges.length - 1 - D.length, by omega⟩
            rw [show g.edges.length + 1 + D.length + k - (g.edges.length + 1 + D.length) = k by omega,
              show g.edges.length + 1 + D.length + k - g.edges.length = D.length + k + 1 by omega]
            rw [List.cons_append, List.getElem?_cons_succ, List.getElem?_append_right (by omega), Nat.add_sub_cancel_left]

theorem buildTree_spec (kind : TreeKind) (dw : W) (dm : M) (w : N) (t : TreeInits N) :
    ∃ s, buildTree kind dw dm w t = .ret ⟨w :: (depthFirst t 0 1).map Prod.fst, s⟩ () ∧ s.length = 1 + (depthFirst t 0 1).length ∧
      Nice kind s 0 (parents 1 (fun _ => 0) (depthFirst t 0 1)) := by
  have h0 : (⟨[], []⟩ : G N (Edge W M)).insertNode 0 w = .ret ⟨[w], [[]]⟩ (.index 0) := rfl
  obtain ⟨s, h1, h2, h3⟩ := buildChildren_spec kind dw dm t (g := ⟨[w], [[]]⟩) rfl (nice_single kind) (p := 0) (by simp)
  refine ⟨s, ?_, h2, h3⟩
  unfold buildTree
  rw [h0]
  exact h1

/-! ### Pruning -/

theorem prune_nice {kind : TreeKind} {g : G N (Edge W M)} (hg : g.nodes.length = g.edges.length) {root : Nat}
    {par : Nat → Nat} (h : Nice kind g.edges root par) {n : Nat} (hn : n < g.edges.length) (keep : Nat → Bool)
    (hk : ∀ x < g.edges.length, keep x = true ↔ ¬ Below root par n x) :
    ∃ f₀, ∀ f, f₀ ≤ f → prune kind f g n = some (.ret ⟨keepIdx keep g.nodes, inducedOn g.edges keep⟩ .unit) := by
  cases kind with
  | forward => exact pruneDown_top (kind := .forward) rfl g.nodes hg h.tree h.before (children_forward h.tree) hn keep hk
  | backward => exact pruneBackward_spec h.tree g.nodes hg hn keep hk
  | symmetric =>
    exact pruneDown_top (kind := .symmetric) rfl g.nodes hg h.tree h.before (children_sym rfl rfl h.tree h.before (h.first rfl)) hn keep hk
  | undirected =>
    exact pruneDown_top (kind := .undirected) rfl g.nodes hg h.tree h.before (children_sym rfl rfl h.tree h.before (h.first rfl)) hn keep hk

theorem closed_below {len root : Nat} {par : Nat → Nat} {n : Nat} {keep : Nat → Bool} (hpar : ∀ x < len, x ≠ root → par x < len)
    (hk : ∀ x < len, keep x = true ↔ ¬ Below root par n x) : DescClosed len root par keep := by
  intro x hx hxr hkx
  rw [hk _ (hpar x hx hxr)]
  exact fun h => (hk x hx).1 hkx (.up hxr h)

theorem inducedOn_nil {s : Edges (Edge W M)} {K : Nat → Bool} (h : ∀ t < s.length, K t = false) : inducedOn s K = [] := by
  unfold inducedOn
  rw [keepIdx_nil h]
  rfl

theorem induced_nice {kind : TreeKind} {s : Edges (Edge W M)} {root : Nat} {par : Nat → Nat} (h : Nice kind s root par) {K : Nat → Bool}
    (hK : DescClosed s.length root par K) : inducedOn s K = [] ∨ ∃ root' par', Nice kind (inducedOn s K) root' par' := by
  cases hkr : K root with
  | true =>
    right
    exact ⟨_, _, induced_tree h.tree hK hkr, induced_parentsBefore h.before hK, fun hu => induced_parentFirst (h.first hu) hK⟩
  | false =>
    left
    apply inducedOn_nil
    intro t ht
    cases hkt : K t with
    | false => rfl
    | true =>
      have := DescClosed.below hK h.tree.par_lt (h.tree.descends t ht) ht hkt
      rw [hkr] at this; cases this

/-- More fuel does not change the result. -/
theorem pruneDown_fuel {er : Edges (Edge W M) → Nat → Res (Edges (Edge W M))} {sym : Bool} {f f' : Nat} (hf : f ≤ f') {g : G N (Edge W M)} {n : Nat}
    {r : Outcome (G N (Edge W M)) Val} (h : pruneDown er sym f g n = some r) : pruneDown er sym f' g n = some r := by
  induction f generalizing f' g n r with
  | zero => simp [pruneDown] at h
  | succ f ih =>
    obtain ⟨f', rfl⟩ : ∃ k, f' = k + 1 := ⟨f' - 1, by omega⟩
    unfold pruneDown at h ⊢
    cases hl : g.edges[n]? with
    | none => rw [hl] at h; exact h
    | some l =>
      rw [hl] at h
      simp only at h ⊢
      by_cases hc : (if sym = true ∧ n ≠ 0 then 1 else 0) < l.length
      · rw [if_pos hc] at h ⊢
        cases hla : l.getLast? with
        | none => rw [hla] at h; exact h
        | some e =>
          rw [hla] at h
          simp only at h ⊢
          cases hp : pruneDown er sym f g e.target with
          | none => rw [hp] at h; simp at h
          | some o =>
            rw [hp] at h
            rw [ih (by omega) hp]
            cases o with
            | ret g' v => exact ih (by omega) h
            | threw g' => exact h
            | ub => exact h
      · rw [if_neg hc] at h ⊢
        exact h

theorem markUp_fuel {s : Edges (Edge W M)} {f f' : Nat} (hf : f ≤ f') {n : Nat} {td : List Bool} {r : Res (List Bool)}
    (h : markUp s f n td = some r) : markUp s f' n td = some r := by
  induction f generalizing f' n td r with
  | zero => simp [markUp] at h
  | succ f ih =>
    obtain ⟨f', rfl⟩ : ∃ k, f' = k + 1 := ⟨f' - 1, by omega⟩
    unfold markUp at h ⊢
    cases hl : s[n]? with
    | none => rw [hl] at h; exact h
    | some l =>
      rw [hl] at h
      cases l with
      | nil => exact h
      | cons e l =>
        simp only at h ⊢
        cases htd : td[e.target]? with
        | none => rw [htd] at h; exact h
        | some b =>
          rw [htd] at h
          cases b with
          | true => exact h
          | false =>
            simp only at h ⊢
            cases hm : markUp s f e.target td with
            | none => rw [hm] at h; simp at h
            | some o => rw [hm] at h; rw [ih (by omega) hm]; exact h

theorem markAll_fuel {s : Edges (Edge W M)} {f f' : Nat} (hf : f ≤ f') {is : List Nat} {td : List Bool} {r : Res (List Bool)}
    (h : markAll s f is td = some r) : markAll s f' is td = some r := by
  induction is generalizing td with
  | nil => exact h
  | cons i is ih =>
    unfold markAll at h ⊢
    cases htd : td[i]? with
    | none => rw [htd] at h; exact h
    | some b =>
      rw [htd] at h
      cases b with
      | true => exact ih h
      | false =>
        simp only at h ⊢
        cases hm : markUp s f i td with
        | none => rw [hm] at h; simp at h
        | some o =>
          rw [hm] at h; rw [markUp_fuel hf hm]
          cases o with
          | ok td' => exact ih h
          | throws => exact h
          | ub => exact h

theorem prune_fuel {kind : TreeKind} {f f' : Nat} (hf : f ≤ f') {g : G N (Edge W M)} {n : Nat} {r : Outcome (G N (Edge W M)) Val}
    (h : prune kind f g n = some r) : prune kind f' g n = some r := by
  cases kind with
  | forward => exact pruneDown_fuel hf h
  | symmetric => exact pruneDown_fuel hf h
  | undirected => exact pruneDown_fuel hf h
  | backward =>
    unfold prune pruneBackward at h ⊢
    simp only at h ⊢
    split
    · rename_i hn
      rw [if_pos hn] at h
      cases hm : markAll g.edges f (List.range g.edges.length) ((List.replicate g.edges.length false).set n true) with
      | none => rw [hm] at h; simp at h
      | some o => rw [hm] at h; rw [markAll_fuel hf hm]; exact h
    · rename_i hn
      rw [if_neg hn] at h
      exact h

theorem prune_ret {kind : TreeKind} {f : Nat} {g g' : G N (Edge W M)} {n : Nat} {v : Val} (h : prune kind f g n = some (.ret g' v)) :
    n < g.edges.length ∨ (kind = .backward ∧ g' = g) := by
  by_cases hn : n < g.edges.length
  · exact .inl hn
  · right
    have hno : g.edges[n]? = none := List.getElem?_eq_none (by omega)
    have hdown : ∀ er sym, pruneDown er sym f g n ≠ some (.ret g' v) := by
      intro er sym h
      cases f with
      | zero => simp [pruneDown] at h
      | succ f => unfold pruneDown at h; rw [hno] at h; simp at h
    cases kind with
    | forward => exact absurd h (hdown _ _)
    | symmetric => exact absurd h (hdown _ _)
    | undirected => exact absurd h (hdown _ _)
    | backward =>
      refine ⟨rfl, ?_⟩
      unfold prune pruneBackward at h
      simp only at h
      rw [if_neg hn] at h
      cases h
      rfl

/-! ### Trees which are reached -/

/-- Empty, or ready for `prune`. -/
def NiceInv (kind : TreeKind) (g : G N (Edge W M)) : Prop :=
  g.nodes.length = g.edges.length ∧ (g.edges = [] ∨ ∃ root par, Nice kind g.edges root par)

theorem prune_niceInv {kind : TreeKind} {g g' : G N (Edge W M)} (hg : NiceInv kind g) {f n : Nat} {v : Val}
    (h : prune kind f g n = some (.ret g' v)) : NiceInv kind g' := by
  rcases prune_ret h with hn | ⟨_, rfl⟩
  · obtain ⟨hlen, he | ⟨root, par, hnice⟩⟩ := hg
    · rw [he] at hn; simp at hn
    · have hk : ∀ x < g.edges.length, cut root par (fun _ => true) n x = true ↔ ¬ Below root par n x := by
        intro x _; rw [cut_eq]; simp
      obtain ⟨f₀, hf₀⟩ := prune_nice hlen hnice hn _ hk
      have h1 := prune_fuel (Nat.le_max_left f f₀) h
      rw [hf₀ _ (Nat.le_max_right f f₀)] at h1
      simp only [Option.some.injEq, Outcome.ret.injEq] at h1
      rw [← h1.1]
      refine ⟨?_, induced_nice hnice (closed_below hnice.tree.par_lt hk)⟩
      simp only
      rw [length_keepIdx, length_inducedOn, hlen]
  · exact hg

theorem add_niceInv {kind : TreeKind} {dw : W} {dm : M} {g g' : G N (Edge W M)} (hg : NiceInv kind g) {p : Nat} {w : N} {v : Val}
    (hc : g.edges = [] ∨ p < g.edges.length) (h : addNodeToTree kind dw dm g p w = .ret g' v) : NiceInv kind g' := by
  obtain ⟨hlen, he | ⟨root, par, hnice⟩⟩ := hg
  · obtain ⟨nodes, edges⟩ := g
    simp only at he hlen
    subst he
    cases nodes with
    | cons _ _ => simp at hlen
    | nil =>
      unfold addNodeToTree at h
      rw [insert_first] at h
      cases h
      exact ⟨rfl, .inr ⟨_, _, nice_single kind⟩⟩
  · have hne : g.edges ≠ [] := by intro h; have := hnice.tree.root_lt; rw [h] at this; simp at this
    obtain ⟨s', h1, h2, h3⟩ := add_nice kind dw dm hlen hnice (hc.resolve_left hne) w
    rw [h1] at h
    cases h
    exact ⟨by simp [h2, hlen], .inr ⟨_, _, h3⟩⟩

theorem perm_niceInv {g g' : G N (Edge W M)} (hg : NiceInv .forward g) {r : Res (Edges (Edge W M))} {v : Val}
    (hr : ∀ s', r = .ok s' → ∃ n f, s' = onNode g.edges n f ∧ ∀ l, g.edges[n]? = some l → (f l).Perm l)
    (h : onEdges g r = .ret g' v) : NiceInv .forward g' := by
  cases hres : r with
  | ub => rw [hres] at h; simp [onEdges] at h
  | throws => rw [hres] at h; simp [onEdges] at h
  | ok s' =>
    rw [hres] at h
    simp only [onEdges, Outcome.ret.injEq] at h
    rw [← h.1]
    obtain ⟨n, f, rfl, hf⟩ := hr s' hres
    refine ⟨by simp only [length_onNode]; exact hg.1, ?_⟩
    obtain ⟨_, he | ⟨root, par, hn⟩⟩ := hg
    · left; simp [he, onNode]
    · right
      refine ⟨root, par, TreeOf.congr hn.tree (length_onNode _ _ _) ?_ (links_perm hf), ?_, fun hu => by simp [upwards] at hu⟩
      · exact onNode_perm_inRange (fun l hl e he => (inRange_iff _).1 hn.tree.inRange n l hl e ((hf l hl).mem_iff.1 he)) hn.tree.inRange
      · simp only [length_onNode]; exact hn.before

variable {stdSort : {α : Type} → (α → α → Bool) → List α → List α}

theorem grown_nice (hsort : Permutes stdSort) {kind : TreeKind} {dw : W} {dm : M} {g : G N (Edge W M)}
    (h : Grown stdSort kind dw dm g) : NiceInv kind g := by
  induction h with
  | empty => exact ⟨rfl, .inl rfl⟩
  | @built w children g hb =>
    obtain ⟨s, h1, h2, h3⟩ := buildTree_spec kind dw dm w children
    rw [h1] at hb
    cases hb
    exact ⟨by simp [h2]; omega, .inr ⟨_, _, h3⟩⟩
  | added _ hc hs ih => exact add_niceInv ih hc hs
  | pruned _ hp ih => exact prune_niceInv ih hp
  | @swapped g g' n i j v hk _ hs ih =>
    subst hk
    refine perm_niceInv ih ?_ hs
    intro s hs
    obtain ⟨f, rfl, hf⟩ := swapEdges_spec hs
    exact ⟨n, f, rfl, hf⟩
  | @sorted g g' lt n p m q v hk _ hc hs ih =>
    subst hk
    refine perm_niceInv ih ?_ hs
    intro s hs
    obtain ⟨f, rfl, hf⟩ := sortEdges_spec (hsort _ _ hc.1) hs
    exact ⟨n, f, rfl, hf⟩
  | @stableSorted g g' lt n p m q v hk _ hc hs ih =>
    subst hk
    refine perm_niceInv ih ?_ hs
    intro s hs
    obtain ⟨f, rfl, hf⟩ := sortEdges_spec (fun l => StableSort.stableSort_perm l) hs
    exact ⟨n, f, rfl, hf⟩

theorem grownBackward_tree (hsort : Permutes stdSort) {dw : W} {dm : M} {g : G N (Edge W M)}
    (h : GrownBackward stdSort dw dm g) : TreeInv .backward g := by
  induction h with
  | empty => exact ⟨rfl, .inl rfl⟩
  | @built w children g hb =>
    obtain ⟨s, h1, h2, h3⟩ := buildTree_spec .backward dw dm w children
    rw [h1] at hb
    cases hb
    exact ⟨by simp [h2]; omega, .inr ⟨_, _, h3.tree⟩⟩
  | called _ hc hs ih =>
    rcases tree_good hsort .backward dw dm _ _ ih hc with ⟨g'', v', h1, h2⟩ | ⟨g'', h1, _⟩
    · rw [h1] at hs; cases hs; exact h2
    · rw [h1] at hs; cases hs
  | @pruned g g' n f v _ hp ih =>
    rcases prune_ret hp with hn | ⟨_, rfl⟩
    · obtain ⟨hlen, he | ⟨root, par, ht⟩⟩ := ih
      · rw [he] at hn; simp at hn
      · have hk : ∀ x < g.edges.length, cut root par (fun _ => true) n x = true ↔ ¬ Below root par n x := by
          intro x _; rw [cut_eq]; simp
        obtain ⟨f₀, hf₀⟩ := pruneBackward_spec ht g.nodes hlen hn _ hk
        have h1 := prune_fuel (Nat.le_max_left f f₀) hp
        have h2 := hf₀ _ (Nat.le_max_right f f₀)
        have h3 : prune .backward (max f f₀) g n = pruneBackward (max f f₀) g n := rfl
        rw [h3, h2] at h1
        simp only [Option.some.injEq, Outcome.ret.injEq] at h1
        rw [← h1.1]
        refine ⟨?_, induced_isTree ht (closed_below ht.par_lt hk)⟩
        simp only
        rw [length_keepIdx, length_inducedOn, hlen]
    · exact ih

end
end Verif.Graph
