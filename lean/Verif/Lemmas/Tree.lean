import Verif.Spec.Tree
import Verif.Lemmas.SubGraph

set_option linter.unusedSectionVars false
namespace Verif.Graph
open Verif.Spec EdgeLike

section
variable {E : Type} [EdgeLike E] [LawfulEdge E]

theorem links_some {s : Edges E} {a : Nat} {l : List E} (h : s[a]? = some l) (b : Nat) :
    links s a b = l.countP fun e => decide (target e = b) := by unfold links; rw [h]

theorem links_none {s : Edges E} {a : Nat} (h : s[a]? = none) (b : Nat) : links s a b = 0 := by unfold links; rw [h]

theorem links_pos {s : Edges E} {a b : Nat} : 0 < links s a b ↔ ∃ l, s[a]? = some l ∧ ∃ e ∈ l, target e = b := by
  cases h : s[a]? with
  | none => simp [links_none h]
  | some l => rw [links_some h, List.countP_pos_iff]; simp

theorem countP_relabel (f : Nat → Nat) (l : List E) (j j' : Nat) (h : ∀ e ∈ l, f (target e) = j' ↔ target e = j) :
    (relabel f l).countP (fun e => decide (target e = j')) = l.countP fun e => decide (target e = j) := by
  unfold relabel
  rw [List.countP_map]
  apply List.countP_congr
  intro e he
  simp only [Function.comp, LawfulEdge.target_retarget, decide_eq_true_eq]
  exact h e he

theorem countP_relabel_zero (f : Nat → Nat) (l : List E) (j : Nat) (h : ∀ e ∈ l, f (target e) ≠ j) :
    (relabel f l).countP (fun e => decide (target e = j)) = 0 := by
  rw [List.countP_eq_zero]
  intro e he
  unfold relabel at he
  obtain ⟨e', he', rfl⟩ := List.mem_map.1 he
  simpa [LawfulEdge.target_retarget] using h e' he'

theorem links_withNode (s : Edges E) (n : Nat) (hn : n ≤ s.length) (a b : Nat) :
    links (withNode s n) a b = if a = n ∨ b = n then 0 else links s (lower n a) (lower n b) := by
  have hg := getElem?_withNode s n a hn
  by_cases ha : a = n
  · rw [if_pos ha] at hg
    rw [if_pos (.inl ha), links_some hg]; rfl
  · rw [if_neg ha] at hg
    cases hl : s[lower n a]? with
    | none =>
      rw [hl] at hg
      rw [links_none hg, links_none hl]; simp
    | some l =>
      rw [hl] at hg
      rw [links_some hg]
      by_cases hb : b = n
      · rw [if_pos (.inr hb)]
        apply countP_relabel_zero
        intro e _
        rw [hb]
        exact raise_ne n _
      · rw [if_neg (by simp [ha, hb]), links_some hl]
        apply countP_relabel
        intro e _
        unfold raise lower
        split <;> split <;> omega

theorem links_append {s : Edges E} {n : Nat} (hn : n < s.length) (e : E) (a b : Nat) :
    links (onNode s n (· ++ [e])) a b = links s a b + if a = n ∧ b = target e then 1 else 0 := by
  have hg : (onNode s n (· ++ [e]))[a]? = if n = a then s[a]?.map (· ++ [e]) else s[a]? := by
    unfold onNode
    rw [List.getElem?_modify]
    split <;> simp
  by_cases ha : n = a
  · subst ha
    rw [if_pos rfl, List.getElem?_eq_getElem hn, Option.map_some] at hg
    rw [links_some hg, links_some (List.getElem?_eq_getElem hn), List.countP_append]
    simp only [List.countP_cons, List.countP_nil, true_and, decide_eq_true_eq]
    simp only [eq_comm (a := b), Nat.zero_add]
  · rw [if_neg ha] at hg
    rw [if_neg (by omega)]
    unfold links
    rw [hg]; simp

theorem links_transposed {s s' : Edges E} {i j : Nat} (h : Transposed s s' i j) (a b : Nat) :
    links s' a b = links s (transpose i j a) (transpose i j b) := by
  have hg := h.2 a
  cases hl : s[transpose i j a]? with
  | none => rw [hl] at hg; rw [links_none hg, links_none hl]
  | some l =>
    rw [hl] at hg
    rw [links_some hg, links_some hl]
    apply countP_relabel
    intro e _
    constructor
    · intro h; rw [← h, transpose_transpose]
    · intro h; rw [h, transpose_transpose]

theorem links_perm {s : Edges E} {n : Nat} {f : List E → List E} (hf : ∀ l, s[n]? = some l → (f l).Perm l) (a b : Nat) :
    links (onNode s n f) a b = links s a b := by
  have hg : (onNode s n f)[a]? = if n = a then s[a]?.map f else s[a]? := by
    unfold onNode
    rw [List.getElem?_modify]
    split <;> simp
  by_cases ha : n = a
  · subst ha
    rw [if_pos rfl] at hg
    cases hl : s[n]? with
    | none => rw [hl] at hg; rw [links_none hg, links_none hl]
    | some l =>
      rw [hl] at hg
      rw [links_some hg, links_some hl]
      exact (hf l hl).countP_eq _
  · rw [if_neg ha] at hg
    unfold links
    rw [hg]

end

/-! ### Going up -/

theorem Below.trans {root : Nat} {par : Nat → Nat} {a b c : Nat} (h1 : Below root par a b) (h2 : Below root par b c) :
    Below root par a c := by
  induction h2 with
  | self => exact h1
  | up hx _ ih => exact .up hx ih

theorem Below.map {root root' : Nat} {par par' : Nat → Nat} (f : Nat → Nat) (hroot : ∀ x, x ≠ root → f x ≠ root')
    (hpar : ∀ x, x ≠ root → par' (f x) = f (par x)) {n x : Nat} (h : Below root par n x) : Below root' par' (f n) (f x) := by
  induction h with
  | self => exact .self
  | up hx _ ih =>
    refine .up (hroot _ hx) ?_
    rw [hpar _ hx]
    exact ih

/-! ### Insertion -/

section
variable {W M : Type} [DecidableEq W] [DecidableEq M]

theorem lower_lt {n a k : Nat} (ha : a ≠ n) (h : a < k + 1) (hn : n ≤ k) : lower n a < k := by unfold lower; split <;> omega

theorem raise_lower' {n a : Nat} (ha : a ≠ n) : raise n (lower n a) = a := by unfold raise lower; split <;> split <;> omega

theorem raise_lt {n a k : Nat} (h : a < k) : raise n a < k + 1 := by unfold raise; split <;> omega

theorem isParent_with {root : Nat} {par : Nat → Nat} {n p a b : Nat} (ha : a ≠ n) (hb : b ≠ n) :
    IsParent (raise n root) (parentsWith par n p) a b ↔ IsParent root par (lower n a) (lower n b) := by
  unfold IsParent parentsWith
  rw [if_neg hb]
  constructor
  · rintro ⟨h1, h2⟩
    refine ⟨?_, ?_⟩
    · intro h; exact h1 (by rw [← h, raise_lower' hb])
    · rw [← h2, lower_raise]
  · rintro ⟨h1, h2⟩
    refine ⟨?_, ?_⟩
    · intro h; exact h1 (by rw [h, lower_raise])
    · rw [h2, raise_lower' ha]

theorem isParent_with_new {root : Nat} {par : Nat → Nat} {n p a : Nat} :
    IsParent (raise n root) (parentsWith par n p) a n ↔ p = a := by
  unfold IsParent parentsWith
  rw [if_pos rfl]
  exact ⟨fun h => h.2, fun h => ⟨(raise_ne n root).symm, h⟩⟩

theorem not_isParent_with_new {root : Nat} {par : Nat → Nat} {n p b : Nat} (hb : b ≠ n) :
    ¬ IsParent (raise n root) (parentsWith par n p) n b := by
  unfold IsParent parentsWith
  rw [if_neg hb]
  exact fun h => raise_ne n _ h.2

/-- The two calls to `join`, on a graph with an isolated node. -/
theorem joins_ok (kind : TreeKind) (dw : W) (dm : M) {s : Edges (Edge W M)} {n p : Nat} (hn : n < s.length) (hp : p < s.length)
    (hr : InRange s) (hne : p ≠ n) :
    ∃ s₁ s₂, joinUp kind dw dm s n p = .ok s₁ ∧ joinDown kind dw dm s₁ n p = .ok s₂ ∧ s₂.length = s.length ∧ InRange s₂ ∧
      (∀ a b, links s₂ a b = links s a b + (if downwards kind = true ∧ a = p ∧ b = n then 1 else 0) +
        if upwards kind = true ∧ a = n ∧ b = p then 1 else 0) ∧
      (upwards kind = true → s₂[n]? = s[n]?.map (· ++ [⟨p, dw, dm⟩])) ∧
      (∀ x, x ≠ n → s₂[x]? = s[x]?.map fun l => if downwards kind = true ∧ x = p then l ++ [⟨n, dw, dm⟩] else l) := by
  have happ : ∀ (s : Edges (Edge W M)) i j, i < s.length → j < s.length → InRange s →
      InRange (onNode s i (· ++ [(⟨j, dw, dm⟩ : Edge W M)])) := by
    intro s i j _ hj hr
    refine onNode_perm_inRange ?_ hr
    intro l hl e he
    rw [List.mem_append] at he
    rcases he with he | he
    · exact (inRange_iff _).1 hr i l hl e he
    · rw [List.mem_singleton.1 he]; exact hj
  have hget : ∀ (s : Edges (Edge W M)) i f a, (onNode s i f)[a]? = if i = a then s[a]?.map f else s[a]? := by
    intro s i f a
    unfold onNode
    rw [List.getElem?_modify]
    split <;> simp
  cases kind with
  | forward =>
    refine ⟨s, onNode s p (· ++ [⟨n, dw, dm⟩]), rfl, ?_, length_onNode _ _ _, happ s p n hp hn hr, ?_, ?_, ?_⟩
    · unfold joinDown joinDirected; simp [hn, hp]
    · intro a b; rw [links_append hp]; simp [downwards, upwards]; rfl
    · simp [upwards]
    · intro x hx; rw [hget]; simp only [downwards, true_and, eq_comm (a := p)]; split <;> simp_all
  | backward =>
    refine ⟨onNode s n (· ++ [⟨p, dw, dm⟩]), _, ?_, rfl, length_onNode _ _ _, happ s n p hn hp hr, ?_, ?_, ?_⟩
    · unfold joinUp joinDirected; simp [hn, hp]
    · intro a b; rw [links_append hn]; simp [downwards, upwards]; rfl
    · intro _; rw [hget, if_pos rfl]
    · intro x hx; rw [hget, if_neg (Ne.symm hx)]; simp [downwards]
  | symmetric =>
    have hp' : p < (onNode s n (· ++ [(⟨p, dw, dm⟩ : Edge W M)])).length := by rw [length_onNode]; exact hp
    refine ⟨onNode s n (· ++ [⟨p, dw, dm⟩]), onNode (onNode s n (· ++ [⟨p, dw, dm⟩])) p (· ++ [⟨n, dw, dm⟩]), ?_, ?_, ?_,
      happ _ p n hp' (by rw [length_onNode]; exact hn) (happ s n p hn hp hr), ?_, ?_, ?_⟩
    · unfold joinUp joinDirected; simp [hn, hp]
    · unfold joinDown joinDirected; simp [hn, hp, length_onNode]
    · rw [length_onNode, length_onNode]
    · intro a b; rw [links_append hp', links_append hn]; simp only [downwards, upwards, true_and, target]; omega
    · intro _; rw [hget, if_neg hne, hget, if_pos rfl]
    · intro x hx
      rw [hget, hget, if_neg (Ne.symm hx)]
      simp only [downwards, true_and, eq_comm (a := p)]; split <;> simp_all
  | undirected =>
    have hn' : n < (onNode s p (· ++ [(⟨n, dw, dm⟩ : Edge W M)])).length := by rw [length_onNode]; exact hn
    refine ⟨s, onNode (onNode s p (· ++ [⟨n, dw, dm⟩])) n (· ++ [⟨p, dw, dm⟩]), rfl, ?_, ?_,
      happ _ n p hn' (by rw [length_onNode]; exact hp) (happ s p n hp hn hr), ?_, ?_, ?_⟩
    · unfold joinDown joinUndirected; simp [hn, hp]
    · rw [length_onNode, length_onNode]
    · intro a b; rw [links_append hn', links_append hp]; simp only [downwards, upwards, true_and, target]
    · intro _; rw [hget, if_pos rfl, hget, if_neg hne]
    · intro x hx
      rw [hget, if_neg (Ne.symm hx), hget]
      simp only [downwards, true_and, eq_comm (a := p)]; split <;> simp_all

variable {N : Type}

theorem insert_tree (kind : TreeKind) (dw : W) (dm : M) {g : G N (Edge W M)} (hg : g.nodes.length = g.edges.length)
    {root : Nat} {par : Nat → Nat} (ht : TreeOf kind g.edges root par) {pos p : Nat} (w : N)
    (hp : p ≤ g.edges.length) (hne : p ≠ min pos g.edges.length) :
    ∃ s', insertNodeToTree kind dw dm g pos p w =
        .ret ⟨g.nodes.take (min pos g.edges.length) ++ w :: g.nodes.drop (min pos g.edges.length), s'⟩ (.index (min pos g.edges.length)) ∧
      s'.length = g.edges.length + 1 ∧
      TreeOf kind s' (raise (min pos g.edges.length) root) (parentsWith par (min pos g.edges.length) p) ∧
      (upwards kind = true → s'[min pos g.edges.length]? = some [⟨p, dw, dm⟩]) ∧
      (∀ x, x ≠ min pos g.edges.length → s'[x]? = (withNode g.edges (min pos g.edges.length))[x]?.map
        fun l => if downwards kind = true ∧ x = p then l ++ [⟨min pos g.edges.length, dw, dm⟩] else l) := by
  generalize hnn : min pos g.edges.length = n at *
  have hn : n ≤ g.edges.length := by omega
  have hlen := length_withNode g.edges n hn
  have hpos := ht.root_lt
  obtain ⟨s₁, s₂, h1, h2, h3, h4, h5, h6, h7⟩ := joins_ok kind dw dm (s := withNode g.edges n) (n := n) (p := p)
    (by omega) (by omega) (withNode_inRange hn ht.inRange) hne
  have h8 := getElem?_withNode g.edges n n hn
  rw [if_pos rfl] at h8
  refine ⟨s₂, ?_, by rw [h3, hlen], ?_, ?_, h7⟩
  · unfold insertNodeToTree
    rw [insertNode_eq hg, hnn]
    simp only
    rw [if_pos (by omega), h1]
    simp only
    rw [h2]
  · have hdesc : ∀ x < g.edges.length, Below (raise n root) (parentsWith par n p) (raise n root) (raise n x) := by
      intro x hx
      refine Below.map (raise n) ?_ ?_ (ht.descends x hx)
      · intro y hy h; exact hy (raise_inj n _ _ h)
      · intro y _; unfold parentsWith; rw [if_neg (raise_ne n y), lower_raise]
    refine ⟨by rw [h3, hlen]; exact raise_lt hpos, ?_, ?_, h4, ?_⟩
    · intro x hx hr
      rw [h3, hlen] at hx ⊢
      unfold parentsWith
      split
      · omega
      · rename_i hxn
        apply raise_lt
        apply ht.par_lt _ (lower_lt hxn hx hn)
        intro h; exact hr (by rw [← h, raise_lower' hxn])
    · intro x hx
      rw [h3, hlen] at hx
      by_cases hxn : x = n
      · subst hxn
        refine .up (raise_ne _ _).symm ?_
        have hpx : parentsWith par x p x = raise x (lower x p) := by unfold parentsWith; rw [if_pos rfl, raise_lower' hne]
        rw [hpx]
        exact hdesc _ (lower_lt hne (by omega) hn)
      · rw [← raise_lower' hxn]
        exact hdesc _ (lower_lt hxn hx hn)
    · intro a ha b hb
      rw [h3, hlen] at ha hb
      rw [h5, links_withNode _ _ hn]
      by_cases han : a = n
      · subst han
        by_cases hbn : b = a
        · subst hbn
          simp [isParent_with_new, hne, Ne.symm hne]
        · rw [if_pos (.inl rfl)]
          simp only [not_isParent_with_new hbn, isParent_with_new, Ne.symm hne, false_and, and_false, if_false, true_and, eq_comm (a := p)]
      · by_cases hbn : b = n
        · subst hbn
          rw [if_pos (.inr rfl)]
          simp only [not_isParent_with_new han, isParent_with_new, Ne.symm hne, and_false, if_false, and_true, eq_comm (a := p),
            han, Nat.zero_add, Nat.add_zero]
        · rw [if_neg (by simp [han, hbn])]
          simp only [isParent_with han hbn, isParent_with hbn han, han, hbn, and_false, false_and, if_false, Nat.add_zero]
          exact ht.edges _ (lower_lt han ha hn) _ (lower_lt hbn hb hn)
  · intro hu; rw [h6 hu, h8]; rfl

theorem insert_first (kind : TreeKind) (dw : W) (dm : M) (pos p : Nat) (w : N) :
    insertNodeToTree kind dw dm ⟨[], []⟩ pos p w = .ret ⟨[w], [[]]⟩ (.index 0) := by
  unfold insertNodeToTree
  rw [insertNode_eq rfl]
  simp [withNode, relabel]

theorem tree_single (kind : TreeKind) : TreeOf kind ([[]] : Edges (Edge W M)) 0 (fun _ => 0) := by
  refine ⟨by simp, ?_, ?_, ?_, ?_⟩
  · intro x hx h; simp at hx; omega
  · intro x hx; have : x = 0 := by simpa using hx
    subst this; exact .self
  · intro l hl e he; simp at hl; subst hl; simp at he
  · intro a ha b hb
    have h1 : a = 0 := by simpa using ha
    have h2 : b = 0 := by simpa using hb
    subst h1 h2
    simp [links, IsParent]

/-! ### Other operations -/

theorem TreeOf.congr {kind : TreeKind} {s s' : Edges (Edge W M)} {root : Nat} {par : Nat → Nat} (ht : TreeOf kind s root par)
    (hlen : s'.length = s.length) (hr : InRange s') (h : ∀ a b, links s' a b = links s a b) : TreeOf kind s' root par := by
  refine ⟨by rw [hlen]; exact ht.root_lt, ?_, ?_, hr, ?_⟩
  · rw [hlen]; exact ht.par_lt
  · rw [hlen]; exact ht.descends
  · rw [hlen]; intro a ha b hb; rw [h]; exact ht.edges a ha b hb

theorem TreeOf.targetSym {s : Edges (Edge W M)} {root : Nat} {par : Nat → Nat} (ht : TreeOf .undirected s root par) :
    TargetSym s := by
  intro n l e hl he
  have h1 : 0 < links s n (target e) := links_pos.2 ⟨l, hl, e, he, rfl⟩
  have hn : n < s.length := (List.getElem?_eq_some_iff.1 hl).1
  have hte : target e < s.length := (inRange_iff _).1 ht.inRange n l hl e he
  have h2 : links s (target e) n = links s n (target e) := by
    rw [ht.edges _ hte _ hn, ht.edges _ hn _ hte]
    simp only [downwards, upwards, true_and]
    omega
  rw [← h2] at h1
  exact links_pos.1 h1

theorem transpose_lt' {i j k n : Nat} (hi : i < n) (hj : j < n) (hk : k < n) : transpose i j k < n := (transpose_lt hi hj).2 hk

theorem transpose_tree {kind : TreeKind} {s s' : Edges (Edge W M)} {root : Nat} {par : Nat → Nat} (ht : TreeOf kind s root par)
    {i j : Nat} (hi : i < s.length) (hj : j < s.length) (h : Transposed s s' i j) :
    TreeOf kind s' (transpose i j root) (fun x => transpose i j (par (transpose i j x))) := by
  have hinj : ∀ a b, transpose i j a = transpose i j b → a = b := by
    intro a b h; rw [← transpose_transpose i j a, h, transpose_transpose]
  have hpar : ∀ a b, IsParent (transpose i j root) (fun x => transpose i j (par (transpose i j x))) a b ↔
      IsParent root par (transpose i j a) (transpose i j b) := by
    intro a b
    unfold IsParent
    constructor
    · rintro ⟨h1, h2⟩
      refine ⟨fun h => h1 (by rw [← h, transpose_transpose]), ?_⟩
      rw [← h2, transpose_transpose]
    · rintro ⟨h1, h2⟩
      refine ⟨fun h => h1 (by rw [h, transpose_transpose]), ?_⟩
      simp only
      rw [h2, transpose_transpose]
  refine ⟨by rw [h.1]; exact transpose_lt' hi hj ht.root_lt, ?_, ?_, transposed_inRange h hi hj ht.inRange, ?_⟩
  · intro x hx hne
    rw [h.1] at hx ⊢
    refine transpose_lt' hi hj (ht.par_lt _ (transpose_lt' hi hj hx) ?_)
    intro h'; exact hne (by rw [← h', transpose_transpose])
  · intro x hx
    rw [h.1] at hx
    have := Below.map (root' := transpose i j root) (par' := fun x => transpose i j (par (transpose i j x))) (transpose i j)
      (fun y hy h' => hy (hinj _ _ h')) (fun y _ => by simp only [transpose_transpose])
      (ht.descends _ (transpose_lt' hi hj hx))
    rwa [transpose_transpose] at this
  · intro a ha b hb
    rw [h.1] at ha hb
    rw [links_transposed h, ht.edges _ (transpose_lt' hi hj ha) _ (transpose_lt' hi hj hb)]
    simp only [hpar]

/-- What calls maintain. -/
def TreeInv (kind : TreeKind) (g : G N (Edge W M)) : Prop := g.nodes.length = g.edges.length ∧ IsTree kind g.edges

variable {stdSort : {α : Type} → (α → α → Bool) → List α → List α}

theorem insert_good (kind : TreeKind) (dw : W) (dm : M) {g : G N (Edge W M)} (hg : TreeInv kind g) {pos p : Nat} (w : N)
    (hp : g.edges = [] ∨ p ≤ g.edges.length ∧ p ≠ min pos g.edges.length) :
    ∃ g' v, insertNodeToTree kind dw dm g pos p w = .ret g' v ∧ TreeInv kind g' := by
  obtain ⟨hlen, he | ⟨root, par, ht⟩⟩ := hg
  · obtain ⟨nodes, edges⟩ := g
    simp only at he hlen
    subst he
    cases nodes with
    | cons _ _ => simp at hlen
    | nil => exact ⟨_, _, insert_first kind dw dm pos p w, rfl, .inr ⟨_, _, tree_single kind⟩⟩
  · have hne : g.edges ≠ [] := by intro h; have := ht.root_lt; rw [h] at this; simp at this
    obtain ⟨hp1, hp2⟩ := hp.resolve_left hne
    obtain ⟨s', h1, h2, h3, _, _⟩ := insert_tree kind dw dm hlen ht w hp1 hp2
    refine ⟨_, _, h1, ?_, .inr ⟨_, _, h3⟩⟩
    simp only [h2, List.length_append, List.length_cons, List.length_take, List.length_drop]
    omega

theorem perm_good {kind : TreeKind} {g : G N (Edge W M)} (hg : TreeInv kind g) {r : Res (Edges (Edge W M))} (hub : r ≠ .ub)
    (hr : ∀ s', r = .ok s' → ∃ n f, s' = onNode g.edges n f ∧ ∀ l, g.edges[n]? = some l → (f l).Perm l) :
    (∃ g' v, onEdges g r = .ret g' v ∧ TreeInv kind g') ∨ ∃ g', onEdges g r = .threw g' ∧ TreeInv kind g' := by
  cases h : r with
  | ub => exact absurd h hub
  | throws => exact .inr ⟨g, rfl, hg⟩
  | ok s' =>
    obtain ⟨n, f, rfl, hf⟩ := hr s' h
    refine .inl ⟨_, _, rfl, by simp only [length_onNode]; exact hg.1, ?_⟩
    obtain ⟨_, he | ⟨root, par, ht⟩⟩ := hg
    · left; simp [he, onNode]
    · right
      refine ⟨root, par, TreeOf.congr ht (length_onNode _ _ _) ?_ (links_perm hf)⟩
      exact onNode_perm_inRange (fun l hl e he => (inRange_iff _).1 ht.inRange n l hl e ((hf l hl).mem_iff.1 he)) ht.inRange

theorem tree_good (hsort : Permutes stdSort) (kind : TreeKind) (dw : W) (dm : M) (g : G N (Edge W M)) (o : TreeOp N W M)
    (hg : TreeInv kind g) (hc : InTreeContract g o) :
    (∃ g' v, treeStep stdSort kind dw dm g o = .ret g' v ∧ TreeInv kind g') ∨
      ∃ g', treeStep stdSort kind dw dm g o = .threw g' ∧ TreeInv kind g' := by
  cases o with
  | addNode p w =>
    left
    refine insert_good kind dw dm hg w ?_
    rcases hc with h | h
    · exact .inl h
    · exact .inr (by omega)
  | insertNode pos p w => left; exact insert_good kind dw dm hg w hc
  | swapEdges n i j =>
    refine perm_good hg (swapEdges_ne_ub _ _ _ _) ?_
    intro s hs
    obtain ⟨f, rfl, hf⟩ := swapEdges_spec hs
    exact ⟨n, f, rfl, hf⟩
  | sortEdges lt n p m q =>
    obtain ⟨hlt, h1, h2, h3⟩ := hc
    refine perm_good hg (sortEdges_ne_ub h1 h2 h3) ?_
    intro s hs
    obtain ⟨f, rfl, hf⟩ := sortEdges_spec (hsort _ _ hlt) hs
    exact ⟨n, f, rfl, hf⟩
  | stableSortEdges lt n p m q =>
    obtain ⟨hlt, h1, h2, h3⟩ := hc
    refine perm_good hg (sortEdges_ne_ub h1 h2 h3) ?_
    intro s hs
    obtain ⟨f, rfl, hf⟩ := sortEdges_spec (fun l => StableSort.stableSort_perm l) hs
    exact ⟨n, f, rfl, hf⟩
  | swapNodes i j =>
    have hgood : ∀ root par, TreeOf kind g.edges root par → i < g.edges.length → j < g.edges.length →
        ∃ s', swapNodesOf kind g.edges i j = .ok s' ∧ Transposed g.edges s' i j := by
      intro root par ht hi hj
      unfold swapNodesOf
      split
      · rename_i hk; subst hk; exact swapNodesUndirected_spec _ (TreeOf.targetSym ht) _ _ hi hj
      · exact swapNodesDirected_spec _ _ _ hi hj
    by_cases hij : i < g.edges.length ∧ j < g.edges.length
    · obtain ⟨hlen, he | ⟨root, par, ht⟩⟩ := hg
      · rw [he] at hij; simp at hij
      · obtain ⟨s', h1, h2⟩ := hgood root par ht hij.1 hij.2
        left
        refine ⟨_, _, swapNodes_eq hlen hij.1 hij.2 h1, ?_, .inr ⟨_, _, transpose_tree ht hij.1 hij.2 h2⟩⟩
        simp [h2.1, hlen]
    · right
      refine ⟨g, ?_, hg⟩
      unfold treeStep
      simp only
      unfold G.swapNodes
      have := hg.1
      by_cases hi : i < g.edges.length
      · have hj : g.nodes[j]? = none := List.getElem?_eq_none (by omega)
        rw [hj]; cases g.nodes[i]? <;> rfl
      · have hi : g.nodes[i]? = none := List.getElem?_eq_none (by omega)
        rw [hi]

end
end Verif.Graph
