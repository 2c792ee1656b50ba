import Verif.Lemmas.Tree

set_option linter.unusedSectionVars false
namespace Verif.Graph
open Verif.Spec EdgeLike

section
variable {root : Nat} {par : Nat → Nat}

/-- `K` without the nodes below `n`. -/
noncomputable def cut (root : Nat) (par : Nat → Nat) (K : Nat → Bool) (n x : Nat) : Bool :=
  haveI := Classical.propDecidable (Below root par n x)
  K x && !decide (Below root par n x)

theorem cut_eq {K : Nat → Bool} {n x : Nat} : cut root par K n x = true ↔ K x = true ∧ ¬ Below root par n x := by
  unfold cut; simp

theorem Below.le {len : Nat} (hb : ParentsBefore len root par) {n x : Nat} (h : Below root par n x) (hx : x < len) : n ≤ x := by
  induction h with
  | self => exact Nat.le_refl _
  | up hne _ ih => have := hb _ hx hne; have := ih (by omega); omega

/-- Below `n` but not `n` itself: below a child of `n`. -/
theorem Below.child {n x : Nat} (h : Below root par n x) (hne : x ≠ n) : ∃ c, IsParent root par n c ∧ Below root par c x := by
  induction h with
  | self => exact absurd rfl hne
  | @up y hy _ ih =>
    by_cases hp : par y = n
    · exact ⟨y, ⟨hy, hp⟩, .self⟩
    · obtain ⟨c, h1, h2⟩ := ih hp
      exact ⟨c, h1, .up hy h2⟩

theorem root_zero {len : Nat} (h0 : root < len) (hb : ParentsBefore len root par) : root = 0 := by
  by_cases h : root = 0
  · exact h
  · have := hb 0 (by omega) (by omega); omega

/-- With a node its ancestors are kept. -/
def DescClosed (len root : Nat) (par : Nat → Nat) (K : Nat → Bool) : Prop := ∀ x < len, x ≠ root → K x = true → K (par x) = true

theorem DescClosed.cut {len : Nat} {K : Nat → Bool} (h : DescClosed len root par K) (n : Nat) : DescClosed len root par (cut root par K n) := by
  intro x hx hne hk
  rw [cut_eq] at hk ⊢
  exact ⟨h x hx hne hk.1, fun hb => hk.2 (.up hne hb)⟩

theorem DescClosed.below {len : Nat} {K : Nat → Bool} (h : DescClosed len root par K) (hpar : ∀ x < len, x ≠ root → par x < len) {n x : Nat}
    (hb : Below root par n x) (hx : x < len) (hk : K x = true) : K n = true := by
  induction hb with
  | self => exact hk
  | up hne _ ih => exact ih (hpar _ hx hne) (h _ hx hne hk)

end

section
variable {W M N : Type} [DecidableEq W] [DecidableEq M]

/-- Where the parent comes among the edges of a node. -/
def pre (sym : Bool) (par : Nat → Nat) (x : Nat) : List Nat := if sym = true ∧ x ≠ 0 then [par x] else []

/-- The edges lead to the parent, if it is listed, and then to the children. -/
def ChildrenAt (sym : Bool) (s : Edges (Edge W M)) (root : Nat) (par : Nat → Nat) : Prop :=
  ∀ x l, s[x]? = some l → ∃ cs, l.map Edge.target = pre sym par x ++ cs ∧ ∀ c, c ∈ cs ↔ c < s.length ∧ IsParent root par x c

theorem children_forward {s : Edges (Edge W M)} {root : Nat} {par : Nat → Nat} (ht : TreeOf .forward s root par) :
    ChildrenAt false s root par := by
  intro x l hl
  have hx : x < s.length := (List.getElem?_eq_some_iff.1 hl).1
  refine ⟨l.map Edge.target, by simp [pre], ?_⟩
  intro c
  rw [List.mem_map]
  constructor
  · rintro ⟨e, he, rfl⟩
    have hr : e.target < s.length := (inRange_iff _).1 ht.inRange x l hl e he
    have h1 : 0 < links s x e.target := links_pos.2 ⟨l, hl, e, he, rfl⟩
    rw [ht.edges x hx _ hr] at h1
    refine ⟨hr, ?_⟩
    by_cases h2 : IsParent root par x e.target
    · exact h2
    · simp [upwards, h2] at h1
  · rintro ⟨hc, hp⟩
    have h1 : 0 < links s x c := by rw [ht.edges x hx c hc, if_pos ⟨rfl, hp⟩]; omega
    obtain ⟨l', hl', e, he, ht⟩ := links_pos.1 h1
    rw [hl] at hl'
    cases hl'
    exact ⟨e, he, ht⟩

theorem children_sym {kind : TreeKind} (hd : downwards kind = true) (hu : upwards kind = true) {s : Edges (Edge W M)} {root : Nat}
    {par : Nat → Nat} (ht : TreeOf kind s root par) (hb : ParentsBefore s.length root par) (hf : ParentFirst s root par) :
    ChildrenAt true s root par := by
  have h0 := root_zero ht.root_lt hb
  have key : ∀ x < s.length, ∀ c < s.length, 0 < links s x c → IsParent root par x c ∨ IsParent root par c x := by
    intro x hx c hc h
    rw [ht.edges x hx c hc] at h
    by_cases h1 : IsParent root par x c
    · exact .inl h1
    · by_cases h2 : IsParent root par c x
      · exact .inr h2
      · simp [h1, h2] at h
  intro x l hl
  have hx : x < s.length := (List.getElem?_eq_some_iff.1 hl).1
  have hmem : ∀ e ∈ l, e.target < s.length := fun e he => (inRange_iff _).1 ht.inRange x l hl e he
  by_cases hxr : x = root
  · refine ⟨l.map Edge.target, by simp [pre, hxr, h0], ?_⟩
    intro c
    rw [List.mem_map]
    constructor
    · rintro ⟨e, he, rfl⟩
      refine ⟨hmem e he, ?_⟩
      rcases key x hx _ (hmem e he) (links_pos.2 ⟨l, hl, e, he, rfl⟩) with h | h
      · exact h
      · exact absurd hxr h.1
    · rintro ⟨hc, hp⟩
      have h1 : 0 < links s x c := by rw [ht.edges x hx c hc, if_pos ⟨hd, hp⟩]; omega
      obtain ⟨l', hl', e, he, ht⟩ := links_pos.1 h1
      rw [hl] at hl'
      cases hl'
      exact ⟨e, he, ht⟩
  · obtain ⟨e0, h1, h2⟩ := hf x hx hxr
    unfold edgeAt at h1
    rw [hl] at h1
    have h1 : l[0]? = some e0 := h1
    have h2 : e0.target = par x := h2
    cases l with
    | nil => simp at h1
    | cons e1 l' =>
      simp at h1
      subst h1
      refine ⟨l'.map Edge.target, by simp [pre, h2, h0 ▸ hxr], ?_⟩
      have hpx := hb x hx hxr
      have hone : links s x (par x) = 1 := by
        rw [ht.edges x hx _ (ht.par_lt x hx hxr)]
        have h3 : ¬ IsParent root par x (par x) := by
          intro h
          have := hb (par x) (ht.par_lt x hx hxr) h.1
          have := h.2
          omega
        have h4 : IsParent root par (par x) x := ⟨hxr, rfl⟩
        simp [h3, h4, hu]
      have hnot : ∀ e ∈ l', e.target ≠ par x := by
        intro e he h
        rw [links_some hl, List.countP_cons] at hone
        have h5 : (decide (target e1 = par x)) = true := decide_eq_true h2
        rw [if_pos h5] at hone
        have h6 : 0 < l'.countP fun e => decide (target e = par x) := List.countP_pos_iff.2 ⟨e, he, decide_eq_true h⟩
        omega
      intro c
      rw [List.mem_map]
      constructor
      · rintro ⟨e, he, rfl⟩
        have hm := hmem e (List.mem_cons_of_mem _ he)
        refine ⟨hm, ?_⟩
        rcases key x hx _ hm (links_pos.2 ⟨_, hl, e, List.mem_cons_of_mem _ he, rfl⟩) with h | h
        · exact h
        · exact absurd h.2.symm (hnot e he)
      · rintro ⟨hc, hp⟩
        have h1 : 0 < links s x c := by rw [ht.edges x hx c hc, if_pos ⟨hd, hp⟩]; omega
        obtain ⟨l'', hl'', e, he, hte⟩ := links_pos.1 h1
        rw [hl] at hl''
        cases hl''
        rcases List.mem_cons.1 he with rfl | he
        · have h7 : c = par x := by rw [← hte]; exact h2
          have := hb c hc hp.1
          have := hp.2
          omega
        · exact ⟨e, he, hte⟩

theorem inducedOn_get {s : Edges (Edge W M)} {K : Nat → Bool} {t : Nat} (ht : K t = true) {l : List (Edge W M)} (hl : s[t]? = some l) :
    (inducedOn s K)[rank K t]? = some (relabel (rank K) (l.filter fun e => K (target e))) := by
  unfold inducedOn
  rw [List.getElem?_map, (getElem?_keepIdx K s (rank K t) l).2 ⟨t, hl, ht, rfl⟩]
  rfl

theorem pruneDown_spec {er : Edges (Edge W M) → Nat → Res (Edges (Edge W M))} {sym : Bool} {s : Edges (Edge W M)} {nodes : List N}
    (hlen : nodes.length = s.length) {root : Nat} {par : Nat → Nat} (hroot : root < s.length)
    (hpar : ∀ x < s.length, x ≠ root → par x < s.length) (hdesc : ∀ x < s.length, Below root par root x)
    (hr : InRange s) (hb : ParentsBefore s.length root par) (hch : ChildrenAt sym s root par)
    (her : ∀ K q, q < s.length → K q = true → er (inducedOn s K) (rank K q) = .ok (inducedOn s (minus K q))) :
    ∀ d node, s.length - node = d → node < s.length → ∀ K, DescClosed s.length root par K → K node = true →
      ∃ f₀, ∀ f, f₀ ≤ f → pruneDown er sym f ⟨keepIdx K nodes, inducedOn s K⟩ (rank K node) =
        some (.ret ⟨keepIdx (cut root par K node) nodes, inducedOn s (cut root par K node)⟩ .unit) := by
  have h0 := root_zero hroot hb
  intro d
  induction d using Nat.strongRecOn with
  | ind d ihd =>
  intro node hd hnode
  obtain ⟨l, hl⟩ : ∃ l, s[node]? = some l := ⟨_, List.getElem?_eq_getElem hnode⟩
  obtain ⟨cs, hcs, hmem⟩ := hch node l hl
  have hinner : ∀ m K, (cs.filter K).length ≤ m → DescClosed s.length root par K → K node = true →
      ∃ f₀, ∀ f, f₀ ≤ f → pruneDown er sym f ⟨keepIdx K nodes, inducedOn s K⟩ (rank K node) =
        some (.ret ⟨keepIdx (cut root par K node) nodes, inducedOn s (cut root par K node)⟩ .unit) := by
    intro m
    induction m with
    | zero =>
      intro K hm hK hkn
      have hnil : cs.filter K = [] := List.eq_nil_of_length_eq_zero (by omega)
      refine ⟨1, ?_⟩
      intro f hf
      obtain ⟨f, rfl⟩ : ∃ k, f = k + 1 := ⟨f - 1, by omega⟩
      unfold pruneDown
      simp only
      rw [inducedOn_get hkn hl]
      simp only
      have hz : rank K node ≠ 0 → node ≠ 0 := by intro h h'; subst h'; simp [rank] at h
      have hlen' : (relabel (rank K) (l.filter fun e => K (target e))).length = ((pre sym par node).filter K).length := by
        have : (l.filter fun e => K (target e)).map Edge.target = (l.map Edge.target).filter K := by
          rw [List.filter_map]; rfl
        unfold relabel
        rw [List.length_map, ← List.length_map (f := Edge.target), this, hcs, List.filter_append, hnil, List.append_nil]
      rw [if_neg, ]
      · unfold G.eraseNode
        simp only [her K node hnode hkn]
        have hcut : ∀ t < s.length, minus K node t = cut root par K node t := by
          intro t ht
          rw [Bool.eq_iff_iff, cut_eq]
          unfold minus
          simp only [Bool.and_eq_true, decide_eq_true_eq]
          constructor
          · rintro ⟨h1, h2⟩
            refine ⟨h1, ?_⟩
            intro hbel
            obtain ⟨c, hc1, hc2⟩ := Below.child hbel h2
            have hclt : c < s.length := Nat.lt_of_le_of_lt (Below.le hb hc2 ht) ht
            have hkc := DescClosed.below hK hpar hc2 ht h1
            have : c ∈ cs.filter K := List.mem_filter.2 ⟨(hmem c).2 ⟨hclt, hc1⟩, hkc⟩
            rw [hnil] at this
            simp at this
          · rintro ⟨h1, h2⟩
            refine ⟨h1, ?_⟩
            intro h
            subst h
            exact h2 .self
        rw [if_pos (by rw [length_keepIdx, hlen]; exact rank_lt hkn hnode), keepIdx_minus K node hkn,
          keepIdx_congr _ (fun t ht => hcut t (by omega)), inducedOn_congr hr hcut]
      · rw [hlen']
        have h1 := List.length_filter_le K (pre sym par node)
        unfold pre at h1 ⊢
        by_cases hs : sym = true ∧ node ≠ 0
        · by_cases hrz : rank K node = 0
          · exfalso
            have hk0 : K 0 = true := by
              have := DescClosed.below hK hpar (hdesc node hnode) hnode hkn
              rwa [h0] at this
            have := rank_lt hk0 (Nat.pos_of_ne_zero hs.2)
            omega
          · rw [if_pos ⟨hs.1, hrz⟩, if_pos hs]
            rw [if_pos hs] at h1
            simp at h1 ⊢
            omega
        · rw [if_neg hs]; simp
    | succ m ihm =>
      intro K hm hK hkn
      by_cases hm' : (cs.filter K).length ≤ m
      · exact ihm K hm' hK hkn
      replace hm : (cs.filter K).length = m + 1 := by omega
      have hne : cs.filter K ≠ [] := by intro h; rw [h] at hm; simp at hm
      obtain ⟨front, c, hlast⟩ : ∃ front c, cs.filter K = front ++ [c] :=
        ⟨_, _, (List.dropLast_append_getLast hne).symm⟩
      have hc : c ∈ cs ∧ K c = true := by
        have : c ∈ cs.filter K := by rw [hlast]; simp
        exact ⟨(List.mem_filter.1 this).1, (List.mem_filter.1 this).2⟩
      obtain ⟨hclt, hcp⟩ := (hmem c).1 hc.1
      have hcn : node < c := by have := hb c hclt hcp.1; have := hcp.2; omega
      have hK1 := DescClosed.cut (root := root) (par := par) hK c
      have hnb : ¬ Below root par c node := fun h => by have := Below.le hb h hnode; omega
      have hkn1 : cut root par K c node = true := cut_eq.2 ⟨hkn, hnb⟩
      obtain ⟨f1, hf1⟩ := ihd (s.length - c) (by omega) c rfl hclt K hK hc.2
      have hm1 : (cs.filter (cut root par K c)).length ≤ m := by
        have h1 : cs.filter (cut root par K c) = (cs.filter K).filter fun x => !decide (x = c) && cut root par K c x := by
          rw [List.filter_filter]
          apply List.filter_congr
          intro x _
          rw [Bool.eq_iff_iff]
          simp only [Bool.and_eq_true, Bool.not_eq_true', decide_eq_false_iff_not]
          constructor
          · intro h
            have h' := cut_eq.1 h
            refine ⟨⟨?_, h⟩, h'.1⟩
            intro hx; subst hx; exact h'.2 .self
          · intro h; exact h.1.2
        rw [h1, hlast, List.filter_append]
        simp only [List.filter_cons, List.filter_nil, decide_true, Bool.not_true, Bool.false_and, Bool.false_eq_true, if_false,
          List.append_nil]
        have h2 := List.length_filter_le (fun x => !decide (x = c) && cut root par K c x) front
        rw [hlast] at hm
        simp at hm
        omega
      obtain ⟨f2, hf2⟩ := ihm (cut root par K c) hm1 hK1 hkn1
      refine ⟨max f1 f2 + 1, ?_⟩
      intro f hf
      obtain ⟨f, rfl⟩ : ∃ k, f = k + 1 := ⟨f - 1, by omega⟩
      have hrank : rank (cut root par K c) node = rank K node := by
        apply rank_congr
        intro t ht
        rw [Bool.eq_iff_iff, cut_eq]
        refine ⟨fun h => h.1, fun h => ⟨h, ?_⟩⟩
        intro hbel
        have := Below.le hb hbel (by omega)
        omega
      have hcc : ∀ t < s.length, cut root par (cut root par K c) node t = cut root par K node t := by
        intro t _
        rw [Bool.eq_iff_iff, cut_eq, cut_eq, cut_eq]
        constructor
        · rintro ⟨⟨h1, _⟩, h2⟩; exact ⟨h1, h2⟩
        · rintro ⟨h1, h2⟩
          refine ⟨⟨h1, ?_⟩, h2⟩
          intro h
          refine h2 (Below.trans ?_ h)
          exact .up hcp.1 (by rw [hcp.2]; exact .self)
      unfold pruneDown
      simp only
      rw [inducedOn_get hkn hl]
      simp only
      have hmapT : (relabel (rank K) (l.filter fun e => K (target e))).map Edge.target =
          ((pre sym par node).filter K ++ cs.filter K).map (rank K) := by
        rw [← List.filter_append, ← hcs]
        unfold relabel
        rw [List.map_map, List.filter_map, List.map_map]
        rfl
      generalize hL : relabel (rank K) (l.filter fun e => K (target e)) = L at *
      rw [hlast, ← List.append_assoc, List.map_append] at hmapT
      have hLne : L ≠ [] := by intro h; rw [h] at hmapT; simp at hmapT
      obtain ⟨Lf, e, hLe⟩ : ∃ Lf e, L = Lf ++ [e] := ⟨_, _, (List.dropLast_append_getLast hLne).symm⟩
      rw [hLe, List.map_append] at hmapT
      have hsplit := List.append_inj' hmapT (by simp)
      have hte : e.target = rank K c := by simpa using hsplit.2
      rw [if_pos]
      · rw [hLe]
        simp only [List.getLast?_append, List.getLast?_singleton, Option.some_or]
        rw [hte, hf1 f (by omega)]
        simp only
        rw [← hrank, hf2 f (by omega), keepIdx_congr _ (fun t ht => hcc t (by omega)), inducedOn_congr hr hcc]
      · have h3 := congrArg List.length hmapT
        simp only [List.length_append, List.length_map, List.length_singleton] at h3
        rw [hLe, List.length_append, List.length_singleton]
        by_cases hs : sym = true ∧ node ≠ 0
        · have hpre : (pre sym par node).filter K = [par node] := by
            unfold pre
            rw [if_pos hs]
            simp [hK node hnode (by omega) hkn]
          rw [hpre] at h3
          simp at h3
          split <;> omega
        · have : ¬ (sym = true ∧ rank K node ≠ 0) := by
            rintro ⟨h1, h2⟩
            apply hs
            refine ⟨h1, ?_⟩
            intro h; subst h; simp [rank] at h2
          rw [if_neg this]; omega
  intro K hK hkn
  exact hinner _ K (Nat.le_refl _) hK hkn

end
end Verif.Graph
