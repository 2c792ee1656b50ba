/-
Lemmas about suites.
-/
import Verif.Spec.Suite
import Verif.Lemmas.Graph
import Verif.Lemmas.GraphHistory

namespace Verif.Suites

open Verif.Spec Verif.Spec.Suites Verif.Graph EdgeLike

variable {S L σ : Type} {filter : σ → L → List S → Bool × σ} {acc : L → List S → Bool} {Inv : σ → Prop}

theorem visited_append (st : σ) (a b : List (L × List S)) : visited filter st (a ++ b) = visited filter (visited filter st a) b := by
  simp [visited]

theorem visited_inv (hd : Decides filter acc Inv) : ∀ (ls : List (L × List S)) {st : σ}, Inv st → Inv (visited filter st ls)
  | [], _, h => h
  | x :: ls, st, h => visited_inv hd ls (st := (filter st x.1 x.2).2) (hd st x.1 x.2 h).2

/-! ### Leaves -/

theorem leavesOf_spec (hd : Decides filter acc Inv) {X : Type} (t : L → X) (path : List S) : ∀ (ls : List L) (c : List X) {st : σ}, Inv st →
    leavesOf filter t path ls (c, st) =
      (c ++ ((ls.map fun l => (l, path)).filter fun x => acc x.1 x.2).map (fun x => t x.1), visited filter st (ls.map fun l => (l, path)))
  | [], c, st, _ => by simp [leavesOf, visited]
  | l :: ls, c, st, h => by
    have h1 := hd st l path h
    rw [leavesOf, leavesOf_spec hd t path ls _ h1.2]
    simp only [h1.1, List.map_cons, List.filter_cons]
    by_cases ha : acc l path <;> simp [ha, visited]

mutual
theorem extractLeaves_spec (hd : Decides filter acc Inv) {X : Type} (t : L → X) : ∀ (s : Suite S L) (path : List S) (c : List X) {st : σ}, Inv st →
    extractLeaves filter t path s (c, st) =
      (c ++ ((located path s).filter fun x => acc x.1 x.2).map (fun x => t x.1), visited filter st (located path s))
  | .flat s items, path, c, st, h => by
    rw [extractLeaves, leavesOf_spec hd t _ items c h, located]
  | .deep s subs, path, c, st, h => by
    rw [extractLeaves, extractLeavesList_spec hd t subs _ c h, located]

theorem extractLeavesList_spec (hd : Decides filter acc Inv) {X : Type} (t : L → X) : ∀ (ss : List (Suite S L)) (path : List S) (c : List X) {st : σ},
    Inv st → extractLeavesList filter t path ss (c, st) =
      (c ++ ((locatedList path ss).filter fun x => acc x.1 x.2).map (fun x => t x.1), visited filter st (locatedList path ss))
  | [], path, c, st, _ => by simp [extractLeavesList, locatedList, visited]
  | s :: ss, path, c, st, h => by
    rw [extractLeavesList, extractLeaves_spec hd t s path c h, extractLeavesList_spec hd t ss path _ (visited_inv hd _ h), locatedList]
    simp [visited_append]
end

/-! ### Trees -/

variable {N W M : Type} (dw : W) (dm : M)

/-- The nodes correspond to the edges, and these stay within the graph. -/
def Ready (g : G N (Edge W M)) : Prop := g.nodes.length = g.edges.length ∧ InRange g.edges

/-- A forward tree with one more node. -/
def added (p : Nat) (w : N) (g : G N (Edge W M)) : G N (Edge W M) :=
  if g.edges = [] then ⟨[w], [[]]⟩ else ⟨g.nodes ++ [w], onNode (g.edges ++ [[]]) p (· ++ [⟨g.edges.length, dw, dm⟩])⟩

theorem relabel_same {f : Nat → Nat} {l : List (Edge W M)} (h : ∀ e ∈ l, f e.target = e.target) : relabel f l = l := by
  induction l with
  | nil => rfl
  | cons e l ih =>
    have h1 := h e (by simp)
    have h2 := ih fun e he => h e (by simp [he])
    simp only [relabel, List.map_cons] at h2 ⊢
    rw [h2]
    congr 1
    show ({ e with target := f e.target } : Edge W M) = e
    rw [h1]

theorem withNode_end {s : Edges (Edge W M)} (h : InRange s) : withNode s s.length = s ++ [[]] := by
  unfold withNode
  rw [List.take_length, List.drop_length, List.map_append, List.map_singleton]
  congr 1
  conv => rhs; rw [← List.map_id s]
  apply List.map_congr_left
  intro l hl
  refine relabel_same fun e he => ?_
  have : e.target < s.length := h l hl e he
  unfold raise
  rw [if_neg (by omega)]

theorem added_cons {g : G N (Edge W M)} (h : g.edges ≠ []) (p : Nat) (w : N) :
    added dw dm p w g = ⟨g.nodes ++ [w], onNode (g.edges ++ [[]]) p (· ++ [⟨g.edges.length, dw, dm⟩])⟩ := by
  rw [added, if_neg h]

theorem addTo_forward {g : G N (Edge W M)} (hg : Ready g) {p : Nat} (hp : g.edges = [] ∨ p < g.edges.length) (w : N) :
    addTo .forward dw dm p w g = .ok (added dw dm p w g, g.edges.length) := by
  obtain ⟨h1, h2⟩ := hg
  unfold addTo addNodeToTree insertNodeToTree
  rw [insertNode_eq h1, Nat.min_self, withNode_end h2]
  by_cases he : g.edges = []
  · have hn : g.nodes = [] := by rw [he] at h1; simpa using h1
    simp [added, he, hn]
  · have hlt := hp.resolve_left he
    have hpos : 0 < g.edges.length := by omega
    rw [added_cons dw dm he]
    have h3 : 1 < (g.edges ++ [[]]).length := by simp; omega
    have h4 : p < (g.edges ++ [[]]).length ∧ g.edges.length < (g.edges ++ [[]]).length := by simp; omega
    have h5 : List.take g.edges.length g.nodes ++ w :: List.drop g.edges.length g.nodes = g.nodes ++ [w] := by
      rw [← h1]; simp
    simp only [joinUp, joinDown, joinDirected, if_pos h3, h5]
    have h6 : p < g.edges.length + 1 := by omega
    simp [h6]

theorem added_ready {g : G N (Edge W M)} (hg : Ready g) {p : Nat} (w : N) :
    Ready (added dw dm p w g) ∧ (added dw dm p w g).edges.length = g.edges.length + 1 := by
  obtain ⟨h1, h2⟩ := hg
  by_cases he : g.edges = []
  · simp only [added, he, if_true]
    refine ⟨⟨rfl, ?_⟩, rfl⟩
    intro l hl e hel
    simp at hl; subst hl; simp at hel
  · rw [added_cons dw dm he]
    refine ⟨⟨by simp [onNode, h1], ?_⟩, by simp [onNode]⟩
    intro l hl e hel
    simp only [onNode, List.length_modify, List.length_append, List.length_singleton]
    obtain ⟨i, hi⟩ := List.mem_iff_getElem?.mp hl
    rw [onNode, List.getElem?_modify] at hi
    have key : ∀ l', (g.edges ++ [[]])[i]? = some l' → ∀ e ∈ l', e.target < g.edges.length := by
      intro l' hl' e he'
      rcases List.mem_append.mp (List.mem_of_getElem? hl') with h | h
      · exact h2 _ h e he'
      · simp at h; subst h; simp at he'
    obtain ⟨l', hl', hlf⟩ := Option.map_eq_some_iff.mp hi
    have k := key l' hl'
    subst hlf
    show e.target < _
    split at hel
    · rcases List.mem_append.mp hel with h | h
      · have := k e h; omega
      · simp at h; rw [h]; simp
    · have := k e hel; omega

theorem added_last {g : G N (Edge W M)} {p : Nat} (hp : g.edges = [] ∨ p < g.edges.length) (w : N) :
    (added dw dm p w g).edges[g.edges.length]? = some [] := by
  by_cases he : g.edges = []
  · simp [added, he]
  · have := hp.resolve_left he
    rw [added_cons dw dm he]
    simp only [onNode, List.getElem?_modify]
    rw [List.getElem?_append_right (by omega)]
    simp; omega

theorem added_other {g : G N (Edge W M)} {p i : Nat} (hi : i < g.edges.length) (w : N) :
    (added dw dm p w g).edges[i]? = g.edges[i]?.map fun l => if i = p then l ++ [⟨g.edges.length, dw, dm⟩] else l := by
  have he : g.edges ≠ [] := by intro h; rw [h] at hi; simp at hi
  rw [added_cons dw dm he]
  simp only [onNode, List.getElem?_modify]
  rw [List.getElem?_append_left hi]
  congr 1
  funext l
  by_cases h : i = p
  · simp [h]
  · simp [h, Ne.symm h]

/-- A node which has just been added can be removed without a trace. -/
theorem prune_added {g : G N (Edge W M)} (hg : Ready g) {p : Nat} (hp : g.edges = [] ∨ p < g.edges.length) (w : N) {fuel : Nat} (hf : 0 < fuel) :
    prune .forward fuel (added dw dm p w g) g.edges.length = some (.ret g .unit) := by
  have hr := added_ready dw dm hg (p := p) w
  have hl := added_last dw dm hp w
  obtain ⟨f, rfl⟩ : ∃ f, fuel = f + 1 := ⟨fuel - 1, by omega⟩
  rw [prune, pruneDown, hl]
  simp only [List.length_nil, Nat.not_lt_zero, if_false, Option.some.injEq]
  have herase : eraseNodeOf .forward (added dw dm p w g).edges g.edges.length = .ok g.edges := by
    unfold eraseNodeOf
    rw [if_neg (by simp), eraseNodeDirected_spec _ _ (by omega)]
    congr 1
    unfold withoutNode
    rw [List.drop_eq_nil_of_le (by omega), List.append_nil]
    apply List.ext_getElem?
    intro i
    rw [List.getElem?_map]
    by_cases hi : i < g.edges.length
    · rw [List.getElem?_take_of_lt hi, added_other dw dm hi, List.getElem?_eq_getElem hi]
      simp only [Option.map_some, Option.some.injEq]
      have hin : ∀ e ∈ g.edges[i], e.target < g.edges.length := fun e he => hg.2 _ (List.getElem_mem hi) e he
      have h1 : g.edges[i].filter (fun e => decide (target e ≠ g.edges.length)) = g.edges[i] := by
        rw [List.filter_eq_self]
        intro e he
        have := hin e he
        simp only [decide_eq_true_eq]
        show e.target ≠ _
        omega
      have h2 : ∀ l : List (Edge W M), (∀ e ∈ l, e.target < g.edges.length) → relabel (lower g.edges.length) l = l := by
        intro l hl
        refine relabel_same fun e he => ?_
        have := hl e he
        unfold lower
        rw [if_neg (by omega)]
      split
      · rw [List.filter_append, h1]
        have h3 : [(⟨g.edges.length, dw, dm⟩ : Edge W M)].filter (fun e => decide (target e ≠ g.edges.length)) = [] := by
          simp [target]
        rw [h3, List.append_nil, h2 _ hin]
      · rw [h1, h2 _ hin]
    · rw [List.getElem?_take_eq_none (by omega), List.getElem?_eq_none (by omega)]
      rfl
  have hn : (added dw dm p w g).nodes.eraseIdx g.edges.length = g.nodes := by
    by_cases he : g.edges = []
    · have hn : g.nodes = [] := by have := hg.1; rw [he] at this; simpa using this
      simp [added, he, hn]
    · rw [added_cons dw dm he, ← hg.1]
      simp [List.eraseIdx_append_of_length_le]
  rw [herase]
  show (if g.edges.length < (added dw dm p w g).nodes.length then
    Outcome.ret (⟨(added dw dm p w g).nodes.eraseIdx g.edges.length, g.edges⟩ : G N (Edge W M)) Val.unit else .ub) = _
  rw [if_pos (by rw [hr.1.1]; omega), hn]

/-- What building trees from initializers gives. -/
def grown : TreeInits N → Nat → G N (Edge W M) → G N (Edge W M)
  | .nil, _, g => g
  | .cons w cs rest, p, g => grown rest p (grown cs g.edges.length (added dw dm p w g))

/-- The number of trees. -/
def roots {N : Type} : TreeInits N → Nat
  | .nil => 0
  | .cons _ _ rest => roots rest + 1

theorem grown_ready : ∀ (t : TreeInits N) {p : Nat} {g : G N (Edge W M)}, Ready g → p < g.edges.length →
    Ready (grown dw dm t p g) ∧ g.edges.length ≤ (grown dw dm t p g).edges.length ∧
      (∀ i, i < g.edges.length → i ≠ p → (grown dw dm t p g).edges[i]? = g.edges[i]?) ∧
      ∀ l, g.edges[p]? = some l → ∃ l', (grown dw dm t p g).edges[p]? = some l' ∧ l'.length = l.length + roots t
  | .nil, p, g, hg, hp => ⟨hg, Nat.le_refl _, fun _ _ _ => rfl, fun l hl => ⟨l, hl, rfl⟩⟩
  | .cons w cs rest, p, g, hg, hp => by
    obtain ⟨h1, h2⟩ := added_ready dw dm hg (p := p) w
    obtain ⟨c1, c2, c3, c4⟩ := grown_ready cs h1 (p := g.edges.length) (by omega)
    obtain ⟨r1, r2, r3, r4⟩ := grown_ready rest c1 (p := p) (by omega)
    refine ⟨r1, by simp only [grown]; omega, ?_, ?_⟩
    · intro i hi hne
      rw [grown, r3 i (by omega) hne, c3 i (by omega) (by omega), added_other dw dm hi]
      simp [hne]
    · intro l hl
      have : (grown dw dm cs g.edges.length (added dw dm p w g)).edges[p]? = some (l ++ [⟨g.edges.length, dw, dm⟩]) := by
        rw [c3 p (by omega) (by omega), added_other dw dm hp, hl]
        simp
      obtain ⟨l', h3, h4⟩ := r4 _ this
      refine ⟨l', h3, ?_⟩
      rw [h4]; simp [roots]; omega

theorem buildChildren_grown : ∀ (t : TreeInits N) {p : Nat} {g : G N (Edge W M)}, Ready g → p < g.edges.length →
    buildChildren .forward dw dm t p g = .ret (grown dw dm t p g) ()
  | .nil, p, g, hg, hp => rfl
  | .cons w cs rest, p, g, hg, hp => by
    have h := addTo_forward dw dm hg (.inr hp) w
    obtain ⟨h1, h2⟩ := added_ready dw dm hg (p := p) w
    rw [buildChildren]
    unfold addTo at h
    split at h <;> simp at h
    rename_i g' n hadd
    obtain ⟨rfl, rfl⟩ := h
    rw [hadd]
    simp only
    rw [buildChildren_grown cs h1 (by omega)]
    have hc := grown_ready dw dm cs h1 (p := g.edges.length) (by omega)
    exact buildChildren_grown rest hc.1 (by omega)

theorem buildTree_grown (w : N) (t : TreeInits N) : buildTree .forward dw dm w t = .ret (grown dw dm (.cons w t .nil) 0 ⟨[], []⟩) () := by
  have hr : Ready (⟨[w], [[]]⟩ : G N (Edge W M)) := (added_ready dw dm (g := (⟨[], []⟩ : G N (Edge W M))) (p := 0) ⟨rfl, by intro l hl; simp at hl⟩ w).1
  have h0 : (⟨[], []⟩ : G N (Edge W M)).insertNode 0 w = .ret ⟨[w], [[]]⟩ (.index 0) := rfl
  unfold buildTree
  rw [h0]
  exact buildChildren_grown dw dm t hr (by simp)

/-- A suite is closed: its node is kept if it has children, and removed otherwise. -/
theorem pruneIfEmpty_spec {g : G N (Edge W M)} (hg : Ready g) {p : Nat} (hp : g.edges = [] ∨ p < g.edges.length) (w : N) {fuel : Nat} (hf : 0 < fuel)
    (t : TreeInits N) : pruneIfEmpty .forward fuel g.edges.length (grown dw dm t g.edges.length (added dw dm p w g)) =
      .ok (match t with | .nil => g | t => grown dw dm (.cons w t .nil) p g) := by
  obtain ⟨h1, h2⟩ := added_ready dw dm hg (p := p) w
  have hl := added_last dw dm hp w
  unfold pruneIfEmpty
  cases t with
  | nil =>
    rw [grown, hl]
    simp [prune_added dw dm hg hp w hf]
  | cons w' cs rest =>
    obtain ⟨_, _, _, h4⟩ := grown_ready dw dm (.cons w' cs rest) h1 (p := g.edges.length) (by omega)
    obtain ⟨l', h5, h6⟩ := h4 [] hl
    rw [h5]
    simp only
    rw [if_neg (by rw [h6]; simp [roots])]
    rfl

theorem treeItems_spec (hd : Decides filter acc Inv) (tL : L → N) (path : List S) {node : Nat} : ∀ (ls : List L) {g : G N (Edge W M)} {st : σ},
    Ready g → node < g.edges.length → Inv st → treeItems filter .forward dw dm tL path node ls (g, st) =
      .ok (grown dw dm (childless ((ls.filter fun l => acc l path).map tL)) node g, visited filter st (ls.map fun l => (l, path)))
  | [], g, st, _, _, _ => rfl
  | l :: ls, g, st, hg, hn, hi => by
    have h1 := hd st l path hi
    rw [treeItems]
    simp only [h1.1]
    by_cases ha : acc l path
    · obtain ⟨k1, k2⟩ := added_ready dw dm hg (p := node) (tL l)
      rw [if_pos ha, addTo_forward dw dm hg (.inr hn)]
      simp only [Res.bind]
      rw [treeItems_spec hd tL path ls k1 (by omega) h1.2]
      simp [ha, childless, grown, visited]
    · rw [if_neg ha, treeItems_spec hd tL path ls hg hn h1.2]
      simp [ha, visited]

mutual
theorem extractTree_spec (hd : Decides filter acc Inv) (tS : S → N) (tL : L → N) {fuel : Nat} (hf : 0 < fuel) : ∀ (s : Suite S L) (path : List S)
    {p : Nat} {g : G N (Edge W M)} {st : σ}, Ready g → (g.edges = [] ∨ p < g.edges.length) → Inv st →
    extractTree filter .forward dw dm fuel tS tL path p s (g, st) =
      .ok (match pruned acc tS tL path s with | none => g | some t => grown dw dm (.cons t.1 t.2 .nil) p g, visited filter st (located path s))
  | .flat s items, path, p, g, st, hg, hp, hi => by
    obtain ⟨k1, k2⟩ := added_ready dw dm hg (p := p) (tS s)
    rw [extractTree, addTo_forward dw dm hg hp]
    simp only [Res.bind]
    rw [treeItems_spec dw dm hd tL _ items k1 (by omega) hi]
    simp only
    rw [pruneIfEmpty_spec dw dm hg hp (tS s) hf]
    simp only [pruned, located]
    cases childless ((items.filter fun l => acc l (path ++ [s])).map tL) <;> rfl
  | .deep s subs, path, p, g, st, hg, hp, hi => by
    obtain ⟨k1, k2⟩ := added_ready dw dm hg (p := p) (tS s)
    rw [extractTree, addTo_forward dw dm hg hp]
    simp only [Res.bind]
    rw [extractTreeList_spec hd tS tL hf subs _ k1 (by omega) hi]
    simp only
    rw [pruneIfEmpty_spec dw dm hg hp (tS s) hf]
    simp only [pruned, located]
    cases prunedList acc tS tL (path ++ [s]) subs <;> rfl

theorem extractTreeList_spec (hd : Decides filter acc Inv) (tS : S → N) (tL : L → N) {fuel : Nat} (hf : 0 < fuel) : ∀ (ss : List (Suite S L)) (path : List S)
    {p : Nat} {g : G N (Edge W M)} {st : σ}, Ready g → p < g.edges.length → Inv st →
    extractTreeList filter .forward dw dm fuel tS tL path p ss (g, st) =
      .ok (grown dw dm (prunedList acc tS tL path ss) p g, visited filter st (locatedList path ss))
  | [], path, p, g, st, _, _, _ => by simp [extractTreeList, prunedList, grown, locatedList, visited]
  | s :: ss, path, p, g, st, hg, hp, hi => by
    rw [extractTreeList, extractTree_spec hd tS tL hf s path hg (.inr hp) hi]
    simp only [Res.bind, prunedList, locatedList, visited_append]
    cases hq : pruned acc tS tL path s with
    | none =>
      simp only
      rw [extractTreeList_spec hd tS tL hf ss path hg hp (visited_inv hd _ hi)]
    | some t =>
      obtain ⟨r1, r2, _⟩ := grown_ready dw dm (.cons t.1 t.2 .nil) hg hp
      simp only
      rw [extractTreeList_spec hd tS tL hf ss path r1 (by omega) (visited_inv hd _ hi)]
      rfl
end

/-! ### What is left of a suite -/

theorem tips_childless (path : List N) : ∀ ws : List N, tips path (childless ws) = ws.map fun w => (w, path)
  | [] => rfl
  | w :: ws => by simp [childless, tips, tips_childless path ws]

theorem tips_cons {N : Type} (path : List N) (w : N) {cs : TreeInits N} (h : cs ≠ .nil) (rest : TreeInits N) :
    tips path (.cons w cs rest) = tips (path ++ [w]) cs ++ tips path rest := by
  cases cs with
  | nil => exact absurd rfl h
  | cons => rfl

mutual
theorem tips_pruned {N : Type} (acc : L → List S → Bool) (tS : S → N) (tL : L → N) : ∀ (s : Suite S L) (path : List S),
    tips (path.map tS) (match pruned acc tS tL path s with | none => .nil | some t => .cons t.1 t.2 .nil) =
      ((located path s).filter fun x => acc x.1 x.2).map fun x => (tL x.1, x.2.map tS)
  | .flat s items, path => by
    have key : tips ((path ++ [s]).map tS) (childless ((items.filter fun l => acc l (path ++ [s])).map tL)) =
        ((located path (.flat s items)).filter fun x => acc x.1 x.2).map fun x => (tL x.1, x.2.map tS) := by
      rw [tips_childless, located, List.filter_map, List.map_map, List.map_map]
      rfl
    rw [← key]
    simp only [pruned]
    cases h : childless ((items.filter fun l => acc l (path ++ [s])).map tL) with
    | nil => rfl
    | cons w cs rest =>
      simp only
      rw [tips_cons _ _ (by simp)]
      simp [tips]
  | .deep s subs, path => by
    have key := tips_prunedList acc tS tL subs (path ++ [s])
    rw [located, ← key]
    simp only [pruned]
    cases h : prunedList acc tS tL (path ++ [s]) subs with
    | nil => rfl
    | cons w cs rest =>
      simp only
      rw [tips_cons _ _ (by simp)]
      simp [tips]

theorem tips_prunedList {N : Type} (acc : L → List S → Bool) (tS : S → N) (tL : L → N) : ∀ (ss : List (Suite S L)) (path : List S),
    tips (path.map tS) (prunedList acc tS tL path ss) =
      ((locatedList path ss).filter fun x => acc x.1 x.2).map fun x => (tL x.1, x.2.map tS)
  | [], path => by simp [prunedList, locatedList, tips]
  | s :: ss, path => by
    have h1 := tips_pruned acc tS tL s path
    have h2 := tips_prunedList acc tS tL ss path
    rw [prunedList, locatedList, List.filter_append, List.map_append, ← h1, ← h2]
    cases hq : pruned acc tS tL path s with
    | none => simp [tips]
    | some t =>
      obtain ⟨w, cs⟩ := t
      simp only
      cases cs with
      | nil => simp [tips]
      | cons => simp [tips]
end

/-! ### The granular filter -/

theorem markFirst_keys {K : Type} (eq : K → Bool) : ∀ l : List (K × Bool), (markFirst eq l).1.map Prod.fst = l.map Prod.fst
  | [] => rfl
  | e :: l => by
    rw [markFirst]
    split
    · simp
    · simp [markFirst_keys eq l]

theorem markFirst_found {K : Type} (eq : K → Bool) : ∀ l : List (K × Bool), (markFirst eq l).2 = true ↔ ∃ k ∈ l.map Prod.fst, eq k = true
  | [] => by simp [markFirst]
  | e :: l => by
    rw [markFirst]
    split
    · rename_i h; simp [h]
    · rename_i h
      simp only [markFirst_found eq l]
      simp [h]

/-- If no two keys match, the search marks all entries which match. -/
theorem markFirst_exclusive {K : Type} {eq : K → Bool} : ∀ {l : List (K × Bool)}, (l.map Prod.fst).Pairwise (fun a b => ¬ (eq a = true ∧ eq b = true)) →
    (markFirst eq l).1 = l.map fun e => (e.1, e.2 || eq e.1)
  | [], _ => rfl
  | e :: l, h => by
    rw [List.map_cons, List.pairwise_cons] at h
    rw [markFirst]
    split
    · rename_i he
      simp only [List.map_cons, he, Bool.or_true, List.cons.injEq, true_and]
      conv => lhs; rw [← List.map_id l]
      apply List.map_congr_left
      intro x hx
      have := h.1 x.1 (List.mem_map.mpr ⟨x, hx, rfl⟩)
      have hx' : eq x.1 = false := by
        cases hq : eq x.1
        · rfl
        · exact absurd ⟨he, hq⟩ this
      simp [hx']
    · rename_i he
      simp only [List.map_cons, markFirst_exclusive h.2]
      simp [he]

theorem findSelection_keys {K : Type} (eq : K → Bool) (m : Selection K) : keys (findSelection eq m).1 = keys m := by
  cases m with
  | none => rfl
  | some l => simp [findSelection, keys, markFirst_keys]

theorem findSelection_found {K : Type} (eq : K → Bool) (m : Selection K) :
    (findSelection eq m).2 = true ↔ ∃ ks, keys m = some ks ∧ ∃ k ∈ ks, eq k = true := by
  cases m with
  | none => simp [findSelection, keys]
  | some l =>
    simp only [findSelection, markFirst_found, keys, Option.map_some, Option.some.injEq]
    constructor
    · intro h; exact ⟨_, rfl, h⟩
    · rintro ⟨ks, rfl, h⟩; exact h

theorem findSuites_spec {K : Type} [DecidableEq K] (name : S → K) : ∀ (path : List S) (m : Selection K),
    keys (findSuites name path m).1 = keys m ∧
      ((findSuites name path m).2 = true ↔ ∃ ks, keys m = some ks ∧ ∃ s ∈ path, name s ∈ ks)
  | [], m => by simp [findSuites]
  | s :: path, m => by
    have ih := findSuites_spec name path (findSelection (fun k => k = name s) m).1
    rw [findSelection_keys] at ih
    refine ⟨by rw [findSuites]; exact ih.1, ?_⟩
    simp only [findSuites, Bool.or_eq_true, findSelection_found, ih.2, decide_eq_true_eq]
    constructor
    · rintro (⟨ks, h1, k, h2, rfl⟩ | ⟨ks, h1, s', h2, h3⟩)
      · exact ⟨ks, h1, s, by simp, h2⟩
      · exact ⟨ks, h1, s', by simp [h2], h3⟩
    · rintro ⟨ks, h1, s', h2, h3⟩
      rcases List.mem_cons.mp h2 with rfl | h2
      · exact .inl ⟨ks, h1, _, h3, rfl⟩
      · exact .inr ⟨ks, h1, s', h2, h3⟩

end Verif.Suites
