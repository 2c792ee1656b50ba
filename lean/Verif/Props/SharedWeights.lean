import Verif.Lemmas.SharedCopy
import Verif.Lemmas.SharedInit
import Verif.Props.GraphInit

/-! Properties C21 and C27: graphs whose edge weights are shared between the two halves of an edge. -/
namespace Verif.Props
open Verif.Spec Verif.Graph

/-! ### C21, undirected graphs -/

/-- Calls on an undirected graph with shared weights, in terms of what the user sees of the graph; `stable_sort_edges` is
excluded, see `C21_stable_sort_violated`. -/
def SharedContract {N W M : Type} (st : SG N W (Edge Nat M)) (o : Op N W M (Edge W M)) : Prop :=
  InContract .undirected ⟨st.g.nodes, seen st.mem st.g.edges⟩ o ∧ ∀ lt n p m q, o ≠ .stableSortEdges lt n p m q

/-- C21, except for `stable_sort_edges`.  After every history of calls on an undirected graph with shared weights, starting
from a graph which is reciprocal and has no weight object used more than twice (in particular the empty one), every half
edge has precisely one other half with which it shares its weight object, and what the user sees is reciprocal. -/
theorem C21_shared_history_partial {N W M : Type} [DecidableEq W] [DecidableEq M]
    (stdSort : {α : Type} → (α → α → Bool) → List α → List α) (hsort : Permutes stdSort) (st : SG N W (Edge Nat M))
    (hlen : st.g.nodes.length = st.g.edges.length) (hrec : Reciprocal st.g.edges) (htwo : AtMostTwo st.mem.next st.g.edges)
    (ops : List (Op N W M (Edge W M))) (hc : Within (sharedStep stdSort) SharedContract st ops) :
    ∃ st' outs, run (sharedStep stdSort) st ops = some (st', outs) ∧ AllPaired st'.g.edges ∧
      Reciprocal (seen st'.mem st'.g.edges) ∧ Reciprocal st'.g.edges ∧ AtMostTwo st'.mem.next st'.g.edges := by
  obtain ⟨st', outs, h1, h2⟩ :=
    run_invariant (step := sharedStep stdSort) (Inv := fun st => Inv (SharedOk st.mem.next) st.g) (fun s o h hp => shared_good hsort s h o hp.1 hp.2)
      st ⟨hlen, hrec, htwo⟩ ops hc
  exact ⟨st', outs, h1, sharedOk_paired h2.2, seen_reciprocal h2.2 _, h2.2⟩

/-- C21.  In such a graph, setting a weight through either half changes the weight of that edge at both ends and nothing
else. -/
theorem C21_set_weight {N W M : Type} [DecidableEq M] (stdSort : {α : Type} → (α → α → Bool) → List α → List α)
    (st : SG N W (Edge Nat M)) (hrec : Reciprocal st.g.edges) (htwo : AtMostTwo st.mem.next st.g.edges) (n k : Nat)
    (hk : ValidEdge (seen st.mem st.g.edges) n k) (w : W) :
    ∃ st' t p, sharedStep stdSort st (.setWeight n k w) = .ret st' .unit ∧ SoleHalves st.g.edges n k t p ∧
      st'.g = st.g ∧ seen st'.mem st'.g.edges =
        changeAt (seen st.mem st.g.edges) (fun i x => decide ((i, x) = (n, k) ∨ (i, x) = (t, p))) (fun e => e.setWeight w) := by
  obtain ⟨e, he⟩ := validEdge_seen hk
  obtain ⟨t, p, h⟩ := sharedOk_paired (next := st.mem.next) ⟨hrec, htwo⟩ n k ⟨e, he⟩
  refine ⟨⟨st.mem.write e.weight w, st.g⟩, t, p, ?_, h, rfl, seen_write he h _ _⟩
  have he' : st.g.edges[n]?.bind (·[k]?) = some e := he
  unfold sharedStep
  simp only [he']

/-- C21.  Likewise for `mutate_edge_weight`: the function is applied once. -/
theorem C21_mutate_weight {N W M : Type} [DecidableEq M] (stdSort : {α : Type} → (α → α → Bool) → List α → List α)
    (st : SG N W (Edge Nat M)) (hrec : Reciprocal st.g.edges) (htwo : AtMostTwo st.mem.next st.g.edges) (n k : Nat)
    (e : Edge W M) (hk : edgeAt (seen st.mem st.g.edges) n k = some e) (f : W → W) :
    ∃ st' t p, sharedStep stdSort st (.mutateWeight n k f) = .ret st' .unit ∧ SoleHalves st.g.edges n k t p ∧
      st'.g = st.g ∧ seen st'.mem st'.g.edges =
        changeAt (seen st.mem st.g.edges) (fun i x => decide ((i, x) = (n, k) ∨ (i, x) = (t, p)))
          (fun e' => e'.setWeight (f e.weight)) := by
  have hk' := hk
  rw [edgeAt_seen, Option.map_eq_some_iff] at hk'
  obtain ⟨e₀, he, rfl⟩ := hk'
  obtain ⟨t, p, h⟩ := sharedOk_paired (next := st.mem.next) ⟨hrec, htwo⟩ n k ⟨e₀, he⟩
  refine ⟨⟨st.mem.write e₀.weight (f (st.mem.cell e₀.weight)), st.g⟩, t, p, ?_, h, rfl, seen_write he h _ _⟩
  have he' : st.g.edges[n]?.bind (·[k]?) = some e₀ := he
  unfold sharedStep
  simp only [he']

/-- C21.  In such a graph, erasing an edge erases precisely the two halves sharing a weight object, never those of another
edge which looks the same. -/
theorem C21_erase_edge {N W M : Type} [DecidableEq M] (stdSort : {α : Type} → (α → α → Bool) → List α → List α)
    (st : SG N W (Edge Nat M)) (hrec : Reciprocal st.g.edges) (htwo : AtMostTwo st.mem.next st.g.edges) (n k : Nat)
    (hk : ValidEdge (seen st.mem st.g.edges) n k) :
    ∃ st' t p, sharedStep stdSort st (.eraseEdge n k) = .ret st' .unit ∧ SoleHalves st.g.edges n k t p ∧
      st'.g.nodes = st.g.nodes ∧ st'.mem = st.mem ∧
      st'.g.edges = removeAt st.g.edges (fun i x => decide ((i, x) = (n, k) ∨ (i, x) = (t, p))) := by
  obtain ⟨e, he⟩ := validEdge_seen hk
  obtain ⟨s', p, e', h1, h2, h3, _⟩ := eraseEdgeUndirected_spec he (Reciprocal.exists_partner hrec he)
  refine ⟨⟨st.mem, ⟨st.g.nodes, s'⟩⟩, e.target, p, ?_, ?_, rfl, rfl, h3⟩
  · unfold sharedStep undirectedStep onEdges keepMem
    simp only [h1]
  · exact ⟨h2.2.2.2, e, e', he, h2.1, rfl, h2.2.1, h2.2.2.1, fun i j f hf ha =>
      no_third he h2.1 h2.2.2.2 h2.2.2.1 hf ha (htwo e.weight).1⟩

/-- The empty graph, with any memory. -/
def emptyShared : SG Unit Nat (Edge Nat Unit) := ⟨⟨fun _ => 0, 0⟩, ⟨[], []⟩⟩

example : Reciprocal emptyShared.g.edges ∧ AtMostTwo emptyShared.mem.next emptyShared.g.edges :=
  ⟨⟨by intro l hl; simp [emptyShared] at hl, fun i j _ w => rfl, fun i w => ⟨0, rfl⟩⟩, fun a => by simp [emptyShared, uses]⟩

/-- A history with two edges which look the same, and a loop: they have different weight objects, and after setting the
weight of one of them the user sees the change at both ends. -/
example : (run (sharedStep (N := Unit) (W := Nat) (M := Unit) fun lt => StableSort.stableSort lt) emptyShared
    [.addNode (), .addNode (), .join 0 1 5 () (), .join 0 1 5 () (), .join 1 1 6 () (), .setWeight 1 1 9]).map
      (fun r => (r.1.g.edges, seen r.1.mem r.1.g.edges)) =
    some ([[⟨1, 0, ()⟩, ⟨1, 1, ()⟩], [⟨0, 0, ()⟩, ⟨0, 1, ()⟩, ⟨1, 2, ()⟩, ⟨1, 2, ()⟩]],
      [[⟨1, 5, ()⟩, ⟨1, 9, ()⟩], [⟨0, 5, ()⟩, ⟨0, 9, ()⟩, ⟨1, 6, ()⟩, ⟨1, 6, ()⟩]]) := by decide

example : Within (sharedStep (N := Unit) (W := Nat) (M := Unit) fun lt => StableSort.stableSort lt) SharedContract emptyShared
    [.addNode (), .join 0 0 6 () (), .setWeight 0 1 9, .eraseEdge 0 0] :=
  ⟨⟨trivial, by intros; simp⟩, ⟨trivial, by intros; simp⟩, ⟨⟨_, rfl⟩, by intros; simp⟩,
    ⟨.inr ⟨_, rfl, by decide⟩, by intros; simp⟩, trivial⟩

section sorting
variable {N W M : Type} [DecidableEq M]

theorem merge_map {α β : Type} (f : α → β) (lt : β → β → Bool) : ∀ (xs ys : List α),
    (StableSort.merge (fun a b => lt (f a) (f b)) xs ys).map f = StableSort.merge lt (xs.map f) (ys.map f)
  | [], ys => by simp [StableSort.merge]
  | x :: xs, [] => by simp [StableSort.merge]
  | x :: xs, y :: ys => by
    simp only [StableSort.merge, List.map_cons]
    split
    · rw [List.map_cons, merge_map f lt (x :: xs) ys, List.map_cons]
    · rw [List.map_cons, merge_map f lt xs (y :: ys), List.map_cons]
termination_by xs ys => xs.length + ys.length

theorem stableSort_map {α β : Type} (f : α → β) (lt : β → β → Bool) (l : List α) :
    (StableSort.stableSort (fun a b => lt (f a) (f b)) l).map f = StableSort.stableSort lt (l.map f) := by
  conv_lhs => rw [StableSort.stableSort]
  conv_rhs => rw [StableSort.stableSort]
  rw [List.length_map]
  split
  · rfl
  · rw [merge_map, stableSort_map f lt (l.take (l.length / 2)), stableSort_map f lt (l.drop (l.length / 2)), List.map_take, List.map_drop]
termination_by l.length
decreasing_by
  · simp only [List.length_take]; omega
  · simp only [List.length_drop]; omega

omit [DecidableEq M] in
/-- Copies look as the originals, have addresses of their own, and leave what was there as it was. -/
theorem copyAll_spec : ∀ (l : List (Edge Nat M)) (m : Mem W), (∀ e ∈ l, e.weight < m.next) →
    (copyAll m l).2.map (Edge.see (copyAll m l).1) = l.map (Edge.see m) ∧ (∀ a, a < m.next → (copyAll m l).1.cell a = m.cell a) ∧
      (copyAll m l).2.map Edge.weight = List.range' m.next l.length
  | [], m, _ => by simp [copyAll]
  | e :: l, m, h => by
    have he := h e (by simp)
    obtain ⟨h1, h2, h3⟩ := copyAll_spec l (m.alloc (m.cell e.weight)) (fun x hx => Nat.lt_succ_of_lt (h x (by simp [hx])))
    have hc : ∀ a, a < m.next → (m.alloc (m.cell e.weight)).cell a = m.cell a := fun a ha => by simp [Mem.alloc, Nat.ne_of_lt ha]
    refine ⟨?_, ?_, ?_⟩
    · simp only [copyAll, List.map_cons, h1]
      congr 1
      · simp only [Edge.see]
        rw [h2 m.next (by simp [Mem.alloc])]
        simp [Mem.alloc]
      · apply List.map_congr_left
        intro x hx
        simp only [Edge.see]
        rw [hc _ (h x (by simp [hx]))]
    · intro a ha
      simp only [copyAll]
      rw [h2 a (by simp [Mem.alloc]; omega), hc a ha]
    · show m.next :: (copyAll (m.alloc (m.cell e.weight)) l).2.map Edge.weight = _
      rw [h3, List.length_cons, List.range'_succ]
      rfl

/-- C21.  Sorting edges of a node in a stable way: a user sees the range sorted and all else as it was, and all other edges keep their weight objects.
If there are at least two edges in the range then each of them has a new weight object, which it shares with no other edge; otherwise nothing happens. -/
theorem C21_stable_sort (stdSort : {α : Type} → (α → α → Bool) → List α → List α) (st : SG N W (Edge Nat M)) (lt : Edge W M → Edge W M → Bool)
    (n p q : Nat) (l : List (Edge Nat M)) (hl : st.g.edges[n]? = some l) (hp : p ≤ q) (hq : q ≤ l.length)
    (halloc : ∀ l ∈ st.g.edges, ∀ e ∈ l, e.weight < st.mem.next) :
    ∃ mem l', sharedStep stdSort st (.stableSortEdges lt n p n q) = .ret ⟨mem, ⟨st.g.nodes, st.g.edges.set n l'⟩⟩ .unit ∧
      l'.map (Edge.see mem) = (l.map (Edge.see st.mem)).take p ++ StableSort.stableSort lt (((l.map (Edge.see st.mem)).take q).drop p) ++ (l.map (Edge.see st.mem)).drop q ∧
      (∀ k ∈ st.g.edges, k.map (Edge.see mem) = k.map (Edge.see st.mem)) ∧
      l'.take p = l.take p ∧ l'.drop q = l.drop q ∧
      (2 ≤ q - p → ((l'.take q).drop p).map Edge.weight = List.range' st.mem.next (q - p)) ∧ (q - p < 2 → l' = l ∧ mem = st.mem) := by
  have hset : st.g.edges.set n l = st.g.edges := by
    apply List.ext_getElem?
    intro i
    rw [List.getElem?_set]
    split
    · next h => subst h; rw [hl]; split <;> simp_all
    · rfl
  have hn : n < st.g.edges.length := by
    by_contra hc
    rw [List.getElem?_eq_none (by omega)] at hl
    cases hl
  have hmem : l ∈ st.g.edges := List.mem_of_getElem? hl
  have hlen : ((l.take q).drop p).length = q - p := by simp [Nat.min_eq_left hq]
  by_cases h2 : q - p < 2
  · refine ⟨st.mem, l, ?_, ?_, fun _ _ => rfl, rfl, rfl, fun h => absurd h (by omega), fun _ => ⟨rfl, rfl⟩⟩
    · simp only [sharedStep, stableSortShared, hl]
      rw [if_pos ⟨by omega, hq⟩, if_neg (by simp), if_pos hp, if_pos (by omega), hset]
    · rw [StableSort.stableSort, if_pos (by simp [Nat.min_eq_left hq]; omega), ← List.map_take, ← List.map_take, ← List.map_drop, ← List.map_drop,
        ← List.map_append, ← List.map_append]
      congr 1
      conv_lhs => rw [← List.take_append_drop q l]
      congr 1
      conv_lhs => rw [← List.take_append_drop p (l.take q)]
      rw [List.take_take, Nat.min_eq_left hp]
  · let part := StableSort.stableSort (fun e f : Edge Nat M => lt (e.see st.mem) (f.see st.mem)) ((l.take q).drop p)
    have hpart : ∀ e ∈ part, e.weight < st.mem.next := fun e he =>
      halloc l hmem e (List.mem_of_mem_take (List.mem_of_mem_drop ((StableSort.stableSort_perm _).mem_iff.mp he)))
    have hpm : part.map (Edge.see st.mem) = StableSort.stableSort lt (((l.map (Edge.see st.mem)).take q).drop p) := by
      rw [← List.map_take, ← List.map_drop]
      exact stableSort_map (Edge.see st.mem) lt _
    have hpl : part.length = q - p := by rw [← hlen]; exact (StableSort.stableSort_perm _).length_eq
    obtain ⟨c1, c2, c3⟩ := copyAll_spec part st.mem hpart
    have keep : ∀ k : List (Edge Nat M), (∀ e ∈ k, e.weight < st.mem.next) → k.map (Edge.see (copyAll st.mem part).1) = k.map (Edge.see st.mem) := by
      intro k hk
      apply List.map_congr_left
      intro e he
      simp only [Edge.see]
      rw [c2 _ (hk e he)]
    have hcl : (copyAll st.mem part).2.length = q - p := by
      have := congrArg List.length c3
      simpa [hpl] using this
    refine ⟨(copyAll st.mem part).1, l.take p ++ (copyAll st.mem part).2 ++ l.drop q, ?_, ?_, fun k hk => keep k (halloc k hk), ?_, ?_, ?_, fun h => absurd h h2⟩
    · simp only [sharedStep, stableSortShared, hl]
      rw [if_pos ⟨by omega, hq⟩, if_neg (by simp), if_pos hp, if_neg (by omega)]
      congr 3
      apply List.ext_getElem?
      intro i
      rw [onNode, List.getElem?_modify, List.getElem?_set]
      by_cases hi : n = i
      · subst hi
        rw [if_pos rfl, if_pos hn, hl]
        simp [part]
      · simp [hi]
    · rw [List.map_append, List.map_append, c1, hpm, keep _ (fun e he => halloc l hmem e (List.mem_of_mem_take he)),
        keep _ (fun e he => halloc l hmem e (List.mem_of_mem_drop he)), List.map_take, List.map_drop]
    · rw [List.append_assoc, List.take_left' (by simp; omega)]
    · rw [List.drop_left' (by simp [hcl]; omega)]
    · intro _
      rw [List.take_left' (by simp [hcl]; omega), List.drop_left' (by simp; omega), c3, hpl]

/-- There are such graphs, with a range of two edges. -/
example : ∃ (st : SG Unit Nat (Edge Nat Unit)) (l : List (Edge Nat Unit)), st.g.edges[0]? = some l ∧ 0 ≤ 2 ∧ 2 ≤ l.length ∧ ∀ l ∈ st.g.edges, ∀ e ∈ l, e.weight < st.mem.next :=
  ⟨⟨⟨fun a => if a = 0 then 5 else 4, 2⟩, ⟨[(), ()], [[⟨1, 0, ()⟩, ⟨1, 1, ()⟩], [⟨0, 0, ()⟩, ⟨0, 1, ()⟩]]⟩⟩, _, rfl, by decide, by decide, by
    intro l hl e he
    simp at hl
    rcases hl with rfl | rfl <;> simp at he <;> rcases he with rfl | rfl <;> decide⟩

/-- C21.  Such a sort is undefined if the node does not exist, or if the range is not one. -/
theorem C21_stable_sort_range (stdSort : {α : Type} → (α → α → Bool) → List α → List α) (st : SG N W (Edge Nat M)) (lt : Edge W M → Edge W M → Bool) (n p q : Nat) :
    (st.g.edges[n]? = none → sharedStep stdSort st (.stableSortEdges lt n p n q) = .ub) ∧
      ∀ l, st.g.edges[n]? = some l → l.length < q ∨ q < p → sharedStep stdSort st (.stableSortEdges lt n p n q) = .ub := by
  refine ⟨fun h => by simp [sharedStep, stableSortShared, h], fun l hl h => ?_⟩
  simp only [sharedStep, stableSortShared, hl]
  split
  · rw [if_neg (by simp), if_neg (by omega)]
  · rfl

end sorting

/-- C21 fails for `stable_sort_edges`: sorting the two edges which node 0 has to node 1 gives their halves at node 0 weights
of their own.  Setting the weight through one half is then not seen through the other, the graph is not reciprocal any
more, and erasing the edge throws. -/
theorem C21_stable_sort_violated :
    ∃ (st : SG Unit Nat (Edge Nat Unit)) (ops : List (Op Unit Nat Unit (Edge Nat Unit))),
      Reciprocal st.g.edges ∧ AtMostTwo st.mem.next st.g.edges ∧
      (∀ o ∈ ops, ∃ n m q w, o = .stableSortEdges (fun e f => decide (e.weight < f.weight)) n 0 m q ∨ o = .setWeight 0 0 w ∨
        o = .eraseEdge 0 0) ∧
      (run (sharedStep fun lt => StableSort.stableSort lt) st ops).map (fun r => (r.2, seen r.1.mem r.1.g.edges)) =
        some ([some .unit, some .unit, none], [[⟨1, 9, ()⟩, ⟨1, 5, ()⟩], [⟨0, 5, ()⟩, ⟨0, 4, ()⟩]]) := by
  refine ⟨⟨⟨fun a => if a = 0 then 5 else 4, 2⟩, ⟨[(), ()], [[⟨1, 0, ()⟩, ⟨1, 1, ()⟩], [⟨0, 0, ()⟩, ⟨0, 1, ()⟩]]⟩⟩,
    [.stableSortEdges (fun e f => decide (e.weight < f.weight)) 0 0 0 2, .setWeight 0 0 9, .eraseEdge 0 0], ?_, ?_, ?_, ?_⟩
  · refine ⟨?_, ?_, ?_⟩
    · intro l hl e he
      simp at hl
      rcases hl with rfl | rfl <;> simp at he <;> rcases he with rfl | rfl <;> decide
    · have h : ∀ i j, i ≠ j → ∀ w, mult [[(⟨1, 0, ()⟩ : Edge Nat Unit), ⟨1, 1, ()⟩], [⟨0, 0, ()⟩, ⟨0, 1, ()⟩]] i j w =
          if (i = 0 ∧ j = 1 ∨ i = 1 ∧ j = 0) ∧ (w = 0 ∨ w = 1) then 1 else 0 := by
        intro i j hij w
        match i with
        | 0 =>
          by_cases h1 : j = 1 <;> by_cases h2 : w = 0 <;> by_cases h3 : w = 1 <;>
            simp_all [mult, eq_comm]
        | 1 =>
          by_cases h1 : j = 0 <;> by_cases h2 : w = 0 <;> by_cases h3 : w = 1 <;>
            simp_all [mult, eq_comm]
        | i + 2 => simp [mult]
      intro i j hij w
      rw [h i j hij, h j i (Ne.symm hij)]
      congr 1
      apply propext
      constructor <;> rintro ⟨h1, h2⟩ <;> exact ⟨by omega, h2⟩
    · intro i w
      match i with
      | 0 => simp [mult]
      | 1 => simp [mult]
      | i + 2 => simp [mult]
  · intro a
    match a with
    | 0 => decide
    | 1 => decide
    | a + 2 => simp [uses, addr]
  · intro o ho
    simp at ho
    rcases ho with rfl | rfl | rfl
    · exact ⟨0, 0, 2, 0, .inl rfl⟩
    · exact ⟨0, 0, 0, 9, .inr (.inl rfl)⟩
    · exact ⟨0, 0, 0, 0, .inr (.inr rfl)⟩
  · decide +kernel

/-- C21, construction of undirected graphs from initializer lists.  It succeeds precisely if the lists are reciprocal, and
throws otherwise; it never reads an edge which is not there.  The nodes then show the edges listed for them, in canonical
order, and every half edge has precisely one other half with which it shares its weight object, whatever links, loops and
multiple edges there are.  So `C21_shared_history_partial` applies to the result. -/
theorem C21_undirected_init {W : Type} [DecidableEq W] (k : WeightKind W) (hk : WeightsOk Unit k) (m : Mem W)
    (s : Edges (Edge W Unit)) :
    (Reciprocal s → ∃ m' o, makeUndirectedShared k m s = .ok (m', o) ∧ Presents k s (seen m' o) ∧ AllPaired o ∧
      Reciprocal o ∧ AtMostTwo m'.next o) ∧
    (¬ Reciprocal s → makeUndirectedShared k m s = .throws) := by
  obtain ⟨h1, h2⟩ := C18_undirected_init k hk s
  refine ⟨fun h => ?_, fun h => ?_⟩
  · obtain ⟨s', h3, h4, _⟩ := h1 h
    obtain ⟨m', o, h5, rfl, h6⟩ := makeUndirectedShared_spec hk m h3
    exact ⟨m', o, h5, h4, sharedOk_paired h6, h6.1, h6.2⟩
  · unfold makeUndirectedShared
    rw [h2 h]
    rfl

/-- Three edges between two nodes, two of which look the same, and two loops which look the same: five weight objects. -/
example : (match makeUndirectedShared (.ordered fun a b : Nat => decide (a < b)) ⟨fun _ => 0, 0⟩
      [[⟨1, 5, ()⟩, ⟨1, 7, ()⟩, ⟨1, 5, ()⟩], [⟨1, 6, ()⟩, ⟨0, 7, ()⟩, ⟨1, 6, ()⟩, ⟨0, 5, ()⟩, ⟨1, 6, ()⟩, ⟨0, 5, ()⟩, ⟨1, 6, ()⟩]] with
    | .ok (m, o) => (o, seen m o)
    | _ => ([], [])) =
    ([[⟨1, 0, ()⟩, ⟨1, 1, ()⟩, ⟨1, 2, ()⟩],
      [⟨0, 0, ()⟩, ⟨0, 1, ()⟩, ⟨0, 2, ()⟩, ⟨1, 3, ()⟩, ⟨1, 3, ()⟩, ⟨1, 4, ()⟩, ⟨1, 4, ()⟩]],
     [[⟨1, 5, ()⟩, ⟨1, 5, ()⟩, ⟨1, 7, ()⟩],
      [⟨0, 5, ()⟩, ⟨0, 5, ()⟩, ⟨0, 7, ()⟩, ⟨1, 6, ()⟩, ⟨1, 6, ()⟩, ⟨1, 6, ()⟩, ⟨1, 6, ()⟩]]) := by decide +kernel

/-- With weights which can only be compared for equality, the clusters of the two nodes may be in different orders. -/
example : (match makeUndirectedShared (.equality : WeightKind Nat) ⟨fun _ => 0, 0⟩
      [[⟨1, 5, ()⟩, ⟨1, 7, ()⟩, ⟨1, 5, ()⟩], [⟨0, 7, ()⟩, ⟨0, 5, ()⟩, ⟨0, 5, ()⟩]] with
    | .ok (_, o) => o
    | _ => []) = [[⟨1, 0, ()⟩, ⟨1, 1, ()⟩, ⟨1, 2, ()⟩], [⟨0, 2, ()⟩, ⟨0, 0, ()⟩, ⟨0, 1, ()⟩]] := by decide +kernel

/-- The hypotheses are met by lists with a loop and a multiple edge. -/
example : Reciprocal sampleU ∧ WeightsOk Unit (.ordered fun a b : Nat => decide (a < b)) :=
  ⟨sampleU_reciprocal, ⟨by intro a b h; simp at *; omega, by intro a b c h1 h2; simp at *; omega⟩, by intro a b; simp; omega⟩

/-! ### C21, embedded graphs -/

/-- C21 for embedded graphs.  After every history of calls on an embedded graph with shared weights, starting from a
graph which is consistent and has no weight object used more than twice (in particular the empty one, or a copy of such a
graph), every half edge has precisely one other half with which it shares its weight object, and what the user sees is
consistent. -/
theorem C21_shared_history_embedded {N W M : Type} (st : SG N W (EEdge Nat M))
    (hlen : st.g.nodes.length = st.g.edges.length) (hemb : Embedded st.g.edges) (htwo : AtMostTwo st.mem.next st.g.edges)
    (ops : List (Op N W M (EEdge W M)))
    (hc : Within sharedEmbeddedStep (fun st o => InContract .embedded ⟨st.g.nodes, seenE st.mem st.g.edges⟩ o) st ops) :
    ∃ st' outs, run sharedEmbeddedStep st ops = some (st', outs) ∧ AllPaired st'.g.edges ∧
      Embedded (seenE st'.mem st'.g.edges) ∧ Embedded st'.g.edges ∧ AtMostTwo st'.mem.next st'.g.edges := by
  obtain ⟨st', outs, h1, h2⟩ :=
    run_invariant (step := sharedEmbeddedStep) (Inv := fun st => Inv (SharedOkE st.mem.next) st.g) (fun s o h hp => sharedE_good s h o hp)
      st ⟨hlen, hemb, htwo⟩ ops hc
  exact ⟨st', outs, h1, sharedOkE_paired h2.2, seenE_embedded h2.2.1 _, h2.2⟩

/-- C21 for embedded graphs.  Setting a weight through either half changes the weight of that edge at both ends and
nothing else. -/
theorem C21_set_weight_embedded {N W M : Type} (st : SG N W (EEdge Nat M)) (hemb : Embedded st.g.edges)
    (htwo : AtMostTwo st.mem.next st.g.edges) (n k : Nat) (e : EEdge W M)
    (hk : edgeAt (seenE st.mem st.g.edges) n k = some e) (w : W) :
    ∃ st', sharedEmbeddedStep st (.setWeight n k w) = .ret st' .unit ∧ SoleHalves st.g.edges n k e.target e.comp ∧
      st'.g = st.g ∧ seenE st'.mem st'.g.edges =
        changeAt (seenE st.mem st.g.edges) (fun i x => decide ((i, x) = (n, k) ∨ (i, x) = (e.target, e.comp)))
          (fun e => e.setWeight w) := by
  rw [edgeAt_seenE, Option.map_eq_some_iff] at hk
  obtain ⟨e₀, he, rfl⟩ := hk
  obtain ⟨h4, e', h1, h2, _, h3⟩ := hemb n k e₀ he
  have h : SoleHalves st.g.edges n k e₀.target e₀.comp := ⟨h4, e₀, e', he, h1, rfl, h2, h3, fun i j f hf ha =>
    no_third he h1 h4 h3 hf ha (htwo e₀.weight).1⟩
  refine ⟨⟨st.mem.write e₀.weight w, st.g⟩, ?_, h, rfl, seenE_write he h _ _⟩
  have he' : st.g.edges[n]?.bind (·[k]?) = some e₀ := he
  unfold sharedEmbeddedStep
  simp only [he']

example : (run (sharedEmbeddedStep (N := Unit) (W := Nat) (M := Unit)) ⟨⟨fun _ => 0, 0⟩, ⟨[], []⟩⟩
    [.addNode (), .addNode (), .join 0 1 5 () (), .insertJoin 0 0 1 1 5 () (), .join 1 1 6 () (), .setWeight 1 1 9]).map
      (fun r => seenE r.1.mem r.1.g.edges) =
    some [[⟨1, 1, 9, ()⟩, ⟨1, 0, 5, ()⟩], [⟨0, 1, 5, ()⟩, ⟨0, 0, 9, ()⟩, ⟨1, 3, 6, ()⟩, ⟨1, 2, 6, ()⟩]] := by decide

/-- C21 fails for embedded graphs constructed from initializer lists: each half gets a weight of its own.  Setting the
weight through one half is not seen through the other and the graph becomes inconsistent. -/
theorem C21_embedded_init_violated :
    ∃ (m m' : Mem Nat) (s : Edges (EEdge Nat Unit)) (s' : Edges (EEdge Nat Unit)), Embedded s ∧
      makeEmbeddedShared m s = .ok (m', s') ∧ seenE m' s' = s ∧
      ∃ st', sharedEmbeddedStep (N := Unit) ⟨m', ⟨[(), ()], s'⟩⟩ (.setWeight 0 0 7) = .ret st' .unit ∧
        seenE st'.mem st'.g.edges = [[⟨1, 0, 7, ()⟩], [⟨0, 0, 5, ()⟩]] ∧ ¬ Embedded (seenE st'.mem st'.g.edges) := by
  refine ⟨⟨fun _ => 0, 0⟩, (initEmbedded ⟨fun _ => 0, 0⟩ [[⟨1, 0, 5, ()⟩], [⟨0, 0, 5, ()⟩]]).1,
    [[⟨1, 0, 5, ()⟩], [⟨0, 0, 5, ()⟩]], [[⟨1, 0, 0, ()⟩], [⟨0, 0, 1, ()⟩]], ?_, rfl, by decide, _, rfl, by decide, ?_⟩
  · intro n k e he
    match n, k with
    | 0, 0 => cases he; exact ⟨by decide, _, rfl, rfl, rfl, rfl⟩
    | 1, 0 => cases he; exact ⟨by decide, _, rfl, rfl, rfl, rfl⟩
    | 0, k + 1 => simp [edgeAt] at he
    | 1, k + 1 => simp [edgeAt] at he
    | n + 2, k => simp [edgeAt] at he
  · intro h
    obtain ⟨_, e', he', _, _, h3⟩ := h 0 0 ⟨1, 0, 7, ()⟩ (by decide)
    have : e' = ⟨0, 0, 5, ()⟩ := by
      have hd : edgeAt (seenE (M := Unit) ((initEmbedded (M := Unit) ⟨fun _ => 0, 0⟩ [[⟨1, 0, 5, ()⟩], [⟨0, 0, 5, ()⟩]]).1.write 0 7)
        [[⟨1, 0, 0, ()⟩], [⟨0, 0, 1, ()⟩]]) 1 0 = some ⟨0, 0, 5, ()⟩ := by decide
      exact Option.some.inj (he'.symm.trans hd)
    rw [this] at h3
    cases h3

/-! ### C27 -/

/-- `s'`, with memory `m'`, is a copy of `s`, with memory `m`: the structure of the graph is the same, half edges share a
weight object in the copy precisely if they do in the original, the weight objects of the copy are new, have the same
values, and those of the original are left alone. -/
def IsCopy {W E : Type} [HasAddr E] (setAddr : E → Nat → E) (m m' : Mem W) (s s' : Edges E) : Prop :=
  ∃ φ : Nat → Nat, s' = s.map (·.map fun e => setAddr e (φ (addr e))) ∧
    (∀ a b, uses s a ≠ 0 → uses s b ≠ 0 → φ a = φ b → a = b) ∧
    (∀ a, uses s a ≠ 0 → m.next ≤ φ a ∧ φ a < m'.next ∧ m'.cell (φ a) = m.cell a) ∧
    (∀ a, a < m.next → m'.cell a = m.cell a)

theorem used_iff {E : Type} [SetAddr E] (s : Edges E) (a : Nat) : uses s a ≠ 0 → Used s a := by
  intro h
  by_contra hc
  apply h
  unfold uses
  rw [List.sum_eq_zero_iff_forall_eq_nat]
  intro x hx
  obtain ⟨l, hl, rfl⟩ := List.mem_map.1 hx
  rw [List.countP_eq_zero]
  intro e he ha
  obtain ⟨n, hn⟩ := List.mem_iff_getElem?.1 hl
  obtain ⟨k, hk⟩ := List.mem_iff_getElem?.1 he
  exact hc ⟨n, k, e, by unfold edgeAt; rw [hn]; exact hk, by simpa using ha⟩

theorem isCopy_of {W E : Type} [SetAddr E] {m m' : Mem W} {s s' : Edges E} {φ : Nat → Nat} (h : Copied m m' s s' φ) :
    IsCopy SetAddr.setAddr m m' s s' :=
  ⟨φ, h.eq, fun a b ha hb => h.inj a b (used_iff s a ha) (used_iff s b hb), fun a ha => h.fresh a (used_iff s a ha), h.old⟩

/-- C27.  Copying any graph with shared weights, whatever they are shared between, gives a copy which shares weights in the
same way, and nothing with the original. -/
theorem C27_copy_shared {W M : Type} (m : Mem W) (s : Edges (Edge Nat M)) (hm : ∀ a, m.next ≤ a → uses s a = 0) :
    ∃ m' s', copyShared m s = .ok (m', s') ∧ IsCopy (fun e a => { e with weight := a }) m m' s s' := by
  obtain ⟨m', s', φ, h1, h2⟩ := copyShared_spec m s (by
    rintro a ⟨n, k, e, he, rfl⟩
    have h1 := uses_pos he
    by_contra hc
    have := hm (addr e) (by omega)
    omega)
  exact ⟨m', s', h1, isCopy_of h2⟩

/-- C27 for embedded graphs. -/
theorem C27_copy_shared_embedded {W M : Type} (m : Mem W) (s : Edges (EEdge Nat M)) (hemb : Embedded s)
    (htwo : AtMostTwo m.next s) :
    ∃ m' s', copySharedEmbedded m s = .ok (m', s') ∧ IsCopy (fun e a => { e with weight := a }) m m' s s' := by
  obtain ⟨m', s', φ, h1, h2⟩ := copySharedEmbedded_spec m s ⟨hemb, htwo⟩
  exact ⟨m', s', h1, isCopy_of h2⟩

/-- C27.  What this means to users: the copy looks the same as the original; and whatever is written to weights of the copy
is not seen in the original, nor the other way round. -/
theorem C27_independent {W M : Type} (m m' : Mem W) (s s' : Edges (Edge Nat M)) (hm : ∀ a, m.next ≤ a → uses s a = 0)
    (h : IsCopy (fun e a => { e with weight := a }) m m' s s') :
    seen m' s' = seen m s ∧ seen m' s = seen m s ∧
    (∀ n k e w, edgeAt s' n k = some e → seen (m'.write e.weight w) s = seen m s) ∧
    (∀ n k e w, edgeAt s n k = some e → seen (m'.write e.weight w) s' = seen m s) := by
  obtain ⟨φ, rfl, _, h3, h4⟩ := h
  have hlt : ∀ l ∈ s, ∀ e ∈ l, e.weight < m.next ∧ uses s e.weight ≠ 0 := by
    intro l hl e he
    obtain ⟨n, hn⟩ := List.mem_iff_getElem?.1 hl
    obtain ⟨k, hk⟩ := List.mem_iff_getElem?.1 he
    have h1 := uses_pos (s := s) (n := n) (k := k) (e := e) (by unfold edgeAt; rw [hn]; exact hk)
    have h2 := hm e.weight
    have h1' : 0 < uses s e.weight := h1
    exact ⟨by by_contra hc; have := h2 (by omega); omega, by omega⟩
  have h5 : ∀ mm : Mem W, (∀ a, a < m.next → mm.cell a = m.cell a) → seen mm s = seen m s := by
    intro mm hmm
    unfold seen
    apply List.map_congr_left
    intro l hl
    apply List.map_congr_left
    intro e he
    unfold Edge.see
    rw [hmm _ (hlt l hl e he).1]
  have h6 : ∀ mm : Mem W, (∀ a, uses s a ≠ 0 → mm.cell (φ a) = m.cell a) →
      seen mm (s.map (·.map fun e => { e with weight := φ (addr e) })) = seen m s := by
    intro mm hmm
    unfold seen
    rw [List.map_map]
    apply List.map_congr_left
    intro l hl
    simp only [Function.comp, List.map_map]
    apply List.map_congr_left
    intro e he
    simp only [Function.comp, Edge.see, addr]
    rw [hmm _ (hlt l hl e he).2]
  have mem_of : ∀ {E : Type} {s : Edges E} {n k : Nat} {e : E}, edgeAt s n k = some e → ∃ l ∈ s, e ∈ l := by
    intro E s n k e he
    obtain ⟨l, hl, hk⟩ := Option.bind_eq_some_iff.1 he
    exact ⟨l, List.mem_of_getElem? hl, List.mem_of_getElem? hk⟩
  refine ⟨h6 m' fun a ha => (h3 a ha).2.2, h5 m' h4, ?_, ?_⟩
  · intro n k e w he
    obtain ⟨l, hl, hel⟩ := mem_of he
    obtain ⟨l₀, hl₀, rfl⟩ := List.mem_map.1 hl
    obtain ⟨e₀, he₀, rfl⟩ := List.mem_map.1 hel
    apply h5
    intro a ha
    have := (h3 (addr e₀) (hlt l₀ hl₀ e₀ he₀).2).1
    unfold Mem.write
    simp only
    rw [if_neg (by omega), h4 a ha]
  · intro n k e w he
    obtain ⟨l, hl, hel⟩ := mem_of he
    apply h6
    intro a ha
    have h7 := (hlt l hl e hel).1
    have h8 := h3 a ha
    unfold Mem.write
    simp only
    rw [if_neg (by omega), h8.2.2]

example : (∀ a, 3 ≤ a → uses [[(⟨1, 2, ()⟩ : Edge Nat Unit), ⟨1, 1, ()⟩], [⟨0, 2, ()⟩, ⟨0, 1, ()⟩]] a = 0) := by
  intro a ha
  simp [uses, addr]
  omega
example : (match copyShared (⟨fun a => a + 10, 3⟩ : Mem Nat) [[(⟨1, 2, ()⟩ : Edge Nat Unit), ⟨1, 1, ()⟩], [⟨0, 2, ()⟩, ⟨0, 1, ()⟩]] with
    | .ok (m', s') => s' = [[⟨1, 3, ()⟩, ⟨1, 4, ()⟩], [⟨0, 3, ()⟩, ⟨0, 4, ()⟩]] ∧ m'.cell 3 = 12 ∧ m'.cell 4 = 11
    | _ => False) := by exact ⟨rfl, rfl, rfl⟩
example : (match copySharedEmbedded (⟨fun a => a + 10, 3⟩ : Mem Nat)
      [[(⟨1, 0, 2, ()⟩ : EEdge Nat Unit), ⟨0, 2, 1, ()⟩, ⟨0, 1, 1, ()⟩], [⟨0, 0, 2, ()⟩]] with
    | .ok (m', s') => s' = [[⟨1, 0, 3, ()⟩, ⟨0, 2, 4, ()⟩, ⟨0, 1, 4, ()⟩], [⟨0, 0, 3, ()⟩]] ∧ m'.cell 4 = 11
    | _ => False) := by exact ⟨rfl, rfl⟩

end Verif.Props
