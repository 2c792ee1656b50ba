import Verif.Model.MetaData
import Verif.Props.Graph
set_option linter.unusedSimpArgs false

/-! # C111: meta data of edges, and edges addressed from the end

Each half of an edge has meta data of its own. `edgeAt s n k` is the `k`-th edge of node `n`; `changeAt s P f` is the graph in which the half edges at the positions `P` have been changed by `f` and nothing else. -/
namespace Verif.Props
open Verif.Graph Verif.MetaData Verif.Spec

section
variable {W M σ R : Type}

namespace MetaData

theorem onEdge_changeAt {E : Type} (s : Edges E) (n k : Nat) (f : E → E) : onEdge s n k f = changeAt s (fun i x => decide ((i, x) = (n, k))) f := by
  apply edges_ext
  · rw [length_onEdge, length_changeAt]
  · intro i x
    rw [edgeAt_onEdge, edgeAt_changeAt]
    by_cases h : (i, x) = (n, k)
    · rw [if_pos h]; simp [h]
    · rw [if_neg h]; cases edgeAt s i x <;> simp [h]

theorem mult_md [DecidableEq W] {s s' : Edges (Edge W M)} (hl : s'.length = s.length)
    (h : ∀ i x, (edgeAt s' i x).map (fun e => (e.target, e.weight)) = (edgeAt s i x).map (fun e => (e.target, e.weight))) (i j : Nat) (w : W) : mult s' i j w = mult s i j w := by
  unfold mult
  cases hi : s[i]? with
  | none =>
    have : s'[i]? = none := by rw [List.getElem?_eq_none_iff] at hi ⊢; omega
    rw [this]
  | some l =>
    have hlt := (List.getElem?_eq_some_iff.1 hi).1
    have : s'[i]? = some s'[i] := List.getElem?_eq_getElem (by omega)
    rw [this]
    have hm : (s'[i]).map (fun e => (e.target, e.weight)) = l.map (fun e => (e.target, e.weight)) := by
      apply List.ext_getElem?
      intro x
      have := h i x
      unfold edgeAt at this
      rw [hi, ‹s'[i]? = some s'[i]›] at this
      simpa using this
    have hc : ∀ l : List (Edge W M), (l.countP fun e => decide (e.target = j ∧ e.weight = w)) = (l.map fun e => (e.target, e.weight)).countP fun q => decide (q.1 = j ∧ q.2 = w) := by
      intro l; rw [List.countP_map]; rfl
    simp only
    rw [hc, hc, hm]

theorem reciprocal_md [DecidableEq W] {s : Edges (Edge W M)} (hr : Reciprocal s) (P : Nat → Nat → Bool) (g : Edge W M → M) : Reciprocal (changeAt s P fun e => { e with md := g e }) := by
  have hm := mult_md (s := s) (s' := changeAt s P fun e => { e with md := g e }) (length_changeAt _ _ _) fun i x => by
    rw [edgeAt_changeAt]
    cases edgeAt s i x with
    | none => rfl
    | some e => simp only [Option.map_some]; split <;> rfl
  exact ⟨changeAt_inRange _ _ (fun _ => rfl) hr.inRange, fun i j hij w => by rw [hm, hm]; exact hr.links i j hij w, fun i w => by rw [hm]; exact hr.loops i w⟩

theorem embedded_md {s : Edges (EEdge W M)} (hr : Embedded s) (P : Nat → Nat → Bool) (g : EEdge W M → M) : Embedded (changeAt s P fun e => { e with md := g e }) := by
  intro n k e he
  rw [edgeAt_changeAt] at he
  obtain ⟨e₀, he₀, rfl⟩ := Option.map_eq_some_iff.1 he
  obtain ⟨h1, e', h2, h3, h4, h5⟩ := hr n k e₀ he₀
  have ht : ∀ i x (e : EEdge W M), (if P i x = true then ({ e with md := g e } : EEdge W M) else e).target = e.target ∧ (if P i x = true then ({ e with md := g e } : EEdge W M) else e).comp = e.comp ∧
      (if P i x = true then ({ e with md := g e } : EEdge W M) else e).weight = e.weight := by
    intro i x e; split <;> exact ⟨rfl, rfl, rfl⟩
  rw [(ht n k e₀).1, (ht n k e₀).2.1, (ht n k e₀).2.2]
  refine ⟨h1, _, by rw [edgeAt_changeAt, h2]; rfl, ?_⟩
  obtain ⟨a, b, c⟩ := ht e₀.target e₀.comp e'
  exact ⟨a.trans h3, b.trans h4, c.trans h5⟩

end MetaData
open Verif.Props.MetaData

/-- **C111 (part)** Setting the meta data of an edge changes those of the selected half, and nothing else: not the other half, no weight and nothing about the structure, so that an undirected graph remains one. -/
theorem C111_set_meta {s : Edges (Edge W M)} {n k : Nat} {e : Edge W M} (he : edgeAt s n k = some e) (m : M) :
    setMeta s n k m = .ok (changeAt s (fun i x => decide ((i, x) = (n, k))) fun e => { e with md := m }) ∧
    ∀ [DecidableEq W], Reciprocal s → Reciprocal (changeAt s (fun i x => decide ((i, x) = (n, k))) fun e => { e with md := m }) := by
  refine ⟨?_, fun hr => reciprocal_md hr _ fun _ => m⟩
  unfold setMeta
  rw [show s[n]?.bind (·[k]?) = some e from he]
  simp only
  rw [onEdge_changeAt]

/-- **C111 (part)** The same for embedded graphs. -/
theorem C111_set_meta_embedded {s : Edges (EEdge W M)} {n k : Nat} {e : EEdge W M} (he : edgeAt s n k = some e) (m : M) :
    setMetaEmbedded s n k m = .ok (changeAt s (fun i x => decide ((i, x) = (n, k))) fun e => { e with md := m }) ∧
    (Embedded s → Embedded (changeAt s (fun i x => decide ((i, x) = (n, k))) fun e => { e with md := m })) := by
  refine ⟨?_, fun hr => embedded_md hr _ fun _ => m⟩
  unfold setMetaEmbedded
  rw [show s[n]?.bind (·[k]?) = some e from he]
  simp only
  rw [onEdge_changeAt]

/-- **C111 (part)** A function which changes meta data is called for those of the selected half; what it returns is returned. -/
theorem C111_mutate_meta {s : Edges (Edge W M)} {n k : Nat} {e : Edge W M} (he : edgeAt s n k = some e) (f : M → M × R) :
    mutateMeta s n k f = .ok (changeAt s (fun i x => decide ((i, x) = (n, k))) fun e => { e with md := (f e.md).1 }, (f e.md).2) ∧
    ∀ [DecidableEq W], Reciprocal s → Reciprocal (changeAt s (fun i x => decide ((i, x) = (n, k))) fun e => { e with md := (f e.md).1 }) := by
  refine ⟨?_, fun hr => reciprocal_md hr _ fun e => (f e.md).1⟩
  unfold mutateMeta
  rw [show s[n]?.bind (·[k]?) = some e from he]
  simp only
  rw [onEdge_changeAt]

/-- **C111 (part)** The same for embedded graphs. -/
theorem C111_mutate_meta_embedded {s : Edges (EEdge W M)} {n k : Nat} {e : EEdge W M} (he : edgeAt s n k = some e) (f : M → M × R) :
    mutateMetaEmbedded s n k f = .ok (changeAt s (fun i x => decide ((i, x) = (n, k))) fun e => { e with md := (f e.md).1 }, (f e.md).2) ∧
    (Embedded s → Embedded (changeAt s (fun i x => decide ((i, x) = (n, k))) fun e => { e with md := (f e.md).1 })) := by
  refine ⟨?_, fun hr => embedded_md hr _ fun e => (f e.md).1⟩
  unfold mutateMetaEmbedded
  rw [show s[n]?.bind (·[k]?) = some e from he]
  simp only
  rw [onEdge_changeAt]

/-- **C111 (part)** An operation to which a reverse iterator is given acts on the edge to which this iterator points: the one which comes as number `r` if the edges of the node are listed from the last to the first.  With the iterator behind
the last one it is undefined. -/
theorem C111_reverse {E A : Type} (s : Edges E) (n : Nat) (l : List E) (hl : s[n]? = some l) (op : Nat → Res A) :
    (∀ r e, l.reverse[r]? = some e → ∃ k, edgeAt s n k = some e ∧ k + r + 1 = l.length ∧ viaReverse s n r op = op k) ∧ viaReverse s n l.length op = .ub := by
  constructor
  · intro r e he
    have hr : r < l.length := by simpa using (List.getElem?_eq_some_iff.1 he).1
    rw [List.getElem?_reverse hr] at he
    refine ⟨l.length - 1 - r, by unfold edgeAt; rw [hl]; exact he, by omega, ?_⟩
    unfold viaReverse fromReverse
    rw [hl]
    simp only
    rw [if_pos (Nat.le_of_lt hr), if_neg (by omega), show l.length - r - 1 = l.length - 1 - r by omega]
    rfl
  · unfold viaReverse fromReverse
    rw [hl]
    simp [Res.bind]

/-- **C111 (part)** The weight of a link of an undirected graph can be set whatever the meta data: the weights of the selected half and of one partner change, and nothing else. -/
theorem C111_link_weight [DecidableEq W] [DecidableEq M] {s : Edges (Edge W M)} (hr : Reciprocal s) {n k : Nat} {e : Edge W M} (he : edgeAt s n k = some e) (hl : e.target ≠ n) (w : W) :
    ∃ p e', Partner s n k e p e' ∧ setWeightUndirected s n k w = .ok (changeAt s (fun i x => decide ((i, x) = (n, k) ∨ (i, x) = (e.target, p))) fun e => { e with weight := w }) := by
  obtain ⟨p, e', h1, h2, h3, h4⟩ := Reciprocal.exists_partner hr he
  obtain ⟨lt, hlt, hat⟩ := Option.bind_eq_some_iff.1 h1
  have hp : ∃ p, partnerPos s n k e = .ok p := by
    unfold partnerPos
    simp only [hlt]
    split
    · exact ⟨_, rfl⟩
    · rename_i hf
      exfalso
      apply hf
      unfold partnerIdx
      rw [if_neg (Ne.symm hl)]
      apply List.findIdx_lt_length_of_exists
      exact ⟨e', List.mem_of_getElem? hat, by simp [h2, h3]⟩
  obtain ⟨p, hp⟩ := hp
  obtain ⟨e', he'⟩ := partnerPos_spec hp
  exact ⟨p, e', he', setWeightUndirected_spec he hp w⟩

/-- **C111 (part)** For a loop the partner is one which agrees in the meta data, too: if there is such a one, then weights are set as for links, otherwise the operation throws. -/
theorem C111_loop_weight [DecidableEq W] [DecidableEq M] {s : Edges (Edge W M)} {n k : Nat} {e : Edge W M} (he : edgeAt s n k = some e) (hl : e.target = n) (w : W) :
    ((∃ p, p ≠ k ∧ edgeAt s n p = some e) → ∃ p, p ≠ k ∧ edgeAt s n p = some e ∧ setWeightUndirected s n k w = .ok (changeAt s (fun i x => decide ((i, x) = (n, k) ∨ (i, x) = (n, p))) fun e => { e with weight := w })) ∧
    ((¬ ∃ p, p ≠ k ∧ edgeAt s n p = some e) → setWeightUndirected s n k w = .throws) := by
  obtain ⟨lt, hlt, hat⟩ := Option.bind_eq_some_iff.1 he
  have hpos : partnerPos s n k e = if partnerIdx lt n k e < lt.length then .ok (partnerIdx lt n k e) else .throws := by
    unfold partnerPos; rw [hl, hlt]
  have hlen : (List.range lt.length).length = lt.length := List.length_range
  constructor
  · rintro ⟨p, hpk, hp⟩
    obtain ⟨lt', hlt', hp'⟩ := Option.bind_eq_some_iff.1 hp
    rw [hlt] at hlt'; cases hlt'
    have hpl := (List.getElem?_eq_some_iff.1 hp').1
    have hi : partnerIdx lt n k e < lt.length := by
      unfold partnerIdx
      rw [if_pos hl.symm]
      have : (List.range lt.length).findIdx (fun i => decide (i ≠ k) && decide (lt[i]? = some e)) < (List.range lt.length).length := by
        apply List.findIdx_lt_length_of_exists
        exact ⟨p, by simpa using hpl, by simp [hpk, hp']⟩
      rwa [hlen] at this
    rw [if_pos hi] at hpos
    have hf : (List.range lt.length).findIdx (fun i => decide (i ≠ k) && decide (lt[i]? = some e)) < (List.range lt.length).length := by
      unfold partnerIdx at hi
      rw [if_pos hl.symm] at hi
      rw [hlen]; exact hi
    have hsat := List.findIdx_getElem (w := hf)
    simp only [List.getElem_range, Bool.and_eq_true, decide_eq_true_eq] at hsat
    have hidx : partnerIdx lt n k e = (List.range lt.length).findIdx (fun i => decide (i ≠ k) && decide (lt[i]? = some e)) := by
      unfold partnerIdx; rw [if_pos hl.symm]
    refine ⟨partnerIdx lt n k e, by rw [hidx]; exact hsat.1, ?_, ?_⟩
    · unfold edgeAt; rw [hlt]; show lt[_]? = _; rw [hidx]; exact hsat.2
    · rw [setWeightUndirected_spec he hpos w]
      subst hl
      rfl
  · intro hno
    have hi : ¬ partnerIdx lt n k e < lt.length := by
      intro hi
      unfold partnerIdx at hi
      rw [if_pos hl.symm] at hi
      have hf : (List.range lt.length).findIdx (fun i => decide (i ≠ k) && decide (lt[i]? = some e)) < (List.range lt.length).length := by rw [hlen]; exact hi
      have hsat := List.findIdx_getElem (w := hf)
      simp only [List.getElem_range, Bool.and_eq_true, decide_eq_true_eq] at hsat
      exact hno ⟨_, hsat.1, by unfold edgeAt; rw [hlt]; exact hsat.2⟩
    rw [if_neg hi] at hpos
    unfold setWeightUndirected
    rw [show s[n]?.bind (·[k]?) = some e from he]
    simp only [hpos, Res.bind]

/-- **C111 (part)** If a function whose copies share a state is used to change a weight, then it is called for the partner first and then, with the state which this has left, for the selected half; nothing else changes.  The weights of the two halves
agree afterwards if and only if it has given the same weight twice. -/
theorem C111_mutate_shared [DecidableEq W] [DecidableEq M] {s : Edges (Edge W M)} {n k : Nat} {e : Edge W M} (he : edgeAt s n k = some e) {p : Nat} (hp : partnerPos s n k e = .ok p) (f : σ → W → σ × W) (st : σ) :
    ∃ s', mutateWeightShared s n k f st = .ok (s', (f (f st e.weight).1 e.weight).1) ∧ s'.length = s.length ∧
      edgeAt s' n k = some { e with weight := (f (f st e.weight).1 e.weight).2 } ∧
      (edgeAt s' e.target p).map (·.weight) = some (f st e.weight).2 ∧
      ∀ i x, (i, x) ≠ (n, k) → (i, x) ≠ (e.target, p) → edgeAt s' i x = edgeAt s i x := by
  obtain ⟨e', h1, h2, h3, h4⟩ := partnerPos_spec hp
  refine ⟨onEdge (onEdge s e.target p fun x => x.setWeight (f st e'.weight).2) n k fun x => x.setWeight (f (f st e'.weight).1 e.weight).2, ?_, ?_, ?_, ?_, ?_⟩
  · unfold mutateWeightShared
    rw [show s[n]?.bind (·[k]?) = some e from he]
    simp only [hp, Res.bind]
    rw [show s[e.target]?.bind (·[p]?) = some e' from h1]
    simp only [h3]
  · rw [length_onEdge, length_onEdge]
  · rw [edgeAt_onEdge, if_pos rfl, edgeAt_onEdge, if_neg (Ne.symm h4), he, h3]
    rfl
  · rw [edgeAt_onEdge, if_neg h4, edgeAt_onEdge, if_pos rfl, h1, h3]
    rfl
  · intro i x hx1 hx2
    rw [edgeAt_onEdge, if_neg hx1, edgeAt_onEdge, if_neg hx2]

end

/-- **C111 (violated)** The weight of a loop cannot be set if its two halves have different meta data: this throws, although the graph is as it should be. -/
theorem C111_loop_violated : ∃ (s : Edges (Edge Nat Nat)), Reciprocal s ∧ (∃ p e', Partner s 0 0 ⟨0, 5, 1⟩ p e') ∧ edgeAt s 0 0 = some ⟨0, 5, 1⟩ ∧ setWeightUndirected s 0 0 7 = .throws := by
  refine ⟨[[⟨0, 5, 1⟩, ⟨0, 5, 2⟩]], ⟨?_, ?_, ?_⟩, ⟨1, ⟨0, 5, 2⟩, rfl, rfl, rfl, by decide⟩, rfl, by decide⟩
  · intro l hl e he
    simp at hl; subst hl
    simp at he
    rcases he with rfl | rfl <;> decide
  · intro i j hij w
    match i, j with
    | 0, 0 => exact absurd rfl hij
    | 0, j + 1 => simp [mult]
    | i + 1, 0 => simp [mult]
    | i + 1, j + 1 => simp [mult]
  · intro i w
    match i with
    | 0 =>
      simp only [mult, List.getElem?_cons_zero, List.countP_cons, List.countP_nil]
      by_cases h : 5 = w <;> simp [h]
    | i + 1 => simp [mult]

/-- **C111 (violated)** Changing a weight by a function which counts its calls leaves an undirected graph whose halves have different weights, which is not one any more. -/
theorem C111_mutate_shared_violated : ∃ (s s' : Edges (Edge Nat Unit)), Reciprocal s ∧ mutateWeightShared s 0 0 (fun c w => (c + 1, w + c)) 1 = .ok (s', 3) ∧ s' = [[⟨1, 7, ()⟩], [⟨0, 6, ()⟩]] ∧ ¬ Reciprocal s' := by
  refine ⟨[[⟨1, 5, ()⟩], [⟨0, 5, ()⟩]], _, ⟨?_, ?_, ?_⟩, by decide, rfl, ?_⟩
  · intro l hl e he
    simp at hl
    rcases hl with rfl | rfl <;> (simp at he; subst he; decide)
  · intro i j hij w
    match i, j with
    | 0, 0 => exact absurd rfl hij
    | 0, 1 => simp [mult]
    | 1, 0 => simp [mult]
    | 1, 1 => exact absurd rfl hij
    | 0, j + 2 => simp [mult]
    | i + 2, 0 => simp [mult]
    | 1, j + 2 => simp [mult]
    | i + 2, 1 => simp [mult]
    | i + 2, j + 2 => simp [mult]
  · intro i w
    match i with
    | 0 => simp [mult]
    | 1 => simp [mult]
    | i + 2 => simp [mult]
  · intro h
    have := h.links 0 1 (by decide) 7
    revert this
    decide

/-! Not vacuous: graphs with meta data. -/

example : setMeta [[⟨1, 5, 10⟩], [⟨0, 5, 20⟩]] 1 0 30 = (.ok [[⟨1, 5, 10⟩], [⟨0, 5, 30⟩]] : Res (Edges (Edge Nat Nat))) := by decide
example : mutateMetaEmbedded [[⟨0, 1, 5, 10⟩, ⟨0, 0, 5, 20⟩]] 0 1 (fun m => (m + 1, "done")) = (.ok ([[⟨0, 1, 5, 10⟩, ⟨0, 0, 5, 21⟩]], "done") : Res (Edges (EEdge Nat Nat) × String)) := by decide
example : viaReverse ([[⟨1, 5, 10⟩, ⟨1, 6, 11⟩], [⟨0, 5, 20⟩, ⟨0, 6, 21⟩]] : Edges (Edge Nat Nat)) 0 0 (fun k => setMeta [[⟨1, 5, 10⟩, ⟨1, 6, 11⟩], [⟨0, 5, 20⟩, ⟨0, 6, 21⟩]] 0 k 30) =
    (.ok [[⟨1, 5, 10⟩, ⟨1, 6, 30⟩], [⟨0, 5, 20⟩, ⟨0, 6, 21⟩]] : Res (Edges (Edge Nat Nat))) := by decide
example : setWeightUndirected [[⟨1, 5, 10⟩], [⟨0, 5, 20⟩]] 0 0 7 = (.ok [[⟨1, 7, 10⟩], [⟨0, 7, 20⟩]] : Res (Edges (Edge Nat Nat))) := by decide
example : setWeightUndirected [[⟨0, 5, 1⟩, ⟨0, 5, 1⟩]] 0 1 7 = (.ok [[⟨0, 7, 1⟩, ⟨0, 7, 1⟩]] : Res (Edges (Edge Nat Nat))) := by decide
example : partnerPos [[⟨1, 5, 10⟩], [⟨0, 5, 20⟩]] 0 0 (⟨1, 5, 10⟩ : Edge Nat Nat) = .ok 0 := by decide

end Verif.Props
