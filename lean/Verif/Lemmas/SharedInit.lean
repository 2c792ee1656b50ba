import Verif.Lemmas.SharedWeights
import Verif.Lemmas.GraphInit
/-
Lemmas on the construction of undirected graphs with shared weights from initializer lists.
-/
set_option linter.unusedSectionVars false
set_option linter.unusedSimpArgs false
set_option linter.unusedVariables false

namespace Verif.Graph
open Verif.Spec EdgeLike

section mate
variable {W : Type} [DecidableEq W]

/-- The position of the first edge with a given key. -/
def first (l : List (Edge W Unit)) (c : Nat × W) : Nat := l.findIdx fun e => decide (key e = c)

theorem first_eq {l : List (Edge W Unit)} {c : Nat × W} {a b : Nat} (hb : b ≤ l.length) (hab : a < b)
    (h : ∀ q (hq : q < l.length), key l[q] = c ↔ a ≤ q ∧ q < b) : first l c = a := by
  unfold first
  rw [List.findIdx_eq (by omega)]
  constructor
  · simp only [decide_eq_true_eq]
    exact (h a (by omega)).2 ⟨Nat.le_refl _, hab⟩
  · intro j hj
    simp only [decide_eq_false_iff_not]
    intro hc
    have := (h j (by omega)).1 hc
    omega

/-- Where the other half of the edge at `(n, k)` is. -/
def mate (s : Edges (Edge W Unit)) (n k : Nat) : Nat × Nat :=
  match s[n]? with
  | none => (n, k)
  | some l => match l[k]? with
    | none => (n, k)
    | some e =>
      if e.target = n then (n, if (k - first l (key e)) % 2 = 0 then k + 1 else k - 1)
      else match s[e.target]? with
        | none => (n, k)
        | some t => (e.target, first t (n, e.weight) + (k - first l (key e)))

/-- Edges with one key form an interval, whose length is the number of such edges. -/
theorem interval {k : WeightKind W} (hk : WeightsOk Unit k) {s : Edges (Edge W Unit)} (hs : ∀ l ∈ s, Ord k l) {i : Nat}
    {l : List (Edge W Unit)} (hl : s[i]? = some l) (c : Nat × W) :
    ∃ a b, a ≤ b ∧ b ≤ l.length ∧ (∀ q (hq : q < l.length), key l[q] = c ↔ a ≤ q ∧ q < b) ∧
      mult s i c.1 c.2 = b - a ∧ (a < b → first l c = a) := by
  obtain ⟨a, b, _, h1, h2, h3⟩ := matching_spec hk (hs l (List.mem_of_getElem? hl)) c.1 (⟨0, c.2, ()⟩ : Edge W Unit)
  have h3' : ∀ q (hq : q < l.length), key l[q] = c ↔ a ≤ q ∧ q < b := h3
  exact ⟨a, b, h1, h2, h3', mult_interval hl h1 h2 h3', fun h => first_eq h2 h h3'⟩

theorem mate_loop {s : Edges (Edge W Unit)} {n k : Nat} {l : List (Edge W Unit)} {e : Edge W Unit} (hl : s[n]? = some l)
    (he : l[k]? = some e) (ht : e.target = n) :
    mate s n k = (n, if (k - first l (key e)) % 2 = 0 then k + 1 else k - 1) := by
  unfold mate
  rw [hl]; simp only; rw [he]; simp only; rw [if_pos ht]

theorem mate_link {s : Edges (Edge W Unit)} {n k : Nat} {l t : List (Edge W Unit)} {e : Edge W Unit} (hl : s[n]? = some l)
    (he : l[k]? = some e) (ht : e.target ≠ n) (htt : s[e.target]? = some t) :
    mate s n k = (e.target, first t (n, e.weight) + (k - first l (key e))) := by
  unfold mate
  rw [hl]; simp only; rw [he]; simp only; rw [if_neg ht, htt]

/-- What `mate` does in a graph which passed the checks. -/
theorem mate_spec {k : WeightKind W} (hk : WeightsOk Unit k) {s : Edges (Edge W Unit)} (hs : ∀ l ∈ s, Ord k l)
    (hr : Reciprocal s) {n p : Nat} {e : Edge W Unit} (he : edgeAt s n p = some e) :
    ∃ q e', mate s n p = (e.target, q) ∧ edgeAt s e.target q = some e' ∧ e'.target = n ∧ e'.weight = e.weight ∧
      (e.target, q) ≠ (n, p) ∧ mate s e.target q = (n, p) := by
  obtain ⟨l, hl, hp⟩ := Option.bind_eq_some_iff.1 he
  obtain ⟨hpl, hpe⟩ := List.getElem?_eq_some_iff.1 hp
  obtain ⟨a, b, h1, h2, h3, h4, h5⟩ := interval hk hs hl (key e)
  have hpi := (h3 p hpl).1 (by rw [hpe])
  have hf := h5 (by omega)
  by_cases ht : e.target = n
  · have h6 : 2 ∣ b - a := by
      rw [← h4]; show 2 ∣ mult s n e.target e.weight; rw [ht]; exact hr.loops n e.weight
    have hm := mate_loop hl hp ht
    rw [hf] at hm
    -- the other position
    have key_of : ∀ q, a ≤ q → q < b → ∃ e', l[q]? = some e' ∧ key e' = key e := fun q h7 h8 =>
      ⟨l[q]'(by omega), List.getElem?_eq_getElem (by omega), (h3 q (by omega)).2 ⟨h7, h8⟩⟩
    by_cases hpar : (p - a) % 2 = 0
    · rw [if_pos hpar] at hm
      obtain ⟨e', he', hke⟩ := key_of (p + 1) (by omega) (by omega)
      obtain ⟨k1, k2⟩ := Prod.mk.inj hke
      refine ⟨p + 1, e', by rw [hm, ht], ?_, by rw [k1, ht], k2, by simp, ?_⟩
      · unfold edgeAt; rw [ht, hl]; exact he'
      · rw [ht, mate_loop hl he' (by rw [k1, ht]), hke, hf, if_neg (by omega)]
        simp
    · rw [if_neg hpar] at hm
      obtain ⟨e', he', hke⟩ := key_of (p - 1) (by omega) (by omega)
      obtain ⟨k1, k2⟩ := Prod.mk.inj hke
      refine ⟨p - 1, e', by rw [hm, ht], ?_, by rw [k1, ht], k2, by simp; omega, ?_⟩
      · unfold edgeAt; rw [ht, hl]; exact he'
      · rw [ht, mate_loop hl he' (by rw [k1, ht]), hke, hf, if_pos (by omega)]
        simp; omega
  · have hlt : e.target < s.length := hr.inRange l (List.mem_of_getElem? hl) e (List.mem_of_getElem? hp)
    have htt := List.getElem?_eq_getElem hlt
    obtain ⟨a', b', g1, g2, g3, g4, g5⟩ := interval hk hs htt (n, e.weight)
    have hsz : b - a = b' - a' := by
      rw [← h4, ← g4]; exact hr.links n e.target (Ne.symm ht) e.weight
    have gf := g5 (by omega)
    have hm := mate_link hl hp ht htt
    rw [hf, gf] at hm
    have hq : a' + (p - a) < s[e.target].length := by omega
    have hke := (g3 (a' + (p - a)) hq).2 ⟨by omega, by omega⟩
    obtain ⟨k1, k2⟩ := Prod.mk.inj hke
    have hq' := List.getElem?_eq_getElem hq
    refine ⟨a' + (p - a), _, hm, ?_, k1, k2, fun h => ht (Prod.mk.inj h).1, ?_⟩
    · unfold edgeAt; rw [htt]; exact hq'
    · have ht' : s[e.target][a' + (p - a)].target ≠ e.target := by rw [k1]; exact Ne.symm ht
      rw [mate_link htt hq' ht' (by rw [k1]; exact hl), hke, gf, k1, k2]
      have : first l (e.target, e.weight) = a := hf
      rw [this]
      simp; omega

end mate

section process
variable {W : Type} [DecidableEq W]

/-- The state of the construction before the edge at `(i, p)` is added: what is there looks as listed; weights are used at
most twice; halves which are both there share their weight, a half without the other has its weight for itself. -/
structure Partway (s : Edges (Edge W Unit)) (i p : Nat) (l : List (Edge W Unit)) (c : Mem W × Edges (Edge Nat Unit)) : Prop where
  looks : seen c.1 c.2 = s.take i ++ [l.take p]
  two : AtMostTwo c.1.next c.2
  paired : ∀ n k e, edgeAt c.2 n k = some e → ∀ t q, mate s n k = (t, q) →
    match edgeAt c.2 t q with
    | some e' => e'.weight = e.weight
    | none => uses c.2 e.weight = 1

theorem edgeAt_pushed (o : Edges (Edge Nat Unit)) (i : Nat) (r : List (Edge Nat Unit)) (hr : o[i]? = some r) (x : Edge Nat Unit)
    (n k : Nat) :
    edgeAt (onNode o i (· ++ [x])) n k = if n = i ∧ k = r.length then some x else edgeAt o n k := by
  unfold edgeAt
  rw [getElem?_onNode]
  by_cases h : n = i
  · subst h
    rw [if_pos rfl, hr]
    simp only [Option.map_some, Option.bind_some]
    by_cases hk : k = r.length
    · subst hk; simp
    · simp only [hk, and_false, if_false]
      rcases Nat.lt_or_ge k r.length with h1 | h1
      · rw [List.getElem?_append_left h1]
      · rw [List.getElem?_eq_none (by simp; omega), List.getElem?_eq_none (by omega)]
  · simp [h]

theorem uses_pushed (o : Edges (Edge Nat Unit)) (i : Nat) (r : List (Edge Nat Unit)) (hr : o[i]? = some r) (x : Edge Nat Unit)
    (a : Nat) : uses (onNode o i (· ++ [x])) a = uses o a + if x.weight = a then 1 else 0 := by
  have h := uses_onNode o i (· ++ [x]) r hr a
  rw [List.countP_append] at h
  have h2 : List.countP (fun e => decide (addr e = a)) [x] = if x.weight = a then 1 else 0 := by
    simp only [List.countP_cons, List.countP_nil, addr, decide_eq_true_eq, Nat.zero_add]
  omega

theorem seen_append (m : Mem W) (o : Edges (Edge Nat Unit)) (i : Nat) (x : Edge Nat Unit) :
    seen m (onNode o i (· ++ [x])) = onNode (seen m o) i (· ++ [x.see m]) := by
  apply List.ext_getElem?
  intro j
  unfold seen
  rw [getElem?_onNode, List.getElem?_map, List.getElem?_map, getElem?_onNode]
  split
  · cases o[j]? <;> simp
  · rfl

theorem onNode_final {E : Type} (s : Edges E) (l : List E) (i : Nat) (hi : i = s.length) (f : List E → List E) :
    onNode (s ++ [l]) i f = s ++ [f l] := by
  subst hi
  apply List.ext_getElem?
  intro j
  rw [getElem?_onNode]
  rcases Nat.lt_trichotomy j s.length with h | h | h
  · rw [if_neg (by omega), List.getElem?_append_left h, List.getElem?_append_left h]
  · subst h; simp
  · rw [if_neg (by omega), List.getElem?_eq_none (by simp; omega), List.getElem?_eq_none (by simp; omega)]

theorem seen_alloc {m : Mem W} {o : Edges (Edge Nat Unit)} (h : AtMostTwo m.next o) (w : W) : seen (m.alloc w) o = seen m o := by
  unfold seen
  apply List.map_congr_left
  intro r hr
  apply List.map_congr_left
  intro e he
  have := weight_lt h r hr e he
  unfold Edge.see Mem.alloc
  simp only
  rw [if_neg (by omega)]

/-- What is there, and what is not. -/
theorem Partway.get {s : Edges (Edge W Unit)} {i p : Nat} {l : List (Edge W Unit)} {c : Mem W × Edges (Edge Nat Unit)}
    (h : Partway s i p l c) (hl : s[i]? = some l) (n k : Nat) :
    (edgeAt c.2 n k).map (Edge.see c.1) = if n < i ∨ n = i ∧ k < p then edgeAt s n k else none := by
  have hi := (List.getElem?_eq_some_iff.1 hl).1
  rw [← edgeAt_seen, h.looks]
  have hlen : (s.take i).length = i := by simp; omega
  unfold edgeAt
  rcases Nat.lt_trichotomy n i with h1 | h1 | h1
  · rw [List.getElem?_append_left (by omega), List.getElem?_take, if_pos h1, if_pos (.inl h1)]
  · subst h1
    rw [List.getElem?_append_right (by omega), hlen]
    simp only [Nat.sub_self, List.getElem?_cons_zero, Option.bind_some, Nat.lt_irrefl, false_or, true_and]
    rw [hl, List.getElem?_take]
    rfl
  · rw [List.getElem?_eq_none (by simp; omega), if_neg (by omega)]
    rfl

theorem Partway.row {s : Edges (Edge W Unit)} {i p : Nat} {l : List (Edge W Unit)} {c : Mem W × Edges (Edge Nat Unit)}
    (h : Partway s i p l c) (hl : s[i]? = some l) (hp : p ≤ l.length) : ∃ r, c.2[i]? = some r ∧ r.length = p := by
  have hi := (List.getElem?_eq_some_iff.1 hl).1
  have hlen : (s.take i).length = i := by simp; omega
  have h1 : (seen c.1 c.2)[i]? = some (l.take p) := by
    rw [h.looks, List.getElem?_append_right (by omega), hlen]; simp
  unfold seen at h1
  rw [List.getElem?_map, Option.map_eq_some_iff] at h1
  obtain ⟨r, h2, h3⟩ := h1
  refine ⟨r, h2, ?_⟩
  have := congrArg List.length h3
  simp at this
  omega

/-- Before or after, in the order of construction. -/
def Before (x y : Nat × Nat) : Prop := x.1 < y.1 ∨ x.1 = y.1 ∧ x.2 < y.2

instance (x y : Nat × Nat) : Decidable (Before x y) := inferInstanceAs (Decidable (_ ∨ _))

/-- The construction of one half edge: it shares the weight of the other half if that is there already. -/
theorem shareEdge_spec {k : WeightKind W} (hk : WeightsOk Unit k) {s : Edges (Edge W Unit)} (hs : ∀ l ∈ s, Ord k l)
    (hr : Reciprocal s) {i p : Nat} {l : List (Edge W Unit)} {e : Edge W Unit} (hl : s[i]? = some l) (he : l[p]? = some e)
    {c : Mem W × Edges (Edge Nat Unit)} (h : Partway s i p l c) (comp : Option Nat)
    (hc : comp = if Before (mate s i p) (i, p) then some (mate s i p).2 else none) :
    ∃ c', shareEdge c i e.target comp e = .ok c' ∧ Partway s i (p + 1) l c' := by
  have hpl := (List.getElem?_eq_some_iff.1 he).1
  have hel : edgeAt s i p = some e := by unfold edgeAt; rw [hl]; exact he
  have hi := (List.getElem?_eq_some_iff.1 hl).1
  obtain ⟨q, e', hm, hq, hq1, hq2, hne, hmm⟩ := mate_spec hk hs hr hel
  obtain ⟨r, hrow, hrl⟩ := h.row hl (by omega)
  have htake : l.take (p + 1) = l.take p ++ [e] := by
    rw [List.take_add_one, he]; rfl
  have looks' : ∀ (m : Mem W) (x : Edge Nat Unit), seen m c.2 = seen c.1 c.2 → x.see m = e →
      seen m (onNode c.2 i (· ++ [x])) = s.take i ++ [l.take (p + 1)] := by
    intro m x h1 h2
    rw [seen_append, h1, h.looks, onNode_final _ _ _ (by simp; omega), h2, htake]
  have absent : edgeAt c.2 i p = none := by
    have := h.get hl i p
    rw [if_neg (by omega)] at this
    simpa using this
  rw [hm] at hc
  by_cases hb : Before (e.target, q) (i, p)
  · rw [if_pos hb] at hc
    subst hc
    -- the other half is there
    have hget := h.get hl e.target q
    rw [if_pos (show e.target < i ∨ e.target = i ∧ q < p from hb), hq, Option.map_eq_some_iff] at hget
    obtain ⟨f, hf, hfe⟩ := hget
    have hfw : f.weight = f.weight := rfl
    have huse : uses c.2 f.weight = 1 := by
      have := h.paired _ _ _ hf _ _ hmm
      rw [absent] at this
      exact this
    have hf' : c.2[e.target]?.bind (·[q]?) = some f := hf
    refine ⟨(c.1, onNode c.2 i (· ++ [⟨e.target, f.weight, ()⟩])), ?_, ?_, ?_, ?_⟩
    · unfold shareEdge
      simp only [hf']
    · refine looks' c.1 _ rfl ?_
      have h1 : c.1.cell f.weight = e.weight := by
        rw [← hq2, ← hfe]; rfl
      unfold Edge.see
      simp only [h1]
    · intro a
      show uses (onNode c.2 i (· ++ [_])) a ≤ 2 ∧ (c.1.next ≤ a → _)
      rw [uses_pushed _ _ _ hrow]
      have h2 := h.two a
      simp only
      split
      · rename_i h3
        subst h3
        refine ⟨by omega, fun h4 => ?_⟩
        have := h2.2 h4
        omega
      · exact ⟨h2.1, h2.2⟩
    · intro n y g hg t z hmate
      simp only at hg ⊢
      rw [edgeAt_pushed _ _ _ hrow] at hg
      rw [edgeAt_pushed _ _ _ hrow, uses_pushed _ _ _ hrow]
      rw [hrl] at hg ⊢
      by_cases hn : n = i ∧ y = p
      · -- the new half
        rw [if_pos hn] at hg
        obtain ⟨rfl, rfl⟩ := hn
        cases hg
        rw [hm] at hmate
        cases hmate
        rw [if_neg (fun h => hne (Prod.ext h.1 h.2)), hf]
      · rw [if_neg hn] at hg
        by_cases ht : t = i ∧ z = p
        · -- its other half
          obtain ⟨rfl, rfl⟩ := ht
          rw [if_pos ⟨rfl, rfl⟩]
          have hg' := h.get hl n y
          rw [hg] at hg'
          split at hg'
          · have h5 := mate_spec hk hs hr hg'.symm
            obtain ⟨q', e'', m1, m2, m3, m4, m5, m6⟩ := h5
            rw [m1] at hmate
            cases hmate
            rw [m6] at hm
            cases hm
            rw [hg] at hf
            cases hf
            rfl
          · cases hg'
        · rw [if_neg ht]
          have h5 := h.paired n y g hg t z hmate
          cases h6 : edgeAt c.2 t z with
          | some g' => rw [h6] at h5; exact h5
          | none =>
            rw [h6] at h5
            simp only at h5 ⊢
            rw [if_neg, h5]
            intro hfg
            -- a weight used once is used by one edge
            have hne' : (n, y) ≠ (e.target, q) := by
              intro h7
              cases h7
              rw [hmm] at hmate
              cases hmate
              exact ht ⟨rfl, rfl⟩
            have h8 := uses_removeAt_two hf hg hne' g.weight
            have h9 : addr f = g.weight := hfg
            have h10 : addr g = g.weight := rfl
            rw [h9, h10] at h8
            simp only [if_true] at h8
            omega
  · rw [if_neg hb] at hc
    subst hc
    have hnext : uses c.2 c.1.next = 0 := (h.two c.1.next).2 (Nat.le_refl _)
    have babs : edgeAt c.2 e.target q = none := by
      have := h.get hl e.target q
      rw [if_neg (show ¬ (e.target < i ∨ e.target = i ∧ q < p) from hb)] at this
      simpa using this
    refine ⟨(c.1.alloc e.weight, onNode c.2 i (· ++ [⟨e.target, c.1.next, ()⟩])), rfl, ?_, ?_, ?_⟩
    · refine looks' _ _ (seen_alloc h.two _) ?_
      unfold Edge.see Mem.alloc
      simp only [if_true]
    · intro a
      show uses (onNode c.2 i (· ++ [_])) a ≤ 2 ∧ (c.1.next + 1 ≤ a → _)
      rw [uses_pushed _ _ _ hrow]
      have h2 := h.two a
      simp only
      split
      · rename_i h3
        subst h3
        exact ⟨by omega, fun h4 => by omega⟩
      · exact ⟨h2.1, fun h4 => h2.2 (by omega)⟩
    · intro n y g hg t z hmate
      simp only at hg ⊢
      rw [edgeAt_pushed _ _ _ hrow] at hg
      rw [edgeAt_pushed _ _ _ hrow, uses_pushed _ _ _ hrow]
      rw [hrl] at hg ⊢
      by_cases hn : n = i ∧ y = p
      · rw [if_pos hn] at hg
        obtain ⟨rfl, rfl⟩ := hn
        cases hg
        rw [hm] at hmate
        cases hmate
        rw [if_neg (fun h => hne (Prod.ext h.1 h.2)), babs]
        simp [hnext]
      · rw [if_neg hn] at hg
        have hgw : g.weight < c.1.next := by
          obtain ⟨r', h6, h7⟩ := Option.bind_eq_some_iff.1 hg
          exact weight_lt h.two r' (List.mem_of_getElem? h6) g (List.mem_of_getElem? h7)
        by_cases ht : t = i ∧ z = p
        · exfalso
          obtain ⟨rfl, rfl⟩ := ht
          have hg' := h.get hl n y
          rw [hg] at hg'
          split at hg'
          · obtain ⟨q', e'', m1, m2, m3, m4, m5, m6⟩ := mate_spec hk hs hr hg'.symm
            rw [m1] at hmate
            cases hmate
            rw [m6] at hm
            cases hm
            rw [hg] at babs
            cases babs
          · cases hg'
        · rw [if_neg ht]
          have h5 := h.paired n y g hg t z hmate
          cases h6 : edgeAt c.2 t z with
          | some g' => rw [h6] at h5; exact h5
          | none =>
            rw [h6] at h5
            simp only at h5 ⊢
            rw [if_neg (by omega), h5]

theorem shareRange_spec {k : WeightKind W} (hk : WeightsOk Unit k) {s : Edges (Edge W Unit)} (hs : ∀ l ∈ s, Ord k l)
    (hr : Reciprocal s) {i : Nat} {l : List (Edge W Unit)} (hl : s[i]? = some l) (target hi : Nat) (hhi : hi ≤ l.length)
    (comp : Nat → Nat → Option Nat) (d p : Nat) (hp : p + d = hi)
    (ht : ∀ q (hq : q < l.length), p ≤ q → q < hi → l[q].target = target ∧
      comp q (hi - q) = if Before (mate s i q) (i, q) then some (mate s i q).2 else none)
    (c : Mem W × Edges (Edge Nat Unit)) (h : Partway s i p l c) :
    ∃ c', shareRange i target l comp d p c = .ok c' ∧ Partway s i hi l c' := by
  induction d generalizing p c with
  | zero => subst hp; exact ⟨c, rfl, h⟩
  | succ d ih =>
    have hpl : p < l.length := by omega
    have he := List.getElem?_eq_getElem hpl
    obtain ⟨t1, t2⟩ := ht p hpl (Nat.le_refl _) (by omega)
    rw [show hi - p = d + 1 by omega] at t2
    obtain ⟨c₁, h1, h2⟩ := shareEdge_spec hk hs hr hl he h _ t2
    obtain ⟨c', h3, h4⟩ := ih (p + 1) (by omega) (fun q hq h5 h6 => ht q hq (by omega) h6) c₁ h2
    refine ⟨c', ?_, h4⟩
    rw [t1] at h1
    unfold shareRange
    rw [he]
    simp only
    rw [h1]
    exact h3

theorem shareVisits_spec {k : WeightKind W} (hk : WeightsOk Unit k) {s : Edges (Edge W Unit)} (hs : ∀ l ∈ s, Ord k l)
    (hr : Reciprocal s) {i : Nat} {l : List (Edge W Unit)} (hl : s[i]? = some l) (lo : Nat) (hlo' : lo ≤ l.length)
    (hb : ∀ (h0 : 0 < lo) (h1 : lo < l.length), key l[lo - 1] ≠ key l[lo])
    (c : Mem W × Edges (Edge Nat Unit)) (h : Partway s i lo l c) :
    ∃ c', shareVisits l (visitNode k s i l lo) c = .ok c' ∧ Partway s i l.length l c' := by
  induction hn : l.length - lo using Nat.strongRecOn generalizing lo c with
  | ind n ih =>
    rw [visitNode]
    by_cases hlo : lo < l.length
    · rw [dif_pos hlo]
      obtain ⟨u, e1, u1, u2, u3, u4⟩ := blockEnd_spec hk (hs l (List.mem_of_getElem? hl)) lo hlo (fun h0 => hb h0 hlo)
      simp only [e1]
      rw [dif_pos u1]
      have hm : mult s i l[lo].target l[lo].weight = u - lo := mult_interval hl (by omega) u2 u3
      have hf : first l (key l[lo]) = lo := first_eq u2 u1 u3
      have hv : ∃ c₁, shareVisit l c (blockVisit k s i l[lo] lo u) = .ok c₁ ∧ Partway s i u l c₁ := by
        unfold blockVisit
        by_cases ht : l[lo].target = i
        · rw [if_pos ht]
          have h2 : 2 ∣ u - lo := by rw [← hm, ht]; exact hr.loops i _
          refine shareRange_spec hk hs hr hl i u u2 loopComp (u - lo) lo (by omega) ?_ c h
          intro q hq hq1 hq2
          have hkq := (u3 q hq).2 ⟨hq1, hq2⟩
          have htq : l[q].target = i := (Prod.mk.inj hkq).1.trans ht
          refine ⟨htq, ?_⟩
          rw [mate_loop hl (List.getElem?_eq_getElem hq) htq, hkq, hf]
          unfold loopComp
          by_cases hpar : (q - lo) % 2 = 0
          · rw [if_neg (by omega), if_pos hpar, if_neg (by unfold Before; simp)]
          · rw [if_pos (by omega), if_neg hpar, if_pos (by unfold Before; simp; omega)]
        · rw [if_neg ht]
          have hlt : l[lo].target < s.length := hr.inRange l (List.mem_of_getElem? hl) _ (List.getElem_mem hlo)
          have htt := List.getElem?_eq_getElem hlt
          rw [htt]
          simp only
          obtain ⟨a, b, m0, m1, m2, m3⟩ := matching_spec hk (hs _ (List.getElem_mem hlt)) i l[lo]
          have hm' : mult s l[lo].target i l[lo].weight = b - a := mult_interval htt m1 m2 m3
          have hsz : u - lo = b - a := by rw [← hm, ← hm']; exact hr.links _ _ (Ne.symm ht) _
          have hf' : first s[l[lo].target] (i, l[lo].weight) = a := first_eq m2 (by omega) m3
          rw [m0]
          refine shareRange_spec hk hs hr hl l[lo].target u u2 (fun _ d => linkComp i l[lo].target b d) (u - lo) lo (by omega) ?_ c h
          intro q hq hq1 hq2
          have hkq := (u3 q hq).2 ⟨hq1, hq2⟩
          obtain ⟨k1, k2⟩ := Prod.mk.inj hkq
          refine ⟨k1, ?_⟩
          rw [mate_link hl (List.getElem?_eq_getElem hq) (by rw [k1]; exact ht) (by rw [k1]; exact htt), hkq, hf, k1, k2, hf']
          unfold linkComp
          by_cases hgt : i > l[lo].target
          · rw [if_pos hgt, if_pos (.inl hgt)]
            congr 1
            omega
          · rw [if_neg hgt, if_neg]
            unfold Before
            simp only
            omega
      obtain ⟨c₁, h1, h2⟩ := hv
      obtain ⟨c', h3, h4⟩ := ih (l.length - u) (by omega) u u2 (fun _ h1 => u4 h1) c₁ h2 rfl
      refine ⟨c', ?_, h4⟩
      show (shareVisit l c _).bind _ = _
      rw [h1]
      exact h3
    · rw [dif_neg hlo]
      have : lo = l.length := by omega
      subst this
      exact ⟨c, rfl, h⟩

/-- The state of the construction before node `i` is added. -/
structure Rows (s : Edges (Edge W Unit)) (i : Nat) (c : Mem W × Edges (Edge Nat Unit)) : Prop where
  looks : seen c.1 c.2 = s.take i
  two : AtMostTwo c.1.next c.2
  paired : ∀ n k e, edgeAt c.2 n k = some e → ∀ t q, mate s n k = (t, q) →
    match edgeAt c.2 t q with
    | some e' => e'.weight = e.weight
    | none => uses c.2 e.weight = 1

theorem edgeAt_slot0 (o : Edges (Edge Nat Unit)) (n k : Nat) : edgeAt (o ++ [[]]) n k = edgeAt o n k := by
  unfold edgeAt
  rcases Nat.lt_trichotomy n o.length with h | h | h
  · rw [List.getElem?_append_left h]
  · subst h; simp
  · rw [List.getElem?_eq_none (by simp; omega), List.getElem?_eq_none (by omega)]

theorem uses_slot (o : Edges (Edge Nat Unit)) (a : Nat) : uses (o ++ [[]]) a = uses o a := by
  simp [uses]

theorem shareNodes_spec {k : WeightKind W} (hk : WeightsOk Unit k) {s : Edges (Edge W Unit)} (hs : ∀ l ∈ s, Ord k l)
    (hr : Reciprocal s) (r : Edges (Edge W Unit)) (i : Nat) (hri : s.drop i = r) (hi : i ≤ s.length)
    (c : Mem W × Edges (Edge Nat Unit)) (h : Rows s i c) :
    ∃ c', shareNodes k s i r c = .ok c' ∧ Rows s s.length c' := by
  induction r generalizing i c with
  | nil =>
    have : i = s.length := by
      have := congrArg List.length hri
      simp at this
      omega
    subst this
    exact ⟨c, rfl, h⟩
  | cons l r ih =>
    have hl : s[i]? = some l := by
      have := congrArg (·[0]?) hri
      simpa using this
    have hlt := (List.getElem?_eq_some_iff.1 hl).1
    have hstart : Partway s i 0 l (c.1, c.2 ++ [[]]) := by
      refine ⟨?_, ?_, ?_⟩
      · have := h.looks
        unfold seen at this ⊢
        simp only [List.map_append, List.map_cons, List.map_nil, List.take_zero]
        rw [this]
      · intro a
        simp only
        rw [uses_slot]
        exact h.two a
      · intro n y e
        simp only
        intro he t q hm
        rw [edgeAt_slot0] at he ⊢
        rw [uses_slot]
        exact h.paired n y e he t q hm
    obtain ⟨c₁, h1, h2⟩ := shareVisits_spec hk hs hr hl 0 (Nat.zero_le _) (fun h => by omega) _ hstart
    have hrows : Rows s (i + 1) c₁ := by
      refine ⟨?_, h2.two, h2.paired⟩
      rw [h2.looks, List.take_length, List.take_add_one, hl]
      rfl
    obtain ⟨c', h3, h4⟩ := ih (i + 1) (by
      have := congrArg (List.drop 1) hri
      simpa [List.drop_drop] using this) (by omega) c₁ hrows
    refine ⟨c', ?_, h4⟩
    unfold shareNodes
    rw [h1]
    exact h3

/-- The number of uses is at least the number of edges between two nodes, and back. -/
theorem mult_le_uses (s : Edges (Edge Nat Unit)) (i j a : Nat) : mult s i j a ≤ uses s a := by
  cases hl : s[i]? with
  | none => rw [mult_none hl]; omega
  | some l =>
    rw [mult_some hl]
    have h1 := uses_onNode s i (fun _ => []) l hl a
    simp only [List.countP_nil] at h1
    have h2 : cnt l j a ≤ l.countP (fun e => decide (addr e = a)) := by
      unfold cnt
      apply List.countP_mono_left
      intro e _
      simp [addr]
    omega

theorem mult_add_le_uses (s : Edges (Edge Nat Unit)) (i j a : Nat) (hij : i ≠ j) : mult s i j a + mult s j i a ≤ uses s a := by
  cases hl : s[i]? with
  | none => rw [mult_none hl, Nat.zero_add]; exact mult_le_uses s j i a
  | some l =>
    have h1 := uses_onNode s i (fun _ => []) l hl a
    simp only [List.countP_nil] at h1
    have h2 : cnt l j a ≤ l.countP (fun e => decide (addr e = a)) := by
      unfold cnt
      apply List.countP_mono_left
      intro e _
      simp [addr]
    have h3 := mult_le_uses (onNode s i fun _ => []) j i a
    have h4 : mult (onNode s i fun _ => []) j i a = mult s j i a := by
      unfold mult
      rw [getElem?_onNode, if_neg (Ne.symm hij)]
    rw [mult_some hl]
    omega

theorem mult_pos {s : Edges (Edge Nat Unit)} {n k : Nat} {e : Edge Nat Unit} (h : edgeAt s n k = some e) :
    0 < mult s n e.target e.weight := by
  obtain ⟨l, hl, hk⟩ := Option.bind_eq_some_iff.1 h
  rw [mult_some hl]
  exact List.countP_pos_iff.2 ⟨e, List.mem_of_getElem? hk, by simp⟩

theorem mult_two {s : Edges (Edge Nat Unit)} {n k q : Nat} {e e' : Edge Nat Unit} (h : edgeAt s n k = some e)
    (h' : edgeAt s n q = some e') (hkq : q ≠ k) (ht : e'.target = e.target) (hw : e'.weight = e.weight) :
    2 ≤ mult s n e.target e.weight := by
  obtain ⟨l, hl, hk⟩ := Option.bind_eq_some_iff.1 h
  obtain ⟨l', hl', hq⟩ := Option.bind_eq_some_iff.1 h'
  rw [hl] at hl'
  cases hl'
  rw [mult_some hl]
  unfold cnt
  have h1 := countP_eraseIdx' l k e hk (fun f => decide (f.target = e.target ∧ f.weight = e.weight))
  have h2 : 0 < (l.eraseIdx k).countP (fun f => decide (f.target = e.target ∧ f.weight = e.weight)) :=
    List.countP_pos_iff.2 ⟨e', List.mem_eraseIdx_iff_getElem?.2 ⟨q, hkq, hq⟩, by simp [ht, hw]⟩
  rw [if_pos (by simp)] at h1
  omega

theorem exists_of_mult {s : Edges (Edge Nat Unit)} {i j a : Nat} (h : 0 < mult s i j a) :
    ∃ k e, edgeAt s i k = some e ∧ e.target = j ∧ e.weight = a := by
  cases hl : s[i]? with
  | none => rw [mult_none hl] at h; omega
  | some l =>
    rw [mult_some hl] at h
    obtain ⟨e, he, hp⟩ := List.countP_pos_iff.1 h
    obtain ⟨k, hk⟩ := List.mem_iff_getElem?.1 he
    simp at hp
    exact ⟨k, e, by unfold edgeAt; rw [hl]; exact hk, hp⟩

/-- If every half edge has another with the same weight, and no weight is used more than twice, the graph is reciprocal. -/
theorem reciprocal_of_paired {s : Edges (Edge Nat Unit)} {next : Nat} (h2 : AtMostTwo next s)
    (h : ∀ n k e, edgeAt s n k = some e → ∃ q e', edgeAt s e.target q = some e' ∧ e'.target = n ∧ e'.weight = e.weight ∧
      (e.target, q) ≠ (n, k)) : Reciprocal s := by
  refine ⟨?_, ?_, ?_⟩
  · intro l hl e he
    obtain ⟨n, hn⟩ := List.mem_iff_getElem?.1 hl
    obtain ⟨k, hk⟩ := List.mem_iff_getElem?.1 he
    obtain ⟨q, e', h1, _⟩ := h n k e (by unfold edgeAt; rw [hn]; exact hk)
    obtain ⟨l', h3, _⟩ := Option.bind_eq_some_iff.1 h1
    exact (List.getElem?_eq_some_iff.1 h3).1
  · intro i j hij a
    have key : ∀ i j, i ≠ j → 0 < mult s i j a → mult s i j a = mult s j i a := by
      intro i j hij hp
      obtain ⟨k, e, h1, rfl, rfl⟩ := exists_of_mult hp
      obtain ⟨q, e', g1, g2, g3, _⟩ := h i k e h1
      have h3 := mult_pos g1
      rw [g2, g3] at h3
      have h4 := mult_add_le_uses s i e.target e.weight hij
      have h5 := (h2 e.weight).1
      omega
    rcases Nat.eq_zero_or_pos (mult s i j a) with h1 | h1
    · rcases Nat.eq_zero_or_pos (mult s j i a) with h3 | h3
      · omega
      · exact (key j i (Ne.symm hij) h3).symm
    · exact key i j hij h1
  · intro i a
    rcases Nat.eq_zero_or_pos (mult s i i a) with h1 | h1
    · rw [h1]; exact ⟨0, rfl⟩
    · obtain ⟨k, e, h3, ht, rfl⟩ := exists_of_mult h1
      obtain ⟨q, e', g1, g2, g3, g4⟩ := h i k e h3
      rw [ht] at g1 g4
      have h5 := mult_two h3 g1 (fun hc => g4 (by rw [hc])) (by rw [g2, ht]) g3
      have h6 := mult_le_uses s i i e.weight
      have h7 := (h2 e.weight).1
      rw [ht] at h5
      exact ⟨1, by omega⟩

theorem makeUndirectedShared_spec {k : WeightKind W} (hk : WeightsOk Unit k) (m : Mem W) {s s' : Edges (Edge W Unit)}
    (h : makeUndirected k s = .ok s') :
    ∃ m' o, makeUndirectedShared k m s = .ok (m', o) ∧ seen m' o = s' ∧ SharedOk m'.next o := by
  obtain ⟨s₁, h1, h2⟩ := makeUndirected_spec hk s
  rcases h2 with ⟨h2, h3⟩ | ⟨h2, _⟩
  · rw [h] at h2
    cases h2
    have hord := (arranged_get h1).2.1
    have hr := (arranged_reciprocal h1).2 h3
    obtain ⟨c', h4, h5⟩ := shareNodes_spec hk hord hr s' 0 rfl (Nat.zero_le _) (m, [])
      ⟨rfl, fun a => by simp [uses], fun n y e he => by simp [edgeAt] at he⟩
    have hlook : seen c'.1 c'.2 = s' := by rw [h5.looks, List.take_length]
    refine ⟨c'.1, c'.2, ?_, hlook, ?_, h5.two⟩
    · unfold makeUndirectedShared
      rw [h]
      exact h4
    · apply reciprocal_of_paired h5.two
      intro n y e he
      have hse : edgeAt s' n y = some (e.see c'.1) := by rw [← hlook, edgeAt_seen, he]; rfl
      obtain ⟨q, f, m1, m2, m3, m4, m5, m6⟩ := mate_spec hk hord hr hse
      have h6 := h5.paired n y e he _ _ m1
      rw [← hlook, edgeAt_seen, Option.map_eq_some_iff] at m2
      obtain ⟨e', h7, h8⟩ := m2
      rw [h7] at h6
      refine ⟨q, e', h7, ?_, h6, m5⟩
      rw [← m3, ← h8]
      rfl
  · rw [h] at h2; cases h2

end process

end Verif.Graph
