import Verif.Spec.SubGraph
import Verif.Model.SubGraph
import Verif.Lemmas.GraphHistory

namespace Verif.Graph
open Verif.Spec EdgeLike

/-- `K` without `q`. -/
def minus (K : Nat → Bool) (q : Nat) (t : Nat) : Bool := K t && decide (t ≠ q)

theorem rank_step (K : Nat → Bool) (t : Nat) : rank K (t + 1) = rank K t + if K t then 1 else 0 := by
  unfold rank
  rw [List.range_succ, List.countP_append]
  simp [List.countP_cons]

theorem rank_mono (K : Nat → Bool) {a b : Nat} (h : a ≤ b) : rank K a ≤ rank K b := by
  induction h with
  | refl => exact Nat.le_refl _
  | step _ ih => rw [rank_step]; omega

theorem rank_lt {K : Nat → Bool} {a b : Nat} (ha : K a = true) (h : a < b) : rank K a < rank K b := by
  have h1 := rank_mono K (Nat.succ_le_of_lt h)
  have h2 := rank_step K a
  rw [if_pos ha] at h2
  simp only [Nat.succ_eq_add_one] at h1
  omega

theorem rank_inj {K : Nat → Bool} {a b : Nat} (ha : K a = true) (hb : K b = true) (h : rank K a = rank K b) : a = b := by
  rcases Nat.lt_trichotomy a b with h' | h' | h'
  · have := rank_lt ha h'; omega
  · exact h'
  · have := rank_lt hb h'; omega

theorem rank_minus {K : Nat → Bool} {q : Nat} (hq : K q = true) (t : Nat) :
    rank (minus K q) t = if q < t then rank K t - 1 else rank K t := by
  induction t with
  | zero => simp [rank]
  | succ t ih =>
    rw [rank_step, rank_step, ih]
    have := fun h : q < t => rank_lt hq h
    by_cases h1 : q < t
    · have := this h1
      rw [if_pos h1, if_pos (show q < t + 1 by omega)]
      have h2 : minus K q t = K t := by unfold minus; simp; omega
      rw [h2]; split <;> omega
    · by_cases h2 : t = q
      · subst h2
        rw [if_neg h1, if_pos (show t < t + 1 by omega), hq]
        simp [minus]
      · rw [if_neg h1, if_neg (show ¬ q < t + 1 by omega)]
        have h3 : minus K q t = K t := by unfold minus; simp [h2]
        rw [h3]

theorem lower_rank {K : Nat → Bool} {q t : Nat} (hq : K q = true) (ht : t ≠ q) :
    lower (rank K q) (rank K t) = rank (minus K q) t := by
  rw [rank_minus hq]
  unfold lower
  rcases Nat.lt_or_gt_of_ne ht with h | h
  · have := rank_mono K (Nat.le_of_lt h)
    rw [if_neg (by omega), if_neg (by omega)]
  · have := rank_lt hq h
    rw [if_pos this, if_pos h]

theorem keepIdx_minus {E : Type} (K : Nat → Bool) (q : Nat) (hq : K q = true) (l : List E) :
    (keepIdx K l).eraseIdx (rank K q) = keepIdx (minus K q) l := by
  induction l generalizing K q with
  | nil => simp [keepIdx]
  | cons x l ih =>
    cases q with
    | zero =>
      unfold keepIdx
      rw [hq]
      simp [rank, minus]
    | succ q =>
      have h1 := ih (fun k => K (k + 1)) q hq
      have h2 : (fun k => minus K (q + 1) (k + 1)) = minus (fun k => K (k + 1)) q := by
        funext k; unfold minus; simp
      unfold keepIdx
      rw [rank_succ, h2]
      have h3 : minus K (q + 1) 0 = K 0 := by simp [minus]
      rw [h3]
      cases h : K 0
      · simpa using h1
      · simp only [if_true]
        rw [Nat.add_comm, List.eraseIdx_cons_succ, h1]

theorem length_keepIdx {E : Type} (K : Nat → Bool) (l : List E) : (keepIdx K l).length = rank K l.length := by
  induction l generalizing K with
  | nil => simp [keepIdx, rank]
  | cons x l ih =>
    unfold keepIdx
    rw [List.length_cons, rank_succ]
    cases h : K 0 <;> simp [ih]; omega

section
variable {E : Type} [EdgeLike E] [LawfulEdge E]

omit [LawfulEdge E] in
theorem length_inducedOn (s : Edges E) (K : Nat → Bool) : (inducedOn s K).length = rank K s.length := by
  unfold inducedOn
  rw [List.length_map, length_keepIdx]

theorem filter_minus {K : Nat → Bool} {q : Nat} (hq : K q = true) (t : Nat) :
    (decide (rank K t ≠ rank K q) && K t) = minus K q t := by
  unfold minus
  cases h : K t
  · simp
  · by_cases h2 : t = q
    · subst h2; simp
    · have : rank K t ≠ rank K q := fun h3 => h2 (rank_inj h hq h3)
      simp [h2, this]

theorem withoutNode_inducedOn (s : Edges E) (K : Nat → Bool) (q : Nat) (hq : K q = true) :
    withoutNode (inducedOn s K) (rank K q) = inducedOn s (minus K q) := by
  unfold withoutNode inducedOn
  rw [← List.eraseIdx_eq_take_drop_succ, List.eraseIdx_map, keepIdx_minus K q hq, List.map_map]
  apply List.map_congr_left
  intro l _
  simp only [Function.comp]
  unfold relabel
  rw [List.filter_map, List.filter_filter, List.map_map]
  have h1 : (fun a : E => ((fun e => decide (target e ≠ rank K q)) ∘ fun e => retarget e (rank K (target e))) a && K (target a)) =
      fun e => minus K q (target e) := by
    funext e
    simp only [Function.comp, LawfulEdge.target_retarget]
    exact filter_minus hq _
  rw [h1]
  apply List.map_congr_left
  intro e he
  simp only [Function.comp, LawfulEdge.target_retarget, LawfulEdge.retarget_retarget]
  rw [lower_rank hq]
  rw [List.mem_filter] at he
  have := he.2
  unfold minus at this
  simp at this
  exact this.2

end

section
variable {W M : Type}

theorem length_inducedOnE (s : Edges (EEdge W M)) (K : Nat → Bool) : (inducedOnE s K).length = rank K s.length := by
  unfold inducedOnE
  rw [List.length_map, length_keepIdx]

theorem inducedOnE_get {s : Edges (EEdge W M)} {K : Nat → Bool} {t : Nat} (ht : K t = true) {l : List (EEdge W M)} (hl : s[t]? = some l) :
    (inducedOnE s K)[rank K t]? = some ((l.filter fun e => K e.target).map fun e =>
      { e with
        target := rank K e.target
        comp := match s[e.target]? with
          | some t => (t.take e.comp).countP fun e' => K e'.target
          | none => 0 }) := by
  unfold inducedOnE
  rw [List.getElem?_map, (getElem?_keepIdx K s (rank K t) l).2 ⟨t, hl, ht, rfl⟩]
  rfl

theorem take_countP {α β : Type} (p : α → Bool) (f : α → β) (r : β → Bool) (l : List α) (c : Nat) :
    (((l.filter p).map f).take ((l.take c).countP p)).countP r = (l.take c).countP fun a => r (f a) && p a := by
  induction l generalizing c with
  | nil => simp
  | cons x l ih =>
    cases c with
    | zero => simp
    | succ c =>
      rw [List.take_succ_cons, List.countP_cons, List.countP_cons, List.filter_cons]
      cases h : p x
      · simp [ih]
      · simp only [if_true, List.map_cons, List.take_succ_cons, List.countP_cons, Bool.and_true]
        rw [ih]

theorem withoutNodeE_inducedOnE (s : Edges (EEdge W M)) (hs : InRange s) (K : Nat → Bool) (q : Nat) (hq : K q = true) :
    withoutNodeE (inducedOnE s K) (rank K q) = inducedOnE s (minus K q) := by
  conv => lhs; unfold withoutNodeE
  rw [← List.eraseIdx_eq_take_drop_succ]
  conv => lhs; arg 2; unfold inducedOnE
  conv => rhs; unfold inducedOnE
  rw [List.eraseIdx_map, keepIdx_minus K q hq, List.map_map]
  apply List.map_congr_left
  intro l hl
  simp only [Function.comp]
  rw [List.filter_map, List.filter_filter, List.map_map]
  simp only [Function.comp_def, filter_minus hq]
  apply List.map_congr_left
  intro e he
  rw [List.mem_filter] at he
  have h2 : minus K q e.target = true := he.2
  have h2' := h2
  unfold minus at h2'
  simp at h2'
  have hr : e.target < s.length := hs l (mem_keepIdx hl) e he.1
  have hget : s[e.target]? = some (s[e.target]) := List.getElem?_eq_getElem hr
  rw [lower_rank hq h2'.2, inducedOnE_get h2'.1 hget, hget]
  simp only
  congr 1
  rw [take_countP]
  congr 1
  funext e'
  exact filter_minus hq _

end

/-! ### The loop -/

section
variable {N E : Type}

/-- Keep what has not been looked at yet, and what is to be kept. -/
def soFar (keep : Nat → Bool) (i : Nat) (t : Nat) : Bool := decide (i ≤ t) || keep t

theorem rank_true (n : Nat) (K : Nat → Bool) (h : ∀ t < n, K t = true) : rank K n = n := by
  unfold rank
  rw [List.countP_eq_length.2]
  · simp
  · intro a ha; exact h a (List.mem_range.1 ha)

theorem keepIdx_congr' {E : Type} {p q : Nat → Bool} (l : List E) (h : p = q) : keepIdx p l = keepIdx q l := by rw [h]

theorem subLoop_spec {er : Edges E → Nat → Res (Edges E)} {pred : N → Bool} (nodes : List N) (ind : (Nat → Bool) → Edges E)
    (P : Edges E → Prop)
    (hlen : ∀ K, (ind K).length = rank K nodes.length)
    (hstep : ∀ K q, q < nodes.length → K q = true → P (ind K) →
      er (ind K) (rank K q) = .ok (ind (minus K q)) ∧ P (ind (minus K q)))
    (fuel i : Nat) (hi : i ≤ nodes.length) (hf : nodes.length ≤ fuel + i)
    (hP : P (ind (soFar (keeps nodes pred) i))) :
    subLoop er pred fuel (rank (soFar (keeps nodes pred) i) i)
        ⟨keepIdx (soFar (keeps nodes pred) i) nodes, ind (soFar (keeps nodes pred) i)⟩ =
      .ok (some ⟨keepIdx (soFar (keeps nodes pred) nodes.length) nodes, ind (soFar (keeps nodes pred) nodes.length)⟩) := by
  induction fuel generalizing i with
  | zero =>
    have : i = nodes.length := by omega
    subst this
    unfold subLoop
    rw [if_neg (by simp only [hlen]; omega)]
  | succ fuel ih =>
    unfold subLoop
    by_cases h : i = nodes.length
    · subst h
      rw [if_neg (by simp only [hlen]; omega)]
    · have hi' : i < nodes.length := by omega
      have hki : soFar (keeps nodes pred) i i = true := by simp [soFar]
      rw [if_pos (by simp only [hlen]; exact rank_lt hki hi')]
      have hget : nodes[i]? = some nodes[i] := List.getElem?_eq_getElem hi'
      rw [(getElem?_keepIdx _ nodes _ nodes[i]).2 ⟨i, hget, hki, rfl⟩]
      simp only
      have hk : keeps nodes pred i = pred nodes[i] := by unfold keeps; rw [hget]
      cases hp : pred nodes[i]
      · simp only [Bool.not_false, if_true]
        obtain ⟨e1, e2⟩ := hstep _ i hi' hki hP
        have hminus : minus (soFar (keeps nodes pred) i) i = soFar (keeps nodes pred) (i + 1) := by
          funext t
          unfold minus soFar
          by_cases ht : t = i
          · subst ht; simp [hk, hp]
          · rw [show decide (i + 1 ≤ t) = decide (i ≤ t) by rw [decide_eq_decide]; omega]
            simp [ht]
        rw [hminus] at e1 e2
        have hr : rank (soFar (keeps nodes pred) i) i < rank (soFar (keeps nodes pred) i) nodes.length := rank_lt hki hi'
        unfold G.eraseNode
        simp only [e1]
        rw [if_pos (by rw [length_keepIdx]; exact hr), keepIdx_minus _ _ hki, hminus]
        simp only
        have hrk : rank (soFar (keeps nodes pred) i) i = rank (soFar (keeps nodes pred) (i + 1)) (i + 1) := by
          rw [rank_step, ← hminus, rank_minus hki]
          simp [minus]
        rw [hrk]
        exact ih (i + 1) (by omega) (by omega) e2
      · simp only [Bool.not_true, Bool.false_eq_true, if_false]
        have hsame : soFar (keeps nodes pred) i = soFar (keeps nodes pred) (i + 1) := by
          funext t
          unfold soFar
          by_cases ht : t = i
          · subst ht; simp [hk, hp]
          · rw [show decide (i + 1 ≤ t) = decide (i ≤ t) by rw [decide_eq_decide]; omega]
        have hrk : rank (soFar (keeps nodes pred) i) i + 1 = rank (soFar (keeps nodes pred) (i + 1)) (i + 1) := by
          rw [← hsame, rank_step, if_pos hki]
        rw [hrk]
        have := ih (i + 1) (by omega) (by omega) (hsame ▸ hP)
        rw [← hsame] at this ⊢
        exact this

theorem soFar_zero' (keep : Nat → Bool) : soFar keep 0 = fun _ => true := by funext t; simp [soFar]

theorem keepIdx_keeps (nodes : List N) (pred : N → Bool) : keepIdx (keeps nodes pred) nodes = nodes.filter pred := by
  induction nodes with
  | nil => rfl
  | cons a l ih =>
    unfold keepIdx
    have h0 : keeps (a :: l) pred 0 = pred a := rfl
    have h1 : (fun k => keeps (a :: l) pred (k + 1)) = keeps l pred := by funext k; simp [keeps]
    rw [h0, h1, ih, List.filter_cons]

theorem embedded_induced {P : Edges E → Prop} {er : Edges E → Nat → Res (Edges E)} {n : Nat} (ind : (Nat → Bool) → Edges E)
    (hstep : ∀ K q, q < n → K q = true → P (ind K) → er (ind K) (rank K q) = .ok (ind (minus K q)) ∧ P (ind (minus K q)))
    {keep : Nat → Bool} (h : P (ind fun _ => true)) : P (ind (soFar keep n)) := by
  have : ∀ i, i ≤ n → P (ind (soFar keep i)) := by
    intro i
    induction i with
    | zero => intro _; rw [soFar_zero' keep]; exact h
    | succ i ih =>
      intro hi
      cases hk : keep i
      · have := (hstep (soFar keep i) i (by omega) (by simp [soFar]) (ih (by omega))).2
        have hm : minus (soFar keep i) i = soFar keep (i + 1) := by
          funext t
          unfold minus soFar
          by_cases ht : t = i
          · subst ht; simp [hk]
          · rw [show decide (i + 1 ≤ t) = decide (i ≤ t) by rw [decide_eq_decide]; omega]
            simp [ht]
        rwa [hm] at this
      · have hm : soFar keep i = soFar keep (i + 1) := by
          funext t
          unfold soFar
          by_cases ht : t = i
          · subst ht; simp [hk]
          · rw [show decide (i + 1 ≤ t) = decide (i ≤ t) by rw [decide_eq_decide]; omega]
        rw [← hm]
        exact ih (by omega)
  exact this n (Nat.le_refl _)

theorem soFar_zero (keep : Nat → Bool) : soFar keep 0 = fun _ => true := by funext t; simp [soFar]

theorem rank_congr {K K' : Nat → Bool} {n : Nat} (h : ∀ t < n, K t = K' t) : rank K n = rank K' n := by
  unfold rank
  apply List.countP_congr
  intro a ha
  rw [h a (List.mem_range.1 ha)]

theorem soFar_full {keep : Nat → Bool} {n t : Nat} (h : t < n) : soFar keep n t = keep t := by
  unfold soFar
  simp; omega

end

section
variable {E : Type} [EdgeLike E] [LawfulEdge E]

theorem relabel_id (l : List E) (f : Nat → Nat) (h : ∀ e ∈ l, f (target e) = target e) : relabel f l = l := by
  unfold relabel
  conv => rhs; rw [← List.map_id l]
  apply List.map_congr_left
  intro e he
  rw [h e he, LawfulEdge.retarget_target]; rfl

theorem inducedOn_all (s : Edges E) : inducedOn s (fun _ => true) = s := by
  unfold inducedOn
  rw [keepIdx_all s (fun _ _ => rfl)]
  conv => rhs; rw [← List.map_id s]
  apply List.map_congr_left
  intro l _
  rw [List.filter_eq_self.2 (fun _ _ => rfl), relabel_id]; rfl
  intro e _
  exact rank_true _ _ fun _ _ => rfl

omit [LawfulEdge E] in
theorem inducedOn_congr {s : Edges E} (hs : InRange s) {K K' : Nat → Bool} (h : ∀ t < s.length, K t = K' t) :
    inducedOn s K = inducedOn s K' := by
  unfold inducedOn
  rw [keepIdx_congr s h]
  apply List.map_congr_left
  intro l hl
  have hl' := hs l (mem_keepIdx hl)
  rw [List.filter_congr (q := fun e => K' (target e)) (fun e he => h _ (hl' e he))]
  unfold relabel
  apply List.map_congr_left
  intro e he
  rw [rank_congr (K' := K') fun t ht => h t (Nat.lt_trans ht (hl' e (List.mem_filter.1 he).1))]

end

theorem inducedOnE_all {W M : Type} (s : Edges (EEdge W M)) (hs : Embedded s) : inducedOnE s (fun _ => true) = s := by
  unfold inducedOnE
  rw [keepIdx_all s (fun _ _ => rfl)]
  conv => rhs; rw [← List.map_id s]
  apply List.map_congr_left
  intro l hl
  rw [List.filter_eq_self.2 (fun _ _ => rfl)]
  conv => rhs; rw [id, ← List.map_id l]
  apply List.map_congr_left
  intro e he
  obtain ⟨n, hn⟩ := List.mem_iff_getElem?.1 hl
  obtain ⟨k, hk⟩ := List.mem_iff_getElem?.1 he
  obtain ⟨_, e', he', _⟩ := hs n k e (by unfold edgeAt; rw [hn]; exact hk)
  obtain ⟨t, ht, hc⟩ := Option.bind_eq_some_iff.1 he'
  rw [rank_true _ _ fun _ _ => rfl, ht]
  have := (List.getElem?_eq_some_iff.1 hc).1
  simp only [List.countP_true, List.length_take, id]
  rw [show min e.comp t.length = e.comp by omega]

theorem inducedOnE_congr {W M : Type} {s : Edges (EEdge W M)} (hs : InRange s) {K K' : Nat → Bool} (h : ∀ t < s.length, K t = K' t) :
    inducedOnE s K = inducedOnE s K' := by
  unfold inducedOnE
  rw [keepIdx_congr s h]
  apply List.map_congr_left
  intro l hl
  have hl' : ∀ e ∈ l, e.target < s.length := hs l (mem_keepIdx hl)
  rw [List.filter_congr (q := fun e => K' e.target) (fun e he => h _ (hl' e he))]
  apply List.map_congr_left
  intro e he
  have he' := hl' e (List.mem_filter.1 he).1
  rw [rank_congr (K' := K') fun t ht => h t (Nat.lt_trans ht he')]
  congr 1
  rw [List.getElem?_eq_getElem he']
  simp only
  apply List.countP_congr
  intro a ha
  have : a.target < s.length := hs _ (List.getElem_mem he') a (List.mem_of_mem_take ha)
  rw [h _ this]

end Verif.Graph
