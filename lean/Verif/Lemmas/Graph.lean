import Verif.Model.Graph
import Verif.Spec.Graph
import Verif.Lemmas.Monotonic
/- Facts about the operations common to all flavours of graph. -/
set_option linter.unusedSectionVars false

namespace Verif.Graph
open EdgeLike Spec

/-- The two kinds of edge behave alike as regards targets. -/
class LawfulEdge (E : Type) [EdgeLike E] : Prop where
  target_retarget : ∀ (e : E) t, target (retarget e t) = t
  retarget_retarget : ∀ (e : E) t u, retarget (retarget e t) u = retarget e u
  retarget_target : ∀ (e : E), retarget e (target e) = e

instance {W M : Type} : LawfulEdge (Edge W M) where
  target_retarget _ _ := rfl
  retarget_retarget _ _ _ := rfl
  retarget_target _ := rfl

instance {W M : Type} : LawfulEdge (EEdge W M) where
  target_retarget _ _ := rfl
  retarget_retarget _ _ _ := rfl
  retarget_target _ := rfl

attribute [simp] LawfulEdge.target_retarget LawfulEdge.retarget_retarget LawfulEdge.retarget_target

theorem mem_insertUnique (a b : Nat) (l : List Nat) : b ∈ insertUnique a l ↔ b = a ∨ b ∈ l := by
  induction l with
  | nil => simp [insertUnique]
  | cons c t ih =>
    unfold insertUnique
    split
    · simp
    · split
      · subst_vars; simp
      · simp [ih]; grind

theorem insertUnique_sorted (a : Nat) (l : List Nat) (h : l.Pairwise (· < ·)) : (insertUnique a l).Pairwise (· < ·) := by
  induction l with
  | nil => simp [insertUnique]
  | cons c t ih =>
    unfold insertUnique
    rw [List.pairwise_cons] at h
    split
    · rename_i hac
      refine List.pairwise_cons.2 ⟨?_, List.pairwise_cons.2 h⟩
      intro x hx
      rcases List.mem_cons.1 hx with rfl | hx
      · exact hac
      · exact Nat.lt_trans hac (h.1 x hx)
    · split
      · exact List.pairwise_cons.2 h
      · refine List.pairwise_cons.2 ⟨?_, ih h.2⟩
        intro x hx
        rcases (mem_insertUnique a x t).1 hx with rfl | hx
        · omega
        · exact h.1 x hx

theorem mem_sortUnique (b : Nat) (l : List Nat) : b ∈ sortUnique l ↔ b ∈ l := by
  induction l with
  | nil => simp [sortUnique]
  | cons a t ih =>
    show b ∈ insertUnique a (sortUnique t) ↔ _
    rw [mem_insertUnique, ih]; simp

theorem sortUnique_sorted (l : List Nat) : (sortUnique l).Pairwise (· < ·) := by
  induction l with
  | nil => simp [sortUnique]
  | cons a t ih => exact insertUnique_sorted a _ ih

theorem sortUnique_nodup (l : List Nat) : (sortUnique l).Nodup :=
  (sortUnique_sorted l).imp (fun h => Nat.ne_of_lt h)

theorem getElem?_onNode {E : Type} (s : Edges E) (n : Nat) (f : List E → List E) (k : Nat) :
    (onNode s n f)[k]? = if k = n then s[k]?.map f else s[k]? := by
  unfold onNode
  rw [List.getElem?_modify]
  by_cases h : k = n
  · subst h; simp
  · rw [if_neg h]
    cases s[k]? <;> simp [Ne.symm h]

@[simp] theorem length_onNode {E : Type} (s : Edges E) (n : Nat) (f : List E → List E) :
    (onNode s n f).length = s.length := by simp [onNode]

theorem visit_spec {E : Type} (f : List E → List E) (ns : List Nat) (s : Edges E) (hn : ns.Nodup)
    (hr : ∀ n ∈ ns, n < s.length) :
    ∃ s', visit f ns s = .ok s' ∧ s'.length = s.length ∧ ∀ k, s'[k]? = if k ∈ ns then s[k]?.map f else s[k]? := by
  induction ns generalizing s with
  | nil => exact ⟨s, rfl, rfl, by simp⟩
  | cons n t ih =>
    rw [List.nodup_cons] at hn
    have hlt := hr n (by simp)
    obtain ⟨s', h1, h2, h3⟩ := ih (onNode s n f) hn.2 (by intro m hm; simpa using hr m (by simp [hm]))
    refine ⟨s', by simp only [visit, if_pos hlt, h1], by simpa using h2, ?_⟩
    intro k
    rw [h3 k, getElem?_onNode]
    by_cases hk : k = n
    · subst hk; simp [hn.1]
    · simp [hk]

section
variable {E : Type} [EdgeLike E] [LawfulEdge E]

theorem transpose_transpose (i j t : Nat) : transpose i j (transpose i j t) = t := by
  unfold transpose; grind

theorem transpose_lt {i j t n : Nat} (hi : i < n) (hj : j < n) : transpose i j t < n ↔ t < n := by
  unfold transpose; grind

theorem fixUp_eq (i j : Nat) (l : List E) : fixUp i j l = relabel (transpose i j) l := by
  unfold fixUp relabel
  apply List.map_congr_left
  intro e _
  unfold transpose
  split
  · rfl
  · split
    · rfl
    · simp

theorem relabel_self (i j : Nat) (l : List E) (h : ∀ e ∈ l, target e ≠ i ∧ target e ≠ j) :
    relabel (transpose i j) l = l := by
  unfold relabel
  conv => rhs; rw [← List.map_id l]
  apply List.map_congr_left
  intro e he
  have := h e he
  unfold transpose
  rw [if_neg this.1, if_neg this.2]; simp

theorem getElem?_swapSlots (s : Edges E) (i j : Nat) (hi : i < s.length) (hj : j < s.length) (k : Nat) :
    (swapSlots s i j)[k]? = s[transpose i j k]? := by
  unfold swapSlots
  rw [List.getElem?_eq_getElem hi, List.getElem?_eq_getElem hj]
  simp only [List.getElem?_set, List.length_set]
  unfold transpose
  by_cases h1 : k = j
  · subst h1
    by_cases h2 : k = i
    · subst h2; simp [hj]
    · simp [hj, h2, hi]
  · by_cases h2 : k = i
    · subst h2; simp [Ne.symm h1, hi, hj]
    · simp [h1, h2, Ne.symm h1, Ne.symm h2]

theorem length_swapSlots (s : Edges E) (i j : Nat) : (swapSlots s i j).length = s.length := by
  unfold swapSlots; split <;> simp

/-- Swapping nodes, given that every node with an edge to `i` or `j` is fixed up. -/
theorem swap_core (s : Edges E) (i j : Nat) (hi : i < s.length) (hj : j < s.length) (ns : List Nat) (hn : ns.Nodup)
    (hr : ∀ n ∈ ns, n < s.length)
    (hc : ∀ n l, s[n]? = some l → n ∉ ns → ∀ e ∈ l, target e ≠ i ∧ target e ≠ j) :
    ∃ s', ((visit (fixUp i j) ns s).bind fun s' => .ok (swapSlots s' i j)) = .ok s' ∧ Transposed s s' i j := by
  obtain ⟨s', h1, h2, h3⟩ := visit_spec (fixUp i j) ns s hn hr
  refine ⟨swapSlots s' i j, by rw [h1]; rfl, ?_, ?_⟩
  · rw [length_swapSlots, h2]
  · intro k
    rw [getElem?_swapSlots s' i j (by omega) (by omega), h3]
    split
    · rw [show (fixUp i j : List E → List E) = relabel (transpose i j) from funext (fixUp_eq i j)]
    · rename_i hm
      cases hs : s[transpose i j k]? with
      | none => rfl
      | some l =>
        simp only [Option.map_some]
        rw [relabel_self]
        exact hc _ l hs hm

theorem transposed_self (s : Edges E) (i : Nat) : Transposed s s i i := by
  refine ⟨rfl, ?_⟩
  intro k
  have h1 : ∀ t, transpose i i t = t := by intro t; unfold transpose; grind
  rw [h1]
  cases s[k]? with
  | none => rfl
  | some l =>
    simp only [Option.map_some, relabel, h1, LawfulEdge.retarget_target]
    simp

theorem swapNodesDirected_spec (s : Edges E) (i j : Nat) (hi : i < s.length) (hj : j < s.length) :
    ∃ s', swapNodesDirected s i j = .ok s' ∧ Transposed s s' i j := by
  unfold swapNodesDirected
  rw [if_pos ⟨hi, hj⟩]
  by_cases hij : i = j
  · subst hij; rw [if_pos rfl]; exact ⟨s, rfl, transposed_self s i⟩
  · rw [if_neg hij]
    refine swap_core s i j hi hj _ List.nodup_range (by simp) ?_
    intro n l hl hm
    exfalso; apply hm
    rw [List.mem_range]
    exact (List.getElem?_eq_some_iff.1 hl).1

/-- Whenever a node has an edge, so has its target back to it. -/
def TargetSym (s : Edges E) : Prop :=
  ∀ n l e, s[n]? = some l → e ∈ l → ∃ l', s[target e]? = some l' ∧ ∃ e' ∈ l', target e' = n

theorem swapNodesUndirected_spec (s : Edges E) (hs : TargetSym s) (i j : Nat) (hi : i < s.length) (hj : j < s.length) :
    ∃ s', swapNodesUndirected s i j = .ok s' ∧ Transposed s s' i j := by
  unfold swapNodesUndirected
  rw [List.getElem?_eq_getElem hi, List.getElem?_eq_getElem hj]
  simp only
  by_cases hij : i = j
  · subst hij; rw [if_pos rfl]; exact ⟨s, rfl, transposed_self s i⟩
  · rw [if_neg hij]
    refine swap_core s i j hi hj _ (sortUnique_nodup _) ?_ ?_
    · intro n hn
      rw [mem_sortUnique, List.mem_append, List.mem_map, List.mem_map] at hn
      rcases hn with ⟨e, he, rfl⟩ | ⟨e, he, rfl⟩
      · obtain ⟨l', h1, _⟩ := hs i s[i] e (List.getElem?_eq_getElem hi) he
        exact (List.getElem?_eq_some_iff.1 h1).1
      · obtain ⟨l', h1, _⟩ := hs j s[j] e (List.getElem?_eq_getElem hj) he
        exact (List.getElem?_eq_some_iff.1 h1).1
    · intro n l hl hm e he
      rw [mem_sortUnique, List.mem_append, List.mem_map, List.mem_map, not_or] at hm
      obtain ⟨l', h1, e', he', ht⟩ := hs n l e hl he
      refine ⟨?_, ?_⟩
      · intro hti
        rw [hti, List.getElem?_eq_getElem hi] at h1
        simp only [Option.some.injEq] at h1
        subst h1
        exact hm.1 ⟨e', he', ht⟩
      · intro htj
        rw [htj, List.getElem?_eq_getElem hj] at h1
        simp only [Option.some.injEq] at h1
        subst h1
        exact hm.2 ⟨e', he', ht⟩

theorem swapNodesDirected_throws (s : Edges E) (i j : Nat) (h : ¬ (i < s.length ∧ j < s.length)) :
    swapNodesDirected s i j = .throws := by
  unfold swapNodesDirected; rw [if_neg h]

theorem swapNodesUndirected_throws (s : Edges E) (i j : Nat) (h : ¬ (i < s.length ∧ j < s.length)) :
    swapNodesUndirected s i j = .throws := by
  unfold swapNodesUndirected
  by_cases hi : i < s.length
  · rw [List.getElem?_eq_getElem hi, List.getElem?_eq_none (by omega)]
  · rw [List.getElem?_eq_none (by omega)]

/-! ### insert_node -/

theorem fix_relabel (pred : Nat → Bool) (f g : Nat → Nat) (h : ∀ t, g t = if pred t then f t else t) (s : Edges E) :
    fixEdgeData pred f s = s.map (relabel g) := by
  unfold fixEdgeData
  apply List.map_congr_left
  intro l _
  unfold relabel
  apply List.map_congr_left
  intro e _
  rw [h]
  split <;> simp

theorem insertNode_spec (s : Edges E) (n : Nat) : insertNode s n = withNode s n := by
  unfold insertNode withNode
  rw [fix_relabel _ _ (raise n) (by intro t; unfold raise; simp)]
  congr 1
  unfold insertSlot
  split
  · rw [Monotonic.insertIdx_split _ _ _ (by omega)]
  · rw [List.take_of_length_le (by omega), List.drop_of_length_le (by omega)]

/-! ### erase_node -/

theorem eraseSlotFix_spec (s : Edges E) (n : Nat) :
    eraseSlotFix s n = (s.take n ++ s.drop (n + 1)).map (relabel (lower n)) := by
  unfold eraseSlotFix
  rw [fix_relabel _ _ (lower n) (by intro t; unfold lower; simp), List.eraseIdx_eq_take_drop_succ]

theorem dropTarget_self (n : Nat) (l : List E) (h : ∀ e ∈ l, target e ≠ n) : dropTarget n l = l := by
  unfold dropTarget
  apply List.filter_eq_self.2
  intro e he; simpa using h e he

theorem erase_core (s : Edges E) (n : Nat) (ns : List Nat) (hn : ns.Nodup) (hr : ∀ k ∈ ns, k < s.length)
    (hc : ∀ k l, s[k]? = some l → k ∉ ns → k ≠ n → ∀ e ∈ l, target e ≠ n) :
    ((visit (dropTarget n) ns s).bind fun s' => .ok (eraseSlotFix s' n)) = .ok (withoutNode s n) := by
  obtain ⟨s', h1, h2, h3⟩ := visit_spec (dropTarget n) ns s hn hr
  rw [h1]
  show Res.ok (eraseSlotFix s' n) = _
  rw [eraseSlotFix_spec]
  unfold withoutNode
  congr 1
  have : s'.take n ++ s'.drop (n + 1) = (s.take n ++ s.drop (n + 1)).map (dropTarget n) := by
    rw [← List.eraseIdx_eq_take_drop_succ, ← List.eraseIdx_eq_take_drop_succ]
    apply List.ext_getElem?
    intro k
    rw [List.getElem?_map, List.getElem?_eraseIdx, List.getElem?_eraseIdx]
    have key : ∀ k, k ≠ n → s'[k]? = s[k]?.map (dropTarget n) := by
      intro k hk
      rw [h3]
      split
      · rfl
      · rename_i hm
        cases hs : s[k]? with
        | none => rfl
        | some l =>
          simp only [Option.map_some]
          rw [dropTarget_self]
          exact hc k l hs hm hk
    split
    · exact key k (by omega)
    · exact key (k + 1) (by omega)
  rw [this, List.map_map]
  rfl

theorem eraseNodeDirected_spec (s : Edges E) (n : Nat) (hn : n < s.length) :
    eraseNodeDirected s n = .ok (withoutNode s n) := by
  unfold eraseNodeDirected
  rw [if_pos hn]
  apply erase_core
  · exact List.nodup_range.filter _
  · intro k hk; simpa using (List.mem_filter.1 hk).1
  · intro k l hl hm hk
    exfalso; apply hm
    simp only [List.mem_filter, List.mem_range]
    exact ⟨(List.getElem?_eq_some_iff.1 hl).1, by simpa using hk⟩

theorem eraseNodeUndirected_spec (s : Edges E) (hs : TargetSym s) (n : Nat) (hn : n < s.length) :
    eraseNodeUndirected s n = .ok (withoutNode s n) := by
  unfold eraseNodeUndirected
  rw [List.getElem?_eq_getElem hn]
  simp only
  unfold partitionsToVisit
  apply erase_core
  · exact sortUnique_nodup _
  · intro k hk
    rw [mem_sortUnique, List.mem_filter, List.mem_map] at hk
    obtain ⟨⟨e, he, rfl⟩, _⟩ := hk
    obtain ⟨l', h1, _⟩ := hs n s[n] e (List.getElem?_eq_getElem hn) he
    exact (List.getElem?_eq_some_iff.1 h1).1
  · intro k l hl hm hk e he ht
    rw [mem_sortUnique, List.mem_filter, List.mem_map] at hm
    obtain ⟨l', h1, e', he', ht'⟩ := hs k l e hl he
    rw [ht, List.getElem?_eq_getElem hn] at h1
    simp only [Option.some.injEq] at h1
    subst h1
    exact hm ⟨⟨e', he', ht'⟩, by simpa using hk⟩

end
end Verif.Graph
