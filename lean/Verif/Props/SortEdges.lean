import Verif.Lemmas.Graph
import Verif.Lemmas.StableSort
import Verif.Spec.SortEdges
/-
Properties of the reordering of edges.
-/
namespace Verif.Props
open Verif.Graph Verif.Spec Verif.Spec.SortEdges

namespace SortEdges
variable {N E W M : Type}

theorem range_splice {l s : List E} {p q : Nat} (hpq : p ≤ q) (hq : q ≤ l.length) (hs : s.length = q - p) : range (l.take p ++ s ++ l.drop q) p q = s := by
  unfold range
  have h1 : (l.take p ++ s).length = q := by simp only [List.length_append, List.length_take, hs]; omega
  rw [List.take_append_of_le_length (by omega), List.take_of_length_le (by omega), List.drop_append_of_le_length (by simp only [List.length_take]; omega),
    List.drop_of_length_le (by simp only [List.length_take]; omega), List.nil_append]

theorem rangeSorted {lt : E → E → Bool} {srt : List E → List E} {l : List E} {p q : Nat} (hpq : p ≤ q) (hq : q ≤ l.length)
    (hs : (srt (range l p q)).Perm (range l p q) ∧ Sorted lt (srt (range l p q))) : RangeSorted lt l (l.take p ++ srt (range l p q) ++ l.drop q) p q := by
  have hlen : (srt (range l p q)).length = q - p := by
    rw [hs.1.length_eq]
    simp only [range, List.length_drop, List.length_take]
    omega
  refine ⟨?_, ?_, ?_, ?_⟩
  · simp only [List.length_append, List.length_take, List.length_drop, hlen]
    omega
  · rintro i (hi | hi)
    · rw [List.append_assoc, List.getElem?_append_left (by simp only [List.length_take]; omega), List.getElem?_take_of_lt hi]
    · rw [List.getElem?_append_right (by simp only [List.length_append, List.length_take, hlen]; omega), List.getElem?_drop]
      congr 1
      simp only [List.length_append, List.length_take, hlen]
      omega
  · rw [range_splice hpq hq hlen]
    exact hs.1
  · rw [range_splice hpq hq hlen]
    exact hs.2

theorem sameElsewhere_onNode (g : G N E) (n : Nat) (f : List E → List E) : SameElsewhere g ⟨g.nodes, onNode g.edges n f⟩ n :=
  ⟨rfl, length_onNode _ _ _, fun k hk => by simp only; rw [getElem?_onNode, if_neg hk]⟩

theorem sortEdges_spec {lt : E → E → Bool} {srt : List E → List E} (hs : ∀ l, (srt l).Perm l ∧ Sorted lt (srt l)) (g : G N E) {n p q : Nat} {l : List E} (hl : g.edges[n]? = some l) (hpq : p ≤ q)
    (hq : q ≤ l.length) : onEdges g (sortEdges srt g.edges n p n q) = .ret ⟨g.nodes, onNode g.edges n fun l => l.take p ++ srt (range l p q) ++ l.drop q⟩ .unit ∧
      (onNode g.edges n fun l => l.take p ++ srt (range l p q) ++ l.drop q)[n]? = some (l.take p ++ srt (range l p q) ++ l.drop q) ∧
      RangeSorted lt l (l.take p ++ srt (range l p q) ++ l.drop q) p q := by
  refine ⟨?_, by rw [getElem?_onNode, if_pos rfl, hl]; rfl, rangeSorted hpq hq (hs _)⟩
  unfold sortEdges
  simp only [hl]
  rw [if_pos ⟨by omega, hq⟩, if_neg (by simp), if_pos hpq]
  rfl

theorem sortEdges_other {srt : List E → List E} (g : G N E) {n m p q : Nat} {l k : List E} (hnm : n ≠ m) (hl : g.edges[n]? = some l) (hk : g.edges[m]? = some k) (hp : p ≤ l.length) (hq : q ≤ k.length) :
    onEdges g (sortEdges srt g.edges n p m q) = .ret g .unit := by
  unfold sortEdges
  simp only [hl, hk]
  rw [if_pos ⟨hp, hq⟩, if_pos hnm]
  rfl

theorem swapEdges_spec (g : G N E) {n i j : Nat} {l : List E} (hl : g.edges[n]? = some l) (hi : i < l.length) (hj : j < l.length) :
    ∃ g' l', onEdges g (swapEdges g.edges n i j) = .ret g' .unit ∧ SameElsewhere g g' n ∧ g'.edges[n]? = some l' ∧ Exchanged l l' i j := by
  refine ⟨_, (l.set i l[j]).set j l[i], ?_, sameElsewhere_onNode g n fun l' => (l'.set i l[j]).set j l[i], ?_, ?_⟩
  · unfold swapEdges
    simp only [hl, List.getElem?_eq_getElem hi, List.getElem?_eq_getElem hj]
    rfl
  · simp only
    rw [getElem?_onNode, if_pos rfl, hl]
    rfl
  · refine ⟨by simp, ?_, ?_, ?_⟩
    · by_cases h : i = j
      · subst h
        simp [hi]
      · rw [List.getElem?_set_ne (Ne.symm h), List.getElem?_set_self hi, List.getElem?_eq_getElem hj]
    · rw [List.getElem?_set_self (by simpa using hj), List.getElem?_eq_getElem hi]
    · intro k h1 h2
      rw [List.getElem?_set_ne (Ne.symm h2), List.getElem?_set_ne (Ne.symm h1)]

theorem swapEdges_throws (g : G N E) {n i j : Nat} (h : ¬ ∃ l, g.edges[n]? = some l ∧ i < l.length ∧ j < l.length) : onEdges g (swapEdges g.edges n i j) = .threw g := by
  unfold swapEdges
  cases hl : g.edges[n]? with
  | none => rfl
  | some l =>
    cases hi : l[i]? with
    | none => simp only [hi]; rfl
    | some a =>
      cases hj : l[j]? with
      | none => simp only [hi, hj]; rfl
      | some b => exact absurd ⟨l, hl, (List.getElem?_eq_some_iff.1 hi).1, (List.getElem?_eq_some_iff.1 hj).1⟩ h

end SortEdges
open SortEdges

section
variable {N W M : Type} (stdSort : {α : Type} → (α → α → Bool) → List α → List α)

/-- **C69** To sort a range of edges of a node sorts it, and does nothing else: edges of the node which are not in the range stay where they are, and so do all other nodes and edges. -/
theorem C69_sort_edges [DecidableEq W] [DecidableEq M] (hsort : Sorts stdSort) (g : G N (Edge W M)) (lt : Edge W M → Edge W M → Bool) (hlt : StrictWeak lt) {n p q : Nat} {l : List (Edge W M)}
    (hl : g.edges[n]? = some l) (hpq : p ≤ q) (hq : q ≤ l.length) :
    ∃ g' l', directedStep stdSort g (.sortEdges lt n p n q) = .ret g' .unit ∧ undirectedStep stdSort g (.sortEdges lt n p n q) = .ret g' .unit ∧
      SameElsewhere g g' n ∧ g'.edges[n]? = some l' ∧ RangeSorted lt l l' p q := by
  obtain ⟨h1, h2, h3⟩ := sortEdges_spec (fun l => hsort _ lt l hlt) g hl hpq hq
  exact ⟨_, _, h1, h1, sameElsewhere_onNode _ _ _, h2, h3⟩

/-- **C69** The same holds for the stable sort, which besides keeps the order of equivalent edges. -/
theorem C69_stable_sort_edges [DecidableEq W] [DecidableEq M] (g : G N (Edge W M)) (lt : Edge W M → Edge W M → Bool) (hlt : StrictWeak lt) {n p q : Nat} {l : List (Edge W M)}
    (hl : g.edges[n]? = some l) (hpq : p ≤ q) (hq : q ≤ l.length) :
    ∃ g' l', directedStep stdSort g (.stableSortEdges lt n p n q) = .ret g' .unit ∧ undirectedStep stdSort g (.stableSortEdges lt n p n q) = .ret g' .unit ∧
      SameElsewhere g g' n ∧ g'.edges[n]? = some l' ∧ RangeSorted lt l l' p q ∧
      ∀ c, (range l' p q).filter (fun e => !lt e c && !lt c e) = (range l p q).filter (fun e => !lt e c && !lt c e) := by
  obtain ⟨h1, h2, h3⟩ := sortEdges_spec (srt := StableSort.stableSort lt) (fun l => ⟨StableSort.stableSort_perm l, StableSort.stableSort_sorted hlt l⟩) g hl hpq hq
  refine ⟨_, _, h1, h1, sameElsewhere_onNode _ _ _, h2, h3, fun c => ?_⟩
  rw [range_splice hpq hq]
  · exact StableSort.stableSort_filter hlt c _
  · rw [(StableSort.stableSort_perm _).length_eq]
    simp only [range, List.length_drop, List.length_take]
    omega

/-- **C69** Given iterators to the edges of two different nodes, nothing happens. -/
theorem C69_different_nodes [DecidableEq W] [DecidableEq M] (g : G N (Edge W M)) (lt : Edge W M → Edge W M → Bool) {n m p q : Nat} {l k : List (Edge W M)} (hnm : n ≠ m)
    (hl : g.edges[n]? = some l) (hk : g.edges[m]? = some k) (hp : p ≤ l.length) (hq : q ≤ k.length) :
    directedStep stdSort g (.sortEdges lt n p m q) = .ret g .unit ∧ undirectedStep stdSort g (.sortEdges lt n p m q) = .ret g .unit ∧
    directedStep stdSort g (.stableSortEdges lt n p m q) = .ret g .unit ∧ undirectedStep stdSort g (.stableSortEdges lt n p m q) = .ret g .unit :=
  ⟨sortEdges_other g hnm hl hk hp hq, sortEdges_other g hnm hl hk hp hq, sortEdges_other g hnm hl hk hp hq, sortEdges_other g hnm hl hk hp hq⟩

/-- **C69** To swap two edges of a node exchanges them, and does nothing else; if there is no such edge, or no such node, then there is an exception, and nothing happens. -/
theorem C69_swap_edges [DecidableEq W] [DecidableEq M] (g : G N (Edge W M)) (n i j : Nat) :
    (∀ l, g.edges[n]? = some l → i < l.length → j < l.length → ∃ g' l', directedStep stdSort g (.swapEdges n i j) = .ret g' .unit ∧ undirectedStep stdSort g (.swapEdges n i j) = .ret g' .unit ∧
      SameElsewhere g g' n ∧ g'.edges[n]? = some l' ∧ Exchanged l l' i j) ∧
    ((¬ ∃ l, g.edges[n]? = some l ∧ i < l.length ∧ j < l.length) → directedStep stdSort g (.swapEdges n i j) = .threw g ∧ undirectedStep stdSort g (.swapEdges n i j) = .threw g) := by
  refine ⟨fun l hl hi hj => ?_, fun h => ⟨swapEdges_throws g h, swapEdges_throws g h⟩⟩
  obtain ⟨g', l', h1, h2⟩ := swapEdges_spec g hl hi hj
  exact ⟨g', l', h1, h1, h2⟩

end

/- The hypotheses are met, and something happens. -/
example : Sorts StableSort.stableSort := fun _ _ l h => ⟨StableSort.stableSort_perm l, StableSort.stableSort_sorted h l⟩

example : StrictWeak fun e f : Edge Nat Unit => decide (e.weight < f.weight) :=
  ⟨fun a b h => by simp only [decide_eq_true_eq, decide_eq_false_iff_not] at *; omega, fun a b c h h' => by simp only [decide_eq_false_iff_not] at *; omega⟩

example : swapEdges [[⟨1, 3, ()⟩, ⟨0, 1, ()⟩, ⟨1, 2, ()⟩], ([] : List (Edge Nat Unit))] 0 0 2 = .ok [[⟨1, 2, ()⟩, ⟨0, 1, ()⟩, ⟨1, 3, ()⟩], []] := by decide

end Verif.Props
