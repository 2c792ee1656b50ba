import Verif.Spec.GraphInit
import Verif.Lemmas.StableSort
import Verif.Lemmas.Cluster
import Verif.Lemmas.Undirected
set_option linter.unusedSectionVars false
namespace Verif.Graph
open Verif.Spec

/-! ### Searching -/
section search
variable {α : Type}

/-- Searching a slice of a list. -/
theorem slice_findIdx (p : α → Bool) (l : List α) (lo hi : Nat) (h1 : lo ≤ hi) (h2 : hi ≤ l.length) :
    ∃ r, lo + ((l.take hi).drop lo).findIdx p = r ∧ lo ≤ r ∧ r ≤ hi ∧
      (∀ q (hq : q < l.length), lo ≤ q → q < r → p l[q] = false) ∧ (∀ hr : r < l.length, r < hi → p l[r] = true) := by
  have hlen : ((l.take hi).drop lo).length = hi - lo := by simp; omega
  have hle := List.findIdx_le_length (p := p) (xs := (l.take hi).drop lo)
  refine ⟨_, rfl, by omega, by omega, ?_, ?_⟩
  · intro q hq hlo hqr
    have := List.not_of_lt_findIdx (p := p) (xs := (l.take hi).drop lo) (i := q - lo) (by omega)
    simp only [List.getElem_drop, List.getElem_take] at this
    have he : lo + (q - lo) = q := by omega
    simp only [he] at this
    simpa using this
  · intro hr hrh
    have := List.findIdx_getElem (p := p) (xs := (l.take hi).drop lo) (w := by omega)
    simpa only [List.getElem_drop, List.getElem_take] using this

theorem findIdx_facts (p : α → Bool) (l : List α) :
    ∃ r, l.findIdx p = r ∧ r ≤ l.length ∧ (∀ q (hq : q < l.length), q < r → p l[q] = false) ∧
      (∀ hr : r < l.length, p l[r] = true) := by
  refine ⟨_, rfl, List.findIdx_le_length, ?_, fun hr => List.findIdx_getElem (w := hr)⟩
  intro q hq h
  simpa using List.not_of_lt_findIdx h

theorem countP_interval (p : α → Bool) (l : List α) (lo hi : Nat) (h1 : lo ≤ hi) (h2 : hi ≤ l.length)
    (h : ∀ q (hq : q < l.length), p l[q] = true ↔ lo ≤ q ∧ q < hi) : l.countP p = hi - lo := by
  have hl : l = l.take lo ++ ((l.take hi).drop lo ++ l.drop hi) := by
    apply List.ext_getElem
    · simp; omega
    · intro i h3 h4
      rw [List.getElem_append]
      split
      · simp
      · rename_i h5
        simp only [List.length_take] at h5
        rw [List.getElem_append]
        split
        · simp only [List.getElem_drop, List.getElem_take, List.length_take]
          congr 1; omega
        · rename_i h6
          simp only [List.length_drop, List.length_take] at h6
          simp only [List.getElem_drop, List.length_drop, List.length_take]
          congr 1; omega
  rw [hl, List.countP_append, List.countP_append]
  have e1 : (l.take lo).countP p = 0 := by
    rw [List.countP_eq_zero]
    intro a ha
    obtain ⟨i, hi, rfl⟩ := List.mem_iff_getElem.1 ha
    simp only [List.length_take] at hi
    rw [List.getElem_take]
    have := (h i (by omega)).not
    simp only [Bool.not_eq_true] at this
    simp [this.2 (by omega)]
  have e3 : (l.drop hi).countP p = 0 := by
    rw [List.countP_eq_zero]
    intro a ha
    obtain ⟨i, hi, rfl⟩ := List.mem_iff_getElem.1 ha
    simp only [List.length_drop] at hi
    rw [List.getElem_drop]
    exact fun hc => by have := (h _ (by omega)).1 hc; omega
  have e2 : ((l.take hi).drop lo).countP p = hi - lo := by
    rw [List.countP_eq_length.2, List.length_drop, List.length_take, Nat.min_eq_left h2]
    intro a ha
    obtain ⟨i, hi, rfl⟩ := List.mem_iff_getElem.1 ha
    simp only [List.length_drop, List.length_take] at hi
    rw [List.getElem_drop, List.getElem_take]
    exact (h _ (by omega)).2 (by omega)
  omega

theorem pairwise_getElem {R : α → α → Prop} {l : List α} (h : l.Pairwise R) {i j : Nat} (hij : i < j) (hj : j < l.length) :
    R l[i] l[j] := List.pairwise_iff_getElem.1 h i j (by omega) hj hij

end search

section undirected
variable {W M : Type} [DecidableEq W] [DecidableEq M] {k : WeightKind W}

/-! ### The order -/

theorem edgeLess_strictWeak (hk : WeightsOk M k) : StrictWeak (edgeLess (W := W) (M := M) k) := by
  cases k with
  | empty => exact ⟨by intro a b; simp [edgeLess]; omega, by intro a b c; simp [edgeLess]; omega⟩
  | equality => exact ⟨by intro a b; simp [edgeLess]; omega, by intro a b c; simp [edgeLess]; omega⟩
  | ordered lt =>
    obtain ⟨⟨ha, hn⟩, _⟩ := hk
    refine ⟨?_, ?_⟩
    · intro a b h
      simp only [edgeLess] at h ⊢
      by_cases hab : a.target = b.target
      · rw [if_pos hab] at h; rw [if_pos hab.symm]; exact ha _ _ h
      · rw [if_neg hab] at h; rw [if_neg (Ne.symm hab)]; simp at h ⊢; omega
    · intro a b c h1 h2
      simp only [edgeLess] at h1 h2 ⊢
      by_cases hab : a.target = b.target <;> by_cases hbc : b.target = c.target
      · rw [if_pos hab] at h1; rw [if_pos hbc] at h2; rw [if_pos (hab.trans hbc)]; exact hn _ _ _ h1 h2
      · rw [if_neg hbc] at h2; rw [if_neg (by omega)]; simp at h2 ⊢; omega
      · rw [if_neg hab] at h1; rw [if_neg (by omega)]; simp at h1 ⊢; omega
      · rw [if_neg hab] at h1; rw [if_neg hbc] at h2
        simp at h1 h2
        rw [if_neg (by omega)]; simp; omega

/-- Neither of two edges is less: they have the same key, or at least the same target. -/
theorem edgeLess_neither (hk : WeightsOk M k) {e f : Edge W M} (h1 : edgeLess k e f = false) (h2 : edgeLess k f e = false) :
    e.target = f.target ∧ (k.clusters = false → key e = key f) := by
  cases k with
  | empty =>
    simp [edgeLess] at h1 h2
    have : Subsingleton W := hk
    exact ⟨by omega, fun _ => Prod.ext (by simp [key]; omega) (Subsingleton.elim _ _)⟩
  | equality => simp [edgeLess] at h1 h2; exact ⟨by omega, fun h => by cases h⟩
  | ordered lt =>
    simp only [edgeLess] at h1 h2
    by_cases he : e.target = f.target
    · rw [if_pos he] at h1; rw [if_pos he.symm] at h2
      exact ⟨he, fun _ => Prod.ext he (hk.2 _ _ h1 h2)⟩
    · rw [if_neg he] at h1; rw [if_neg (Ne.symm he)] at h2
      simp at h1 h2; omega

theorem edgeLess_congr (k : WeightKind W) {e e' f f' : Edge W M} (h : key e = key e') (h' : key f = key f') :
    edgeLess k e f = edgeLess k e' f' := by
  obtain ⟨h1, h2⟩ := Prod.mk.inj h
  obtain ⟨h3, h4⟩ := Prod.mk.inj h'
  cases k <;> simp only [edgeLess, h1, h2, h3, h4]

theorem edgeLess_self (hk : WeightsOk M k) {e f : Edge W M} (h : key e = key f) : edgeLess k e f = false := by
  rw [edgeLess_congr k h rfl]
  cases hc : edgeLess k f f with
  | false => rfl
  | true => have := (edgeLess_strictWeak hk).asymm _ _ hc; rw [hc] at this; exact this

theorem edgeLess_target {e f : Edge W M} (h : edgeLess k e f = false) : f.target ≤ e.target := by
  cases k with
  | ordered lt =>
    simp only [edgeLess] at h
    by_cases he : e.target = f.target
    · omega
    · rw [if_neg he] at h; simpa using h
  | _ => simpa [edgeLess] using h

/-! ### Canonical order -/

/-- Sorted by `edgeLess` and equal keys are adjacent. -/
structure Ord (k : WeightKind W) (l : List (Edge W M)) : Prop where
  sorted : l.Pairwise fun e f => edgeLess k f e = false
  adjacent : ∀ (a b c : Nat) (_ : a < b) (_ : b < c) (_ : c < l.length), key l[a] = key l[c] → key l[b] = key l[a]

theorem Ord.canonical {l : List (Edge W M)} (h : Ord k l) : Canonical k l := by
  refine ⟨h.sorted.imp fun h => edgeLess_target h, ?_, h.adjacent⟩
  rintro lt rfl
  refine h.sorted.imp ?_
  intro e f h he
  simpa only [edgeLess, if_pos he.symm] using h

theorem ord_of_sorted (hk : WeightsOk M k) (hc : k.clusters = false) {l : List (Edge W M)}
    (h : l.Pairwise fun e f => edgeLess k f e = false) : Ord k l := by
  refine ⟨h, ?_⟩
  intro a b c hab hbc hcl hkey
  have h1 := pairwise_getElem h hab (by omega)
  have h2 := pairwise_getElem h hbc hcl
  rw [edgeLess_congr k hkey.symm rfl] at h2
  exact (edgeLess_neither hk h1 h2).2 hc

theorem clusterBlock_spec (l : List (Edge W M)) :
    ∃ l', clusterBlock l = .ok l' ∧ l'.Perm l ∧
      ∀ (a b c : Nat) (_ : a < b) (_ : b < c) (_ : c < l'.length), l'[a].weight = l'[c].weight → l'[b].weight = l'[a].weight := by
  obtain ⟨w, hw, hp, hd⟩ := Cluster.cluster_main (eq := fun e f : Edge W M => decide (e.weight = f.weight))
    (by simp) (by intro a b h; simp at *; exact h.symm) (by intro a b c h1 h2; simp at *; exact h1.trans h2) (l.length + 1)
    (⟨l.toArray, by simp⟩ : Vector _ l.length) 0 (by omega)
    ⟨fun i j k _ _ _ h => by omega, fun i k h => by omega⟩
  refine ⟨w.toList, by unfold clusterBlock; rw [hw], Array.perm_iff_toList_perm.1 (Vector.perm_iff_toArray_perm.1 hp), ?_⟩
  intro a b c hab hbc hc h
  simp only [Vector.length_toList] at hc
  simp only [Vector.getElem_toList] at h ⊢
  have := hd.contig a b c hab hbc hc (by omega) (by simpa using h)
  exact (by simpa using this : w[a].weight = w[b].weight).symm

theorem clusterBlocks_spec (l : List (Edge W M)) (h : l.Pairwise fun e f => e.target ≤ f.target) :
    ∃ l', clusterBlocks l = .ok l' ∧ l'.Perm l ∧ Ord .equality l' := by
  induction hn : l.length using Nat.strongRecOn generalizing l with
  | ind n ih =>
    cases l with
    | nil => exact ⟨[], by rw [clusterBlocks], .refl _, ⟨.nil, by intro a b c _ _ h; simp at h⟩⟩
    | cons e l =>
      rw [List.pairwise_cons] at h
      have hl := (List.dropWhile_sublist (l := l) fun f => decide (e.target = f.target)).length_le
      obtain ⟨r, hr1, hr2, hr3⟩ := ih (l.dropWhile fun f => decide (e.target = f.target)).length
        (by rw [← hn]; simp only [List.length_cons]; omega) _
        (h.2.sublist (List.dropWhile_sublist _)) rfl
      obtain ⟨b, hb1, hb2, hb3⟩ := clusterBlock_spec (e :: l.takeWhile fun f => decide (e.target = f.target))
      have tb : ∀ f ∈ b, f.target = e.target := by
        intro f hf
        rcases List.mem_cons.1 (hb2.mem_iff.1 hf) with rfl | hf
        · rfl
        · have := List.all_eq_true.1 List.all_takeWhile f hf
          simp at this; exact this.symm
      have tr : ∀ f ∈ r, e.target < f.target := by
        intro f hf
        have hf := hr2.mem_iff.1 hf
        have h1 : ∀ g ∈ l.dropWhile (fun f => decide (e.target = f.target)), e.target ≤ g.target := by
          intro g hg
          exact h.1 g ((List.dropWhile_sublist _).mem hg)
        have h2 := h.2.sublist (List.dropWhile_sublist fun f => decide (e.target = f.target))
        cases hd : l.dropWhile (fun f => decide (e.target = f.target)) with
        | nil => rw [hd] at hf; simp at hf
        | cons g m =>
          have hg : decide (e.target = g.target) = false := by
            have := List.head_dropWhile_not (p := fun f => decide (e.target = f.target)) (l := l) (by rw [hd]; simp)
            simpa [hd] using this
          have hg' := h1 g (by rw [hd]; simp)
          simp at hg
          rw [hd] at hf h2
          rcases List.mem_cons.1 hf with rfl | hf
          · omega
          · have := (List.pairwise_cons.1 h2).1 f hf
            omega
      refine ⟨b ++ r, ?_, ?_, ⟨?_, ?_⟩⟩
      · rw [clusterBlocks, hb1]
        simp only [Res.bind]
        rw [hr1]
      · refine (hb2.append hr2).trans ?_
        rw [List.cons_append, List.takeWhile_append_dropWhile]
      · rw [List.pairwise_append]
        refine ⟨?_, hr3.sorted, ?_⟩
        · rw [List.pairwise_iff_getElem]
          intro i j hi hj hij
          simp only [edgeLess, decide_eq_false_iff_not]
          rw [tb _ (List.getElem_mem _), tb _ (List.getElem_mem _)]; omega
        · intro f hf g hg
          have := tb f hf
          have := tr g hg
          simp [edgeLess]; omega
      · intro i j m hij hjm hm hkey
        obtain ⟨hk1, hk2⟩ := Prod.mk.inj hkey
        simp only [List.length_append] at hm
        by_cases hmb : m < b.length
        · have e1 : (b ++ r)[i]'(by simp; omega) = b[i]'(by omega) := List.getElem_append_left (by omega)
          have e2 : (b ++ r)[j]'(by simp; omega) = b[j]'(by omega) := List.getElem_append_left (by omega)
          have e3 : (b ++ r)[m]'(by simp; omega) = b[m] := List.getElem_append_left hmb
          rw [e1, e3] at hk2
          rw [e1, e2]
          refine Prod.ext ?_ (hb3 i j m hij hjm hmb hk2)
          show b[j].target = b[i].target
          rw [tb _ (List.getElem_mem _), tb _ (List.getElem_mem _)]
        · have e3 : (b ++ r)[m]'(by simp; omega) = r[m - b.length]'(by omega) := List.getElem_append_right (by omega)
          by_cases hib : i < b.length
          · have e1 : (b ++ r)[i]'(by simp; omega) = b[i] := List.getElem_append_left hib
            rw [e1, e3] at hk1
            have h1 := tb _ (List.getElem_mem hib)
            have h2 := tr _ (List.getElem_mem (l := r) (n := m - b.length) (by omega))
            omega
          · have e1 : (b ++ r)[i]'(by simp; omega) = r[i - b.length]'(by omega) := List.getElem_append_right (by omega)
            have e2 : (b ++ r)[j]'(by simp; omega) = r[j - b.length]'(by omega) := List.getElem_append_right (by omega)
            rw [e1, e3] at hkey
            rw [e1, e2]
            exact hr3.adjacent _ _ _ (by omega) (by omega) (by omega) hkey

theorem preprocessNode_spec (hk : WeightsOk M k) (l : List (Edge W M)) :
    ∃ l', preprocessNode k l = .ok l' ∧ l'.Perm l ∧ Ord k l' ∧
      (k.clusters = false → ∀ c : Edge W M, l'.filter (fun e => decide (key e = key c)) = l.filter (fun e => decide (key e = key c))) := by
  have hs := StableSort.stableSort_sorted (edgeLess_strictWeak hk) l
  unfold preprocessNode
  cases hc : k.clusters with
  | false =>
    rw [if_neg (by simp)]
    refine ⟨_, rfl, StableSort.stableSort_perm l, ord_of_sorted hk hc hs, fun _ c => ?_⟩
    have := StableSort.stableSort_filter (edgeLess_strictWeak hk) c l
    have he : (fun a => !edgeLess k a c && !edgeLess k c a) = fun e : Edge W M => decide (key e = key c) := by
      funext a
      rw [Bool.eq_iff_iff]
      simp only [Bool.and_eq_true, Bool.not_eq_true', decide_eq_true_eq]
      exact ⟨fun h => (edgeLess_neither hk h.1 h.2).2 hc, fun h => ⟨edgeLess_self hk h, edgeLess_self hk h.symm⟩⟩
    rw [he] at this
    exact this
  | true =>
    rw [if_pos rfl]
    cases k with
    | empty => cases hc
    | ordered => cases hc
    | equality =>
      obtain ⟨l', h1, h2, h3⟩ := clusterBlocks_spec (StableSort.stableSort (edgeLess .equality) l)
        (hs.imp fun h => edgeLess_target h)
      exact ⟨l', h1, h2.trans (StableSort.stableSort_perm l), h3, fun h => by cases h⟩

/-- `s'` has at each node the same edges as `s`, in canonical order. -/
def Arranged (k : WeightKind W) (s s' : Edges (Edge W M)) : Prop :=
  List.Forall₂ (fun l l' => preprocessNode k l = .ok l' ∧ l'.Perm l ∧ Ord k l' ∧
      (k.clusters = false → ∀ c : Edge W M, l'.filter (fun e => decide (key e = key c)) = l.filter (fun e => decide (key e = key c)))) s s'

theorem preprocess_spec (hk : WeightsOk M k) (s : Edges (Edge W M)) :
    ∃ s', preprocess k s = .ok s' ∧ Arranged k s s' := by
  induction s with
  | nil => exact ⟨[], rfl, List.Forall₂.nil⟩
  | cons l s ih =>
    obtain ⟨s', h1, h2⟩ := ih
    obtain ⟨l', h3⟩ := preprocessNode_spec hk l
    exact ⟨l' :: s', by unfold preprocess; rw [h3.1]; simp only [Res.bind]; rw [h1], List.Forall₂.cons h3 h2⟩

/-! ### Blocks -/

/-- The block starting at `lo` consists of exactly the edges with the same key. -/
theorem blockEnd_spec (hk : WeightsOk M k) {l : List (Edge W M)} (h : Ord k l) (lo : Nat) (hlo : lo < l.length)
    (hb : ∀ h0 : 0 < lo, key l[lo - 1] ≠ key l[lo]) :
    ∃ u, blockEnd k l lo l[lo] = u ∧ lo < u ∧ u ≤ l.length ∧
    (∀ q (hq : q < l.length), key l[q] = key l[lo] ↔ lo ≤ q ∧ q < u) ∧
    (∀ hu : u < l.length, key l[u - 1] ≠ key l[u]) := by
  -- first: the end of the run of the same key
  have main : ∃ u, blockEnd k l lo l[lo] = u ∧ lo < u ∧ u ≤ l.length ∧
      (∀ q (hq : q < l.length), lo ≤ q → q < u → key l[q] = key l[lo]) ∧
      (∀ hu : u < l.length, key l[u] ≠ key l[lo]) := by
    obtain ⟨up, hup, u0, u1, u2, u3⟩ := slice_findIdx (fun f => edgeLess k l[lo] f) l lo l.length (by omega) (Nat.le_refl _)
    rw [List.take_length] at hup
    have ulo : lo < up := by
      rcases Nat.lt_or_ge lo up with h | h
      · exact h
      · exfalso
        have he : up = lo := by omega
        subst he
        have h5 := u3 hlo hlo
        rw [edgeLess_self hk rfl] at h5
        cases h5
    unfold blockEnd
    simp only
    rw [hup]
    have le : ∀ q (hq : q < l.length), lo ≤ q → edgeLess k l[q] l[lo] = false := by
      intro q hq hloq
      rcases Nat.lt_or_ge lo q with h1 | h1
      · exact pairwise_getElem h.sorted h1 hq
      · have : q = lo := by omega
        subst this; exact edgeLess_self hk rfl
    cases hc : k.clusters with
    | false =>
      rw [if_neg (by simp)]
      refine ⟨up, rfl, ulo, u1, ?_, ?_⟩
      · intro q hq h1 h2
        exact (edgeLess_neither hk (le q hq h1) (u2 q hq h1 h2)).2 hc
      · intro hu heq
        have := u3 hu hu
        rw [edgeLess_self hk heq.symm] at this
        cases this
    | true =>
      rw [if_pos rfl]
      have hk' : k = .equality := by cases k <;> first | rfl | cases hc
      subst hk'
      have hsub : Subsingleton M := hk
      have hne : ∃ e m, (l.take up).drop lo = e :: m ∧ e = l[lo] := by
        refine ⟨l[lo], (l.take up).drop (lo + 1), ?_, rfl⟩
        rw [List.drop_eq_getElem_cons (by simp; omega), List.getElem_take]
      obtain ⟨e, m, hem, rfl⟩ := hne
      obtain ⟨u, hend, _, v1, v2, v3⟩ := slice_findIdx (fun f => !decide (f = l[lo])) l lo up (by omega) u1
      have hce : clusterEnd ((l.take up).drop lo) = ((l.take up).drop lo).findIdx fun f => !decide (f = l[lo]) := by
        rw [hem]; rfl
      rw [hce, hend]
      have hlt : lo < u := by
        rcases Nat.lt_or_ge lo u with h | h
        · exact h
        · exfalso
          have he : u = lo := by omega
          subst he
          have := v3 hlo (by omega)
          simp at this
      refine ⟨u, rfl, hlt, by omega, ?_, ?_⟩
      · intro q hq h1 h2
        have := v2 q hq h1 h2
        simp at this
        rw [this]
      · intro hu heq
        rcases Nat.lt_or_ge u up with h1 | h1
        · have := v3 hu h1
          simp at this
          apply this
          obtain ⟨k1, k2⟩ := Prod.mk.inj heq
          revert k1 k2
          generalize l[u] = x
          generalize l[lo] = y
          intro k1 k2
          cases x; cases y
          simp only at k1 k2
          subst k1; subst k2
          congr 1
          exact Subsingleton.elim _ _
        · have he : u = up := by omega
          subst he
          have := u3 hu hu
          rw [edgeLess_self hk heq.symm] at this
          cases this
  obtain ⟨u, m0, m1, m2, m3, m4⟩ := main
  refine ⟨u, m0, m1, m2, ?_, ?_⟩
  · intro q hq
    refine ⟨fun hq' => ?_, fun h1 => m3 q hq h1.1 h1.2⟩
    rcases Nat.lt_or_ge q lo with h1 | h1
    · exfalso
      rcases Nat.lt_or_ge q (lo - 1) with h2 | h2
      · have := h.adjacent q (lo - 1) lo h2 (by omega) hlo hq'
        exact hb (by omega) (this.trans hq')
      · have he : q = lo - 1 := by omega
        subst he
        exact hb (by omega) hq'
    · refine ⟨h1, ?_⟩
      rcases Nat.lt_or_ge q u with h2 | h2
      · exact h2
      · exfalso
        rcases Nat.lt_or_ge u q with h3 | h3
        · exact m4 (by omega) (h.adjacent lo u q m1 h3 hq hq'.symm)
        · have he : q = u := by omega
          subst he
          exact m4 hq hq'
  · intro hu heq
    rw [m3 (u - 1) (by omega) (by omega) (by omega)] at heq
    exact m4 hu heq.symm

/-- The edges found at the target are exactly those leading back with the same weight. -/
theorem matching_spec (hk : WeightsOk M k) {t : List (Edge W M)} (h : Ord k t) (i : Nat) (e : Edge W M) :
    ∃ a b, matching k t i e = (a, b) ∧ a ≤ b ∧ b ≤ t.length ∧
    ∀ q (hq : q < t.length), key t[q] = (i, e.weight) ↔ a ≤ q ∧ q < b := by
  have sw := edgeLess_strictWeak (M := M) hk
  let c : Edge W M := { e with target := i }
  obtain ⟨lo, hlo, a1, a2, a3⟩ := findIdx_facts (fun f => !edgeLess k f c) t
  obtain ⟨hi, hhi, b1, b2, b3⟩ := findIdx_facts (fun f => edgeLess k c f) t
  have low : ∀ q (hq : q < t.length), lo ≤ q → edgeLess k t[q] c = false := by
    intro q hq hle
    have h1 := a3 (by omega)
    simp only [Bool.not_eq_true'] at h1
    rcases Nat.lt_or_ge lo q with h2 | h2
    · exact sw.negTrans _ _ _ (pairwise_getElem h.sorted h2 hq) h1
    · have he : lo = q := by omega
      subst he; exact h1
  have high : ∀ q (hq : q < t.length), hi ≤ q → edgeLess k c t[q] = true := by
    intro q hq hle
    have h1 := b3 (by omega)
    rcases Nat.lt_or_ge hi q with h2 | h2
    · cases hcq : edgeLess k c t[q] with
      | true => rfl
      | false =>
        have := sw.negTrans _ _ _ hcq (pairwise_getElem h.sorted h2 hq)
        rw [h1] at this
        exact this.symm
    · have he : hi = q := by omega
      subst he; exact h1
  have lh : lo ≤ hi := by
    rcases Nat.lt_or_ge hi lo with h1 | h1
    · exfalso
      have h2 := high hi (by omega) (Nat.le_refl _)
      have h3 := a2 hi (by omega) h1
      simp only [Bool.not_eq_false'] at h3
      rw [sw.asymm _ _ h2] at h3
      cases h3
    · exact h1
  unfold matching
  simp only
  rw [show (fun f : Edge W M => !edgeLess k f { e with target := i }) = fun f => !edgeLess k f c from rfl,
    show (fun f : Edge W M => edgeLess k { e with target := i } f) = fun f => edgeLess k c f from rfl, hlo, hhi]
  have hkc : key c = (i, e.weight) := rfl
  cases hc : k.clusters with
  | false =>
    rw [if_neg (by simp)]
    refine ⟨lo, hi, rfl, lh, b1, ?_⟩
    intro q hq
    rw [← hkc]
    constructor
    · intro hkey
      refine ⟨?_, ?_⟩
      · rcases Nat.lt_or_ge q lo with h1 | h1
        · have := a2 q hq h1
          simp only [Bool.not_eq_false'] at this
          rw [edgeLess_self hk hkey] at this
          cases this
        · exact h1
      · rcases Nat.lt_or_ge q hi with h1 | h1
        · exact h1
        · have := high q hq h1
          rw [edgeLess_self hk hkey.symm] at this
          cases this
    · intro ⟨h1, h2⟩
      exact (edgeLess_neither hk (low q hq h1) (b2 q hq h2)).2 hc
  | true =>
    rw [if_pos rfl]
    have hk' : k = .equality := by cases k <;> first | rfl | cases hc
    subst hk'
    have hsub : Subsingleton M := hk
    obtain ⟨lo', hlo', hge, v1, v2, v3⟩ := slice_findIdx (fun f => decide (f.weight = e.weight)) t lo hi lh b1
    rw [hlo']
    have tgt : ∀ q (hq : q < t.length), lo ≤ q → q < hi → t[q].target = i := by
      intro q hq h1 h2
      exact (edgeLess_neither hk (low q hq h1) (b2 q hq h2)).1
    have key_range : ∀ q (hq : q < t.length), key t[q] = (i, e.weight) → lo ≤ q ∧ q < hi := by
      intro q hq hkey
      rw [← hkc] at hkey
      refine ⟨?_, ?_⟩
      · rcases Nat.lt_or_ge q lo with h1 | h1
        · have := a2 q hq h1
          simp only [Bool.not_eq_false'] at this
          rw [edgeLess_self hk hkey] at this
          cases this
        · exact h1
      · rcases Nat.lt_or_ge q hi with h1 | h1
        · exact h1
        · have := high q hq h1
          rw [edgeLess_self hk hkey.symm] at this
          cases this
    by_cases hempty : hi ≤ lo'
    · have : (t.take hi).drop lo' = [] := by rw [List.drop_eq_nil_iff]; simp; omega
      rw [this]
      simp only [clusterEnd, Nat.add_zero]
      refine ⟨lo', lo', rfl, Nat.le_refl _, by omega, ?_⟩
      intro q hq
      refine ⟨fun hkey => ?_, fun h => by omega⟩
      obtain ⟨h1, h2⟩ := key_range q hq hkey
      have := v2 q hq h1 (by omega)
      simp at this
      exact absurd (Prod.mk.inj hkey).2 this
    · have hlt : lo' < hi := by omega
      have hl' : lo' < t.length := by omega
      have hw := v3 hl' hlt
      simp at hw
      have hkey' : key t[lo'] = (i, e.weight) := Prod.ext (tgt lo' hl' hge hlt) hw
      have hcons : (t.take hi).drop lo' = t[lo'] :: (t.take hi).drop (lo' + 1) := by
        rw [List.drop_eq_getElem_cons (by simp; omega), List.getElem_take]
      have hce : clusterEnd ((t.take hi).drop lo') = ((t.take hi).drop lo').findIdx fun f => !decide (f = t[lo']) := by
        rw [hcons]; rfl
      rw [hce]
      obtain ⟨u, hend, hge2, w1, w2, w3⟩ := slice_findIdx (fun f => !decide (f = t[lo'])) t lo' hi (by omega) b1
      rw [hend]
      refine ⟨lo', u, rfl, hge2, by omega, ?_⟩
      intro q hq
      constructor
      · intro hkey
        obtain ⟨h1, h2⟩ := key_range q hq hkey
        refine ⟨?_, ?_⟩
        · rcases Nat.lt_or_ge q lo' with h3 | h3
          · have := v2 q hq h1 h3
            simp at this
            exact absurd (Prod.mk.inj hkey).2 this
          · exact h3
        · rcases Nat.lt_or_ge q u with h3 | h3
          · exact h3
          · exfalso
            have h4 := w3 (by omega) (by omega)
            simp at h4
            have h5 : key t[u] = key t[lo'] := by
              rcases Nat.lt_or_ge u q with h6 | h6
              · rcases Nat.lt_or_ge lo' u with h7 | h7
                · exact h.adjacent lo' u q h7 h6 hq (hkey'.trans hkey.symm)
                · have : u = lo' := by omega
                  subst this; rfl
              · have : u = q := by omega
                subst this
                exact hkey.trans hkey'.symm
            apply h4
            obtain ⟨k1, k2⟩ := Prod.mk.inj h5
            revert k1 k2
            generalize t[u] = x
            generalize t[lo'] = y
            intro k1 k2
            cases x; cases y
            simp only at k1 k2
            subst k1; subst k2
            congr 1
            exact Subsingleton.elim _ _
      · intro ⟨h1, h2⟩
        have := w2 q hq h1 h2
        simp at this
        rw [this]; exact hkey'

/-! ### Validation -/

/-- What the checks come to for one edge `e` of node `i`. -/
def EdgeOk (s : Edges (Edge W M)) (i : Nat) (e : Edge W M) : Prop :=
  if e.target = i then 2 ∣ mult s i i e.weight
  else e.target < s.length ∧ mult s i e.target e.weight = mult s e.target i e.weight

theorem mult_interval {s : Edges (Edge W M)} {i j : Nat} {w : W} {l : List (Edge W M)} (hl : s[i]? = some l) {a b : Nat}
    (h1 : a ≤ b) (h2 : b ≤ l.length) (h : ∀ q (hq : q < l.length), key l[q] = (j, w) ↔ a ≤ q ∧ q < b) :
    mult s i j w = b - a := by
  rw [mult_some hl]
  unfold cnt
  apply countP_interval _ _ _ _ h1 h2
  intro q hq
  rw [← h q hq]
  simp [key]

theorem visitNode_spec (hk : WeightsOk M k) {s : Edges (Edge W M)} (hs : ∀ l ∈ s, Ord k l) {i : Nat}
    {l : List (Edge W M)} (hl : s[i]? = some l) (lo : Nat) (hb : ∀ (h0 : 0 < lo) (h1 : lo < l.length), key l[lo - 1] ≠ key l[lo]) :
    (Visit.stuck ∉ visitNode k s i l lo) ∧
    ((visitNode k s i l lo).all Visit.valid = true ↔ ∀ q (hq : q < l.length), lo ≤ q → EdgeOk s i l[q]) := by
  induction hn : l.length - lo using Nat.strongRecOn generalizing lo with
  | ind n ih =>
    rw [visitNode]
    by_cases hlo : lo < l.length
    · rw [dif_pos hlo]
      obtain ⟨u, e1, u1, u2, u3, u4⟩ := blockEnd_spec hk (hs l (List.mem_of_getElem? hl)) lo hlo (fun h0 => hb h0 hlo)
      simp only [e1]
      rw [dif_pos u1]
      obtain ⟨ih1, ih2⟩ := ih (l.length - u) (by omega) u (fun _ h1 => u4 h1) rfl
      have hm : mult s i l[lo].target l[lo].weight = u - lo := mult_interval hl (by omega) u2 u3
      -- the block
      have hv : ∀ v, blockVisit k s i l[lo] lo u = v → v ≠ .stuck ∧ (v.valid = true ↔ EdgeOk s i l[lo]) := by
        intro v hv
        unfold EdgeOk
        unfold blockVisit at hv
        by_cases ht : l[lo].target = i
        · rw [if_pos ht] at hv
          subst hv
          refine ⟨by simp, ?_⟩
          rw [if_pos ht]
          rw [ht] at hm
          rw [hm]
          simp [Visit.valid]; omega
        · rw [if_neg ht] at hv
          rw [if_neg ht]
          cases htt : s[l[lo].target]? with
          | none =>
            rw [htt] at hv
            subst hv
            refine ⟨by simp, ?_⟩
            have := List.getElem?_eq_none_iff.1 htt
            simp [Visit.valid]; omega
          | some t =>
            rw [htt] at hv
            simp only at hv
            subst hv
            refine ⟨by simp, ?_⟩
            have htl := (List.getElem?_eq_some_iff.1 htt).1
            obtain ⟨a, b, m0, m1, m2, m3⟩ := matching_spec hk (hs t (List.mem_of_getElem? htt)) i l[lo]
            have hm' : mult s l[lo].target i l[lo].weight = b - a := mult_interval htt m1 m2 m3
            rw [m0, hm, hm']
            simp [Visit.valid, htl]
            omega
      obtain ⟨v1, v2⟩ := hv _ rfl
      refine ⟨?_, ?_⟩
      · intro hmem
        rcases List.mem_cons.1 hmem with h | h
        · exact v1 h.symm
        · exact ih1 h
      · rw [List.all_cons, Bool.and_eq_true, ih2, v2]
        constructor
        · intro ⟨h1, h2⟩ q hq hq'
          rcases Nat.lt_or_ge q u with h3 | h3
          · have := (u3 q hq).2 ⟨hq', h3⟩
            obtain ⟨t1, t2⟩ := Prod.mk.inj this
            unfold EdgeOk at h1 ⊢
            rw [t1, t2]; exact h1
          · exact h2 q hq h3
        · intro h
          exact ⟨h lo hlo (Nat.le_refl _), fun q hq hq' => h q hq (by omega)⟩
    · rw [dif_neg hlo]
      refine ⟨by simp, ?_⟩
      simp
      intro q hq hq'
      omega

theorem edgeOk_iff (s : Edges (Edge W M)) :
    (∀ i k e, edgeAt s i k = some e → EdgeOk s i e) ↔ Reciprocal s := by
  constructor
  · intro h
    have pos : ∀ i j w, 0 < mult s i j w → ∃ k e, edgeAt s i k = some e ∧ e.target = j ∧ e.weight = w := by
      intro i j w hm
      cases hl : s[i]? with
      | none => rw [mult_none hl] at hm; omega
      | some l =>
        rw [mult_some hl] at hm
        obtain ⟨e, he, hp⟩ := List.countP_pos_iff.1 hm
        obtain ⟨k, hk⟩ := List.mem_iff_getElem?.1 he
        simp at hp
        exact ⟨k, e, by unfold edgeAt; rw [hl]; exact hk, hp⟩
    refine ⟨?_, ?_, ?_⟩
    · intro l hl e he
      obtain ⟨i, hi⟩ := List.mem_iff_getElem?.1 hl
      obtain ⟨k, hk⟩ := List.mem_iff_getElem?.1 he
      have := h i k e (by unfold edgeAt; rw [hi]; exact hk)
      unfold EdgeOk at this
      show e.target < s.length
      by_cases ht : e.target = i
      · rw [ht]; exact (List.getElem?_eq_some_iff.1 hi).1
      · rw [if_neg ht] at this; exact this.1
    · intro i j hij w
      rcases Nat.eq_zero_or_pos (mult s i j w) with h1 | h1
      · rcases Nat.eq_zero_or_pos (mult s j i w) with h2 | h2
        · rw [h1, h2]
        · obtain ⟨k, e, he, rfl, rfl⟩ := pos j i w h2
          have := h _ _ _ he
          unfold EdgeOk at this
          rw [if_neg hij] at this
          exact this.2.symm
      · obtain ⟨k, e, he, rfl, rfl⟩ := pos i j w h1
        have := h _ _ _ he
        unfold EdgeOk at this
        rw [if_neg (Ne.symm hij)] at this
        exact this.2
    · intro i w
      rcases Nat.eq_zero_or_pos (mult s i i w) with h1 | h1
      · rw [h1]; exact ⟨0, rfl⟩
      · obtain ⟨k, e, he, ht, rfl⟩ := pos i i w h1
        have := h _ _ _ he
        unfold EdgeOk at this
        rw [if_pos ht] at this
        exact this
  · intro h i k e he
    unfold EdgeOk
    split
    · exact h.loops i _
    · rename_i ht
      obtain ⟨l, hl, hk⟩ := Option.bind_eq_some_iff.1 he
      exact ⟨h.inRange l (List.mem_of_getElem? hl) e (List.mem_of_getElem? hk), h.links _ _ (Ne.symm ht) _⟩

theorem validateUndirected_spec (hk : WeightsOk M k) {s : Edges (Edge W M)} (hs : ∀ l ∈ s, Ord k l) :
    validateUndirected k s = .ok s ∧ Reciprocal s ∨ validateUndirected k s = .throws ∧ ¬ Reciprocal s := by
  have mem : ∀ v, v ∈ (visitEdges k s).flatten ↔ ∃ i l, s[i]? = some l ∧ v ∈ visitNode k s i l 0 := by
    intro v
    rw [List.mem_flatten]
    unfold visitEdges
    constructor
    · rintro ⟨vs, h1, h2⟩
      obtain ⟨i, hi, rfl⟩ := List.mem_mapIdx.1 h1
      exact ⟨i, s[i], List.getElem?_eq_getElem hi, h2⟩
    · rintro ⟨i, l, h1, h2⟩
      obtain ⟨hi, rfl⟩ := List.getElem?_eq_some_iff.1 h1
      exact ⟨_, List.mem_mapIdx.2 ⟨i, hi, rfl⟩, h2⟩
  have ns : (visitEdges k s).flatten.any (· == .stuck) = false := by
    rw [Bool.eq_false_iff]
    intro h
    obtain ⟨v, h1, h2⟩ := List.any_eq_true.1 h
    simp at h2
    subst h2
    obtain ⟨i, l, h3, h4⟩ := (mem _).1 h1
    exact (visitNode_spec hk hs h3 0 (fun h => by omega)).1 h4
  have hv : (visitEdges k s).flatten.all Visit.valid = true ↔ Reciprocal s := by
    rw [← edgeOk_iff, List.all_eq_true]
    constructor
    · intro h i q e he
      obtain ⟨l, hl, hq⟩ := Option.bind_eq_some_iff.1 he
      have := (visitNode_spec hk hs hl 0 (fun h => by omega)).2.1 (List.all_eq_true.2 fun v hv => h v ((mem v).2 ⟨i, l, hl, hv⟩))
      obtain ⟨hq', rfl⟩ := List.getElem?_eq_some_iff.1 hq
      exact this q hq' (Nat.zero_le _)
    · intro h v hv
      obtain ⟨i, l, h3, h4⟩ := (mem _).1 hv
      have := (visitNode_spec hk hs h3 0 (fun h => by omega)).2.2 (fun q hq _ => h i q _ (by
        unfold edgeAt; rw [h3]; exact List.getElem?_eq_getElem hq))
      exact List.all_eq_true.1 this v h4
  unfold validateUndirected
  rw [ns, if_neg (by simp)]
  by_cases h : Reciprocal s
  · rw [if_pos (hv.2 h)]; exact .inl ⟨rfl, h⟩
  · rw [if_neg (fun hc => h (hv.1 hc))]; exact .inr ⟨rfl, h⟩

theorem arranged_get {s s' : Edges (Edge W M)} (h : Arranged k s s') : s'.length = s.length ∧ (∀ l ∈ s', Ord k l) ∧
    (∀ i j w, mult s' i j w = mult s i j w) ∧ (InRange s' ↔ InRange s) := by
  have hlen : s'.length = s.length := (List.Forall₂.length_eq h).symm
  have hget : ∀ (i : Nat) (l' : List (Edge W M)), s'[i]? = some l' → ∃ l : List (Edge W M), s[i]? = some l ∧ l'.Perm l ∧ Ord k l' := by
    intro i l' hl'
    obtain ⟨hi', rfl⟩ := List.getElem?_eq_some_iff.1 hl'
    have := List.forall₂_iff_get.1 h
    have := this.2 i (by omega) hi'
    exact ⟨s[i]'(by omega), List.getElem?_eq_getElem _, this.2.1, this.2.2.1⟩
  refine ⟨hlen, ?_, ?_, ?_⟩
  · intro l' hl'
    obtain ⟨i, hi⟩ := List.mem_iff_getElem?.1 hl'
    obtain ⟨_, _, _, h⟩ := hget i l' hi
    exact h
  · intro i j w
    cases hl' : s'[i]? with
    | none =>
      have := List.getElem?_eq_none_iff.1 hl'
      rw [mult_none hl', mult_none (List.getElem?_eq_none_iff.2 (by omega))]
    | some l' =>
      obtain ⟨l, hl, hp, _⟩ := hget i l' hl'
      rw [mult_some hl', mult_some hl]
      exact hp.countP_eq _
  · unfold InRange
    rw [hlen]
    constructor
    · intro hr l hl e he
      obtain ⟨i, hi⟩ := List.mem_iff_getElem?.1 hl
      have hi' : i < s'.length := by rw [hlen]; exact (List.getElem?_eq_some_iff.1 hi).1
      obtain ⟨l', hl', hp, _⟩ := hget i _ (List.getElem?_eq_getElem hi')
      rw [hi] at hl'
      cases hl'
      exact hr _ (List.getElem_mem hi') e (hp.mem_iff.2 he)
    · intro hr l hl e he
      obtain ⟨i, hi⟩ := List.mem_iff_getElem?.1 hl
      obtain ⟨l', hl', hp, _⟩ := hget i l hi
      exact hr l' (List.mem_of_getElem? hl') e (hp.mem_iff.1 he)

theorem arranged_reciprocal {s s' : Edges (Edge W M)} (h : Arranged k s s') : Reciprocal s' ↔ Reciprocal s := by
  obtain ⟨_, _, hm, hr⟩ := arranged_get h
  rw [reciprocal_iff, reciprocal_iff, hr]
  have : mult s' = mult s := by funext i j w; exact hm i j w
  rw [this]

theorem makeUndirected_spec (hk : WeightsOk M k) (s : Edges (Edge W M)) :
    ∃ s', Arranged k s s' ∧
      (makeUndirected k s = .ok s' ∧ Reciprocal s ∨ makeUndirected k s = .throws ∧ ¬ Reciprocal s) := by
  obtain ⟨s', h1, h2⟩ := preprocess_spec hk s
  refine ⟨s', h2, ?_⟩
  unfold makeUndirected
  rw [h1, ← arranged_reciprocal h2]
  exact validateUndirected_spec hk (arranged_get h2).2.1

end undirected

/-! ### Directed and embedded graphs -/

theorem makeDirected_spec {W M : Type} (s : Edges (Edge W M)) :
    makeDirected s = .ok s ∧ InRange s ∨ makeDirected s = .throws ∧ ¬ InRange s := by
  unfold makeDirected
  have : (s.all fun l => l.all fun e => decide (e.target < s.length)) = true ↔ InRange s := by
    simp [InRange, EdgeLike.target]
  by_cases h : InRange s
  · rw [if_pos (this.2 h)]; exact .inl ⟨rfl, h⟩
  · rw [if_neg (fun hc => h (this.1 hc))]; exact .inr ⟨rfl, h⟩

theorem embeddedEdgeValid_iff {W M : Type} [DecidableEq W] (s : Edges (EEdge W M)) (n k : Nat) (e : EEdge W M) :
    embeddedEdgeValid s n k e = true ↔ (e.target, e.comp) ≠ (n, k) ∧
      ∃ e', edgeAt s e.target e.comp = some e' ∧ e'.target = n ∧ e'.comp = k ∧ e'.weight = e.weight := by
  unfold embeddedEdgeValid edgeAt
  cases h1 : s[e.target]? with
  | none => simp
  | some t =>
    cases h2 : t[e.comp]? with
    | none => simp [h2]
    | some e' =>
      simp only [Option.bind_some, h2, Option.some.injEq, exists_eq_left']
      by_cases h3 : e.target = n ∧ e.comp = k
      · rw [if_pos h3]; simp [h3]
      · rw [if_neg h3]
        by_cases h4 : e'.comp ≠ k
        · rw [if_pos h4]; simp [h4]
        · rw [if_neg h4]
          by_cases h5 : e'.target ≠ n
          · rw [if_pos h5]; simp [h5]
          · rw [if_neg h5]
            simp only [ne_eq, not_not] at h4 h5
            simp only [decide_eq_true_eq, h4, h5, true_and, Prod.mk.injEq, ne_eq]
            exact ⟨fun h => ⟨h3, h.symm⟩, fun h => h.2.symm⟩

theorem makeEmbedded_spec {W M : Type} [DecidableEq W] (s : Edges (EEdge W M)) :
    makeEmbedded s = .ok s ∧ Embedded s ∨ makeEmbedded s = .throws ∧ ¬ Embedded s := by
  unfold makeEmbedded
  have : (s.mapIdx fun n l => (l.mapIdx fun k e => embeddedEdgeValid s n k e).all id).all id = true ↔ Embedded s := by
    unfold Embedded
    simp only [List.all_eq_true, List.mem_mapIdx, id_eq]
    constructor
    · intro h n k e he
      obtain ⟨l, hl, hk⟩ := Option.bind_eq_some_iff.1 he
      obtain ⟨hn, rfl⟩ := List.getElem?_eq_some_iff.1 hl
      obtain ⟨hk', rfl⟩ := List.getElem?_eq_some_iff.1 hk
      rw [← embeddedEdgeValid_iff]
      have := h _ ⟨n, hn, rfl⟩
      simp only [List.all_eq_true, List.mem_mapIdx] at this
      exact this _ ⟨k, hk', rfl⟩
    · rintro h b ⟨n, hn, rfl⟩
      simp only [List.all_eq_true, List.mem_mapIdx]
      rintro b ⟨k, hk, rfl⟩
      rw [id, embeddedEdgeValid_iff]
      exact h n k _ (by unfold edgeAt; rw [List.getElem?_eq_getElem hn]; exact List.getElem?_eq_getElem hk)
  by_cases h : Embedded s
  · rw [if_pos (this.2 h)]; exact .inl ⟨rfl, h⟩
  · rw [if_neg (fun hc => h (this.1 hc))]; exact .inr ⟨rfl, h⟩

end Verif.Graph
