import Verif.Model.TypeLists
import Verif.Spec.Order
/- Lemmas about the algorithms on lists of types. -/
set_option linter.unusedSectionVars false

namespace Verif.TypeLists
open Verif.Spec

theorem concatSequences_eq : ∀ (l : List (List Nat)), l ≠ [] → concatSequences l = some l.flatten
  | [], h => absurd rfl h
  | [is], _ => by simp [concatSequences]
  | is :: js :: rest, _ => by
    rw [concatSequences, concatSequences_eq ((is ++ js) :: rest) (by simp)]
    simp
termination_by l => l.length

theorem reverseSequence_eq : ∀ (l : List Nat), reverseSequence l = l.reverse
  | [] => rfl
  | [_] => rfl
  | i :: j :: is => by rw [reverseSequence, reverseSequence_eq (j :: is)]; simp

section
variable {τ ε : Type} [DecidableEq τ] [DecidableEq ε]

theorem aggregate_eq (excluded : ε) (f : τ → ε) (all : List τ) : ∀ (ts done : List τ) (m : List Nat), all = done ++ ts →
    aggregate all.length excluded f m ts = m ++ ((List.range ts.length).map (done.length + ·)).filter fun i => (all[i]?).any fun t => decide (excluded ≠ f t)
  | [], done, m, _ => by simp [aggregate]
  | t :: ts, done, m, h => by
    have h' : all = (done ++ [t]) ++ ts := by rw [h]; simp
    rw [aggregate, aggregate_eq excluded f all ts (done ++ [t]) _ h', List.append_assoc]
    congr 1
    have hlen : all.length - ts.length - 1 = done.length := by rw [h]; simp; omega
    rw [List.length_cons, List.range_succ_eq_map, List.map_cons, List.filter_cons]
    have hget : all[done.length + 0]? = some t := by rw [h]; simp
    rw [hget]
    have hmap : (List.map (fun x => done.length + x) (List.map Nat.succ (List.range ts.length))) = (List.range ts.length).map ((done ++ [t]).length + ·) := by
      rw [List.map_map]
      apply List.map_congr_left
      intro a _
      simp only [Function.comp, List.length_append, List.length_cons, List.length_nil]
      omega
    rw [hmap, hlen]
    by_cases he : excluded = f t <;> simp [he]

theorem partialSumImpl_eq : ∀ (l acc : List Nat) (i : Nat), partialSumImpl (i :: acc) l = some (((List.range l.length).map fun k => i + (l.take (k + 1)).sum).reverse ++ i :: acc)
  | [], acc, i => by simp [partialSumImpl]
  | n :: l, acc, i => by
    rw [partialSumImpl, partialSumImpl_eq l (i :: acc) (i + n)]
    simp only [List.length_cons, List.range_succ_eq_map, List.map_cons, List.map_map, List.reverse_cons, List.append_assoc, Option.some.injEq]
    congr 1
    · congr 1
      apply List.map_congr_left
      intro a _
      simp [Nat.add_assoc]

/-! ### Lists of types -/

theorem filter_range' (ts : List τ) : ∀ (n i : Nat), i + n ≤ ts.length → filter ts (List.range' i n) = some ((ts.drop i).take n)
  | 0, i, _ => by simp [filter]
  | n + 1, i, h => by
    have ih := filter_range' ts n (i + 1) (by omega)
    unfold filter at ih ⊢
    rw [List.range'_succ, List.mapM_cons, List.getElem?_eq_getElem (by omega), ih]
    rw [List.drop_eq_getElem_cons (by omega : i < ts.length), List.take_succ_cons]
    rfl

theorem shift_range (n i : Nat) : shiftSequence (List.range n) i = List.range' i n := by
  unfold shiftSequence
  rw [List.range_eq_range', List.map_add_range']
  simp

theorem drop_eq (ts : List τ) (n : Nat) : drop ts n = some (ts.drop n) := by
  unfold drop
  split
  · rename_i h; rw [List.drop_eq_nil_iff.mpr h]
  · rw [shift_range, filter_range' ts _ _ (by omega), List.take_of_length_le (by simp)]

theorem keep_eq (ts : List τ) (n : Nat) : keep ts n = some (ts.take n) := by
  unfold keep
  split
  · rename_i h; rw [List.take_of_length_le h]
  · rw [List.range_eq_range', filter_range' ts _ _ (by omega), List.drop_zero]

theorem insert_eq (us : List τ) (t : τ) (i : Nat) : insert us t i = if i ≤ us.length then some (us.take i ++ t :: us.drop i) else none := by
  unfold insert
  split
  · rename_i h
    rw [shift_range, List.range_eq_range', filter_range' us _ _ (by omega), filter_range' us _ _ (by omega), List.drop_zero, List.take_of_length_le (l := us.drop i) (by simp)]
    rfl
  · rfl

theorem filter_append (ts : List τ) (is js : List Nat) : filter ts (is ++ js) = (filter ts is).bind fun a => (filter ts js).map fun b => a ++ b := by
  unfold filter
  rw [List.mapM_append]
  cases List.mapM (fun x => ts[x]?) is <;> cases List.mapM (fun x => ts[x]?) js <;> rfl

theorem erase_eq (ts : List τ) (i : Nat) : erase ts i = if i < ts.length then some (ts.eraseIdx i) else none := by
  unfold erase
  split
  · simp
  · rename_i h
    split
    · rw [if_neg (by omega)]
    · rw [if_pos (by omega), concatSequences_eq _ (by simp)]
      simp only [List.flatten_cons, List.flatten_nil, List.append_nil, Option.bind_some]
      rw [filter_append, shift_range, List.range_eq_range', filter_range' ts _ _ (by omega), filter_range' ts _ _ (by omega), List.drop_zero,
        List.take_of_length_le (l := ts.drop (i + 1)) (by simp; omega)]
      simp [List.eraseIdx_eq_take_drop_succ]

theorem filterByTrait_eq (trait : τ → Bool) (ts : List τ) : filterByTrait trait ts = some (ts.filter trait) := by
  unfold filterByTrait filteredSequence
  rw [aggregate_eq false trait ts ts [] [] rfl]
  simp only [List.length_nil, Nat.zero_add, List.map_id', List.nil_append]
  have : ∀ (rest done : List τ), ts = done ++ rest →
      filter ts ((List.range' done.length rest.length).filter fun i => (ts[i]?).any fun t => decide (false ≠ trait t)) = some (rest.filter trait) := by
    intro rest
    induction rest with
    | nil => intro done _; simp [filter]
    | cons t rest ih =>
      intro done h
      have ih := ih (done ++ [t]) (by rw [h]; simp)
      rw [List.length_append, List.length_cons, List.length_nil] at ih
      rw [List.length_cons, List.range'_succ, List.filter_cons, List.filter_cons]
      have hget : ts[done.length]? = some t := by rw [h]; simp
      rw [hget]
      cases ht : trait t with
      | false => simpa [ht] using ih
      | true =>
        simp only [Option.any_some, ht, if_true]
        rw [if_pos (by decide), show (done.length :: List.filter (fun i => (ts[i]?).any fun t => decide (false ≠ trait t)) (List.range' (done.length + 1) rest.length)) =
          [done.length] ++ List.filter (fun i => (ts[i]?).any fun t => decide (false ≠ trait t)) (List.range' (done.length + 1) rest.length) from rfl, filter_append, ih]
        simp [filter, hget]
  have h := this ts [] rfl
  simpa [List.range_eq_range'] using h

theorem find_eq (u : τ) : ∀ ts : List τ, find u ts = ts.idxOf u
  | [] => rfl
  | t :: ts => by
    rw [find, find_eq u ts, List.idxOf_cons]
    by_cases h : t = u
    · simp [h]
    · rw [if_neg h, beq_eq_false_iff_ne.mpr h, cond_false]; omega

theorem findIf_eq (p : τ → Bool) : ∀ ts : List τ, findIf p ts = ts.findIdx p
  | [] => rfl
  | t :: ts => by
    rw [findIf, findIf_eq p ts, List.findIdx_cons]
    cases p t <;> simp [Nat.add_comm]

theorem contains_eq (u : τ) : ∀ ts : List τ, contains ts u = decide (u ∈ ts)
  | [] => by simp [contains]
  | t :: ts => by
    have := contains_eq u ts
    unfold contains at *
    rw [List.foldr_cons, this]
    by_cases h : u = t <;> by_cases h' : u ∈ ts <;> simp [h, h']

theorem reverse_eq : ∀ ts : List τ, reverse ts = ts.reverse
  | [] => rfl
  | [_] => rfl
  | t :: t' :: ts => by rw [reverse, reverse_eq (t' :: ts)]; simp [concat]

/-! ### Sorting -/

/-- `p` separates what is less than `u` from the rest. -/
def Separates (lt : τ → τ → Bool) (ts : List τ) (u : τ) (p : Nat) : Prop := p ≤ ts.length ∧ (∀ x ∈ ts.take p, lt x u = true) ∧ ∀ x ∈ ts.drop p, lt x u = false

theorem sorted_prefix {lt : τ → τ → Bool} (hlt : StrictWeak lt) {ts : List τ} (hs : Sorted lt ts) {u : τ} {i j : Nat} (hij : i ≤ j) (hj : j < ts.length) (h : lt ts[j] u = true) :
    lt (ts[i]'(by omega)) u = true := by
  rcases Nat.lt_or_eq_of_le hij with h' | rfl
  · have := List.pairwise_iff_getElem.mp hs i j (by omega) hj h'
    cases hc : lt (ts[i]'(by omega)) u with
    | true => rfl
    | false =>
      have := hlt.negTrans _ _ _ this hc
      rw [h] at this; cases this
  · exact h

theorem lowerBoundGet_eq {lt : τ → τ → Bool} (hlt : StrictWeak lt) {ts : List τ} (hs : Sorted lt ts) (u : τ) : ∀ (fuel lower upper : Nat), upper - lower < fuel → lower ≤ upper →
    upper ≤ ts.length → (∀ i (h : i < ts.length), i < lower → lt ts[i] u = true) → (∀ i (h : i < ts.length), upper ≤ i → lt ts[i] u = false) →
    ∃ p, lowerBoundGet lt ts u fuel lower upper = some p ∧ Separates lt ts u p
  | 0, _, _, h, _, _, _, _ => by omega
  | fuel + 1, lower, upper, h, h1, h2, h3, h4 => by
    unfold lowerBoundGet
    split
    · rename_i he
      subst he
      refine ⟨lower, rfl, h2, ?_, ?_⟩
      · intro x hx
        obtain ⟨i, hi, rfl⟩ := List.mem_iff_getElem.mp hx
        rw [List.getElem_take]
        rw [List.length_take] at hi
        exact h3 i (by omega) (by omega)
      · intro x hx
        obtain ⟨i, hi, rfl⟩ := List.mem_iff_getElem.mp hx
        rw [List.getElem_drop]
        exact h4 _ _ (by omega)
    · rename_i hne
      have hm : (lower + upper) / 2 < ts.length := by omega
      rw [List.getElem?_eq_getElem hm]
      simp only
      split
      · rename_i hc
        refine lowerBoundGet_eq hlt hs u fuel _ _ (by omega) (by omega) h2 ?_ h4
        intro i hi hlt'
        exact sorted_prefix hlt hs (by omega : i ≤ (lower + upper) / 2) hm hc
      · rename_i hc
        refine lowerBoundGet_eq hlt hs u fuel _ _ (by omega) (by omega) (by omega) h3 ?_
        intro i hi hle
        cases hci : lt ts[i] u with
        | false => rfl
        | true => exact absurd (sorted_prefix hlt hs hle hi hci) hc

theorem lowerBound_eq {lt : τ → τ → Bool} (hlt : StrictWeak lt) {ts : List τ} (hs : Sorted lt ts) (u : τ) : ∃ p, lowerBound lt ts u = some p ∧ Separates lt ts u p := by
  refine lowerBoundGet_eq hlt hs u _ _ _ (by omega) (by omega) (Nat.le_refl _) ?_ ?_
  · intro i _ h; omega
  · intro i h h'; omega

theorem sorted_insert {lt : τ → τ → Bool} {a b : List τ} {t : τ} (hs : Sorted lt (a ++ b)) (ha : ∀ x ∈ a, lt t x = false) (hb : ∀ x ∈ b, lt x t = false) :
    Sorted lt (a ++ t :: b) := by
  unfold Sorted at *
  rw [List.pairwise_append] at *
  refine ⟨hs.1, List.pairwise_cons.mpr ⟨hb, hs.2.1⟩, ?_⟩
  intro x hx y hy
  rcases List.mem_cons.mp hy with rfl | hy
  · exact ha x hx
  · exact hs.2.2 x hx y hy

/-- A type is merged into a sorted list from a position before which nothing is greater. -/
theorem mergeSingle_eq {lt : τ → τ → Bool} (hlt : StrictWeak lt) {us : List τ} (hs : Sorted lt us) (t : τ) (i : Nat) (hi : i ≤ us.length) (hpre : ∀ x ∈ us.take i, lt t x = false) :
    ∃ p, mergeSingle lt t us i = some (p, us.take p ++ t :: us.drop p) ∧ p ≤ us.length ∧ Sorted lt (us.take p ++ t :: us.drop p) ∧ ∀ x ∈ us.take p, lt t x = false := by
  have hsd : Sorted lt (us.drop i) := by
    unfold Sorted at *; exact hs.sublist (List.drop_sublist _ _)
  obtain ⟨p, h1, h2, h3, h4⟩ := lowerBound_eq hlt hsd t
  rw [List.length_drop] at h2
  have hp : i + p ≤ us.length := by omega
  have htake : ∀ x ∈ us.take (i + p), lt t x = false := by
    rw [List.take_add]
    intro x hx
    rcases List.mem_append.mp hx with hx | hx
    · exact hpre x hx
    · exact hlt.asymm _ _ (h3 x hx)
  refine ⟨i + p, ?_, hp, ?_, htake⟩
  · unfold mergeSingle
    rw [drop_eq]
    simp only [Option.bind_some, h1, insert_eq, if_pos hp, Option.map_some]
  · refine sorted_insert (by rw [List.take_append_drop]; exact hs) htake ?_
    rw [← List.drop_drop]
    exact h4

theorem insert_perm (us : List τ) (t : τ) (p : Nat) : (us.take p ++ t :: us.drop p).Perm (t :: us) := by
  have := List.perm_middle (a := t) (l₁ := us.take p) (l₂ := us.drop p)
  rwa [List.take_append_drop] at this

theorem mergeFromPosition_eq {lt : τ → τ → Bool} (hlt : StrictWeak lt) : ∀ (ts us : List τ) (i : Nat), Sorted lt ts → Sorted lt us → i ≤ us.length →
    (∀ t ∈ ts, ∀ x ∈ us.take i, lt t x = false) → ∃ l, mergeFromPosition lt ts us i = some l ∧ l.Perm (ts ++ us) ∧ Sorted lt l
  | [], us, i, _, hu, _, _ => ⟨us, rfl, .refl _, hu⟩
  | [t], us, i, _, hu, hi, hpre => by
    obtain ⟨p, h1, h2, h3, _⟩ := mergeSingle_eq hlt hu t i hi (hpre t (by simp))
    exact ⟨_, by rw [mergeFromPosition, h1]; rfl, insert_perm us t p, h3⟩
  | t :: t' :: ts, us, i, ht, hu, _, _ => by
    obtain ⟨p, h1, h2, h3, h4⟩ := mergeSingle_eq hlt hu t 0 (by omega) (by simp)
    have ht' := List.pairwise_cons.mp ht
    have hlen : (us.take p).length = p := by rw [List.length_take]; omega
    obtain ⟨l, i1, i2, i3⟩ := mergeFromPosition_eq hlt (t' :: ts) (us.take p ++ t :: us.drop p) (p + 1) ht'.2 h3 (by simp; omega) (by
      intro s hs x hx
      have hpt : (us.take p ++ t :: us.drop p).take (p + 1) = us.take p ++ [t] := by
        rw [List.take_append, hlen, List.take_of_length_le (by omega), show p + 1 - p = 1 by omega, List.take_succ_cons, List.take_zero]
      rw [hpt] at hx
      have hst : lt s t = false := ht'.1 s hs
      rcases List.mem_append.mp hx with hx | hx
      · exact hlt.negTrans _ _ _ hst (h4 x hx)
      · have : x = t := by simpa using hx
        rw [this]; exact hst)
    refine ⟨l, by rw [mergeFromPosition, h1]; exact i1, ?_, i3⟩
    refine i2.trans ?_
    refine ((insert_perm us t p).append_left _).trans ?_
    exact List.perm_middle

theorem merge_eq {lt : τ → τ → Bool} (hlt : StrictWeak lt) (ts us : List τ) (ht : Sorted lt ts) (hu : Sorted lt us) :
    ∃ l, merge lt ts us = some l ∧ l.Perm (ts ++ us) ∧ Sorted lt l := by
  unfold merge
  split
  · exact ⟨_, rfl, by simp, ht⟩
  · exact ⟨_, rfl, .refl _, hu⟩
  · rename_i t u
    split
    · rename_i h
      refine ⟨_, rfl, .refl _, ?_⟩
      simpa [Sorted] using hlt.asymm _ _ h
    · rename_i h
      refine ⟨_, rfl, .swap _ _ _, ?_⟩
      simpa [Sorted] using h
  · exact mergeFromPosition_eq hlt ts us 0 ht hu (by omega) (by simp)

theorem stableSort_eq {lt : τ → τ → Bool} (hlt : StrictWeak lt) : ∀ (fuel : Nat) (ts : List τ), ts.length < fuel → ∃ l, stableSort lt fuel ts = some l ∧ l.Perm ts ∧ Sorted lt l
  | 0, _, h => by omega
  | fuel + 1, ts, h => by
    cases ts with
    | nil => exact ⟨_, rfl, .refl _, List.Pairwise.nil⟩
    | cons x ts =>
    cases ts with
    | nil => exact ⟨_, rfl, .refl _, by simp [Sorted]⟩
    | cons y ts =>
      have h2 : 2 ≤ (x :: y :: ts).length := by simp
      rw [show stableSort lt (fuel + 1) (x :: y :: ts) = (keep (x :: y :: ts) ((x :: y :: ts).length / 2)).bind fun a => (drop (x :: y :: ts) ((x :: y :: ts).length / 2)).bind fun b =>
        (stableSort lt fuel a).bind fun a => (stableSort lt fuel b).bind fun b => merge lt a b from rfl]
      generalize x :: y :: ts = ts at *
      rw [keep_eq, drop_eq]
      simp only [Option.bind_some]
      obtain ⟨a, a1, a2, a3⟩ := stableSort_eq hlt fuel (ts.take (ts.length / 2)) (by rw [List.length_take]; omega)
      obtain ⟨b, b1, b2, b3⟩ := stableSort_eq hlt fuel (ts.drop (ts.length / 2)) (by rw [List.length_drop]; omega)
      rw [a1, b1]
      simp only [Option.bind_some]
      obtain ⟨l, l1, l2, l3⟩ := merge_eq hlt a b a3 b3
      refine ⟨l, l1, ?_, l3⟩
      have := l2.trans (a2.append b2)
      rwa [List.take_append_drop] at this

/-! ### Without repetitions -/

theorem faithfulFrom_eq : ∀ (us ts : List τ), faithfulFrom ts us = ts ++ (us.filter fun u => u ∉ ts).eraseDups
  | [], ts => by simp [faithfulFrom]
  | u :: us, ts => by
    rw [faithfulFrom]
    by_cases h : u ∈ ts
    · rw [if_pos h, faithfulFrom_eq us ts, List.filter_cons_of_neg (by simpa using h)]
    · rw [if_neg h, faithfulFrom_eq us (ts ++ [u]), List.filter_cons_of_pos (by simpa using h), List.eraseDups_cons, List.append_assoc]
      congr 1
      simp only [List.filter_filter, List.singleton_append, List.mem_append, List.mem_singleton, not_or]
      congr 2
      apply List.filter_congr
      intro x _
      by_cases h1 : x ∈ ts <;> by_cases h2 : x = u <;> simp [h1, h2]

theorem faithful_eq (ts : List τ) : faithful ts = ts.eraseDups := by
  cases ts with
  | nil => rfl
  | cons t ts =>
    rw [faithful, faithfulFrom_eq, List.eraseDups_cons]
    simp only [List.singleton_append]
    congr 2
    apply List.filter_congr
    intro x _
    by_cases h : x = t <;> simp [h]

theorem eraseDups_nodup (l : List τ) : l.eraseDups.Nodup := by
  have : ∀ (n : Nat) (l : List τ), l.length ≤ n → l.eraseDups.Nodup := by
    intro n
    induction n with
    | zero => intro l h; have : l = [] := by cases l <;> simp_all
              subst this; simp
    | succ n ih =>
      intro l h
      cases l with
      | nil => simp
      | cons x l =>
        rw [List.eraseDups_cons, List.nodup_cons, List.mem_eraseDups]
        refine ⟨by simp, ih _ (Nat.le_trans (List.length_filter_le _ _) (by simp at h; omega))⟩
  exact this l.length l (Nat.le_refl _)

theorem eraseDups_append_left (a b : List τ) : (a.eraseDups ++ b).eraseDups = (a ++ b).eraseDups := by
  have : ∀ (n : Nat) (a b : List τ), a.length ≤ n → (a.eraseDups ++ b).eraseDups = (a ++ b).eraseDups := by
    intro n
    induction n with
    | zero => intro a b h; have : a = [] := by cases a <;> simp_all
              subst this; rfl
    | succ n ih =>
      intro a b h
      cases a with
      | nil => rfl
      | cons x a =>
        rw [List.eraseDups_cons, List.cons_append, List.cons_append, List.eraseDups_cons, List.eraseDups_cons]
        congr 1
        rw [List.filter_append, List.filter_append]
        have hself : ((a.filter fun b => !b == x).eraseDups).filter (fun b => !b == x) = (a.filter fun b => !b == x).eraseDups := by
          rw [List.filter_eq_self]
          intro y hy
          rw [List.mem_eraseDups] at hy
          exact (List.mem_filter.mp hy).2
        rw [hself]
        exact ih _ _ (Nat.le_trans (List.length_filter_le _ _) (by simp at h; omega))
  exact this a.length a b (Nat.le_refl _)

theorem union_eq : ∀ (l : List (List τ)) (ts us : List τ), union (ts :: us :: l) = some ((ts :: us :: l).flatten.eraseDups)
  | [], ts, us => by
    rw [union, union, faithful_eq]
    simp
  | vs :: l, ts, us => by
    rw [union, union_eq l _ vs, faithful_eq]
    simp only [List.flatten_cons, Option.some.injEq]
    rw [eraseDups_append_left]
    simp

end
end Verif.TypeLists
