import Verif.Model.Heap
import Verif.Spec.Order

namespace Verif.Heap
open Verif.Spec

variable {α : Type} {n : Nat} {lt : α → α → Bool} {comp : PosComp α n}

/-- The comparator agrees with `lt` wherever `lt` distinguishes the elements; between equivalent elements it may
answer anything. -/
def Agrees (lt : α → α → Bool) (comp : PosComp α n) : Prop :=
  ∀ v i j, (lt v[i] v[j] = true → comp v i j = true) ∧ (lt v[j] v[i] = true → comp v i j = false)

theorem Agrees.of_true (h : Agrees lt comp) {v i j} (hc : comp v i j = true) : lt v[j] v[i] = false := by
  cases e : lt v[j] v[i] with
  | false => rfl
  | true => have := (h v i j).2 e; simp_all

theorem Agrees.of_false (h : Agrees lt comp) {v i j} (hc : comp v i j = false) : lt v[i] v[j] = false := by
  cases e : lt v[i] v[j] with
  | false => rfl
  | true => have := (h v i j).1 e; simp_all

theorem agrees_valComp (hlt : StrictWeak lt) : Agrees lt (valComp lt : PosComp α n) := by
  intro v i j
  exact ⟨fun h => h, fun h => hlt.asymm _ _ h⟩

/-- `[0,e)` satisfies the heap condition at `i`. -/
def HeapAt (lt : α → α → Bool) (v : Vector α n) (i : Nat) : Prop :=
  ∀ (h : i < n), 0 < i → lt (v[(i - 1) / 2]'(by omega)) v[i] = false

def IsHeap (lt : α → α → Bool) (v : Vector α n) (e : Nat) : Prop := ∀ i, i < e → HeapAt lt v i

theorem bubbleUp_perm (v : Vector α n) (cur : Nat) (h : cur < n) : (bubbleUp comp v cur h).Perm v := by
  induction cur using Nat.strongRecOn generalizing v with
  | _ cur ih =>
    unfold bubbleUp
    split
    · exact Vector.Perm.rfl
    · split
      · exact (ih _ (by omega) _ _).trans (Vector.swap_perm _ _)
      · exact Vector.Perm.rfl

theorem bubbleUp_high (v : Vector α n) (cur : Nat) (h : cur < n) (k : Nat) (hk : k < n) (hck : cur < k) :
    (bubbleUp comp v cur h)[k] = v[k] := by
  induction cur using Nat.strongRecOn generalizing v with
  | _ cur ih =>
    unfold bubbleUp
    split
    · rfl
    · split
      · rw [ih _ (by omega) _ _ (by omega)]
        rw [Vector.getElem_swap]
        split
        · omega
        · split
          · omega
          · rfl
      · rfl

/-- heap condition everywhere in `[0,e)` except possibly at `cur`; children of `cur` are dominated by its parent. -/
structure UpInv (lt : α → α → Bool) (v : Vector α n) (cur e : Nat) : Prop where
  other : ∀ i, i < e → i ≠ cur → HeapAt lt v i
  grand : ∀ i, (hi : i < n) → i < e → 0 < cur → (hc : cur < n) → 0 < i → (i - 1) / 2 = cur →
    lt (v[(cur - 1) / 2]'(by omega)) v[i] = false

theorem bubbleUp_heap (hlt : StrictWeak lt) (ha : Agrees lt comp) (v : Vector α n) (cur e : Nat) (h : cur < n)
    (hce : cur < e) (inv : UpInv lt v cur e) : IsHeap lt (bubbleUp comp v cur h) e := by
  induction cur using Nat.strongRecOn generalizing v with
  | _ cur ih =>
    unfold bubbleUp
    split
    · rename_i hz
      intro i hi
      by_cases hic : i = cur
      · subst hic; intro _ h0; omega
      · exact inv.other i hi hic
    · rename_i hz
      split
      · rename_i hcmp
        apply ih ((cur - 1) / 2) (by omega) _ _ (by omega)
        have hle := ha.of_true hcmp
        simp only [Fin.getElem_fin] at hle
        constructor
        · intro i hi hne hin h0
          rw [Vector.getElem_swap, Vector.getElem_swap]
          by_cases hic : i = cur
          · subst hic
            simp [hne, hle]
          · have hb := inv.other i hi hic hin h0
            by_cases hpi : (i - 1) / 2 = (cur - 1) / 2
            · simp only [hpi, if_true, if_neg hne, if_neg hic]
              refine hlt.negTrans _ _ _ hle ?_
              simpa [hpi] using hb
            · by_cases hpc : (i - 1) / 2 = cur
              · rw [if_neg (by omega), if_pos hpc, if_neg hne, if_neg hic]
                exact inv.grand i hin hi (by omega) h h0 hpc
              · rw [if_neg hpi, if_neg hpc, if_neg hne, if_neg hic]; exact hb
        · intro i hin hi hc0 hcn h0 hpi
          rw [Vector.getElem_swap, Vector.getElem_swap]
          have hroot := inv.other ((cur - 1) / 2) (by omega) (by omega) hcn hc0
          rw [if_neg (by omega), if_neg (by omega)]
          by_cases hic : i = cur
          · subst hic; rw [if_neg (by omega), if_pos rfl]; exact hroot
          · rw [if_neg (by omega), if_neg hic]
            have hb := inv.other i hi hic hin h0
            refine hlt.negTrans _ _ _ hroot ?_
            simpa [hpi] using hb
      · rename_i hcmp
        intro i hi
        by_cases hic : i = cur
        · subst hic
          intro hin h0
          have := ha.of_false (by simpa using hcmp)
          simpa using this
        · exact inv.other i hi hic

theorem makeHeapLoop_perm (v : Vector α n) (cur e : Nat) (he : e ≤ n) : (makeHeapLoop comp v cur e he).Perm v := by
  induction hd : e - cur generalizing cur v with
  | zero => unfold makeHeapLoop; rw [dif_neg (by omega)]
  | succ d ih =>
    unfold makeHeapLoop; rw [dif_pos (by omega)]
    exact (ih _ _ (by omega)).trans (bubbleUp_perm _ _ _)

theorem makeHeapLoop_high (v : Vector α n) (cur e : Nat) (he : e ≤ n) (k : Nat) (hk : k < n) (hek : e ≤ k) :
    (makeHeapLoop comp v cur e he)[k] = v[k] := by
  induction hd : e - cur generalizing cur v with
  | zero => unfold makeHeapLoop; simp only [show ¬ cur < e by omega, dif_neg, not_false_eq_true]
  | succ d ih =>
    unfold makeHeapLoop
    simp only [show cur < e by omega, dif_pos]
    rw [ih _ _ (by omega), bubbleUp_high _ _ _ _ _ (by omega)]

theorem makeHeapLoop_heap (hlt : StrictWeak lt) (ha : Agrees lt comp) (v : Vector α n) (cur e : Nat) (he : e ≤ n)
    (hce : cur ≤ e) (hh : IsHeap lt v cur) : IsHeap lt (makeHeapLoop comp v cur e he) e := by
  induction hd : e - cur generalizing cur v with
  | zero =>
    unfold makeHeapLoop; rw [dif_neg (by omega)]
    have : cur = e := by omega
    subst this; exact hh
  | succ d ih =>
    unfold makeHeapLoop; rw [dif_pos (by omega)]
    refine ih _ (cur + 1) (by omega) ?_ (by omega)
    apply bubbleUp_heap hlt ha _ _ _ _ (by omega)
    constructor
    · intro i hi hne; exact hh i (by omega)
    · intro i _ hi _ _ h0 hp; omega

theorem makeHeap_perm (v : Vector α n) (e : Nat) (he : e ≤ n) : (makeHeap comp v e he).Perm v := by
  unfold makeHeap; split
  · exact Vector.Perm.rfl
  · exact makeHeapLoop_perm _ _ _ _

theorem makeHeap_high (v : Vector α n) (e : Nat) (he : e ≤ n) (k : Nat) (hk : k < n) (hek : e ≤ k) :
    (makeHeap comp v e he)[k] = v[k] := by
  unfold makeHeap; split
  · rfl
  · exact makeHeapLoop_high _ _ _ _ _ _ hek

theorem makeHeap_heap (hlt : StrictWeak lt) (ha : Agrees lt comp) (v : Vector α n) (e : Nat) (he : e ≤ n) :
    IsHeap lt (makeHeap comp v e he) e := by
  unfold makeHeap; split
  · intro i hi _ h0; omega
  · apply makeHeapLoop_heap hlt ha _ _ _ _ (by omega)
    intro i hi _ h0; omega

/-- The root of a heap dominates it. -/
theorem IsHeap.root (hlt : StrictWeak lt) {v : Vector α n} {e : Nat} (h : IsHeap lt v e) (i : Nat) (hi : i < e)
    (hn : i < n) : lt (v[0]'(by omega)) v[i] = false := by
  induction i using Nat.strongRecOn with
  | _ i ih =>
    by_cases h0 : i = 0
    · subst h0
      cases e : lt v[0] v[0] with
      | false => rfl
      | true => exact absurd (hlt.asymm _ _ e) (by simp [e])
    · refine hlt.negTrans _ _ _ (ih ((i - 1) / 2) (by omega) (by omega) (by omega)) ?_
      exact h i hi hn (by omega)

theorem bubbleDown_perm (v : Vector α n) (cur e : Nat) (he : e ≤ n) : (bubbleDown comp v cur e he).Perm v := by
  induction hd : e - cur using Nat.strongRecOn generalizing cur v with
  | _ d ih =>
    unfold bubbleDown
    split
    · exact Vector.Perm.rfl
    · split
      · rename_i h2
        have := domChild_cases comp v cur (by omega)
        split
        · exact (ih _ (by omega) _ _ rfl).trans (Vector.swap_perm _ _)
        · exact Vector.Perm.rfl
      · split
        · split
          · exact Vector.swap_perm _ _
          · exact Vector.Perm.rfl
        · exact Vector.Perm.rfl

theorem bubbleDown_high (v : Vector α n) (cur e : Nat) (he : e ≤ n) (k : Nat) (hk : k < n) (hek : e ≤ k) :
    (bubbleDown comp v cur e he)[k] = v[k] := by
  induction hd : e - cur using Nat.strongRecOn generalizing cur v with
  | _ d ih =>
    unfold bubbleDown
    split
    · rfl
    · split
      · rename_i h2
        have := domChild_cases comp v cur (by omega)
        split
        · rw [ih _ (by omega) _ _ rfl]
          rw [Vector.getElem_swap]
          rw [if_neg (by omega), if_neg (by omega)]
        · rfl
      · split
        · split
          · rw [Vector.getElem_swap, if_neg (by omega), if_neg (by omega)]
          · rfl
        · rfl

/-- heap condition everywhere in `[0,e)` except possibly at the children of `cur`; those children are dominated by
the parent of `cur`. -/
structure DownInv (lt : α → α → Bool) (v : Vector α n) (cur e : Nat) : Prop where
  other : ∀ i, i < e → (i - 1) / 2 ≠ cur ∨ i = 0 → HeapAt lt v i
  grand : ∀ i, (hi : i < n) → i < e → 0 < cur → (hc : cur < n) → 0 < i → (i - 1) / 2 = cur →
    lt (v[(cur - 1) / 2]'(by omega)) v[i] = false

theorem bubbleDown_heap (hlt : StrictWeak lt) (ha : Agrees lt comp) (v : Vector α n) (cur e : Nat) (he : e ≤ n)
    (inv : DownInv lt v cur e) : IsHeap lt (bubbleDown comp v cur e he) e := by
  induction hd : e - cur using Nat.strongRecOn generalizing cur v with
  | _ d ih =>
    unfold bubbleDown
    split
    · intro i hi _ h0; omega
    · split
      · rename_i h2
        obtain ⟨dom, hdom⟩ : ∃ dom, dom = domChild comp v cur (by omega) := ⟨_, rfl⟩
        suffices hsuf : IsHeap lt (if comp v ⟨cur, by omega⟩ dom then
            bubbleDown comp (v.swap dom cur dom.2 (by omega)) dom e he else v) e by
          subst hdom; exact hsuf
        have hd1 : ((dom : Nat) = 2 * cur + 1 ∧ lt (v[2 * cur + 1]'(by omega)) (v[2 * cur + 2]'(by omega)) = false) ∨
            ((dom : Nat) = 2 * cur + 2 ∧ lt (v[2 * cur + 2]'(by omega)) (v[2 * cur + 1]'(by omega)) = false) := by
          unfold domChild at hdom
          split at hdom
          · rename_i hcmp
            left; subst hdom; refine ⟨by simp; omega, ?_⟩
            have := ha.of_true hcmp
            simpa [Nat.mul_add] using this
          · rename_i hcmp
            right; subst hdom; refine ⟨by simp; omega, ?_⟩
            have := ha.of_false (by simpa using hcmp)
            simpa [Nat.mul_add] using this
        have hdn : (dom : Nat) < n := dom.2
        have hde : (dom : Nat) < e := by omega
        have hsib : ∀ i, (hi : i < n) → 0 < i → (i - 1) / 2 = cur → lt v[dom] v[i] = false := by
          intro i hi h0 hp
          have : i = 2 * cur + 1 ∨ i = 2 * cur + 2 := by omega
          rcases hd1 with ⟨e1, e2⟩ | ⟨e1, e2⟩ <;> rcases this with rfl | rfl <;>
            simp only [Fin.getElem_fin, e1, e2] <;>
            · cases e : lt _ _ with
              | false => rfl
              | true => exact absurd (hlt.asymm _ _ e) (by simp [e])
        split
        · rename_i hcmp
          have hle := ha.of_true hcmp
          simp only [Fin.getElem_fin] at hle
          apply ih (e - dom) (by omega) _ _ _ rfl
          constructor
          · intro i hi hne hin h0
            have hne' : (i - 1) / 2 ≠ dom := by rcases hne with h | h; exact h; omega
            rw [Vector.getElem_swap, Vector.getElem_swap, if_neg hne']
            by_cases hpc : (i - 1) / 2 = cur
            · rw [if_pos hpc]
              by_cases hid : i = dom
              · rw [if_pos hid]; exact hle
              · rw [if_neg hid, if_neg (by omega)]
                simpa using hsib i hin h0 hpc
            · rw [if_neg hpc]
              by_cases hic : i = cur
              · rw [if_neg (by omega), if_pos hic]
                have := inv.grand dom hdn hde (by omega) (by omega) (by omega) (by omega)
                subst hic; exact this
              · rw [if_neg (by omega), if_neg hic]
                exact inv.other i hi (Or.inl hpc) hin h0
          · intro i hin hi hc0 hcn h0 hp
            have hpd : (dom.val - 1) / 2 = cur := by omega
            rw [Vector.getElem_swap, Vector.getElem_swap, if_neg (by omega), if_pos hpd,
              if_neg (by omega), if_neg (by omega)]
            have := inv.other i hi (Or.inl (by omega)) hin h0
            simpa [hp] using this
        · rename_i hcmp
          have hle := ha.of_false (by simpa using hcmp)
          simp only [Fin.getElem_fin] at hle
          intro i hi
          by_cases hpc : (i - 1) / 2 = cur
          · intro hin h0
            have := hlt.negTrans _ _ _ hle (hsib i hin h0 hpc)
            simpa [hpc] using this
          · exact inv.other i hi (Or.inl hpc)
      · rename_i h2
        split
        · rename_i h1
          split
          · rename_i hcmp
            have hle := ha.of_true hcmp
            simp only [Fin.getElem_fin] at hle
            intro i hi hin h0
            have hnp : (i - 1) / 2 ≠ 2 * cur + 1 := by omega
            rw [Vector.getElem_swap, Vector.getElem_swap, if_neg hnp]
            by_cases hpc : (i - 1) / 2 = cur
            · have : i = 2 * cur + 1 := by omega
              rw [if_pos hpc, if_pos this]; exact hle
            · rw [if_neg hpc, if_neg (by omega)]
              by_cases hic : i = cur
              · rw [if_pos hic]
                have := inv.grand (2 * cur + 1) (by omega) h1 (by omega) (by omega) (by omega) (by omega)
                subst hic; exact this
              · rw [if_neg hic]; exact inv.other i hi (Or.inl hpc) hin h0
          · rename_i hcmp
            have hle := ha.of_false (by simpa using hcmp)
            simp only [Fin.getElem_fin] at hle
            intro i hi
            by_cases hpc : (i - 1) / 2 = cur
            · intro hin h0
              have : i = 2 * cur + 1 := by omega
              subst this
              simpa [hpc] using hle
            · exact inv.other i hi (Or.inl hpc)
        · intro i hi
          by_cases hpc : (i - 1) / 2 = cur ∧ 0 < i
          · omega
          · exact inv.other i hi (by omega)

/-- Elements of the prefix of a permuted vector come from the prefix, provided the suffix is untouched. -/
theorem prefix_mem {v w : Vector α n} (hp : w.Perm v) (e : Nat) (he : e ≤ n)
    (hs : ∀ k (hk : k < n), e ≤ k → w[k] = v[k]) (i : Nat) (hi : i < e) :
    ∃ j, ∃ hj : j < e, w[i]'(by omega) = v[j]'(by omega) := by
  have hlp : w.toList.Perm v.toList := by
    have := Array.perm_iff_toList_perm.1 (Vector.perm_iff_toArray_perm.1 hp)
    exact this
  have hdrop : w.toList.drop e = v.toList.drop e := by
    apply List.ext_getElem?
    intro k
    simp only [List.getElem?_drop]
    by_cases hk : e + k < n
    · have := hs (e + k) hk (by omega)
      simp [hk, this]
    · simp [hk]
  have htake : (w.toList.take e).Perm (v.toList.take e) := by
    have h1 := hlp
    rw [← List.take_append_drop e w.toList, ← List.take_append_drop e v.toList, hdrop] at h1
    exact (List.perm_append_right_iff _).1 h1
  have hm : w[i]'(by omega) ∈ w.toList.take e := by
    rw [List.mem_take_iff_getElem]
    exact ⟨i, by simp; omega, by simp⟩
  have := (htake.mem_iff).1 hm
  rw [List.mem_take_iff_getElem] at this
  obtain ⟨j, hj, hje⟩ := this
  refine ⟨j, by simp at hj; omega, ?_⟩
  rw [← hje]; simp

theorem sortLoop_perm (v : Vector α n) (e : Nat) (he : e ≤ n) : (sortLoop comp v e he).Perm v := by
  induction e generalizing v with
  | zero => exact Vector.Perm.rfl
  | succ e ih =>
    unfold sortLoop
    exact (ih _ _).trans ((bubbleDown_perm _ _ _ _).trans (Vector.swap_perm _ _))

theorem sortLoop_sorted (hlt : StrictWeak lt) (ha : Agrees lt comp) (v : Vector α n) (e : Nat) (he : e ≤ n)
    (hh : IsHeap lt v e) (hs : ∀ i j (_ : i < j) (hj : j < n), e ≤ j → lt v[j] v[i] = false) :
    ∀ i j (_ : i < j) (hj : j < n), lt (sortLoop comp v e he)[j] (sortLoop comp v e he)[i] = false := by
  induction e generalizing v with
  | zero => intro i j hij hj; exact hs i j hij hj (by omega)
  | succ e ih =>
    obtain ⟨v', hv'⟩ : ∃ v', v' = v.swap 0 e (by omega) (by omega) := ⟨_, rfl⟩
    obtain ⟨w, hw⟩ : ∃ w, w = bubbleDown comp v' 0 e (by omega) := ⟨_, rfl⟩
    suffices hsuf : ∀ i j (_ : i < j) (hj : j < n),
        lt (sortLoop comp w e (by omega))[j] (sortLoop comp w e (by omega))[i] = false by
      subst hw hv'; exact hsuf
    have hwp : w.Perm v' := hw ▸ bubbleDown_perm _ _ _ _
    have hwh : ∀ k (hk : k < n), e ≤ k → w[k] = v'[k] := by
      intro k hk hek; rw [hw]; exact bubbleDown_high _ _ _ _ _ _ hek
    have hsw : ∀ k (hk : k < n), v'[k] = if k = 0 then v[e] else if k = e then v[0] else v[k] := by
      intro k hk; rw [hv']; exact Vector.getElem_swap _ _ _
    refine ih w (by omega) ?_ ?_
    · rw [hw]
      apply bubbleDown_heap hlt ha
      constructor
      · intro i hi hne hin h0
        rw [hsw, hsw, if_neg (by omega), if_neg (by omega), if_neg (by omega), if_neg (by omega)]
        exact hh i (by omega) hin h0
      · intro i _ _ hc; omega
    · intro i j hij hj hej
      -- all elements of `[0,e)` of `w` are elements of `[0,e+1)` of `v`
      have hmem : ∀ k (hk : k < n), k ≤ e → ∃ m, ∃ hm : m < e + 1, w[k] = v[m]'(by omega) := by
        intro k hk hke
        by_cases hke' : k = e
        · subst hke'
          refine ⟨0, by omega, ?_⟩
          rw [hwh k hk (by omega), hsw]
          split
          · subst_vars; rfl
          · simp
        · obtain ⟨m, hm, hme⟩ := prefix_mem hwp e (by omega) hwh k (by omega)
          rw [hme, hsw]
          split
          · exact ⟨e, by omega, rfl⟩
          · exact ⟨m, by omega, by rw [if_neg (by omega)]⟩
      rw [hwh j hj hej, hsw j hj]
      rw [if_neg (by omega)]
      by_cases hje : j = e
      · rw [if_pos hje]
        obtain ⟨m, hm, hme⟩ := hmem i (by omega) (by omega)
        rw [hme]
        exact hh.root hlt m hm (by omega)
      · rw [if_neg hje]
        by_cases hie : i ≤ e
        · obtain ⟨m, hm, hme⟩ := hmem i (by omega) hie
          rw [hme]; exact hs m j (by omega) hj (by omega)
        · rw [hwh i (by omega) (by omega), hsw, if_neg (by omega), if_neg (by omega)]
          exact hs i j hij hj (by omega)

theorem sort_perm (v : Vector α n) : (sort comp v).Perm v := by
  unfold sort; split
  · exact Vector.Perm.rfl
  · exact (sortLoop_perm _ _ _).trans (makeHeap_perm _ _ _)

theorem sort_sorted (hlt : StrictWeak lt) (ha : Agrees lt comp) (v : Vector α n) :
    Sorted lt (sort comp v).toList := by
  unfold Sorted
  rw [List.pairwise_iff_getElem]
  intro i j hi hj hij
  simp only [Vector.length_toList] at hi hj
  simp only [Vector.getElem_toList]
  unfold sort
  split
  · omega
  · exact sortLoop_sorted hlt ha _ _ _ (makeHeap_heap hlt ha _ _ _) (by intro i j _ _ _; omega) i j hij hj

end Verif.Heap
