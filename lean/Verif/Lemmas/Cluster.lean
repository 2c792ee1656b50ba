import Verif.Model.Cluster

namespace Verif.Cluster
variable {α : Type} {n : Nat} {eq : α → α → Bool}

theorem gather_perm (v : Vector α n) (b : Nat) (hb : b < n) (eoc cur : Nat) (hec : eoc ≤ cur) :
    (gather eq v b hb eoc cur hec).1.Perm v := by
  induction hd : n - cur generalizing cur eoc v with
  | zero => unfold gather; rw [dif_neg (by omega)]
  | succ d ih =>
    unfold gather; rw [dif_pos (by omega)]
    split
    · exact (ih _ _ _ _ (by omega)).trans (Vector.swap_perm _ _)
    · exact ih _ _ _ _ (by omega)

/-- What the second loop establishes. -/
structure GInv (eq : α → α → Bool) (c : α) (b : Nat) (v w : Vector α n) (eoc cur : Nat) : Prop where
  le : eoc ≤ cur
  low : ∀ k (hk : k < n), k < b → w[k] = v[k]
  inC : ∀ k (hk : k < n), b ≤ k → k < eoc → eq w[k] c = true
  outC : ∀ k (hk : k < n), eoc ≤ k → k < cur → eq w[k] c = false

theorem gather_inv (c : α) (v w : Vector α n) (b : Nat) (hb : b < n) (eoc cur : Nat) (hec : eoc ≤ cur)
    (hbe : b < eoc) (hcn : cur ≤ n) (hc : w[b] = c) (inv : GInv eq c b v w eoc cur) :
    GInv eq c b v (gather eq w b hb eoc cur hec).1 (gather eq w b hb eoc cur hec).2 n ∧
      b < (gather eq w b hb eoc cur hec).2 ∧ (gather eq w b hb eoc cur hec).1[b] = c := by
  induction hd : n - cur generalizing cur eoc w with
  | zero =>
    have hcn' : cur = n := by omega
    have he : gather eq w b hb eoc cur hec = (w, eoc) := by unfold gather; rw [dif_neg (by omega)]
    simp only [he]
    exact ⟨hcn' ▸ inv, hbe, hc⟩
  | succ d ih =>
    have hlt : cur < n := by omega
    by_cases he : eq w[cur] w[b] = true
    · have hg : gather eq w b hb eoc cur hec =
          gather eq (w.swap eoc cur (by omega) hlt) b hb (eoc + 1) (cur + 1) (by omega) := by
        rw [gather]; rw [dif_pos hlt, if_pos he]
      simp only [hg]
      rw [hc] at he
      have hsw : ∀ k (hk : k < n), (w.swap eoc cur (by omega) hlt)[k] =
          if k = eoc then w[cur] else if k = cur then w[eoc] else w[k] :=
        fun k hk => Vector.getElem_swap _ _ _
      apply ih
      · omega
      · omega
      · rw [hsw, if_neg (by omega), if_neg (by omega)]; exact hc
      · constructor
        · omega
        · intro k hk hkb; rw [hsw, if_neg (by omega), if_neg (by omega)]; exact inv.low k hk hkb
        · intro k hk hbk hke
          rw [hsw]
          split
          · exact he
          · rw [if_neg (by omega)]; exact inv.inC k hk hbk (by omega)
        · intro k hk hek hkc
          rw [hsw, if_neg (by omega)]
          split
          · exact inv.outC eoc (by omega) (by omega) (by omega)
          · exact inv.outC k hk (by omega) (by omega)
      · omega
    · have hg : gather eq w b hb eoc cur hec = gather eq w b hb eoc (cur + 1) (by omega) := by
        rw [gather]; rw [dif_pos hlt, if_neg he]
      simp only [hg]
      rw [hc] at he
      apply ih
      · exact hbe
      · omega
      · exact hc
      · constructor
        · omega
        · exact inv.low
        · exact inv.inC
        · intro k hk hek hkc
          by_cases hkc' : k = cur
          · subst hkc'; simpa using he
          · exact inv.outC k hk hek (by omega)
      · omega

theorem skip_inv (v : Vector α n) (b : Nat) (hb : b < n) (cur : Nat) (hcn : cur ≤ n)
    (h : ∀ k (hk : k < n), b ≤ k → k < cur → eq v[k] v[b] = true) :
    skip eq v b hb cur ≤ n ∧ ∀ k (hk : k < n), b ≤ k → k < skip eq v b hb cur → eq v[k] v[b] = true := by
  induction hd : n - cur generalizing cur with
  | zero => unfold skip; rw [dif_neg (by omega)]; exact ⟨hcn, h⟩
  | succ d ih =>
    have hlt : cur < n := by omega
    unfold skip; rw [dif_pos hlt]
    split
    · rename_i he
      apply ih _ (by omega) _ (by omega)
      intro k hk hbk hkc
      by_cases hkc' : k = cur
      · subst hkc'; exact he
      · exact h k hk hbk (by omega)
    · exact ⟨by omega, h⟩

/-- Positions in `[0,b)` are already clustered and share no class with `[b,n)`. -/
structure Done (eq : α → α → Bool) (v : Vector α n) (b : Nat) : Prop where
  contig : ∀ i j k (_ : i < j) (_ : j < k) (hk : k < n), i < b → eq v[i] v[k] = true → eq v[i] v[j] = true
  sep : ∀ i k (_ : i < b) (_ : b ≤ k) (hk : k < n), eq v[i] v[k] = false

theorem round (hr : ∀ a, eq a a = true) (v : Vector α n) (b : Nat) (hb : b < n) :
    let r := gather eq v b hb (skip eq v b hb b) (skip eq v b hb b) (Nat.le_refl _)
    GInv eq v[b] b v r.1 r.2 n ∧ b < r.2 ∧ r.1[b] = v[b] := by
  have hs := skip_inv (eq := eq) v b hb b (by omega) (by intro k hk h1 h2; omega)
  have hlt : b < skip eq v b hb b := by
    unfold skip; rw [dif_pos hb, if_pos (hr _)]
    have := skip_ge eq v b hb (b + 1); omega
  refine gather_inv v[b] v v b hb _ _ _ hlt hs.1 rfl ?_
  exact ⟨Nat.le_refl _, fun _ _ _ => rfl, hs.2, fun k hk h1 h2 => by omega⟩

theorem cluster_main (hr : ∀ a, eq a a = true) (hsym : ∀ a b, eq a b = true → eq b a = true)
    (htr : ∀ a b c, eq a b = true → eq b c = true → eq a c = true)
    (fuel : Nat) (v : Vector α n) (b : Nat) (hf : n - b < fuel) (hd : Done eq v b) :
    ∃ w, cluster eq fuel v b = some w ∧ w.Perm v ∧ Done eq w n := by
  induction fuel generalizing v b with
  | zero => omega
  | succ fuel ih =>
    unfold cluster
    by_cases hb : b < n
    · rw [dif_pos hb]
      obtain ⟨inv, hlt, hbb⟩ := round hr v b hb
      have hp := gather_perm (eq := eq) v b hb (skip eq v b hb b) (skip eq v b hb b) (Nat.le_refl _)
      generalize gather eq v b hb (skip eq v b hb b) (skip eq v b hb b) (Nat.le_refl _) = r at *
      simp only at *
      have hle : r.2 ≤ n := inv.le
      -- elements from `b` on in the new vector are, as values, elements from `b` on in the old one
      have hmem : ∀ k (hk : k < n), b ≤ k → ∃ m, ∃ hm : m < n, b ≤ m ∧ r.1[k] = v[m] := by
        intro k hk hbk
        have hlp : r.1.toList.Perm v.toList := Array.perm_iff_toList_perm.1 (Vector.perm_iff_toArray_perm.1 hp)
        have htake : r.1.toList.take b = v.toList.take b := by
          apply List.ext_getElem?
          intro m
          simp only [List.getElem?_take]
          split
          · rename_i hmb
            have := inv.low m (by omega) hmb
            simp [show m < n by omega, this]
          · rfl
        have hdrop : (r.1.toList.drop b).Perm (v.toList.drop b) := by
          have h1 := hlp
          rw [← List.take_append_drop b r.1.toList, ← List.take_append_drop b v.toList, htake] at h1
          exact (List.perm_append_left_iff _).1 h1
        have hm : r.1[k] ∈ r.1.toList.drop b := by
          rw [List.mem_drop_iff_getElem]
          exact ⟨k - b, by simp; omega, by simp [show b + (k - b) = k by omega]⟩
        have := hdrop.mem_iff.1 hm
        rw [List.mem_drop_iff_getElem] at this
        obtain ⟨j, hj, hje⟩ := this
        simp only [Vector.length_toList] at hj
        exact ⟨b + j, by omega, by omega, by rw [← hje]; simp⟩
      have hsepOld : ∀ i k (hi : i < b) (hbk : b ≤ k) (hk : k < n), eq r.1[i] r.1[k] = false := by
        intro i k hi hbk hk
        obtain ⟨m, hm, hbm, he⟩ := hmem k hk hbk
        rw [inv.low i (by omega) hi, he]
        exact hd.sep i m hi hbm hm
      have hfalse : ∀ i k (hi : i < n) (hk : k < n), b ≤ i → i < r.2 → r.2 ≤ k → eq r.1[i] r.1[k] = false := by
        intro i k hi hk hbi hir hrk
        cases e : eq r.1[i] r.1[k] with
        | false => rfl
        | true =>
          have h1 := inv.inC i hi hbi hir
          have h2 := inv.outC k hk hrk hk
          have := htr _ _ _ (hsym _ _ e) h1
          simp [this] at h2
      obtain ⟨w, hw, hwp, hwd⟩ := ih r.1 r.2 (by omega) (by
        constructor
        · intro i j k hij hjk hk hi he
          by_cases hib : i < b
          · by_cases hkb : k < b
            · rw [inv.low i (by omega) hib, inv.low j (by omega) (by omega)]
              rw [inv.low i (by omega) hib, inv.low k (by omega) hkb] at he
              exact hd.contig i j k hij hjk hk hib he
            · have := hsepOld i k hib (by omega) hk
              simp [this] at he
          · by_cases hkr : k < r.2
            · exact htr _ _ _ (inv.inC i (by omega) (by omega) hi) (hsym _ _ (inv.inC j (by omega) (by omega) (by omega)))
            · have := hfalse i k (by omega) hk (by omega) hi (by omega)
              simp [this] at he
        · intro i k hi hrk hk
          by_cases hib : i < b
          · exact hsepOld i k hib (by omega) hk
          · exact hfalse i k (by omega) hk (by omega) hi hrk)
      exact ⟨w, hw, hwp.trans hp, hwd⟩
    · rw [dif_neg hb]
      refine ⟨v, rfl, Vector.Perm.rfl, ?_⟩
      constructor
      · intro i j k hij hjk hk _; exact hd.contig i j k hij hjk hk (by omega)
      · intro i k _ _ hk; omega

/-- If the relation is not even reflexive at `*begin` and nothing else matches it either, no progress is made. -/
theorem cluster_stuck (v : Vector α n) (b : Nat) (hb : b < n)
    (h : ∀ k (hk : k < n), b ≤ k → eq v[k] v[b] = false) (fuel : Nat) : cluster eq fuel v b = none := by
  induction fuel with
  | zero => rfl
  | succ fuel ih =>
    have hskip : skip eq v b hb b = b := by
      unfold skip; rw [dif_pos hb, if_neg (by simp [h b hb (by omega)])]
    have hg : ∀ d cur (hc : b ≤ cur), n - cur = d → gather eq v b hb b cur hc = (v, b) := by
      intro d
      induction d with
      | zero => intro cur hc hd; unfold gather; rw [dif_neg (by omega)]
      | succ d ihd =>
        intro cur hc hd
        have hlt : cur < n := by omega
        unfold gather; rw [dif_pos hlt, if_neg (by simp [h cur hlt hc])]
        exact ihd _ _ (by omega)
    unfold cluster
    rw [dif_pos hb]
    simp only [hskip, hg _ b (Nat.le_refl _) rfl]
    exact ih

end Verif.Cluster
