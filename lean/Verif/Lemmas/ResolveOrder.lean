import Verif.Model.Resolve
/- Lemmas about the order of the files and the searches in it. -/
namespace Verif.Resolve

/-- A strict total order. -/
structure Strict {α : Type} (less : α → α → Bool) : Prop where
  irrefl : ∀ a, less a a = false
  trans : ∀ a b c, less a b = true → less b c = true → less a c = true
  tri : ∀ a b, less a b = false → less b a = false → a = b

theorem Strict.asymm {α : Type} {less : α → α → Bool} (h : Strict less) {a b : α} (hab : less a b = true) : less b a = false := by
  cases hb : less b a with
  | false => rfl
  | true => have := h.trans _ _ _ hab hb; rw [h.irrefl] at this; cases this

theorem Strict.not_trans {α : Type} {less : α → α → Bool} (h : Strict less) {a b c : α} (hab : less b a = false) (hbc : less c b = false) : less c a = false := by
  cases hq : less c a with
  | false => rfl
  | true =>
    cases hb : less a b with
    | true => rw [h.trans _ _ _ hq hb] at hbc; cases hbc
    | false => rw [h.tri _ _ hb hab] at hq; rw [hq] at hbc; cases hbc

theorem Strict.lt_of_lt_of_not {α : Type} {less : α → α → Bool} (h : Strict less) {a b c : α} (hab : less a b = true) (hbc : less c b = false) : less a c = true := by
  cases hq : less a c with
  | true => rfl
  | false => rw [h.not_trans hbc hq] at hab; cases hab

theorem nameLess_strict : Strict nameLess := by
  refine ⟨?_, ?_, ?_⟩
  · intro a
    induction a with
    | nil => rfl
    | cons c s ih => simp [nameLess, ih]
  · intro a
    induction a with
    | nil =>
      intro b c h1 h2
      cases c with
      | nil => cases b <;> simp [nameLess] at h1 h2
      | cons => rfl
    | cons x s ih =>
      intro b c h1 h2
      cases b with
      | nil => simp [nameLess] at h1
      | cons y t =>
        cases c with
        | nil => simp [nameLess] at h2
        | cons z u =>
          unfold nameLess at h1 h2 ⊢
          by_cases hxy : x.toNat < y.toNat
          · by_cases hyz : y.toNat < z.toNat
            · rw [if_pos (by omega)]
            · rw [if_neg hyz] at h2
              by_cases hzy : z.toNat < y.toNat
              · rw [if_pos hzy] at h2; cases h2
              · rw [if_pos (by omega)]
          · rw [if_neg hxy] at h1
            by_cases hyx : y.toNat < x.toNat
            · rw [if_pos hyx] at h1; cases h1
            · rw [if_neg hyx] at h1
              by_cases hyz : y.toNat < z.toNat
              · rw [if_pos (by omega)]
              · rw [if_neg hyz] at h2
                by_cases hzy : z.toNat < y.toNat
                · rw [if_pos hzy] at h2; cases h2
                · rw [if_neg hzy] at h2
                  rw [if_neg (by omega), if_neg (by omega)]
                  exact ih _ _ h1 h2
  · intro a
    induction a with
    | nil => intro b h1 h2; cases b with
      | nil => rfl
      | cons => simp [nameLess] at h1
    | cons c s ih =>
      intro b h1 h2
      cases b with
      | nil => simp [nameLess] at h2
      | cons d t =>
        unfold nameLess at h1 h2
        by_cases hcd : c.toNat < d.toNat
        · rw [if_pos hcd] at h1; cases h1
        · rw [if_neg hcd] at h1 h2
          by_cases hdc : d.toNat < c.toNat
          · rw [if_pos hdc] at h2; cases h2
          · rw [if_neg hdc] at h1 h2
            rw [ih _ h1 h2, Char.toNat_inj.mp (by omega : c.toNat = d.toNat)]

theorem pathLess_strict : Strict pathLess := by
  have hn := nameLess_strict
  refine ⟨?_, ?_, ?_⟩
  · intro a
    induction a with
    | nil => rfl
    | cons c s ih => simp [pathLess, ih, hn.irrefl]
  · intro a
    induction a with
    | nil =>
      intro b c h1 h2
      cases c with
      | nil => cases b <;> simp [pathLess] at h1 h2
      | cons => rfl
    | cons x s ih =>
      intro b c h1 h2
      cases b with
      | nil => simp [pathLess] at h1
      | cons y t =>
        cases c with
        | nil => simp [pathLess] at h2
        | cons z u =>
          unfold pathLess at h1 h2 ⊢
          cases hxy : nameLess x y with
          | true =>
            cases hyz : nameLess y z with
            | true => rw [hn.trans _ _ _ hxy hyz]; rfl
            | false =>
              rw [hyz] at h2
              cases hzy : nameLess z y with
              | true => rw [hzy] at h2; simp at h2
              | false => rw [← hn.tri _ _ hyz hzy, hxy]; rfl
          | false =>
            rw [hxy] at h1
            cases hyx : nameLess y x with
            | true => rw [hyx] at h1; simp at h1
            | false =>
              rw [hyx] at h1
              have := hn.tri _ _ hxy hyx
              subst this
              cases hyz : nameLess x z with
              | true => rfl
              | false =>
                rw [hyz] at h2
                cases hzy : nameLess z x with
                | true => rw [hzy] at h2; simp at h2
                | false =>
                  rw [hzy] at h2
                  simp only [Bool.false_eq_true, if_false] at h1 h2 ⊢
                  exact ih _ _ h1 h2
  · intro a
    induction a with
    | nil => intro b h1 h2; cases b with
      | nil => rfl
      | cons => simp [pathLess] at h1
    | cons c s ih =>
      intro b h1 h2
      cases b with
      | nil => simp [pathLess] at h2
      | cons d t =>
        unfold pathLess at h1 h2
        cases hcd : nameLess c d with
        | true => rw [hcd] at h1; simp at h1
        | false =>
          rw [hcd] at h1 h2
          cases hdc : nameLess d c with
          | true => rw [hdc] at h2; simp at h2
          | false =>
            rw [hdc] at h1 h2
            simp only [Bool.false_eq_true, if_false] at h1 h2
            rw [ih _ h1 h2, hn.tri _ _ hcd hdc]

theorem includedLess_strict : Strict includedLess := by
  have hp := pathLess_strict
  refine ⟨?_, ?_, ?_⟩
  · rintro ⟨a, p⟩; simp [includedLess, hp.irrefl]
  · rintro ⟨a, p⟩ ⟨b, q⟩ ⟨c, r⟩ h1 h2
    unfold includedLess at h1 h2 ⊢
    cases a <;> cases b <;> cases c <;> simp at h1 h2 ⊢
    · exact hp.trans _ _ _ h1 h2
    · exact hp.trans _ _ _ h1 h2
  · rintro ⟨a, p⟩ ⟨b, q⟩ h1 h2
    unfold includedLess at h1 h2
    cases a <;> cases b <;> simp at h1 h2 ⊢
    · exact hp.tri _ _ h1 h2
    · exact hp.tri _ _ h1 h2

/-- The comparison of the files is that of pairs. -/
theorem fileLess_eq (a b : Entry) : fileLess a b =
    (nameLess (filename a.path) (filename b.path) || (filename a.path == filename b.path && pathLess a.path b.path)) := by
  unfold fileLess
  by_cases h : filename a.path = filename b.path
  · simp [h, nameLess_strict.irrefl]
  · simp [h]

theorem fileLess_trans (a b c : Entry) (h1 : fileLess a b = true) (h2 : fileLess b c = true) : fileLess a c = true := by
  rw [fileLess_eq] at h1 h2 ⊢
  simp only [Bool.or_eq_true, Bool.and_eq_true, beq_iff_eq] at h1 h2 ⊢
  rcases h1 with h1 | ⟨e1, h1⟩ <;> rcases h2 with h2 | ⟨e2, h2⟩
  · exact .inl (nameLess_strict.trans _ _ _ h1 h2)
  · exact .inl (e2 ▸ h1)
  · exact .inl (e1 ▸ h2)
  · exact .inr ⟨e1.trans e2, pathLess_strict.trans _ _ _ h1 h2⟩

theorem fileLess_tri (a b : Entry) (h1 : fileLess a b = false) (h2 : fileLess b a = false) : a.path = b.path := by
  rw [fileLess_eq] at h1 h2
  simp only [Bool.or_eq_false_iff, Bool.and_eq_false_iff] at h1 h2
  have := nameLess_strict.tri _ _ h1.1 h2.1
  rw [this] at h1 h2
  simp only [beq_self_eq_true, Bool.true_eq_false, false_or] at h1 h2
  exact pathLess_strict.tri _ _ h1.2 h2.2

theorem fileLess_irrefl (a : Entry) : fileLess a a = false := by
  rw [fileLess_eq]; simp [nameLess_strict.irrefl, pathLess_strict.irrefl]

/-- Not being greater is transitive. -/
theorem fileLess_not_trans {a b c : Entry} (hab : fileLess b a = false) (hbc : fileLess c b = false) : fileLess c a = false := by
  cases hq : fileLess c a with
  | false => rfl
  | true =>
    cases hb : fileLess a b with
    | true => rw [fileLess_trans _ _ _ hq hb] at hbc; cases hbc
    | false =>
      have he := fileLess_tri _ _ hb hab
      have : fileLess c b = fileLess c a := by unfold fileLess; rw [he]
      rw [this, hq] at hbc; cases hbc

theorem insertSorted_perm {α : Type} (less : α → α → Bool) (a : α) (l : List α) : (insertSorted less a l).Perm (a :: l) := by
  induction l with
  | nil => exact .refl _
  | cons b l ih =>
    unfold insertSorted
    split
    · exact (ih.cons b).trans (.swap a b l)
    · exact .refl _

theorem sorted_perm {α : Type} (less : α → α → Bool) (l : List α) : (sorted less l).Perm l := by
  induction l with
  | nil => exact .refl _
  | cons a l ih => exact (insertSorted_perm less a _).trans (ih.cons a)

theorem sorted_pairwise {α : Type} {less : α → α → Bool} (hasymm : ∀ a b, less a b = true → less b a = false)
    (htrans : ∀ a b c, less b a = false → less c b = false → less c a = false) (l : List α) :
    (sorted less l).Pairwise fun a b => less b a = false := by
  induction l with
  | nil => exact .nil
  | cons a l ih =>
    have key : ∀ l : List α, l.Pairwise (fun a b => less b a = false) → (insertSorted less a l).Pairwise fun a b => less b a = false := by
      intro l hl
      induction l with
      | nil => exact List.pairwise_singleton _ _
      | cons b l ih =>
        rw [List.pairwise_cons] at hl
        unfold insertSorted
        split
        · rename_i h
          rw [List.pairwise_cons]
          refine ⟨?_, ih hl.2⟩
          intro c hc
          rcases List.mem_cons.mp ((insertSorted_perm less a l).mem_iff.mp hc) with rfl | hc
          · exact hasymm _ _ h
          · exact hl.1 c hc
        · rename_i h
          have h : less b a = false := by simpa using h
          rw [List.pairwise_cons]
          refine ⟨?_, List.pairwise_cons.mpr hl⟩
          intro c hc
          rcases List.mem_cons.mp hc with rfl | hc
          · exact h
          · exact htrans _ _ _ h (hl.1 c hc)
    exact key _ ih

theorem sorted_files (l : List Entry) : (sorted fileLess l).Pairwise fun a b => fileLess b a = false := by
  refine sorted_pairwise ?_ ?_ l
  · intro a b h
    cases hb : fileLess b a with
    | false => rfl
    | true => have := fileLess_trans _ _ _ h hb; rw [fileLess_irrefl] at this; cases this
  · intro a b c h1 h2; exact fileLess_not_trans h1 h2

theorem partitionPoint_spec {α : Type} {before : α → Bool} {l : List α} (hl : ∀ (i j : Nat) (a b : α), i ≤ j → l[i]? = some a → l[j]? = some b → before b = true → before a = true) :
    ∀ fuel first len, len ≤ fuel → first + len ≤ l.length → (∀ (i : Nat) (a : α), i < first → l[i]? = some a → before a = true) →
      (∀ (i : Nat) (a : α), first + len ≤ i → l[i]? = some a → before a = false) →
      ∀ (i : Nat) (a : α), l[i]? = some a → (before a = true ↔ i < partitionPoint before l fuel first len) := by
  intro fuel
  induction fuel with
  | zero =>
    intro first len hf hle hlo hhi i a ha
    have : len = 0 := by omega
    subst this
    unfold partitionPoint
    constructor
    · intro h
      by_cases hi : i < first
      · exact hi
      · rw [hhi i a (by omega) ha] at h; cases h
    · exact fun h => hlo i a h ha
  | succ fuel ih =>
    intro first len hf hle hlo hhi i a ha
    unfold partitionPoint
    split
    · rename_i h0
      subst h0
      constructor
      · intro h
        by_cases hi : i < first
        · exact hi
        · rw [hhi i a (by omega) ha] at h; cases h
      · exact fun h => hlo i a h ha
    · rename_i h0
      have hm : len / 2 < len := Nat.div_lt_self (by omega) (by omega)
      have hx : first + len / 2 < l.length := by omega
      rw [List.getElem?_eq_getElem hx]
      dsimp only
      split
      · rename_i hb
        refine ih _ _ (by omega) (by omega) ?_ ?_ i a ha
        · intro i a hi ha
          exact hl i _ a _ (by omega : i ≤ first + len / 2) ha (List.getElem?_eq_getElem hx) hb
        · intro i a hi ha
          exact hhi i a (by omega) ha
      · rename_i hb
        refine ih _ _ (by omega) (by omega) hlo ?_ i a ha
        intro i a hi ha
        cases hq : before a with
        | false => rfl
        | true => exact absurd (hl _ i _ a hi (List.getElem?_eq_getElem hx) ha hq) hb

theorem partitionPoint_le {α : Type} {before : α → Bool} {l : List α} : ∀ fuel first len, first + len ≤ l.length → partitionPoint before l fuel first len ≤ l.length := by
  intro fuel
  induction fuel with
  | zero => intro first len h; unfold partitionPoint; omega
  | succ fuel ih =>
    intro first len h
    unfold partitionPoint
    split
    · omega
    · rename_i h0
      have hm : len / 2 < len := Nat.div_lt_self (by omega) (by omega)
      split
      · split
        · exact ih _ _ (by omega)
        · exact ih _ _ (by omega)
      · omega

/-- The range consists of the files with the given name. -/
theorem equalRange_spec {ns : List Entry} (hs : ns.Pairwise fun a b => fileLess b a = false) (n : Name) :
    (∀ i e, ns[i]? = some e → (filename e.path = n ↔ (equalRange ns n).1 ≤ i ∧ i < (equalRange ns n).2)) ∧ (equalRange ns n).2 ≤ ns.length ∧ (equalRange ns n).1 ≤ (equalRange ns n).2 := by
  have hle : ∀ (i j : Nat) (a b : Entry), i ≤ j → ns[i]? = some a → ns[j]? = some b → nameLess (filename b.path) (filename a.path) = false := by
    intro i j a b hij ha hb
    rcases Nat.lt_or_eq_of_le hij with h | rfl
    · obtain ⟨hi, rfl⟩ := List.getElem?_eq_some_iff.mp ha
      obtain ⟨hj, rfl⟩ := List.getElem?_eq_some_iff.mp hb
      have := List.pairwise_iff_getElem.mp hs i j hi hj h
      rw [fileLess_eq, Bool.or_eq_false_iff] at this
      exact this.1
    · rw [ha] at hb; cases hb; exact nameLess_strict.irrefl _
  have h1 : ∀ (i : Nat) (e : Entry), ns[i]? = some e → (nameLess (filename e.path) n = true ↔ i < (equalRange ns n).1) := partitionPoint_spec (before := fun e => nameLess (filename e.path) n) (l := ns)
    (fun i j a b hij ha hb h => by
      have := hle i j a b hij ha hb
      cases hq : nameLess (filename a.path) n with
      | true => rfl
      | false => rw [nameLess_strict.not_trans hq this] at h; cases h)
    ns.length 0 ns.length (Nat.le_refl _) (by omega) (fun i a hi => absurd hi (by omega))
    (fun i a hi ha => by rw [List.getElem?_eq_none (by omega)] at ha; cases ha)
  have h2 : ∀ (i : Nat) (e : Entry), ns[i]? = some e → ((!nameLess n (filename e.path)) = true ↔ i < (equalRange ns n).2) := partitionPoint_spec (before := fun e => !nameLess n (filename e.path)) (l := ns)
    (fun i j a b hij ha hb h => by
      have := hle i j a b hij ha hb
      cases hq : nameLess n (filename a.path) with
      | false => simp
      | true => rw [nameLess_strict.lt_of_lt_of_not hq this] at h; cases h)
    ns.length 0 ns.length (Nat.le_refl _) (by omega) (fun i a hi => absurd hi (by omega))
    (fun i a hi ha => by rw [List.getElem?_eq_none (by omega)] at ha; cases ha)
  have hl : (equalRange ns n).1 ≤ ns.length := partitionPoint_le _ _ _ (by omega)
  refine ⟨?_, partitionPoint_le _ _ _ (by omega), ?_⟩
  · intro i e he
    have h1 := h1 i e he
    have h2 := h2 i e he
    constructor
    · rintro rfl
      refine ⟨?_, h2.mp (by simp [nameLess_strict.irrefl])⟩
      apply Nat.le_of_not_lt
      intro h
      have := h1.mpr h
      rw [nameLess_strict.irrefl] at this; cases this
    · rintro ⟨k1, k2⟩
      refine nameLess_strict.tri _ _ ?_ ?_
      · cases hq : nameLess (filename e.path) n with
        | false => rfl
        | true => exact absurd (h1.mp hq) (by omega)
      · simpa using h2.mpr k2
  · apply Nat.le_of_not_lt
    intro hlt
    have hlen : (equalRange ns n).2 < ns.length := by omega
    have k1 := (h1 _ _ (List.getElem?_eq_getElem hlen)).mpr hlt
    have k2 := (h2 _ _ (List.getElem?_eq_getElem hlen)).mp (by rw [nameLess_strict.asymm k1]; rfl)
    omega

/-- What is between two names which start in the same way does so, too. -/
theorem prefix_between (p a b n : Name) (h1 : nameLess n (p ++ a) = false) (h2 : nameLess (p ++ b) n = false) : p <+: n := by
  induction p generalizing n with
  | nil => exact List.nil_prefix
  | cons c p ih =>
    cases n with
    | nil => simp [nameLess] at h1
    | cons d n =>
      unfold nameLess at h1 h2
      simp only [List.cons_append] at h1 h2
      by_cases hcd : d.toNat < c.toNat
      · rw [if_pos hcd] at h1; cases h1
      · rw [if_neg hcd] at h1
        by_cases hdc : c.toNat < d.toNat
        · rw [if_pos hdc] at h2; cases h2
        · rw [if_neg hdc] at h1 h2
          rw [if_neg hcd] at h2
          have : c = d := Char.toNat_inj.mp (by omega)
          subst this
          exact List.cons_prefix_cons.mpr ⟨rfl, ih n h1 h2⟩

theorem nameLess_append (p a b : Name) : nameLess (p ++ a) (p ++ b) = nameLess a b := by
  induction p with
  | nil => rfl
  | cons c p ih => simp [nameLess, ih]

end Verif.Resolve
