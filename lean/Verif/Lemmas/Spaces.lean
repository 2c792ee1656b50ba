import Verif.Spec.Spaces

/-! Lemmas on the classification of spaces. -/
set_option linter.unusedSimpArgs false
set_option linter.unusedVariables false
namespace Verif.Spaces
open Verif.Spec.Spaces

variable {R : Type} {K : Rings R}

/-- What is known about a vector space. -/
def VF (K : Rings R) (mem : Space → Option (Members R)) (v : Space) (r : R) (d : Nat) : Prop :=
  ∃ m, mem v = some m ∧ isVector K m = true ∧ (m.free || m.vector) = true ∧ m.dimension = some d ∧ (if isVector K m && hasField K m then m.field else m.ring) = some r ∧ K.weakField r = true

/-- What is known about a space. -/
def SF (K : Rings R) (mem : Space → Option (Members R)) (s : Space) (k : Kind) (r : R) (d : Nat) (m : Members R) (v : Space) : Prop :=
  mem s = some m ∧ isFree K m = k.concepts.free ∧ isVector K m = k.concepts.vector ∧ isAffine K mem m = some k.concepts.affine ∧ isConvex K mem m = some k.concepts.convex ∧
    freeModuleOf K mem s = some v ∧ VF K mem v r d

theorem isFree_of_isVector {m : Members R} (h : isVector K m = true) : isFree K m = true := by
  unfold isVector at h; simp at h; exact h.1

theorem isConvex_of_isFree {mem} {m : Members R} (h : isFree K m = true) : isConvex K mem m = some true := by
  unfold isConvex; rw [if_pos h]

theorem isAffine_of_isVector {mem} {m : Members R} (h : isVector K m = true) : isAffine K mem m = some true := by
  unfold isAffine; rw [if_pos h]

theorem SF_of_VF {mem} {v : Space} {r : R} {d : Nat} (h : VF K mem v r d) : ∃ m, SF K mem v .vector r d m v := by
  obtain ⟨m, h1, h2, h3, h4, h5, h6⟩ := h
  have hf := isFree_of_isVector h2
  refine ⟨m, h1, hf, h2, isAffine_of_isVector h2, isConvex_of_isFree hf, ?_, m, h1, h2, h3, h4, h5, h6⟩
  unfold freeModuleOf
  rw [h1, Option.bind_some, isConvex_of_isFree hf, Option.bind_some, h3]
  rfl

theorem VF_of_SF {mem} {s : Space} {r : R} {d : Nat} {m v} (h : SF K mem s .vector r d m v) : v = s ∧ VF K mem s r d := by
  obtain ⟨h1, h2, h3, h4, h5, h6, h7⟩ := h
  have hi : (m.free || m.vector) = true := by
    simp only [Kind.concepts] at h2
    unfold isFree at h2
    simp only [Bool.and_eq_true] at h2
    exact h2.2
  have hv : v = s := by
    unfold freeModuleOf at h6
    rw [h1, Option.bind_some, h5, Option.bind_some, hi] at h6
    exact (Option.some.inj h6).symm
  exact ⟨hv, hv ▸ h7⟩

theorem ringOf_of_SF {mem} {s : Space} {k r d m v} (h : SF K mem s k r d m v) : ringOf K mem s = some r := by
  obtain ⟨-, -, -, -, -, h6, m', h1, h2, h3, h4, h5, h6'⟩ := h
  unfold ringOf
  rw [h6, Option.bind_some, h1, Option.bind_some]
  exact h5

theorem dimensionOf_of_SF {mem} {s : Space} {k r d m v} (h : SF K mem s k r d m v) : dimensionOf K mem s = some d := by
  obtain ⟨-, -, -, -, -, h6, m', h1, h2, h3, h4, h5, h6'⟩ := h
  unfold dimensionOf
  rw [h6, Option.bind_some, h1, Option.bind_some]
  exact h4

theorem conceptsOf_of_SF {mem} {s : Space} {k r d m v} (h : SF K mem s k r d m v) : conceptsOf K mem s = some k.concepts := by
  obtain ⟨h1, h2, h3, h4, h5, -⟩ := h
  unfold conceptsOf
  simp [h1, h2, h3, h4, h5]

theorem weakField_of_SF {mem} {s : Space} {k r d m v} (h : SF K mem s k r d m v) : K.weakField r = true := by
  obtain ⟨-, -, -, -, -, -, m', -, -, -, -, -, h⟩ := h
  exact h

/-- A class with a free module which is not itself a free module. -/
theorem SF_over {mem} {s : Space} {m : Members R} {k : Kind} {v : Space} {r : R} {d : Nat} (hm : mem s = some m) (hd : DeclaresOver m k v) (hv : VF K mem v r d) : SF K mem s k r d m v := by
  have hv' := hv
  obtain ⟨mv, h1, h2, h3, h4, h5, h6⟩ := hv
  have hf : isFree K m = false := by unfold isFree; simp [hd.notFree, hd.notVector]
  have hvec : isVector K m = false := by unfold isVector; simp [hf]
  have hfv := isFree_of_isVector h2
  have hk : k ≠ .vector := by rcases hd.identifies with h | h <;> rw [h.1] <;> simp
  have hid : (m.convex || m.affine) = true := by
    rcases hd.identifies with h | h
    · simp [h.2]
    · simp [h.2.2]
  have hc : isConvex K mem m = some true := by
    unfold isConvex
    rcases hd.declares with ⟨a, b⟩ | ⟨a, b⟩ <;> simp [hf, hd.set, a, b, denotes, h1, h2, hfv] <;> simpa using hid
  have ha : isAffine K mem m = some m.affine := by
    unfold isAffine
    simp [hvec, hc]
  refine ⟨hm, ?_, ?_, ?_, ?_, ?_, hv'⟩
  · rw [hf]; cases k <;> simp_all [Kind.concepts]
  · rw [hvec]; cases k <;> simp_all [Kind.concepts]
  · rw [ha]
    rcases hd.identifies with h | h
    · rw [h.1, h.2]; rfl
    · rw [h.1, h.2.1]; rfl
  · rw [hc]; cases k <;> rfl
  · unfold freeModuleOf
    rcases hd.declares with ⟨a, b⟩ | ⟨a, b⟩ <;> simp [hm, hc, hd.notFree, hd.notVector, a, b, denotes, h1, h2, hfv]

theorem VF_decl (hK : Lawful K) {mem} {s : Space} {m : Members R} {r : R} {d : Nat} (hm : mem s = some m) (hd : DeclaresVector K m r d) : VF K mem s r d := by
  have hr := hK.field_ring r hd.field
  have hi : (m.free || m.vector) = true := by rcases hd.identifies with h | h <;> simp [h]
  have h2 : isVector K m = true := by
    unfold isVector isFree definesRing definesField hasField
    rcases hd.declares with h | ⟨h, h'⟩
    · simp [hd.set, hd.dimension, h, hd.field, hi]
    · simp [hd.set, hd.dimension, h, h', hd.field, hr, hi]
  refine ⟨m, hm, h2, hi, hd.dimension, ?_, hd.field⟩
  rcases hd.declares with h | ⟨h, h'⟩
  · simp [h2, hasField, h, hd.field]
  · simp [h2, hasField, h, h']

/-! ### Products -/

/-- A factor with what is known about it. -/
structure Entry (R : Type) where
  s : Space
  k : Kind
  r : R
  d : Nat
  m : Members R
  v : Space

theorem entries {mem} : ∀ {l : List (Space × Kind × R × Nat)}, (∀ x ∈ l, ∃ m v, SF K mem x.1 x.2.1 x.2.2.1 x.2.2.2 m v) →
    ∃ es : List (Entry R), l = es.map (fun e => (e.s, e.k, e.r, e.d)) ∧ ∀ e ∈ es, SF K mem e.s e.k e.r e.d e.m e.v
  | [], _ => ⟨[], rfl, by simp⟩
  | x :: l, h => by
    obtain ⟨m, v, hx⟩ := h x (by simp)
    obtain ⟨es, h1, h2⟩ := entries (l := l) fun y hy => h y (by simp [hy])
    refine ⟨⟨x.1, x.2.1, x.2.2.1, x.2.2.2, m, v⟩ :: es, by rw [h1]; rfl, ?_⟩
    intro e he
    rcases List.mem_cons.1 he with rfl | he
    · exact hx
    · exact h2 e he

theorem mapM_map {α β γ : Type} {f : β → Option γ} {g : α → β} {h : α → γ} : ∀ {l : List α}, (∀ x ∈ l, f (g x) = some (h x)) → (l.map g).mapM f = some (l.map h)
  | [], _ => rfl
  | x :: l, hl => by
    rw [List.map_cons, List.mapM_cons, hl x (by simp), mapM_map fun y hy => hl y (by simp [hy])]
    rfl

variable {mem : Space → Option (Members R)} {es : List (Entry R)}

/-- The conditions in the specializations of the product. -/
theorem prod_first (h : ∀ e ∈ es, SF K mem e.s e.k e.r e.d e.m e.v) : (es.map (fun e => isFree K e.m)).all id = decide (∀ k ∈ es.map (·.k), k = .vector) := by
  rw [Bool.eq_iff_iff]
  simp only [List.all_map, List.all_eq_true, decide_eq_true_eq, List.mem_map, forall_exists_index, and_imp, forall_apply_eq_imp_iff₂, Function.comp, id]
  refine forall_congr' fun e => forall_congr' fun he => ?_
  rw [(h e he).2.1]
  cases e.k <;> simp [Kind.concepts]

theorem prod_second (h : ∀ e ∈ es, SF K mem e.s e.k e.r e.d e.m e.v) :
    ((es.map (fun e => e.k.concepts.affine)).all id && (es.map (fun e => isFree K e.m)).all (!·)) = decide (∀ k ∈ es.map (·.k), k = .affine) := by
  rw [Bool.eq_iff_iff]
  simp only [Bool.and_eq_true, List.all_map, List.all_eq_true, decide_eq_true_eq, List.mem_map, forall_exists_index, and_imp, forall_apply_eq_imp_iff₂, Function.comp, id]
  constructor
  · rintro ⟨h1, h2⟩ e he
    have h1 := h1 e he
    have h2 := h2 e he
    rw [(h e he).2.1] at h2
    revert h1 h2
    cases e.k <;> simp [Kind.concepts]
  · intro hk
    refine ⟨fun e he => by rw [hk e he]; rfl, fun e he => by rw [(h e he).2.1, hk e he]; rfl⟩

theorem prod_third (h : ∀ e ∈ es, SF K mem e.s e.k e.r e.d e.m e.v) :
    ((es.map (fun e => e.k.concepts.affine)).all (!·) || ((es.map (fun e => isFree K e.m)).any id && (es.map (fun e => isFree K e.m)).any (!·))) =
      (decide (∀ k ∈ es.map (·.k), k = .convex) || (decide (Kind.vector ∈ es.map (·.k)) && !decide (∀ k ∈ es.map (·.k), k = .vector))) := by
  have ha : (es.map (fun e => e.k.concepts.affine)).all (!·) = decide (∀ k ∈ es.map (·.k), k = .convex) := by
    rw [Bool.eq_iff_iff]
    simp only [List.all_map, List.all_eq_true, decide_eq_true_eq, List.mem_map, forall_exists_index, and_imp, forall_apply_eq_imp_iff₂, Function.comp]
    refine forall_congr' fun e => forall_congr' fun he => ?_
    cases e.k <;> simp [Kind.concepts]
  have hb : (es.map (fun e => isFree K e.m)).any id = decide (Kind.vector ∈ es.map (·.k)) := by
    rw [Bool.eq_iff_iff]
    simp only [List.any_map, List.any_eq_true, decide_eq_true_eq, List.mem_map, Function.comp, id]
    refine exists_congr fun e => and_congr_right fun he => ?_
    rw [(h e he).2.1]
    cases e.k <;> simp [Kind.concepts]
  have hc : (es.map (fun e => isFree K e.m)).any (!·) = !decide (∀ k ∈ es.map (·.k), k = .vector) := by
    rw [← prod_first h, List.not_all_eq_any_not]
    rfl
  rw [ha, hb, hc]

theorem prodMembers_eq (h : ∀ e ∈ es, SF K mem e.s e.k e.r e.d e.m e.v) (hne : es ≠ []) {r : R} (hr : K.common (es.map (·.r)) = some r) :
    prodMembers K mem (es.map (·.s)) = some (match assigned (es.map (·.k)) with
      | some .vector => { hasSet := true, ring := some r, free := true, dimension := some (es.map (·.d)).sum }
      | some .affine => { hasSet := true, freeModule := some (.prod (es.map (·.v))), affine := true }
      | some .convex => { hasSet := true, freeModule := some (.prod (es.map (·.v))), convex := true }
      | none => {}) := by
  have e1 : (es.map (·.s)).mapM mem = some (es.map (·.m)) := mapM_map fun e he => (h e he).1
  have e2 : (es.map (·.m)).mapM (isConvex K mem) = some (es.map fun e => e.k.concepts.convex) := mapM_map fun e he => (h e he).2.2.2.2.1
  have e3 : (es.map (·.m)).mapM (isAffine K mem) = some (es.map fun e => e.k.concepts.affine) := mapM_map fun e he => (h e he).2.2.2.1
  have e4 : (es.map (·.s)).mapM (ringOf K mem) = some (es.map (·.r)) := mapM_map fun e he => ringOf_of_SF (h e he)
  have e5 : (es.map (·.s)).mapM (freeModuleOf K mem) = some (es.map (·.v)) := mapM_map fun e he => (h e he).2.2.2.2.2.1
  have e6 : (es.map fun e => e.k.concepts.convex).all id = true := by
    simp only [List.all_map, List.all_eq_true, Function.comp, id]
    intro e _
    cases e.k <;> rfl
  have e7 : (es.map (·.s)).isEmpty = false := by cases es <;> simp_all
  have e8 : hasCommonRing K (es.map (·.r)) = true := by
    unfold hasCommonRing
    have : (es.map (·.r)).all K.weakField = true := by
      simp only [List.all_map, List.all_eq_true, Function.comp]
      exact fun e he => weakField_of_SF (h e he)
    simp [this, hr]
  have hms : (es.map (·.m)).map (isFree K) = es.map fun e => isFree K e.m := by rw [List.map_map]; rfl
  unfold prodMembers
  rw [e1, Option.bind_some, e2, Option.bind_some, e3, Option.bind_some]
  dsimp only
  rw [hms, e7, e6, e5, e4]
  simp only [Bool.not_false, Bool.true_and]
  rw [prod_first h, prod_second h, prod_third h]
  have hx : ∃ k, k ∈ es.map (·.k) := by
    cases es with
    | nil => exact absurd rfl hne
    | cons e es => exact ⟨e.k, by simp⟩
  unfold assigned
  by_cases h1 : ∀ k ∈ es.map (·.k), k = .vector
  · have h2 : ¬ ∀ k ∈ es.map (·.k), k = .affine := fun h' => by
      obtain ⟨k, hk⟩ := hx
      have := h1 k hk; rw [h' k hk] at this; simp at this
    have h3 : ¬ ∀ k ∈ es.map (·.k), k = .convex := fun h' => by
      obtain ⟨k, hk⟩ := hx
      have := h1 k hk; rw [h' k hk] at this; simp at this
    rw [if_pos h1, decide_eq_true h1, decide_eq_false h2, decide_eq_false h3]
    simp only [e8, hr, if_true, Option.bind_some, Bool.and_true, Bool.not_true, Bool.and_false, Bool.or_false]
    congr 4
    rw [List.map_map]
    refine List.map_congr_left fun e he => ?_
    have hk := h1 e.k (List.mem_map_of_mem he)
    have hs := h e he
    rw [hk] at hs
    obtain ⟨-, m', g1, -, -, g4, -⟩ := VF_of_SF hs
    rw [hs.1] at g1
    cases g1
    show e.m.dimension.getD 0 = e.d
    rw [g4]; rfl
  · rw [if_neg h1, decide_eq_false h1]
    simp only [Bool.false_eq_true, if_false, Option.bind_some, Bool.false_and, Bool.not_false, Bool.and_true]
    by_cases h2 : ∀ k ∈ es.map (·.k), k = .affine
    · have h3 : ¬ ∀ k ∈ es.map (·.k), k = .convex := fun h' => by
        obtain ⟨k, hk⟩ := hx
        have := h2 k hk; rw [h' k hk] at this; simp at this
      have h4 : Kind.vector ∉ es.map (·.k) := fun h' => by have := h2 _ h'; simp at this
      rw [if_pos h2, decide_eq_true h2, decide_eq_false h3, decide_eq_false h4]
      rfl
    · rw [if_neg h2, decide_eq_false h2]
      by_cases h3 : ∀ k ∈ es.map (·.k), k = .convex
      · rw [if_pos h3, decide_eq_true h3]; rfl
      · rw [if_neg h3, decide_eq_false h3]
        by_cases h4 : Kind.vector ∈ es.map (·.k)
        · rw [if_pos h4, decide_eq_true h4]; rfl
        · rw [if_neg h4, decide_eq_false h4]; rfl

/-- The product of the vector spaces of the factors. -/
theorem VF_prod (hK : Lawful K) {mem'} (hmem : ∀ ts, mem' (.prod ts) = prodMembers K mem ts) (h : ∀ e ∈ es, VF K mem e.v e.r e.d) (hne : es ≠ []) {r : R} (hr : K.common (es.map (·.r)) = some r) :
    VF K mem' (.prod (es.map (·.v))) r (es.map (·.d)).sum := by
  obtain ⟨fs, h1, h2⟩ := entries (K := K) (mem := mem) (l := es.map fun e => (e.v, .vector, e.r, e.d)) (by
    intro x hx
    obtain ⟨e, he, rfl⟩ := List.mem_map.1 hx
    obtain ⟨m, hm⟩ := SF_of_VF (h e he)
    exact ⟨m, _, hm⟩)
  have g1 : es.map (·.v) = fs.map (·.s) := by have := congrArg (List.map (·.1)) h1; simpa [Function.comp_def] using this
  have g2 : fs.map (·.k) = es.map fun _ => Kind.vector := by have := congrArg (List.map (·.2.1)) h1; simpa [Function.comp_def] using this.symm
  have g3 : es.map (·.r) = fs.map (·.r) := by have := congrArg (List.map (·.2.2.1)) h1; simpa [Function.comp_def] using this
  have g4 : es.map (·.d) = fs.map (·.d) := by have := congrArg (List.map (·.2.2.2)) h1; simpa [Function.comp_def] using this
  have hne' : fs ≠ [] := by
    rintro rfl
    cases es with
    | nil => exact hne rfl
    | cons e es => simp at g1
  have hv : assigned (fs.map (·.k)) = some .vector := by
    unfold assigned
    rw [if_pos]
    rw [g2]
    simp
  have hf : K.weakField r = true := hK.common_field _ r hr (by
    intro r' hr'
    obtain ⟨e, he, rfl⟩ := List.mem_map.1 hr'
    obtain ⟨m, -, -, -, -, -, hw⟩ := h e he
    exact hw)
  rw [g3] at hr
  have := prodMembers_eq h2 hne' hr
  rw [hv] at this
  rw [g1, g4]
  refine ⟨_, (hmem _).trans this, ?_, rfl, rfl, ?_, hf⟩
  · simp [isVector, isFree, definesRing, definesField, hasField, hf, hK.field_ring r hf]
  · simp [hasField]

theorem SF_prod (hK : Lawful K) {mem'} (hmem : ∀ ts, mem' (.prod ts) = prodMembers K mem ts) (h : ∀ e ∈ es, SF K mem e.s e.k e.r e.d e.m e.v) (hne : es ≠ []) {k : Kind} {r : R}
    (hk : assigned (es.map (·.k)) = some k) (hr : K.common (es.map (·.r)) = some r) : ∃ m v, SF K mem' (.prod (es.map (·.s))) k r (es.map (·.d)).sum m v := by
  have hv := VF_prod hK hmem (fun e he => (h e he).2.2.2.2.2.2) hne hr
  have hp := prodMembers_eq h hne hr
  rw [hk, ← hmem] at hp
  cases k with
  | affine => exact ⟨_, _, SF_over hp ⟨rfl, rfl, rfl, .inl ⟨rfl, rfl⟩, .inl ⟨rfl, rfl⟩⟩ hv⟩
  | convex => exact ⟨_, _, SF_over hp ⟨rfl, rfl, rfl, .inl ⟨rfl, rfl⟩, .inr ⟨rfl, rfl, rfl⟩⟩ hv⟩
  | vector =>
    have hall : ∀ e ∈ es, e.k = .vector := by
      unfold assigned at hk
      split at hk
      · rename_i h'
        exact fun e he => h' _ (List.mem_map_of_mem he)
      · repeat (split at hk; · simp at hk)
        simp at hk
    have hvs : es.map (·.v) = es.map (·.s) := List.map_congr_left fun e he => (VF_of_SF (hall e he ▸ h e he)).1
    rw [hvs] at hv
    obtain ⟨m, hm⟩ := SF_of_VF hv
    exact ⟨m, _, hm⟩

/-! ### Duals -/

theorem VF_dual (hK : Lawful K) {mem'} (hmem : ∀ t, mem' (.dual t) = dualMembers K mem t) {v : Space} {r : R} {d : Nat} (h : VF K mem v r d) : VF K mem' (.dual v) r d := by
  obtain ⟨m, hs⟩ := SF_of_VF h
  have hr := ringOf_of_SF hs
  have hw := weakField_of_SF hs
  obtain ⟨m', g1, g2, g3, g4, g5, g6⟩ := h
  obtain ⟨h1, h2, h3, h4, h5, h6, h7⟩ := hs
  rw [h1] at g1; cases g1
  have : dualMembers K mem v = some { hasSet := true, field := some r, vector := true, dimension := some d } := by
    unfold dualMembers
    simp [h1, h4, h5, g2, Kind.concepts, hr, g4]
  refine ⟨_, (hmem _).trans this, ?_, rfl, rfl, ?_, hw⟩
  · simp [isVector, isFree, definesRing, definesField, hasField, hw]
  · simp [isVector, isFree, definesRing, definesField, hasField, hw]

theorem SF_dual (hK : Lawful K) {mem'} (hmem : ∀ t, mem' (.dual t) = dualMembers K mem t) {s : Space} {k : Kind} {r : R} {d : Nat} {m : Members R} {v : Space} (h : SF K mem s k r d m v) :
    ∃ m' v', SF K mem' (.dual s) k r d m' v' := by
  have hr := ringOf_of_SF h
  have hv := VF_dual hK hmem h.2.2.2.2.2.2
  cases k with
  | vector =>
    obtain ⟨m', hm⟩ := SF_of_VF (VF_dual hK hmem (VF_of_SF h).2)
    exact ⟨m', _, hm⟩
  | affine =>
    obtain ⟨h1, h2, h3, h4, h5, h6, h7⟩ := h
    have : dualMembers K mem s = some { hasSet := true, freeModule := some (.dual v), affine := true } := by
      unfold dualMembers
      simp [h1, h4, h5, Kind.concepts, hr, h6, h3]
    exact ⟨_, _, SF_over ((hmem _).trans this) ⟨rfl, rfl, rfl, .inl ⟨rfl, rfl⟩, .inl ⟨rfl, rfl⟩⟩ hv⟩
  | convex =>
    obtain ⟨h1, h2, h3, h4, h5, h6, h7⟩ := h
    have : dualMembers K mem s = some { hasSet := true, freeModule := some (.dual v), convex := true } := by
      unfold dualMembers
      simp [h1, h4, h5, Kind.concepts, hr, h6, h3]
    exact ⟨_, _, SF_over ((hmem _).trans this) ⟨rfl, rfl, rfl, .inl ⟨rfl, rfl⟩, .inr ⟨rfl, rfl, rfl⟩⟩ hv⟩

/-! ### All spaces -/

theorem bound_all {α : Type} {P : α → Nat → Prop} : ∀ {l : List α}, (∀ x ∈ l, ∃ N, ∀ f ≥ N, P x f) → ∃ N, ∀ f ≥ N, ∀ x ∈ l, P x f
  | [], _ => ⟨0, by simp⟩
  | x :: l, h => by
    obtain ⟨N, hN⟩ := h x (by simp)
    obtain ⟨M, hM⟩ := bound_all (l := l) fun y hy => h y (by simp [hy])
    refine ⟨N + M, fun f hf y hy => ?_⟩
    rcases List.mem_cons.1 hy with rfl | hy
    · exact hN f (by omega)
    · exact hM f (by omega) y hy

theorem SF_of_Is (hK : Lawful K) {Γ : Nat → Members R} {s : Space} {k : Kind} {r : R} {d : Nat} (h : Is assigned K Γ s k r d) : ∃ N, ∀ f ≥ N, ∃ m v, SF K (members K Γ f) s k r d m v := by
  induction h with
  | vector hd =>
    refine ⟨1, fun f hf => ?_⟩
    obtain ⟨f, rfl⟩ : ∃ g, f = g + 1 := ⟨f - 1, by omega⟩
    obtain ⟨m, hm⟩ := SF_of_VF (VF_decl hK (mem := members K Γ (f + 1)) (s := .decl _) rfl hd)
    exact ⟨m, _, hm⟩
  | over hd _ ih =>
    obtain ⟨N, hN⟩ := ih
    refine ⟨N + 1, fun f hf => ?_⟩
    obtain ⟨f, rfl⟩ : ∃ g, f = g + 1 := ⟨f - 1, by omega⟩
    obtain ⟨m, v, hm⟩ := hN (f + 1) (by omega)
    exact ⟨_, _, SF_over (s := .decl _) rfl hd (VF_of_SF hm).2⟩
  | prod l hne _ hk hr ih =>
    obtain ⟨N, hN⟩ := bound_all ih
    refine ⟨N + 1, fun f hf => ?_⟩
    obtain ⟨f, rfl⟩ : ∃ g, f = g + 1 := ⟨f - 1, by omega⟩
    obtain ⟨es, rfl, he⟩ := entries (hN f (by omega))
    simp only [List.map_map, Function.comp_def] at hk hr ⊢
    exact SF_prod hK (fun _ => rfl) he (by rintro rfl; exact hne rfl) hk hr
  | dual _ ih =>
    obtain ⟨N, hN⟩ := ih
    refine ⟨N + 1, fun f hf => ?_⟩
    obtain ⟨f, rfl⟩ : ∃ g, f = g + 1 := ⟨f - 1, by omega⟩
    obtain ⟨m, v, hm⟩ := hN f (by omega)
    exact SF_dual hK (fun _ => rfl) hm

end Verif.Spaces

namespace Verif.Spaces
open Verif.Spec.Spaces
variable {R : Type} {K : Rings R}

/-! ### The two rules -/

theorem assigned_rank {ks ks0 : List Kind} {k : Kind} (h : assigned ks = some k) (h1 : ks.length = ks0.length) (h2 : ∀ (i : Nat) (a b : Kind), ks[i]? = some a → ks0[i]? = some b → b.rank ≤ a.rank) :
    ∃ k0, weakest ks0 = some k0 ∧ k0.rank ≤ k.rank := by
  have key : ∀ c, (∀ a ∈ ks, a.rank ≤ c) → ∀ b ∈ ks0, b.rank ≤ c := by
    intro c hc b hb
    obtain ⟨i, hi⟩ := List.getElem?_of_mem hb
    have hlt : i < ks.length := by rw [h1]; exact (List.getElem?_eq_some_iff.1 hi).1
    have := h2 i _ b (List.getElem?_eq_getElem hlt) hi
    have := hc _ (List.getElem_mem hlt)
    omega
  have hr : ∀ a ∈ ks, a.rank ≤ k.rank := by
    unfold assigned at h
    split at h
    · rename_i h'; cases h; exact fun a ha => by rw [h' a ha]; exact Nat.le_refl _
    · split at h
      · rename_i h'; cases h; exact fun a ha => by rw [h' a ha]; exact Nat.le_refl _
      · split at h
        · cases h; exact fun a ha => by cases a <;> simp [Kind.rank]
        · split at h
          · cases h; exact fun a ha => by cases a <;> simp [Kind.rank]
          · simp at h
  refine ⟨_, rfl, ?_⟩
  have := key _ hr
  split
  · rename_i h'; exact this _ h'
  · split
    · rename_i h'; exact this _ h'
    · simp [Kind.rank]

theorem sound_list {Γ : Nat → Members R} : ∀ {l : List (Space × Kind × R × Nat)}, (∀ x ∈ l, ∃ k0, Is weakest K Γ x.1 k0 x.2.2.1 x.2.2.2 ∧ k0.rank ≤ x.2.1.rank) →
    ∃ l0 : List (Space × Kind × R × Nat), (∀ x ∈ l0, Is weakest K Γ x.1 x.2.1 x.2.2.1 x.2.2.2) ∧ l0.map (·.1) = l.map (·.1) ∧ l0.map (·.2.2.1) = l.map (·.2.2.1) ∧ l0.map (·.2.2.2) = l.map (·.2.2.2) ∧
      ∀ (i : Nat) (a b : Kind), (l.map (·.2.1))[i]? = some a → (l0.map (·.2.1))[i]? = some b → b.rank ≤ a.rank
  | [], _ => ⟨[], by simp, rfl, rfl, rfl, by simp⟩
  | x :: l, h => by
    obtain ⟨k0, h1, h2⟩ := h x (by simp)
    obtain ⟨l0, g1, g2, g3, g4, g5⟩ := sound_list (l := l) fun y hy => h y (by simp [hy])
    refine ⟨(x.1, k0, x.2.2.1, x.2.2.2) :: l0, ?_, by simp [g2], by simp [g3], by simp [g4], ?_⟩
    · intro y hy
      rcases List.mem_cons.1 hy with rfl | hy
      · exact h1
      · exact g1 y hy
    · intro i a b ha hb
      cases i with
      | zero => simp at ha hb; subst ha hb; exact h2
      | succ i => simp only [List.map_cons, List.getElem?_cons_succ] at ha hb; exact g5 i a b ha hb

theorem sound {Γ : Nat → Members R} {s : Space} {k : Kind} {r : R} {d : Nat} (h : Is assigned K Γ s k r d) : ∃ k0, Is weakest K Γ s k0 r d ∧ k0.rank ≤ k.rank := by
  induction h with
  | vector hd => exact ⟨_, .vector hd, Nat.le_refl _⟩
  | over hd _ ih =>
    obtain ⟨k0, h1, h2⟩ := ih
    have : k0 = .vector := by cases k0 <;> simp_all [Kind.rank]
    subst this
    exact ⟨_, .over hd h1, Nat.le_refl _⟩
  | @prod k r l hne _ hk hr ih =>
    obtain ⟨l0, g1, g2, g3, g4, g5⟩ := sound_list ih
    have hlen : l0.length = l.length := by simpa using congrArg List.length g2
    obtain ⟨k0, h1, h2⟩ := assigned_rank hk (by simp [hlen]) g5
    have hne0 : l0 ≠ [] := by rintro rfl; exact hne (List.length_eq_zero_iff.1 hlen.symm)
    have := Is.prod (rule := weakest) (K := K) (Γ := Γ) l0 hne0 g1 h1 (g3 ▸ hr)
    rw [g2, g4] at this
    exact ⟨k0, this, h2⟩
  | dual _ ih =>
    obtain ⟨k0, h1, h2⟩ := ih
    exact ⟨k0, .dual h1, h2⟩

/-! ### Half-lines and origins -/

theorem prodMembers_plain {mem : Space → Option (Members R)} {ts : List Space} {m : Members R} (h : prodMembers K mem ts = some m) : m.origin = none ∧ m.halfLine = none := by
  unfold prodMembers at h
  simp only [Option.bind_eq_some_iff] at h
  obtain ⟨ms, -, cs, -, as, -, rs, -, h⟩ := h
  split at h
  · cases h; exact ⟨rfl, rfl⟩
  · simp only [Option.map_eq_some_iff] at h; obtain ⟨_, -, rfl⟩ := h; exact ⟨rfl, rfl⟩
  · simp only [Option.map_eq_some_iff] at h; obtain ⟨_, -, rfl⟩ := h; exact ⟨rfl, rfl⟩
  · cases h; exact ⟨rfl, rfl⟩
  · simp at h

theorem halfLine_plain {Γ : Nat → Members R} {f : Nat} {s : Space} {m : Members R} (hs : ∀ t, s ≠ .dual t) (hm : members K Γ f s = some m) (hd : m.halfLine = some true → dimensionOf K (members K Γ f) s = some 1) :
    isHalfLine K Γ f s = some (decide (m.halfLine = some true)) := by
  unfold isHalfLine
  cases s with
  | dual t => exact absurd rfl (hs t)
  | decl n =>
    simp only [hm, Option.bind_some]
    cases h : m.halfLine with
    | none => rfl
    | some b => cases b with
      | false => rfl
      | true => simp [hd h]
  | prod ts =>
    simp only [hm, Option.bind_some]
    cases h : m.halfLine with
    | none => rfl
    | some b => cases b with
      | false => rfl
      | true => simp [hd h]

theorem origin_plain {Γ : Nat → Members R} {f : Nat} {s : Space} {k r d m v} (hs : ∀ t, s ≠ .dual t) (h : SF K (members K Γ f) s k r d m v)
    (hc : k ≠ .convex → m.origin = none ∧ m.halfLine = none) (hl : m.halfLine = some true → d = 1 ∧ m.origin ≠ some false) :
    hasOrigin K Γ f s = some (decide (k = .vector ∨ m.halfLine = some true ∨ m.origin = some true)) := by
  have hh := halfLine_plain hs h.1 (fun h' => (hl h').1 ▸ dimensionOf_of_SF h)
  obtain ⟨h1, h2, h3, h4, h5, h6, h7⟩ := h
  have hu : hasOrigin K Γ f s = (members K Γ f s).bind fun m => (isAffine K (members K Γ f) m).bind fun a => (isHalfLine K Γ f s).bind fun h =>
      match m.origin, h, isFree K m, a && !isFree K m with
      | some b, h, false, false => if !h || b then some b else none
      | none, true, false, false => some true
      | none, false, true, _ => some true
      | none, false, false, true => some false
      | none, false, false, false => some false
      | _, _, _, _ => none := by
    cases s with
    | dual t => exact absurd rfl (hs t)
    | decl n => rfl
    | prod ts => rfl
  rw [hu]
  simp only [h1, h4, hh, h2, Option.bind_some]
  cases k with
  | vector => obtain ⟨a, b⟩ := hc (by simp); simp [a, b, Kind.concepts]
  | affine => obtain ⟨a, b⟩ := hc (by simp); simp [a, b, Kind.concepts]
  | convex =>
    simp only [Kind.concepts]
    cases hm : m.halfLine with
    | none => cases ho : m.origin with
      | none => simp
      | some b => cases b <;> simp
    | some b =>
      cases b with
      | false => cases ho : m.origin with
        | none => simp
        | some b => cases b <;> simp
      | true => cases ho : m.origin with
        | none => simp
        | some b => cases b with
          | true => simp
          | false => exact absurd ho (hl hm).2

theorem origin_of_Is (hK : Lawful K) {Γ : Nat → Members R} {s : Space} {k : Kind} {r : R} {d : Nat} (h : Is assigned K Γ s k r d) (hc : Consistent Γ s k d) :
    ∃ N, ∀ f ≥ N, (∃ b, isHalfLine K Γ f s = some b ∧ (b = true ↔ HalfLine Γ s)) ∧ ∃ b, hasOrigin K Γ f s = some b ∧ (b = true ↔ Pointed Γ s k) := by
  induction h with
  | @vector n r d hd =>
    obtain ⟨N, hN⟩ := SF_of_Is hK (Is.vector (rule := assigned) (K := K) (Γ := Γ) hd)
    refine ⟨N + 1, fun f hf => ?_⟩
    obtain ⟨m, v, hm⟩ := hN f (by omega)
    obtain ⟨f, rfl⟩ : ∃ g, f = g + 1 := ⟨f - 1, by omega⟩
    have hg : members K Γ (f + 1) (.decl n) = some (Γ n) := rfl
    have hm1 := hm.1
    rw [hg] at hm1; cases hm1
    obtain ⟨c1, c2⟩ := hc n rfl
    refine ⟨⟨_, halfLine_plain (by simp) hg (fun h' => (dimensionOf_of_SF hm).trans (congrArg some (c2 h').1)), ?_⟩, _, origin_plain (by simp) hm c1 c2, ?_⟩
    · simp [HalfLine, core]
    · simp [Pointed, core]
  | @over n k v r d hd hv ih =>
    obtain ⟨N, hN⟩ := SF_of_Is hK (Is.over (rule := assigned) (K := K) (Γ := Γ) hd hv)
    refine ⟨N + 1, fun f hf => ?_⟩
    obtain ⟨m, v, hm⟩ := hN f (by omega)
    obtain ⟨f, rfl⟩ : ∃ g, f = g + 1 := ⟨f - 1, by omega⟩
    have hg : members K Γ (f + 1) (.decl n) = some (Γ n) := rfl
    have hm1 := hm.1
    rw [hg] at hm1; cases hm1
    obtain ⟨c1, c2⟩ := hc n rfl
    refine ⟨⟨_, halfLine_plain (by simp) hg (fun h' => (dimensionOf_of_SF hm).trans (congrArg some (c2 h').1)), ?_⟩, _, origin_plain (by simp) hm c1 c2, ?_⟩
    · simp [HalfLine, core]
    · simp [Pointed, core]
  | @prod k r l hne hl hk hr ih =>
    obtain ⟨N, hN⟩ := SF_of_Is hK (Is.prod (rule := assigned) (K := K) (Γ := Γ) l hne hl hk hr)
    refine ⟨N + 1, fun f hf => ?_⟩
    obtain ⟨m, v, hm⟩ := hN f (by omega)
    obtain ⟨f, rfl⟩ : ∃ g, f = g + 1 := ⟨f - 1, by omega⟩
    obtain ⟨p1, p2⟩ := prodMembers_plain hm.1
    refine ⟨⟨_, halfLine_plain (by simp) hm.1 (by simp [p2]), ?_⟩, _, origin_plain (by simp) hm (fun _ => ⟨p1, p2⟩) (by simp [p2]), ?_⟩
    · simp [HalfLine, core, p2]
    · simp [Pointed, core, p1, p2]
  | dual _ ih =>
    obtain ⟨N, hN⟩ := ih fun n hn => hc n hn
    refine ⟨N, fun f hf => ?_⟩
    obtain ⟨⟨b, h1, h2⟩, b', h3, h4⟩ := hN f hf
    exact ⟨⟨b, by rw [← h1]; rfl, h2⟩, b', by rw [← h3]; rfl, h4⟩

/-! ### Duals of duals -/

theorem dualOf_dual (hK : Lawful K) {Γ : Nat → Members R} {s : Space} {k : Kind} {r : R} {d : Nat} (h : Is assigned K Γ s k r d) : ∃ N, ∀ f ≥ N, dualOf K (members K Γ f) (.dual s) = some s := by
  obtain ⟨N, hN⟩ := SF_of_Is hK h
  refine ⟨N, fun f hf => ?_⟩
  obtain ⟨m, v, hm⟩ := hN f hf
  have hr := ringOf_of_SF hm
  have hw := weakField_of_SF hm
  have hc : isConvex K (members K Γ f) m = some true := by rw [hm.2.2.2.2.1]; cases k <;> rfl
  unfold dualOf
  simp [hm.1, hc, hr, hw]

/-! ### Free modules over other rings -/

theorem module_facts {mem : Space → Option (Members R)} {s : Space} {m : Members R} {r : R} {d : Nat} (hm : mem s = some m) (hd : DeclaresModule K m r d) :
    isFree K m = true ∧ isVector K m = false ∧ isConvex K mem m = some true ∧ isAffine K mem m = some false ∧ freeModuleOf K mem s = some s ∧ ringOf K mem s = some r := by
  have h1 : isFree K m = true := by simp [isFree, hd.set, hd.dimension, definesRing, hd.declares, hd.ring, hd.identifies]
  have h2 : isVector K m = false := by simp [isVector, definesField, hasField, hd.declares, hd.notField]
  have h3 := isConvex_of_isFree (mem := mem) h1
  have h4 : freeModuleOf K mem s = some s := by simp [freeModuleOf, hm, h3, hd.identifies]
  refine ⟨h1, h2, h3, ?_, h4, ?_⟩
  · simp [isAffine, h2, h3, hd.notAffine]
  · simp [ringOf, h4, hm, h2, hd.declares]

theorem modules_ambiguous {Γ : Nat → Members R} {l : List (Nat × R × Nat)} (hne : l ≠ []) (h : ∀ x ∈ l, DeclaresModule K (Γ x.1) x.2.1 x.2.2) {r : R} (hr : K.common (l.map (·.2.1)) = some r) (f : Nat) :
    members K Γ f (.prod (l.map fun x => .decl x.1)) = none := by
  match f with
  | 0 => rfl
  | 1 =>
    cases l with
    | nil => exact absurd rfl hne
    | cons x l => rfl
  | f + 2 =>
    show prodMembers K (members K Γ (f + 1)) _ = none
    generalize hmem : members K Γ (f + 1) = mem
    have hd : ∀ n, mem (.decl n) = some (Γ n) := fun n => by rw [← hmem]; rfl
    have e1 : (l.map fun x => Space.decl x.1).mapM mem = some (l.map fun x => Γ x.1) := mapM_map fun x _ => hd x.1
    have e2 : (l.map fun x => Γ x.1).mapM (isConvex K mem) = some (l.map fun _ => true) := mapM_map fun x hx => (module_facts (hd x.1) (h x hx)).2.2.1
    have e3 : (l.map fun x => Γ x.1).mapM (isAffine K mem) = some (l.map fun _ => false) := mapM_map fun x hx => (module_facts (hd x.1) (h x hx)).2.2.2.1
    have e4 : (l.map fun x => Space.decl x.1).mapM (ringOf K mem) = some (l.map (·.2.1)) := mapM_map fun x hx => (module_facts (hd x.1) (h x hx)).2.2.2.2.2
    have e5 : ((l.map fun x => Γ x.1).map (isFree K)).all id = true := by
      simp only [List.map_map, List.all_map, List.all_eq_true, Function.comp, id]
      exact fun x hx => (module_facts (hd x.1) (h x hx)).1
    have e6 : hasCommonRing K (l.map (·.2.1)) = true := by
      have : (l.map (·.2.1)).all (fun r => !K.weakField r) = true := by
        simp only [List.all_map, List.all_eq_true, Function.comp]
        exact fun x hx => by rw [(h x hx).notField]; rfl
      simp only [hasCommonRing, this, hr, Bool.or_true, Option.isSome_some, Bool.and_self]
    have e7 : (l.map fun x => Space.decl x.1).isEmpty = false := by cases l <;> simp_all
    have e8 : (l.map fun _ => true).all id = true := by simp
    have e9 : (l.map fun _ => false).all (!·) = true := by simp
    unfold prodMembers
    rw [e1, Option.bind_some, e2, Option.bind_some, e3, Option.bind_some]
    dsimp only
    rw [e5, if_pos rfl, e4, Option.bind_some]
    rw [e6, e7, e8, e9]
    cases (!false && List.all (List.map (fun _ => false) l) id && List.all (List.map (isFree K) (List.map (fun x => Γ x.1) l)) fun x => !x) <;> rfl

theorem dual_module {Γ : Nat → Members R} {n : Nat} {r : R} {d : Nat} (h : DeclaresModule K (Γ n) r d) {f : Nat} (hf : 3 ≤ f) :
    conceptsOf K (members K Γ f) (.dual (.decl n)) = some ⟨false, false, false, false⟩ := by
  have key : ∀ f, members K Γ (f + 2) (.dual (.decl n)) = some { hasSet := true, freeModule := some (.dual (.decl n)), convex := true } := by
    intro f
    show dualMembers K (members K Γ (f + 1)) (.decl n) = _
    have hd : members K Γ (f + 1) (.decl n) = some (Γ n) := rfl
    obtain ⟨h1, h2, h3, h4, h5, h6⟩ := module_facts hd h
    unfold dualMembers
    rw [hd]
    simp [h2, h3, h4, h5, h6]
  obtain ⟨f, rfl⟩ : ∃ g, f = g + 2 := ⟨f - 2, by omega⟩
  have h1 := key f
  simp [conceptsOf, h1, isAffine, isVector, isFree, isConvex, denotes]

end Verif.Spaces
