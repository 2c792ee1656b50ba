import Verif.Lemmas.Spaces

/-! C83: the classification of spaces, direct products and duals. -/
namespace Verif.Props
open Verif.Spaces Verif.Spec.Spaces

variable {R : Type} {K : Rings R} {Γ : Nat → Members R}

/-- **C83 (part)** Vector spaces, affine spaces and convex spaces over fields, their direct products and their duals, nested in any way, satisfy exactly the concepts of their kind, and their field and their dimension are
those of the definition: for products, the common field and the sum of the dimensions; for duals, those of the space.  What is missing: the kind of a product is the one assigned by the library, see below. -/
theorem C83_kind_partial (hK : Lawful K) {s : Space} {k : Kind} {r : R} {d : Nat} (h : Is assigned K Γ s k r d) :
    ∃ N, ∀ f ≥ N, conceptsOf K (members K Γ f) s = some k.concepts ∧ ringOf K (members K Γ f) s = some r ∧ dimensionOf K (members K Γ f) s = some d := by
  obtain ⟨N, hN⟩ := SF_of_Is hK h
  refine ⟨N, fun f hf => ?_⟩
  obtain ⟨m, v, hm⟩ := hN f hf
  exact ⟨conceptsOf_of_SF hm, ringOf_of_SF hm, dimensionOf_of_SF hm⟩

/-- **C83** No space is assigned more structure than it has: mathematically, it has the same field and dimension, and at least as much structure. -/
theorem C83_sound {s : Space} {k : Kind} {r : R} {d : Nat} (h : Is assigned K Γ s k r d) : ∃ k₀, Is weakest K Γ s k₀ r d ∧ k₀.rank ≤ k.rank := sound h

/-- **C83** When a product is assigned the structure which it has: if all factors are of the same kind, or if there are both a vector space and a convex space which is not affine. -/
theorem C83_rule (ks : List Kind) : assigned ks = weakest ks ↔ (∀ a ∈ ks, ∀ b ∈ ks, a = b) ∨ .vector ∈ ks ∧ .convex ∈ ks := by
  unfold assigned weakest
  have hx : ∀ a : Kind, a = .vector ∨ a = .affine ∨ a = .convex := fun a => by cases a <;> simp
  by_cases h1 : ∀ k ∈ ks, k = .vector
  · have a1 : Kind.convex ∉ ks := fun h => by have := h1 _ h; simp at this
    have a2 : Kind.affine ∉ ks := fun h => by have := h1 _ h; simp at this
    rw [if_pos h1, if_neg a1, if_neg a2]
    exact iff_of_true rfl (.inl fun a ha b hb => (h1 a ha).trans (h1 b hb).symm)
  rw [if_neg h1]
  have hne : ∃ a, a ∈ ks ∧ a ≠ .vector := Classical.byContradiction fun h => h1 fun k hk => Classical.byContradiction fun h' => h ⟨k, hk, h'⟩
  obtain ⟨a, ha, hav⟩ := hne
  by_cases h2 : ∀ k ∈ ks, k = .affine
  · have a1 : Kind.convex ∉ ks := fun h => by have := h2 _ h; simp at this
    have a2 : Kind.affine ∈ ks := h2 a ha ▸ ha
    rw [if_pos h2, if_neg a1, if_pos a2]
    exact iff_of_true rfl (.inl fun a ha b hb => (h2 a ha).trans (h2 b hb).symm)
  rw [if_neg h2]
  by_cases h3 : ∀ k ∈ ks, k = .convex
  · have a1 : Kind.convex ∈ ks := h3 a ha ▸ ha
    rw [if_pos h3, if_pos a1]
    exact iff_of_true rfl (.inl fun a ha b hb => (h3 a ha).trans (h3 b hb).symm)
  rw [if_neg h3]
  have hns : ¬ ∀ a ∈ ks, ∀ b ∈ ks, a = b := by
    intro h
    rcases hx a with h' | h' | h'
    · exact hav h'
    · exact h2 fun k hk => (h k hk a ha).trans h'
    · exact h3 fun k hk => (h k hk a ha).trans h'
  by_cases h4 : Kind.vector ∈ ks
  · rw [if_pos h4]
    by_cases h5 : Kind.convex ∈ ks
    · rw [if_pos h5]; exact iff_of_true rfl (.inr ⟨h4, h5⟩)
    · rw [if_neg h5]
      refine iff_of_false ?_ (fun h => h.elim hns fun h => h5 h.2)
      split <;> simp
  · rw [if_neg h4]
    exact iff_of_false (by simp) (fun h => h.elim hns fun h => h4 h.1)

/-- **C83** The direct product of spaces satisfies none of the concepts if there are no vector spaces among them, but both affine spaces and convex spaces which are not affine. -/
theorem C83_no_space (hK : Lawful K) {l : List (Space × Kind × R × Nat)} (h : ∀ x ∈ l, Is assigned K Γ x.1 x.2.1 x.2.2.1 x.2.2.2) {r : R} (hr : K.common (l.map (·.2.2.1)) = some r)
    (hv : ∀ x ∈ l, x.2.1 ≠ .vector) (ha : ∃ x ∈ l, x.2.1 = .affine) (hc : ∃ x ∈ l, x.2.1 = .convex) :
    ∃ N, ∀ f ≥ N, conceptsOf K (members K Γ f) (.prod (l.map (·.1))) = some ⟨false, false, false, false⟩ := by
  obtain ⟨N, hN⟩ := bound_all (P := fun x f => ∃ m v, SF K (members K Γ f) x.1 x.2.1 x.2.2.1 x.2.2.2 m v) fun x hx => SF_of_Is hK (h x hx)
  refine ⟨N + 1, fun f hf => ?_⟩
  obtain ⟨f, rfl⟩ : ∃ g, f = g + 1 := ⟨f - 1, by omega⟩
  obtain ⟨es, rfl, he⟩ := entries (hN f (by omega))
  simp only [List.map_map, Function.comp_def] at hr ⊢
  obtain ⟨x, hx, hxa⟩ := ha
  obtain ⟨y, hy, hyc⟩ := hc
  obtain ⟨ex, hex, rfl⟩ := List.mem_map.1 hx
  obtain ⟨ey, hey, rfl⟩ := List.mem_map.1 hy
  have hn : assigned (es.map (·.k)) = none := by
    unfold assigned
    have m1 : Kind.affine ∈ es.map (·.k) := List.mem_map.2 ⟨ex, hex, hxa⟩
    have m2 : Kind.convex ∈ es.map (·.k) := List.mem_map.2 ⟨ey, hey, hyc⟩
    rw [if_neg fun h => by have := h _ m1; simp at this, if_neg fun h => by have := h _ m2; simp at this, if_neg fun h => by have := h _ m1; simp at this, if_neg]
    intro hm
    obtain ⟨e, he', hk⟩ := List.mem_map.1 hm
    exact hv _ (List.mem_map_of_mem he') hk
  have hp := prodMembers_eq he (by rintro rfl; simp at hex) hr
  rw [hn] at hp
  have hm : members K Γ (f + 1) (.prod (es.map (·.s))) = some {} := hp
  simp [conceptsOf, hm, isAffine, isVector, isFree, isConvex]

/-- **C83** What is generated as the dual of a space is a space of the same kind, over the same field and of the same dimension. -/
theorem C83_dual (hK : Lawful K) {s : Space} {k : Kind} {r : R} {d : Nat} (h : Is assigned K Γ s k r d) :
    ∃ t N, Is assigned K Γ t k r d ∧ ∀ f ≥ N, dualOf K (members K Γ f) s = some t ∧ conceptsOf K (members K Γ f) t = some k.concepts ∧ ringOf K (members K Γ f) t = some r ∧
      dimensionOf K (members K Γ f) t = some d := by
  have key : ∃ t N, Is assigned K Γ t k r d ∧ ∀ f ≥ N, dualOf K (members K Γ f) s = some t := by
    cases h with
    | vector hd => exact ⟨_, 0, .dual (.vector hd), fun _ _ => rfl⟩
    | over hd hv => exact ⟨_, 0, .dual (.over hd hv), fun _ _ => rfl⟩
    | prod l hne hl hk hr => exact ⟨_, 0, .dual (.prod l hne hl hk hr), fun _ _ => rfl⟩
    | dual h =>
      obtain ⟨N, hN⟩ := dualOf_dual hK h
      exact ⟨_, N, h, hN⟩
  obtain ⟨t, N, h1, h2⟩ := key
  obtain ⟨M, hM⟩ := C83_kind_partial hK h1
  exact ⟨t, N + M, h1, fun f hf => ⟨h2 f (by omega), hM f (by omega)⟩⟩

/-- **C83** The dual of the dual is the space itself, provided it is not the dual of a dual, which `dual_of` never generates. -/
theorem C83_involutive (hK : Lawful K) {s : Space} {k : Kind} {r : R} {d : Nat} (h : Is assigned K Γ s k r d) (hs : ∀ t, s ≠ .dual (.dual t)) :
    ∃ t N, ∀ f ≥ N, dualOf K (members K Γ f) s = some t ∧ dualOf K (members K Γ f) t = some s := by
  cases h with
  | vector hd =>
    obtain ⟨N, hN⟩ := dualOf_dual hK (Is.vector (rule := assigned) (K := K) (Γ := Γ) hd)
    exact ⟨_, N, fun f hf => ⟨rfl, hN f hf⟩⟩
  | over hd hv =>
    obtain ⟨N, hN⟩ := dualOf_dual hK (Is.over (rule := assigned) (K := K) (Γ := Γ) hd hv)
    exact ⟨_, N, fun f hf => ⟨rfl, hN f hf⟩⟩
  | prod l hne hl hk hr =>
    obtain ⟨N, hN⟩ := dualOf_dual hK (Is.prod (rule := assigned) (K := K) (Γ := Γ) l hne hl hk hr)
    exact ⟨_, N, fun f hf => ⟨rfl, hN f hf⟩⟩
  | @dual s _ _ _ h =>
    obtain ⟨N, hN⟩ := dualOf_dual hK h
    refine ⟨s, N, fun f hf => ⟨hN f hf, ?_⟩⟩
    cases s with
    | dual t => exact absurd rfl (hs t)
    | decl n => rfl
    | prod ts => rfl

/-- **C83** A space is a half-line exactly if it is declared to be one, or is the dual of one; it has a distinguished origin exactly if it is a vector space, is declared to have one or to be a half-line, or is the dual of
such a space. -/
theorem C83_origin (hK : Lawful K) {s : Space} {k : Kind} {r : R} {d : Nat} (h : Is assigned K Γ s k r d) (hc : Consistent Γ s k d) :
    ∃ N, ∀ f ≥ N, (∃ b, isHalfLine K Γ f s = some b ∧ (b = true ↔ HalfLine Γ s)) ∧ ∃ b, hasOrigin K Γ f s = some b ∧ (b = true ↔ Pointed Γ s k) := origin_of_Is hK h hc

/-- **C83** Half-lines of a dimension other than one are refused, and so are half-lines which declare to have no origin. -/
theorem C83_half_line {n d f : Nat} (hd : dimensionOf K (members K Γ (f + 1)) (.decl n) = some d) (hl : (Γ n).halfLine = some true) :
    (d ≠ 1 → isHalfLine K Γ (f + 1) (.decl n) = none) ∧ ((Γ n).origin = some false → hasOrigin K Γ (f + 1) (.decl n) = none) := by
  have hm : members K Γ (f + 1) (.decl n) = some (Γ n) := rfl
  have h1 : isHalfLine K Γ (f + 1) (.decl n) = if d = 1 then some true else none := by
    show (members K Γ (f + 1) (.decl n)).bind _ = _
    rw [hm, Option.bind_some]
    simp only [hl, hd, Option.bind_some]
  refine ⟨fun h => by rw [h1, if_neg h], fun ho => ?_⟩
  show (members K Γ (f + 1) (.decl n)).bind _ = _
  rw [hm, Option.bind_some]
  cases ha : isAffine K (members K Γ (f + 1)) (Γ n) with
  | none => rfl
  | some a =>
    rw [Option.bind_some, h1]
    by_cases hd1 : d = 1
    · rw [if_pos hd1, Option.bind_some, ho]
      cases isFree K (Γ n) <;> cases a <;> rfl
    · rw [if_neg hd1]; rfl

/-- **C83** Whatever classes declare, the concepts are ordered: vector spaces are free modules and affine spaces, both of which are convex spaces.  Each class which is a free module is its own free module, and has a
dimension and a ring, which is a field for vector spaces. -/
theorem C83_concepts (hK : Lawful K) {mem : Space → Option (Members R)} {s : Space} {c : Concepts} (h : conceptsOf K mem s = some c) :
    (c.vector = true → c.free = true ∧ c.affine = true) ∧ (c.free = true → c.convex = true) ∧ (c.affine = true → c.convex = true) ∧
    (c.free = true → freeModuleOf K mem s = some s ∧ (∃ d, dimensionOf K mem s = some d) ∧ ∃ r, ringOf K mem s = some r ∧ K.weakRing r = true ∧ (c.vector = true ↔ K.weakField r = true)) := by
  unfold conceptsOf at h
  simp only [Option.bind_eq_some_iff, Option.map_eq_some_iff] at h
  obtain ⟨m, hm, a, ha, c', hc, rfl⟩ := h
  refine ⟨fun hv => ⟨isFree_of_isVector hv, ?_⟩, fun hf => ?_, fun hx => ?_, fun hf => ?_⟩
  · rw [isAffine_of_isVector hv] at ha; exact (Option.some.inj ha).symm
  · rw [isConvex_of_isFree hf] at hc; exact (Option.some.inj hc).symm
  · dsimp only at hx ⊢
    subst hx
    by_cases hv : isVector K m = true
    · rw [isConvex_of_isFree (isFree_of_isVector hv)] at hc; exact (Option.some.inj hc).symm
    · unfold isAffine at ha
      rw [if_neg hv, hc] at ha
      simp at ha
      exact ha.1
  · dsimp only at hf ⊢
    have hfree := hf
    unfold isFree at hf
    simp only [Bool.and_eq_true] at hf
    obtain ⟨⟨⟨h1, h2⟩, h3⟩, h4⟩ := hf
    have hfm : freeModuleOf K mem s = some s := by
      unfold freeModuleOf
      rw [hm, Option.bind_some, isConvex_of_isFree hfree, Option.bind_some, h4]
      rfl
    obtain ⟨d, hd⟩ := Option.isSome_iff_exists.1 h2
    refine ⟨hfm, ⟨d, by simp [dimensionOf, hfm, hm, hd]⟩, ?_⟩
    have hr : ringOf K mem s = if isVector K m && hasField K m then m.field else m.ring := by simp [ringOf, hfm, hm]
    rw [hr]
    by_cases hF : hasField K m = true
    · have hv : isVector K m = true := by simp [isVector, hfree, definesField, hF]
      rw [hv, hF]
      unfold hasField at hF
      cases hf : m.field with
      | none => rw [hf] at hF; simp at hF
      | some r =>
        rw [hf] at hF
        have hF : K.weakField r = true := hF
        exact ⟨r, rfl, hK.field_ring r hF, by simp [hF]⟩
    · rw [Bool.not_eq_true] at hF
      unfold definesRing at h3
      rw [hF, Bool.or_false] at h3
      rw [hF, Bool.and_false]
      cases hr : m.ring with
      | none => rw [hr] at h3; simp at h3
      | some r =>
        rw [hr] at h3
        refine ⟨r, rfl, h3, ?_⟩
        simp [isVector, hfree, definesField, hF, hr]

example : conceptsOf ⟨fun _ => true, fun r => r, fun _ => none⟩ (fun _ => some { hasSet := true, dimension := some 3, ring := some false, free := true }) (.decl 0) = some ⟨true, false, false, true⟩ := by decide

/-- **C83 (violated)** The direct product of free modules over rings which are not fields is ill-formed, although there is a specialization for it, because two specializations match. -/
theorem C83_modules_violated {l : List (Nat × R × Nat)} (hne : l ≠ []) (h : ∀ x ∈ l, DeclaresModule K (Γ x.1) x.2.1 x.2.2) {r : R} (hr : K.common (l.map (·.2.1)) = some r) :
    (∀ x ∈ l, ∀ f ≥ 1, ∃ m, members K Γ f (.decl x.1) = some m ∧ isFree K m = true) ∧ ∀ f, members K Γ f (.prod (l.map fun x => .decl x.1)) = none := by
  refine ⟨fun x hx f hf => ?_, modules_ambiguous hne h hr⟩
  obtain ⟨f, rfl⟩ : ∃ g, f = g + 1 := ⟨f - 1, by omega⟩
  exact ⟨_, rfl, (module_facts (mem := members K Γ (f + 1)) (s := .decl x.1) rfl (h x hx)).1⟩

/-- **C83 (violated)** The dual of a free module over a ring which is not a field satisfies none of the concepts, although the free module is a convex space. -/
theorem C83_dual_module_violated {n : Nat} {r : R} {d : Nat} (h : DeclaresModule K (Γ n) r d) {f : Nat} (hf : 3 ≤ f) :
    conceptsOf K (members K Γ f) (.decl n) = some ⟨true, false, false, true⟩ ∧ conceptsOf K (members K Γ f) (.dual (.decl n)) = some ⟨false, false, false, false⟩ := by
  refine ⟨?_, dual_module h hf⟩
  obtain ⟨f, rfl⟩ : ∃ g, f = g + 1 := ⟨f - 1, by omega⟩
  have hd : members K Γ (f + 1) (.decl n) = some (Γ n) := rfl
  obtain ⟨h1, h2, h3, h4, -, -⟩ := module_facts hd h
  simp [conceptsOf, hd, h1, h2, h3, h4]

/-! ### Examples -/

/-- Types used as rings. -/
inductive RingExample where
  | int
  | float
  | double
  deriving DecidableEq

/-- Common types are those of C++. -/
def ringsExample : Rings RingExample where
  weakRing := fun _ => true
  weakField := fun r => decide (r ≠ .int)
  common := fun rs => if rs = [] then none else some (if .double ∈ rs then .double else if .float ∈ rs then .float else .int)

theorem ringsExample_lawful : Lawful ringsExample := by
  refine ⟨fun _ _ => rfl, fun rs r h hf => ?_⟩
  cases rs with
  | nil => simp [ringsExample] at h
  | cons a rs =>
    have ha := hf a (by simp)
    simp only [ringsExample, decide_eq_true_eq] at ha
    simp only [ringsExample, reduceCtorEq, if_false, Option.some.injEq] at h
    subst h
    simp only [ringsExample, decide_eq_true_eq]
    cases a with
    | int => exact absurd rfl ha
    | double => simp
    | float => split <;> simp

/-- A plane and a line as vector spaces, an affine plane, a half-line, a lattice. -/
def spacesExample : Nat → Members RingExample
  | 0 => { hasSet := true, field := some .float, vector := true, dimension := some 2 }
  | 1 => { hasSet := true, ring := some .double, free := true, dimension := some 1 }
  | 2 => { hasSet := true, vectorSpace := some (.decl 0), affine := true }
  | 3 => { hasSet := true, freeModule := some (.decl 1), convex := true, origin := some true, halfLine := some true }
  | 4 => { hasSet := true, ring := some .int, free := true, dimension := some 2 }
  | _ => {}

theorem example_plane (rule) : Is rule ringsExample spacesExample (.decl 0) .vector .float 2 := .vector ⟨rfl, rfl, .inr rfl, rfl, .inl rfl⟩
theorem example_line (rule) : Is rule ringsExample spacesExample (.decl 1) .vector .double 1 := .vector ⟨rfl, rfl, .inl rfl, rfl, .inr ⟨rfl, rfl⟩⟩
theorem example_affine (rule) : Is rule ringsExample spacesExample (.decl 2) .affine .float 2 := .over ⟨rfl, rfl, rfl, .inr ⟨rfl, rfl⟩, .inl ⟨rfl, rfl⟩⟩ (example_plane rule)
theorem example_half (rule) : Is rule ringsExample spacesExample (.decl 3) .convex .double 1 := .over ⟨rfl, rfl, rfl, .inl ⟨rfl, rfl⟩, .inr ⟨rfl, rfl, rfl⟩⟩ (example_line rule)

/-- The dual of the product of an affine plane with a product of affine planes has dimension six. -/
example : Is assigned ringsExample spacesExample (.dual (.prod [.decl 2, .prod [.decl 2, .dual (.decl 2)]])) .affine .float 6 := by
  have h1 : Is assigned ringsExample spacesExample (.prod [.decl 2, .dual (.decl 2)]) .affine .float 4 :=
    .prod [(.decl 2, .affine, .float, 2), (.dual (.decl 2), .affine, .float, 2)] (by simp) (by simp; exact ⟨example_affine _, .dual (example_affine _)⟩) (by decide) (by decide)
  exact .dual (.prod [(.decl 2, .affine, .float, 2), (.prod [.decl 2, .dual (.decl 2)], .affine, .float, 4)] (by simp) (by simp; exact ⟨example_affine _, h1⟩) (by decide) (by decide))

example : Consistent spacesExample (.dual (.decl 3)) .convex 1 := by
  rintro n h
  cases h
  exact ⟨fun h => absurd rfl h, fun _ => ⟨rfl, by simp [spacesExample]⟩⟩

example : hasOrigin ringsExample spacesExample 5 (.dual (.decl 3)) = some true ∧ isHalfLine ringsExample spacesExample 5 (.dual (.decl 3)) = some true ∧
    hasOrigin ringsExample spacesExample 5 (.decl 2) = some false ∧ hasOrigin ringsExample spacesExample 5 (.prod [.decl 0, .decl 1]) = some true := by decide +kernel

/-- A half-plane which is declared to be a half-line, a half-line without origin. -/
example : dimensionOf ringsExample (members ringsExample (fun _ => { spacesExample 3 with vectorSpace := none, freeModule := some (.prod [.decl 0]), free := true, dimension := some 2, ring := some .float }) 3) (.decl 0) =
    some 2 := by decide +kernel

example : DeclaresModule ringsExample (spacesExample 4) .int 2 := ⟨rfl, rfl, rfl, rfl, rfl, ⟨rfl, rfl⟩, rfl⟩

/-- **C83 (violated)** The product of an affine plane and a half-line is a convex space, but satisfies none of the concepts. -/
theorem C83_affine_convex_violated : Is weakest ringsExample spacesExample (.prod [.decl 2, .decl 3]) .convex .double 3 ∧
    ∃ N, ∀ f ≥ N, conceptsOf ringsExample (members ringsExample spacesExample f) (.prod [.decl 2, .decl 3]) = some ⟨false, false, false, false⟩ :=
  ⟨.prod [(.decl 2, .affine, .float, 2), (.decl 3, .convex, .double, 1)] (by simp) (by simp; exact ⟨example_affine _, example_half _⟩) (by decide) (by decide),
   C83_no_space (l := [(.decl 2, .affine, .float, 2), (.decl 3, .convex, .double, 1)]) ringsExample_lawful (by simp; exact ⟨example_affine _, example_half _⟩) (r := .double) (by decide) (by simp) (by simp) (by simp)⟩

/-- **C83 (violated)** The product of a line, as a vector space, and an affine plane is an affine space, but satisfies only the concept of convex spaces. -/
theorem C83_vector_affine_violated : Is weakest ringsExample spacesExample (.prod [.decl 1, .decl 2]) .affine .double 3 ∧
    ∃ N, ∀ f ≥ N, conceptsOf ringsExample (members ringsExample spacesExample f) (.prod [.decl 1, .decl 2]) = some ⟨false, false, false, true⟩ := by
  have h : ∀ {rule k}, rule [.vector, .affine] = some k → Is rule ringsExample spacesExample (.prod [.decl 1, .decl 2]) k .double 3 := fun {rule k} h =>
    .prod [(.decl 1, .vector, .double, 1), (.decl 2, .affine, .float, 2)] (by simp) (by simp; exact ⟨example_line _, example_affine _⟩) h (by decide)
  refine ⟨h (by decide), ?_⟩
  obtain ⟨N, hN⟩ := C83_kind_partial ringsExample_lawful (h (rule := assigned) (k := .convex) (by decide))
  exact ⟨N, fun f hf => (hN f hf).1⟩

/-- **C83 (violated)** If the dual of a dual is written explicitly then it is not recovered as the dual of its dual. -/
theorem C83_involutive_violated : ∃ N, ∀ f ≥ N, dualOf ringsExample (members ringsExample spacesExample f) (.dual (.dual (.decl 0))) = some (.dual (.decl 0)) ∧
    dualOf ringsExample (members ringsExample spacesExample f) (.dual (.decl 0)) = some (.decl 0) := by
  obtain ⟨N, hN⟩ := dualOf_dual ringsExample_lawful (example_plane assigned)
  obtain ⟨M, hM⟩ := dualOf_dual ringsExample_lawful (.dual (example_plane assigned))
  exact ⟨N + M, fun f hf => ⟨hM f (by omega), hN f (by omega)⟩⟩

/-- **C83 (violated)** A product of half-lines, each with a distinguished origin, has no distinguished origin. -/
theorem C83_origin_violated : ∃ N, ∀ f ≥ N, hasOrigin ringsExample spacesExample f (.decl 3) = some true ∧ hasOrigin ringsExample spacesExample f (.prod [.decl 3, .decl 3]) = some false := by
  have hp : Is assigned ringsExample spacesExample (.prod [.decl 3, .decl 3]) .convex .double 2 :=
    .prod [(.decl 3, .convex, .double, 1), (.decl 3, .convex, .double, 1)] (by simp) (by simp; exact example_half _) (by decide) (by decide)
  have hc : Consistent spacesExample (.decl 3) .convex 1 := by
    rintro n h
    cases h
    exact ⟨fun h => absurd rfl h, fun _ => ⟨rfl, by simp [spacesExample]⟩⟩
  obtain ⟨N, hN⟩ := C83_origin ringsExample_lawful (example_half assigned) hc
  obtain ⟨M, hM⟩ := C83_origin ringsExample_lawful hp (by rintro n h; cases h)
  refine ⟨N + M, fun f hf => ?_⟩
  obtain ⟨-, b, h1, h2⟩ := hN f (by omega)
  obtain ⟨-, b', h3, h4⟩ := hM f (by omega)
  rw [h1, h3, Option.some.injEq, Option.some.injEq, h2]
  refine ⟨.inr ⟨3, rfl, .inl rfl⟩, ?_⟩
  cases b' with
  | false => rfl
  | true =>
    rcases h4.1 rfl with h | ⟨n, h, -⟩
    · simp at h
    · cases h

end Verif.Props
