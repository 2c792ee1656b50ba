import Verif.Model.Euclidean
import Verif.Spec.Euclidean
import Verif.Lemmas.Euclidean
import Mathlib.Tactic.NormNum
/- C125: Euclidean spaces. -/
namespace Verif.Props

open Verif.Euclidean Verif.Spaces

/-- Without rounding, `inner_product` and `dot` are the sum of the products of the components; they are symmetric, and linear with respect to the operators of coordinates. -/
theorem C125_inner (D : Nat) (v w : Fin D → ℝ) :
    inner id v w = ∑ i, v i * w i ∧ dot id v w = inner id v w ∧ inner id v w = inner id w v ∧
      (∀ x s, Coordinates.plus (space D) v x = .ok s → inner id s w = inner id v w + inner id x w) ∧
      (∀ x s, Coordinates.minus (space D) v x = .ok s → inner id s w = inner id v w - inner id x w) ∧
      (∀ u s, Coordinates.times (space D) v u = .ok s → inner id s w = u * inner id v w) ∧
      0 ≤ inner id v v ∧ (inner id v v = 0 ↔ v = Coordinates.initial) := by
  refine ⟨inner_eq v w, rfl, inner_comm_rnd id v w, ?_, ?_, ?_, ?_, ?_⟩
  · intro x s h
    cases h
    rw [inner_eq, inner_eq, inner_eq, ← Finset.sum_add_distrib]
    exact Finset.sum_congr rfl fun i _ => by ring
  · intro x s h
    cases h
    rw [inner_eq, inner_eq, inner_eq, ← Finset.sum_sub_distrib]
    exact Finset.sum_congr rfl fun i _ => by ring
  · intro u s h
    cases h
    rw [inner_eq, inner_eq, Finset.mul_sum]
    exact Finset.sum_congr rfl fun i _ => by ring
  · rw [inner_eq]; exact inner_self_nonneg v
  · rw [inner_eq, Finset.sum_eq_zero_iff_of_nonneg fun _ _ => mul_self_nonneg _]
    constructor
    · intro h; funext i; exact mul_self_eq_zero.1 (h i (Finset.mem_univ i))
    · rintro rfl i _; simp [Coordinates.initial]

/-- The operators of the coordinates of a Euclidean vector space do not throw. -/
example : ∃ s, Coordinates.plus (space 2) ![1, 2] ![3, 4] = .ok s ∧ inner id s ![1, 0] = 4 := by
  refine ⟨_, rfl, ?_⟩
  rw [inner_eq]
  simp [Fin.sum_univ_two]
  norm_num

/-- Without rounding, `norm` is a norm which belongs to the inner product, whatever the dimension is: in one dimension, where it is computed otherwise, as well. -/
theorem C125_norm (D : Nat) (v w : Fin D → ℝ) :
    0 ≤ norm id v ∧ norm id v * norm id v = inner id v v ∧ (norm id v = 0 ↔ v = Coordinates.initial) ∧
      (∀ u s, Coordinates.times (space D) v u = .ok s → norm id s = |u| * norm id v) ∧
      (∀ s, Coordinates.plus (space D) v w = .ok s → norm id s ≤ norm id v + norm id w) ∧
      |inner id v w| ≤ norm id v * norm id w := by
  have hn := inner_self_nonneg v
  refine ⟨?_, ?_, ?_, ?_, ?_, ?_⟩
  · rw [norm_eq]; exact Real.sqrt_nonneg _
  · rw [norm_eq, inner_eq]; exact Real.mul_self_sqrt hn
  · rw [norm_eq, Real.sqrt_eq_zero hn, ← inner_eq]; exact (C125_inner D v v).2.2.2.2.2.2.2
  · intro u s h
    cases h
    rw [norm_eq, norm_eq, ← Real.sqrt_mul_self_eq_abs, ← Real.sqrt_mul (mul_self_nonneg u), Finset.mul_sum]
    congr 1
    exact Finset.sum_congr rfl fun i _ => by ring
  · intro s h
    cases h
    rw [norm_eq, norm_eq, norm_eq]
    exact triangle v w
  · rw [inner_eq, norm_eq, norm_eq]; exact cauchy v w

example : norm id ![(3 : ℝ), 4] = 5 ∧ norm id ![(-3 : ℝ)] = 3 := by
  constructor
  · rw [norm_eq]
    simp [Fin.sum_univ_two]
    rw [show (3 * 3 + 4 * 4 : ℝ) = 5 * 5 by norm_num]
    exact Real.sqrt_mul_self (by norm_num)
  · rw [norm_eq]
    simp

/-- With rounding, the inner product is still symmetric; if rounding does not turn nonnegative numbers into negative ones, the square and the norm of a vector are not negative; and a vector and its negative have the same
norm. -/
theorem C125_rounded (rnd : ℝ → ℝ) (D : Nat) (v w : Fin D → ℝ) :
    inner rnd v w = inner rnd w v ∧ ((∀ x, 0 ≤ x → 0 ≤ rnd x) → 0 ≤ inner rnd v v ∧ 0 ≤ norm rnd v) ∧
      (∀ s, Coordinates.negative (space D) v = .ok s → norm rnd s = norm rnd v) := by
  refine ⟨inner_comm_rnd rnd v w, ?_, ?_⟩
  · intro h
    constructor
    · unfold inner
      refine foldl_nonneg rnd h _ ?_ 0 le_rfl
      rw [zip_ofFn]
      intro z hz
      obtain ⟨i, rfl⟩ := (List.mem_ofFn' _ _).1 hz
      rfl
    · unfold norm
      split
      · exact abs_nonneg _
      · exact h _ (Real.sqrt_nonneg _)
  · intro s h
    cases h
    unfold norm
    split
    · exact abs_neg _
    · rw [inner_neg_rnd]

example : ∀ x : ℝ, 0 ≤ x → 0 ≤ (⌊x⌋ : ℝ) := fun _ h => by exact_mod_cast Int.floor_nonneg.2 h

/-- With rounding, vectors other than zero may have norm zero, except in one dimension: whenever numbers up to `e²` are rounded to zero, any vector whose components are at most `e` has norm zero.  For numbers of type `double`
one may take `e` to be the 538th power of a half, which is far from the least positive number. -/
theorem C125_underflow_violated (rnd : ℝ → ℝ) (e : ℝ) (he : 0 ≤ e) (hr : ∀ x, |x| ≤ e * e → rnd x = 0) (D : Nat) (hD : D ≠ 1) (v : Fin D → ℝ) (hv : ∀ i, |v i| ≤ e) : norm rnd v = 0 := by
  have h0 : rnd 0 = 0 := hr 0 (by rw [abs_zero]; exact mul_nonneg he he)
  have hi : inner rnd v v = 0 := by
    unfold inner
    refine foldl_zero rnd _ h0 ?_
    rw [zip_ofFn]
    intro z hz
    obtain ⟨i, rfl⟩ := (List.mem_ofFn' _ _).1 hz
    refine hr _ ?_
    rw [abs_mul]
    exact mul_le_mul (hv i) (hv i) (abs_nonneg _) he
  unfold norm
  rw [dif_neg hD, hi, Real.sqrt_zero, h0]

/-- Such a vector, which is not zero; in one dimension its norm is not zero. -/
example : ∃ rnd : ℝ → ℝ, (∀ x, |x| ≤ 1 / 4 → rnd x = 0) ∧ norm rnd ![(1 / 2 : ℝ), 0] = 0 ∧ ![(1 / 2 : ℝ), 0] ≠ 0 ∧ norm rnd ![(1 / 2 : ℝ)] = 1 / 2 := by
  classical
  have hr : ∀ x : ℝ, |x| ≤ 1 / 4 → (fun x : ℝ => if |x| ≤ 1 / 4 then (0 : ℝ) else x) x = 0 := fun x h => if_pos h
  refine ⟨_, hr, ?_, ?_, ?_⟩
  · refine C125_underflow_violated _ (1 / 2) (by norm_num) (fun x h => hr x (h.trans (by norm_num))) 2 (by decide) _ ?_
    intro i
    match i with
    | 0 => exact (abs_of_pos (by norm_num : (0 : ℝ) < 1 / 2)).le
    | 1 => exact (abs_zero (α := ℝ)).le.trans (by norm_num)
  · intro h
    have := congrFun h 0
    norm_num at this
  · exact abs_of_pos (by norm_num)

section classes
variable {R : Type} (K : Rings R) (mem : Space → Option (Members R))

/-- Euclidean vector spaces are vector spaces, Euclidean affine spaces are affine and not free modules, and Euclidean half spaces are convex and not affine; the free module of each of them is the vector space. -/
theorem C125_spaces (T : R) (D : Nat) (hT : K.weakField T = true) (V A H : Space) (hV : mem V = some (vectorMembers T D)) (hA : mem A = some (affineMembers V)) (hH : mem H = some (halfMembers V)) :
    isVector K (vectorMembers T D) = true ∧ freeModuleOf K mem V = some V ∧ dimensionOf K mem V = some D ∧ ringOf K mem V = some T ∧
      isAffine K mem (affineMembers V) = some true ∧ isFree K (affineMembers (R := R) V) = false ∧ freeModuleOf K mem A = some V ∧ dimensionOf K mem A = some D ∧
      isConvex K mem (halfMembers V) = some true ∧ isAffine K mem (halfMembers V) = some false ∧ freeModuleOf K mem H = some V ∧ dimensionOf K mem H = some D := by
  simp [isVector, isFree, definesRing, definesField, hasField, vectorMembers, affineMembers, halfMembers, freeModuleOf, isConvex, isAffine, dimensionOf, ringOf, denotes, hV, hA, hH, hT]

/-- For the coordinates of a Euclidean vector space there is an inner product, and a norm, exactly if the basis is one for the space, and says that it is orthonormal. -/
theorem C125_callable (T : R) (D : Nat) (hT : K.weakField T = true) (V : Space) (hV : mem V = some (vectorMembers T D)) (b : Basis) :
    callable K mem euclideanAccepts V b ↔ b.isBasis = true ∧ b.orthonormal = some true ∧ (b.freeModule = some V ∨ b.vectorSpace = some V) := by
  have hv : isVector K (vectorMembers T D) = true := by simp [isVector, isFree, definesRing, definesField, hasField, vectorMembers, hT]
  have hf : isFree K (vectorMembers T D) = true := by simp [isFree, definesRing, hasField, vectorMembers, hT]
  have hm : freeModuleOf K mem V = some V := by
    simp only [freeModuleOf, hV, isConvex, hf, Option.bind_some, if_true]
    simp [vectorMembers]
  constructor
  · rintro ⟨⟨_, M, hM, ⟨⟨h1, _⟩, h2⟩⟩, h3⟩
    rw [hm] at hM
    cases hM
    exact ⟨h1, h3, h2⟩
  · rintro ⟨h1, h2, h3⟩
    refine ⟨⟨⟨_, hV, hv⟩, V, hm, ⟨⟨h1, ?_⟩, h3⟩⟩, h2⟩
    rcases h3 with h3 | h3
    · left; simp [denotes, h3, hV, hf]
    · right; simp [denotes, h3, hV, hv]

/-- The concepts `normed_vector_space` and `inner_product_space` are never satisfied: not even by a space all of whose bases are accepted by the functions; for what they ask for coordinates with respect to is not a basis. -/
theorem C125_concepts_violated (accepts : Space → Basis → Prop) (V : Space) : ¬ satisfies K mem accepts V := by
  rintro ⟨_, ⟨_, _, _, ⟨h, _⟩, _⟩, _⟩
  cases h

/-- The canonical basis, which `vec_coords` uses, is a basis for the Euclidean space, but there is neither an inner product nor a norm for it. -/
theorem C125_canonical_violated (T : R) (D : Nat) (hT : K.weakField T = true) (V : Space) (hV : mem V = some (vectorMembers T D)) :
    formed K mem V (canonical V) ∧ ¬ callable K mem euclideanAccepts V (canonical V) := by
  constructor
  · exact ((C125_callable K mem T D hT V hV { canonical V with orthonormal := some true }).2 ⟨rfl, rfl, .inl rfl⟩).1
  · rw [C125_callable K mem T D hT V hV]
    rintro ⟨_, h, _⟩
    cases h

end classes

/-- A Euclidean space of dimension 2, with an orthonormal basis. -/
example : ∃ (K : Rings Unit) (Γ : Nat → Members Unit), K.weakField () = true ∧ members K Γ 1 (.decl 0) = some (vectorMembers () 2) ∧
    callable K (members K Γ 1) euclideanAccepts (.decl 0) { isBasis := true, freeModule := some (.decl 0), orthonormal := some true } := by
  refine ⟨⟨fun _ => true, fun _ => true, fun _ => some ()⟩, fun _ => vectorMembers () 2, rfl, rfl, ?_⟩
  exact (C125_callable _ _ () 2 rfl _ rfl _).2 ⟨rfl, rfl, .inl rfl⟩

/-- Vector spaces and half spaces have a distinguished origin, affine spaces have none; the half space is a half line, and the others are not. -/
theorem C125_origins {R : Type} (K : Rings R) (Γ : Nat → Members R) (f : Nat) (T : R) (D : Nat) (hT : K.weakField T = true) (v a w h : Nat) (hv : Γ v = vectorMembers T D) (ha : Γ a = affineMembers (.decl v))
    (hw : Γ w = vectorMembers T 1) (hh : Γ h = halfMembers (.decl w)) :
    hasOrigin K Γ (f + 1) (.decl v) = some true ∧ hasOrigin K Γ (f + 1) (.decl a) = some false ∧ hasOrigin K Γ (f + 1) (.decl h) = some true ∧
      isHalfLine K Γ (f + 1) (.decl v) = some false ∧ isHalfLine K Γ (f + 1) (.decl a) = some false ∧ isHalfLine K Γ (f + 1) (.decl h) = some true := by
  simp [hasOrigin, isHalfLine, members, hv, ha, hw, hh, isAffine, isConvex, isVector, isFree, definesRing, definesField, hasField, denotes, vectorMembers, affineMembers, halfMembers, dimensionOf, freeModuleOf, hT]

/-- There are such spaces. -/
example : ∃ (K : Rings Unit) (Γ : Nat → Members Unit), K.weakField () = true ∧ Γ 0 = vectorMembers () 2 ∧ Γ 1 = affineMembers (.decl 0) ∧ Γ 2 = vectorMembers () 1 ∧ Γ 3 = halfMembers (.decl 2) :=
  ⟨⟨fun _ => true, fun _ => true, fun _ => some ()⟩, fun n => [vectorMembers () 2, affineMembers (.decl 0), vectorMembers () 1, halfMembers (.decl 2)].getD n {}, rfl, rfl, rfl, rfl, rfl⟩

/-- The dual of the canonical basis of a vector space is the canonical basis of the dual space, and its dual is the canonical basis of the vector space. -/
theorem C125_dual_basis {R : Type} (K : Rings R) (Γ : Nat → Members R) (f n : Nat) (hv : isVector K (Γ n) = true) :
    dualBasis K (members K Γ (f + 2)) (.decl n) = some (.dual (.decl n)) ∧ dualBasis K (members K Γ (f + 2)) (.dual (.decl n)) = some (.decl n) := by
  have hm : members K Γ (f + 1) (.decl n) = some (Γ n) := rfl
  have hf : isFree K (Γ n) = true := (Bool.and_eq_true _ _ ▸ hv : _ ∧ _).1
  have hdf : definesField K (Γ n) = true := (Bool.and_eq_true _ _ ▸ hv : _ ∧ _).2
  have hf' := hf
  unfold isFree at hf'
  simp only [Bool.and_eq_true] at hf'
  have hfd := hf'.1.1.2
  have hr : ∃ r, ringOf K (members K Γ (f + 1)) (.decl n) = some r ∧ K.weakField r = true := by
    have hfm : freeModuleOf K (members K Γ (f + 1)) (.decl n) = some (.decl n) := by
      simp only [freeModuleOf, hm, isConvex, hf, Option.bind_some, if_true, hf'.2]
      rfl
    simp only [ringOf, hfm, hm, Option.bind_some, hv, Bool.true_and]
    cases hh : hasField K (Γ n) with
    | true => exact (Option.any_eq_true_iff_get .. |>.1 hh) |> fun ⟨h, h'⟩ => ⟨_, (Option.some_get h).symm, h'⟩
    | false =>
      unfold definesField at hdf
      rw [hh, Bool.false_or] at hdf
      exact (Option.any_eq_true_iff_get .. |>.1 hdf) |> fun ⟨h, h'⟩ => ⟨_, (Option.some_get h).symm, h'⟩
  obtain ⟨r, hr, hrf⟩ := hr
  have h1 : freeClass K (members K Γ (f + 2)) (.decl n) = true := by simp [freeClass, members, hf]
  have h2 : freeClass K (members K Γ (f + 2)) (.dual (.decl n)) = true := by
    simp only [freeClass]
    rw [show members K Γ (f + 2) (.dual (.decl n)) = dualMembers K (members K Γ (f + 1)) (.decl n) from rfl]
    simp only [dualMembers, hm, isConvex, isAffine, hf, hv, hr, Option.bind_some, if_true, Bool.not_true, Bool.and_false, Option.map_some]
    simp [isFree, definesRing, hasField, hrf, hfd]
  constructor
  · simp [dualBasis, h1, dualOf, h2]
  · simp [dualBasis, h1]

/-- The arena of a space made of duals and direct products is that of the classes which occur in it, if they have one in common; and if `std::common_type` does not go beyond that, there is none otherwise. -/
theorem C125_arenas {A : Type} (arenas : Nat → Option A) (common : List A → Option A) (convex : Space → Bool) (s : Space) (a : A) :
    ((∀ n, common (List.replicate (n + 1) a) = some a) → Proper convex s → (∀ n, OccursIn n s → arenas n = some a) → arenaOf arenas common convex s = some a) ∧
      ((∀ l b, common l = some b → l ≠ [] ∧ ∀ x ∈ l, x = b) → arenaOf arenas common convex s = some a → ∀ n, OccursIn n s → arenas n = some a) :=
  ⟨fun h hp => arenaOf_all arenas common convex a h hp, fun h ha _ hn => arenaOf_only arenas common convex h hn a ha⟩

/-- Two spaces in the same arena, and two in different arenas. -/
example : let common : List Nat → Option Nat := fun l => match l with | [] => none | x :: l => if l.all (· == x) then some x else none
    arenaOf (fun _ => some 7) common (fun _ => true) (.prod [.decl 0, .dual (.decl 1)]) = some 7 ∧ arenaOf some common (fun _ => true) (.prod [.decl 0, .dual (.decl 1)]) = none := by
  refine ⟨?_, ?_⟩ <;> simp [arenaOf, arenasOf]

end Verif.Props
