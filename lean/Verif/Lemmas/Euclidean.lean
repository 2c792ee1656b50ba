import Mathlib.Algebra.BigOperators.Fin
import Mathlib.Algebra.Order.BigOperators.Ring.Finset
import Mathlib.Tactic.Linarith
import Verif.Model.Euclidean
import Verif.Spec.Euclidean
/- Lemmas about inner products and norms. -/
namespace Verif.Euclidean

open Verif.Spaces

theorem foldl_add (l : List (ℝ × ℝ)) : ∀ a : ℝ, l.foldl (fun f z => f + z.1 * z.2) a = a + (l.map fun z => z.1 * z.2).sum := by
  induction l with
  | nil => intro a; simp
  | cons z l ih => intro a; rw [List.foldl_cons, ih, List.map_cons, List.sum_cons, add_assoc]

theorem zip_ofFn {D : Nat} (v w : Fin D → ℝ) : (List.ofFn v).zip (List.ofFn w) = List.ofFn fun i => (v i, w i) := by
  apply List.ext_getElem
  · simp
  · intro i h₁ h₂; simp

theorem inner_eq {D : Nat} (v w : Fin D → ℝ) : inner id v w = ∑ i, v i * w i := by
  unfold inner
  simp only [id]
  rw [foldl_add, zip_ofFn, zero_add, List.map_ofFn, List.sum_ofFn]
  rfl

theorem inner_comm_rnd {D : Nat} (rnd : ℝ → ℝ) (v w : Fin D → ℝ) : inner rnd v w = inner rnd w v := by
  unfold inner
  rw [zip_ofFn, zip_ofFn]
  have h : (List.ofFn fun i => (w i, v i)) = (List.ofFn fun i => (v i, w i)).map Prod.swap := by rw [List.map_ofFn]; rfl
  rw [h, List.foldl_map]
  congr 1
  funext f z
  simp [Prod.swap, mul_comm]

theorem inner_neg_rnd {D : Nat} (rnd : ℝ → ℝ) (v w : Fin D → ℝ) : inner rnd (fun i => -v i) (fun i => -w i) = inner rnd v w := by
  unfold inner
  rw [zip_ofFn, zip_ofFn]
  have h : (List.ofFn fun i => (-v i, -w i)) = (List.ofFn fun i => (v i, w i)).map (fun z => (-z.1, -z.2)) := by rw [List.map_ofFn]; rfl
  rw [h, List.foldl_map]
  congr 1
  funext f z
  simp

theorem foldl_nonneg (rnd : ℝ → ℝ) (h : ∀ x, 0 ≤ x → 0 ≤ rnd x) (l : List (ℝ × ℝ)) (hl : ∀ z ∈ l, z.1 = z.2) :
    ∀ a : ℝ, 0 ≤ a → 0 ≤ l.foldl (fun f z => rnd (f + rnd (z.1 * z.2))) a := by
  induction l with
  | nil => intro a ha; exact ha
  | cons z l ih =>
    intro a ha
    rw [List.foldl_cons]
    refine ih (fun z' hz' => hl z' (List.mem_cons_of_mem _ hz')) _ (h _ (add_nonneg ha (h _ ?_)))
    rw [hl z (List.mem_cons_self ..)]
    exact mul_self_nonneg _

theorem foldl_zero (rnd : ℝ → ℝ) (l : List (ℝ × ℝ)) (h0 : rnd 0 = 0) (hl : ∀ z ∈ l, rnd (z.1 * z.2) = 0) :
    l.foldl (fun f z => rnd (f + rnd (z.1 * z.2))) 0 = 0 := by
  induction l with
  | nil => rfl
  | cons z l ih =>
    rw [List.foldl_cons, hl z (List.mem_cons_self ..), add_zero, h0]
    exact ih fun z' hz' => hl z' (List.mem_cons_of_mem _ hz')

theorem inner_self_nonneg {D : Nat} (v : Fin D → ℝ) : 0 ≤ ∑ i, v i * v i := Finset.sum_nonneg fun _ _ => mul_self_nonneg _

theorem norm_eq {D : Nat} (v : Fin D → ℝ) : norm id v = Real.sqrt (∑ i, v i * v i) := by
  unfold norm
  split
  · rename_i h
    subst h
    rw [Fin.sum_univ_one, Real.sqrt_mul_self_eq_abs]
    rfl
  · rw [inner_eq]; rfl

theorem cauchy {D : Nat} (v w : Fin D → ℝ) : |∑ i, v i * w i| ≤ Real.sqrt (∑ i, v i * v i) * Real.sqrt (∑ i, w i * w i) := by
  rw [← Real.sqrt_mul (inner_self_nonneg v)]
  apply Real.abs_le_sqrt
  have := Finset.sum_mul_sq_le_sq_mul_sq Finset.univ v w
  simpa [pow_two] using this

theorem triangle {D : Nat} (v w : Fin D → ℝ) :
    Real.sqrt (∑ i, (v i + w i) * (v i + w i)) ≤ Real.sqrt (∑ i, v i * v i) + Real.sqrt (∑ i, w i * w i) := by
  apply Real.sqrt_le_iff.2
  refine ⟨add_nonneg (Real.sqrt_nonneg _) (Real.sqrt_nonneg _), ?_⟩
  have h1 : ∑ i, (v i + w i) * (v i + w i) = ∑ i, v i * v i + 2 * ∑ i, v i * w i + ∑ i, w i * w i := by
    rw [Finset.mul_sum, ← Finset.sum_add_distrib, ← Finset.sum_add_distrib]
    exact Finset.sum_congr rfl fun i _ => by ring
  have h2 := le_trans (le_abs_self _) (cauchy v w)
  have h3 := Real.sq_sqrt (inner_self_nonneg v)
  have h4 := Real.sq_sqrt (inner_self_nonneg w)
  rw [h1]
  nlinarith


section arenas
variable {A : Type} (arenas : Nat → Option A) (common : List A → Option A) (convex : Space → Bool)

theorem arenasOf_const (a : A) (ts : List Space) (hc : ∀ t ∈ ts, convex t = true) (h : ∀ t ∈ ts, arenaOf arenas common convex t = some a) :
    arenasOf arenas common convex ts = some (List.replicate ts.length a) := by
  induction ts with
  | nil => unfold arenasOf; rfl
  | cons t ts ih =>
    unfold arenasOf
    rw [hc t (List.mem_cons_self ..), if_pos rfl, h t (List.mem_cons_self ..),
      ih (fun t' h' => hc t' (List.mem_cons_of_mem _ h')) (fun t' h' => h t' (List.mem_cons_of_mem _ h'))]
    rfl

theorem arenasOf_mem (ts : List Space) : ∀ (as : List A), arenasOf arenas common convex ts = some as →
    ∀ t ∈ ts, convex t = true ∧ ∃ b ∈ as, arenaOf arenas common convex t = some b := by
  induction ts with
  | nil => intro as _ t ht; simp at ht
  | cons t ts ih =>
    intro as h
    unfold arenasOf at h
    split at h
    · rename_i hc
      rw [Option.bind_eq_some_iff] at h
      obtain ⟨b, hb, h⟩ := h
      rw [Option.map_eq_some_iff] at h
      obtain ⟨bs, hbs, rfl⟩ := h
      intro t' ht'
      rcases List.mem_cons.1 ht' with rfl | ht'
      · exact ⟨hc, b, List.mem_cons_self .., hb⟩
      · obtain ⟨h1, c, hc', h2⟩ := ih bs hbs t' ht'
        exact ⟨h1, c, List.mem_cons_of_mem _ hc', h2⟩
    · cases h

theorem arenaOf_all (a : A) (hcommon : ∀ n, common (List.replicate (n + 1) a) = some a) {s : Space} (hp : Proper convex s) :
    (∀ n, OccursIn n s → arenas n = some a) → arenaOf arenas common convex s = some a := by
  induction hp with
  | decl n => intro h; unfold arenaOf; exact h n .decl
  | dual hc _ ih => intro h; unfold arenaOf; rw [hc, if_pos rfl]; exact ih fun n hn => h n (.dual hn)
  | @prod ts hne hc _ ih =>
    intro h
    unfold arenaOf
    rw [arenasOf_const arenas common convex a ts hc fun t ht => ih t ht fun n hn => h n (.prod ht hn)]
    cases ts with
    | nil => exact absurd rfl hne
    | cons t ts => exact hcommon ts.length

theorem arenaOf_only (hcommon : ∀ l b, common l = some b → l ≠ [] ∧ ∀ x ∈ l, x = b) {n : Nat} {s : Space} (ho : OccursIn n s) :
    ∀ a, arenaOf arenas common convex s = some a → arenas n = some a := by
  induction ho with
  | decl => intro a h; unfold arenaOf at h; exact h
  | dual _ ih =>
    intro a h
    unfold arenaOf at h
    split at h
    · exact ih a h
    · cases h
  | @prod t ts ht _ ih =>
    intro a h
    unfold arenaOf at h
    rw [Option.bind_eq_some_iff] at h
    obtain ⟨as, has, h⟩ := h
    obtain ⟨_, b, hb, hb'⟩ := arenasOf_mem arenas common convex ts as has t ht
    rw [← (hcommon as a h).2 b hb]
    exact ih b hb'

end arenas

end Verif.Euclidean
