import Verif.Spec.DeepEquality
import Mathlib.Tactic.Common
/-
C124: deep equality.
-/
namespace Verif.Props
open Verif.DeepEquality Verif.Spec.DeepEquality

namespace DeepEqualityLemmas

theorem deepFirst_iff (n : Nat) (es : List Ty) : deepFirst n es = true ↔ n ≤ es.length ∧ ∀ e ∈ es.take n, deep e = true := by
  induction n generalizing es with
  | zero => simp [deepFirst]
  | succ n ih =>
    cases es with
    | nil => simp [deepFirst]
    | cons e es =>
      simp only [deepFirst, Bool.and_eq_true, ih, List.length_cons, List.take_succ_cons, List.forall_mem_cons, Nat.add_le_add_iff_right]
      exact and_left_comm

theorem deep_iff (t : Ty) : deep t = true ↔ Declared t ∧ Whole t ∧ ∀ u ∈ visible t, deep u = true := by
  cases t with
  | array t => simp [deep, Declared]
  | plain d us => simp [deep, Declared, Whole, visible]
  | homogeneous d us v => simp [deep, Declared, Whole, visible]
  | heterogeneous d us n es => simp [deep, Declared, Whole, visible, deepFirst_iff]

end DeepEqualityLemmas
open DeepEqualityLemmas

/-- **C124** If nothing is compared but the value type, or the elements, then a type which is said to be comparable can be compared: the body of its `operator==` compiles, and so on at
every depth. -/
theorem C124_sound {t : Ty} (ho : Open t) (h : deep t = true) : Comparable t := by
  induction ho with
  | mk h1 _ ih =>
    obtain ⟨hd, _, hv⟩ := (deep_iff _).1 h
    exact ⟨hd, fun u hu => ih u (h1 u hu) (hv u (h1 u hu))⟩

/-- **C124** If the value type, or the elements, are compared, then a type which can be compared is said to be comparable. -/
theorem C124_complete {t : Ty} (ht : Thorough t) (h : Comparable t) : deep t = true := by
  induction ht with
  | mk hw h1 _ ih =>
    obtain ⟨hd, hc⟩ := h
    exact (deep_iff _).2 ⟨hd, hw, fun u hu => ih u hu (hc u (h1 u hu))⟩

theorem standard_open {t : Ty} (h : Standard t) : Open t := by
  induction h with
  | leaf d => exact ⟨fun u hu => hu, fun u hu => nomatch hu⟩
  | array t => exact ⟨fun u hu => hu, fun u hu => nomatch hu⟩
  | container _ ih => exact ⟨fun u hu => hu, fun u hu => by rw [List.mem_singleton.1 hu]; exact ih⟩
  | @product ts _ _ ih =>
    have hv : visible (product ts) = ts := List.take_length
    exact ⟨fun u hu => by rw [hv]; exact hu, fun u hu => ih u (by rwa [hv] at hu)⟩

theorem standard_thorough {t : Ty} (h : Standard t) : Thorough t := by
  induction h with
  | leaf d => exact ⟨trivial, fun u hu => hu, fun u hu => nomatch hu⟩
  | array t => exact ⟨trivial, fun u hu => hu, fun u hu => nomatch hu⟩
  | container _ ih => exact ⟨trivial, fun u hu => hu, fun u hu => by rw [List.mem_singleton.1 hu]; exact ih⟩
  | @product ts _ _ ih =>
    have hv : visible (product ts) = ts := List.take_length
    exact ⟨Nat.le_refl _, fun u hu => by rw [hv] at hu; exact hu, fun u hu => ih u (by rwa [hv] at hu)⟩

/-- **C124** Types made of standard containers are said to be comparable just if they are, whatever `std::equality_comparable` says of them. -/
theorem C124_exact {t : Ty} (h : Standard t) : deep t = true ↔ Comparable t := ⟨C124_sound (standard_open h), C124_complete (standard_thorough h)⟩

/-- **C124** This is the case just if, at any depth, there is neither an array nor a class without `operator==`. -/
theorem C124_parts {t : Ty} (h : Standard t) : deep t = true ↔ (∀ u, ¬ Part (.array u) t) ∧ ¬ Part (.plain false []) t := by
  induction h with
  | leaf d =>
    constructor
    · intro hd
      refine ⟨fun u hu => ?_, fun hu => ?_⟩
      · cases hu
      · cases hu; cases hd
    · rintro ⟨_, hd⟩
      cases d with
      | true => rfl
      | false => exact absurd (.refl _) hd
  | array t => exact ⟨fun h => by simp [deep] at h, fun h => absurd (Part.refl _) (h.1 t)⟩
  | @container t _ ih =>
    have e : deep (container t) = deep t := by simp [container, deep]
    rw [e, ih]
    refine and_congr (forall_congr' fun u => not_congr ?_) (not_congr ?_)
    · exact ⟨.container, fun h => by cases h with | container h => exact h⟩
    · exact ⟨.container, fun h => by cases h with | container h => exact h⟩
  | @product ts _ _ ih =>
    have e : deep (product ts) = true ↔ ∀ t ∈ ts, deep t = true := by simp [product, deep, deepFirst_iff]
    rw [e]
    constructor
    · intro hd
      refine ⟨fun u hu => ?_, fun hu => ?_⟩
      · cases hu with | product ht hu => exact ((ih _ ht).1 (hd _ ht)).1 u hu
      · cases hu with | product ht hu => exact ((ih _ ht).1 (hd _ ht)).2 hu
    · rintro ⟨h1, h2⟩ t ht
      exact (ih t ht).2 ⟨fun u hu => h1 u (.product ht hu), fun hu => h2 (.product ht hu)⟩

/-- A class with `operator==`, and one without. -/
def int : Ty := .plain true []
def bar : Ty := .plain false []

theorem bar_not : ¬ Comparable bar := fun ⟨h, _⟩ => nomatch h

example : Standard (product [container int, container (product [int, bar])]) :=
  .product (by simp) (by
    rintro t (_ | ⟨_, _ | ⟨_, h⟩⟩)
    · exact .container (.leaf _)
    · exact .container (.product (by simp) (by rintro t (_ | ⟨_, _ | ⟨_, h⟩⟩) <;> first | exact .leaf _ | cases h))
    · cases h)
example : deep (product [container int, container (product [int, int])]) = true ∧ deep (product [container int, container (product [int, bar])]) = false ∧
    deep (map int int) = true ∧ deep (map int bar) = false := by decide

/-- **C124** `std::vector<bar>` is `std::equality_comparable`, though it cannot be compared; which is why there is the trait. -/
example : Declared (container bar) ∧ ¬ Comparable (container bar) ∧ deep (container bar) = false :=
  ⟨rfl, fun ⟨_, h⟩ => bar_not (h bar (List.mem_singleton_self _)), rfl⟩

/-- **C124** Violated: what is compared besides the value type is not looked at, so `std::expected<int, bar>` is said to be comparable though it is not; the same for a class derived from
`std::pair<int, bar>`. -/
theorem C124_hidden_violated : (deep (expected int bar) = true ∧ ¬ Comparable (expected int bar)) ∧
    deep (aggregate [product [int, bar]]) = true ∧ ¬ Comparable (aggregate [product [int, bar]]) :=
  ⟨⟨rfl, fun ⟨_, h⟩ => bar_not (h bar (by simp [expected, compared]))⟩, rfl, fun ⟨_, h⟩ => by
    obtain ⟨_, h'⟩ := h (product [int, bar]) (by simp [aggregate, compared])
    exact bar_not (h' bar (by simp [product, compared]))⟩

/-- **C124** Violated: iterators can be compared whatever they point to, but those of `std::vector<bar>` are said not to be comparable. -/
theorem C124_iterator_violated : Comparable (iterator bar) ∧ deep (iterator bar) = false :=
  ⟨⟨rfl, fun _ hu => nomatch hu⟩, rfl⟩

end Verif.Props
