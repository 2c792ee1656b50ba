/-
Lemmas about the factory.
-/
import Verif.Model.Suite
import Mathlib.Order.Basic
import Mathlib.Data.List.Pairwise

namespace Verif.Suites

variable {K : Type} [LinearOrder K]

theorem makeElements_spec (empty : K) : ∀ (ns : List K) (i : Nat),
    makeElements empty ns i = if empty ∈ ns then .throws else .ok (ns.zipIdx i)
  | [], i => by simp [makeElements]
  | n :: ns, i => by
    rw [makeElements, makeElements_spec empty ns]
    by_cases h : n = empty
    · simp [h]
    · by_cases h' : empty ∈ ns
      · simp [h, h', Res.bind]
      · simp [h, Ne.symm h, h', Res.bind, List.zipIdx_cons]

theorem adjacentEqual_sorted : ∀ {l : List (K × Nat)}, l.Pairwise (fun a b => a.1 ≤ b.1) → (adjacentEqual l = false ↔ (l.map Prod.fst).Nodup)
  | [], _ => by simp [adjacentEqual]
  | [a], _ => by simp [adjacentEqual]
  | a :: b :: l, h => by
    have ih := adjacentEqual_sorted (l := b :: l) h.of_cons
    simp only [adjacentEqual, Bool.or_eq_false_iff, decide_eq_false_iff_not, ih]
    constructor
    · rintro ⟨h1, h2⟩
      rw [List.map_cons, List.nodup_cons]
      refine ⟨?_, h2⟩
      intro hm
      obtain ⟨c, hc, hca⟩ := List.mem_map.mp hm
      have hab := List.rel_of_pairwise_cons h (List.mem_cons_self (a := b) (l := l))
      rcases List.mem_cons.mp hc with rfl | hc
      · exact h1 hca.symm
      · have hbc := List.rel_of_pairwise_cons h.of_cons hc
        exact h1 (le_antisymm hab (hca ▸ hbc))
    · intro h2
      rw [List.map_cons, List.nodup_cons] at h2
      exact ⟨fun he => h2.1 (by simp [he]), h2.2⟩

/-- Binary search: what is before the result is less than the name, what comes at or after it is not. -/
theorem lowerBound_spec {l : List (K × Nat)} (hs : l.Pairwise (fun a b => a.1 ≤ b.1)) (name : K) : ∀ (fuel first len : Nat),
    len ≤ fuel → first + len ≤ l.length → (∀ (i : Nat) (e : K × Nat), l[i]? = some e → i < first → e.1 < name) →
    (∀ (i : Nat) (e : K × Nat), l[i]? = some e → first + len ≤ i → ¬ e.1 < name) →
    (∀ (i : Nat) (e : K × Nat), l[i]? = some e → i < lowerBound l name fuel first len → e.1 < name) ∧
      (∀ (i : Nat) (e : K × Nat), l[i]? = some e → lowerBound l name fuel first len ≤ i → ¬ e.1 < name)
  | 0, first, len, hf, hl, h1, h2 => by
    rw [lowerBound]
    exact ⟨h1, fun i e he hi => h2 i e he (by omega)⟩
  | fuel + 1, first, len, hf, hl, h1, h2 => by
    rw [lowerBound]
    split
    · exact ⟨h1, fun i e he hi => h2 i e he (by omega)⟩
    · rename_i hne
      have hhalf : len / 2 < len := by omega
      simp only
      rw [List.getElem?_eq_getElem (show first + len / 2 < l.length by omega)]
      simp only
      have mono : ∀ (i j : Nat) (e e' : K × Nat), l[i]? = some e → l[j]? = some e' → i ≤ j → e.1 ≤ e'.1 := by
        intro i j e e' he he' hij
        rcases Nat.lt_or_eq_of_le hij with h | h
        · obtain ⟨hi, rfl⟩ := List.getElem?_eq_some_iff.mp he
          obtain ⟨hj, rfl⟩ := List.getElem?_eq_some_iff.mp he'
          exact List.pairwise_iff_getElem.mp hs i j hi hj h
        · subst h
          rw [he] at he'
          cases he'
          exact le_refl _
      have hmid : l[first + len / 2]? = some l[first + len / 2] := List.getElem?_eq_getElem (by omega)
      split
      · rename_i hlt
        refine lowerBound_spec hs name fuel _ _ (by omega) (by omega) ?_ ?_
        · intro i e he hi
          exact lt_of_le_of_lt (mono i _ e _ he hmid (by omega)) hlt
        · intro i e he hi
          exact h2 i e he (by omega)
      · rename_i hlt
        refine lowerBound_spec hs name fuel _ _ (by omega) (by omega) h1 ?_
        intro i e he hi hcon
        exact hlt (lt_of_le_of_lt (mono _ i _ e hmid he (by omega)) hcon)

theorem findName_spec {l : List (K × Nat)} (hs : l.Pairwise (fun a b => a.1 ≤ b.1)) (hn : (l.map Prod.fst).Nodup) (name : K) (e : K × Nat) :
    findName l name = some e ↔ e ∈ l ∧ e.1 = name := by
  obtain ⟨h1, h2⟩ := lowerBound_spec hs name l.length 0 l.length (by omega) (by omega) (by intro i e _ h; omega) (by
    intro i e he h
    obtain ⟨hi, _⟩ := List.getElem?_eq_some_iff.mp he
    omega)
  unfold findName
  generalize lowerBound l name l.length 0 l.length = b at h1 h2
  constructor
  · intro h
    split at h
    · rename_i x hx
      split at h
      · rename_i hxn
        cases h
        exact ⟨List.mem_of_getElem? hx, hxn⟩
      · cases h
    · cases h
  · rintro ⟨hm, rfl⟩
    obtain ⟨i, hi⟩ := List.mem_iff_getElem?.mp hm
    have hbi : b ≤ i := by
      by_contra hlt
      exact lt_irrefl _ (h1 i e hi (by omega))
    have hib : i = b := by
      rcases Nat.lt_or_eq_of_le hbi with h | h
      · exfalso
        obtain ⟨hil, hie⟩ := List.getElem?_eq_some_iff.mp hi
        have hb : l[b]? = some l[b] := List.getElem?_eq_getElem (by omega)
        have hle : l[b].1 ≤ e.1 := by
          have := List.pairwise_iff_getElem.mp hs b i (by omega) hil h
          rwa [hie] at this
        have hge := h2 b _ hb (by omega)
        have heq : l[b].1 = e.1 := le_antisymm hle (not_lt.mp hge)
        have hnd := List.pairwise_iff_getElem.mp hn b i (by simp; omega) (by simpa using hil) h
        simp only [List.getElem_map] at hnd
        rw [hie] at hnd
        exact hnd heq
      · exact h.symm
    rw [← hib, hi]
    simp

end Verif.Suites
