import Verif.Model.StringReports
import Verif.Spec.StringReports
import Verif.Props.Messages
/-
C107: the report on strings which differ.
-/
set_option linter.unusedSimpArgs false
set_option linter.unusedVariables false
namespace Verif.Props
open Verif.StringReports Verif.Spec.StringReports Verif.Messages
open Verif.Text (Str)

namespace StringReports

theorem lastBreak_some {s : Str} : ∀ {p l : Nat}, lastBreak s p = some l → l ≤ p ∧ s[l]? = some '\n' ∧ ∀ j, l < j → j ≤ p → s[j]? ≠ some '\n'
  | 0, l, h => by
    unfold lastBreak at h
    split at h
    · cases h
      exact ⟨Nat.le_refl _, by assumption, fun j h1 h2 => by omega⟩
    · cases h
  | p + 1, l, h => by
    unfold lastBreak at h
    split at h
    · cases h
      exact ⟨Nat.le_refl _, by assumption, fun j h1 h2 => by omega⟩
    · rename_i hn
      obtain ⟨h1, h2, h3⟩ := lastBreak_some h
      refine ⟨by omega, h2, fun j a b => ?_⟩
      by_cases hj : j = p + 1
      · rw [hj]; exact hn
      · exact h3 j a (by omega)

theorem lastBreak_none {s : Str} : ∀ {p : Nat}, lastBreak s p = none → ∀ j, j ≤ p → s[j]? ≠ some '\n'
  | 0, h, j, hj => by
    unfold lastBreak at h
    split at h
    · cases h
    · have : j = 0 := by omega
      rw [this]; assumption
  | p + 1, h, j, hj => by
    unfold lastBreak at h
    split at h
    · cases h
    · by_cases e : j = p + 1
      · rw [e]; assumption
      · exact lastBreak_none h j (by omega)

theorem nextBreak_some {s : Str} {a r : Nat} (h : nextBreak s a = some r) : a ≤ r ∧ s[r]? = some '\n' ∧ ∀ j, a ≤ j → j < r → s[j]? ≠ some '\n' := by
  unfold nextBreak at h
  rw [List.find?_range_eq_some] at h
  simp only [Bool.and_eq_true, decide_eq_true_eq, List.mem_range, Bool.not_eq_true', Bool.and_eq_false_iff, decide_eq_false_iff_not] at h
  obtain ⟨⟨h1, h2⟩, _, h3⟩ := h
  exact ⟨h1, h2, fun j a b => by rcases h3 j b with h | h; exact absurd a h; exact h⟩

theorem nextBreak_none {s : Str} {a : Nat} (h : nextBreak s a = none) : ∀ j, a ≤ j → s[j]? ≠ some '\n' := by
  unfold nextBreak at h
  rw [List.find?_eq_none] at h
  intro j hj e
  have hl : j < s.length := (List.getElem?_eq_some_iff.mp e).1
  have := h j (List.mem_range.mpr hl)
  simp [hj, e] at this

/-- The excerpt of a string, in words. -/
theorem excerpt_spec (s : Str) (a : Nat) (ha : a ≤ s.length) :
    (∃ b, a ≤ b ∧ excerpt s a = .ok (dotsBefore a ++ visible (part s a b) ++ dotsAfter b s.length, decide (b < s.length)) ∧
      (nextBreak s (a + 1) = none → a + 60 ≤ b) ∧ (∀ r, nextBreak s (a + 1) = some r → r ≤ b ∧ (s[a]? ≠ some '\n' → b = r) ∧ (s[a]? = some '\n' → b = r + 1))) ∨
    (s[a]? = some '\n' ∧ s[a + 1]? = some '\n' ∧ excerpt s a = .ok (dotsBefore a ++ "\\n\\n...".toList, true)) := by
  have dots : (if a > 0 then "...".toList else []) = dotsBefore a := by
    unfold dotsBefore
    by_cases h : a = 0
    · subst h; rfl
    · rw [if_pos (by omega), if_neg h]; rfl
  have after : ∀ b, (if decide (b < s.length) = true then "...".toList else []) = dotsAfter b s.length := by
    intro b
    unfold dotsAfter
    by_cases h : b < s.length <;> simp [h]
  by_cases hn : s[a]? = some '\n'
  · -- a line break at the beginning
    have hlt : a < s.length := (List.getElem?_eq_some_iff.mp hn).1
    have drop : s.drop a = '\n' :: s.drop (a + 1) := by
      rw [List.drop_eq_getElem_cons hlt]
      congr 1
      exact (List.getElem?_eq_some_iff.mp hn).2
    have general : ∀ count, count ≠ 1 → countOf s a = count →
        excerpt s a = .ok (dotsBefore a ++ visible (part s a (a + 1 + count)) ++ dotsAfter (a + 1 + count) s.length, decide (a + 1 + count < s.length)) := by
      intro count hc he
      unfold excerpt
      dsimp only
      rw [he, hn]
      simp only [decide_true, if_true, hc, decide_false, Bool.and_false, Bool.false_eq_true, if_false, Bool.true_and]
      unfold substr
      rw [if_neg (by omega)]
      simp only [Res.bind]
      rw [after, dots]
      have : visible (part s a (a + 1 + count)) = '\\' :: 'n' :: (s.drop (a + 1)).take count := by
        unfold part
        rw [drop, show a + 1 + count - a = count + 1 by omega]
        rfl
      rw [this]
      simp
    cases hb : nextBreak s (a + 1) with
    | none =>
      refine Or.inl ⟨a + 1 + 60, by omega, general 60 (by omega) (by unfold countOf; rw [hb]), fun _ => by omega, fun r h => by cases h⟩
    | some r =>
      obtain ⟨h1, h2, h3⟩ := nextBreak_some hb
      by_cases hr : r = a + 1
      · refine Or.inr ⟨hn, by rw [← hr]; exact h2, ?_⟩
        have hrl : r < s.length := (List.getElem?_eq_some_iff.mp h2).1
        unfold excerpt
        dsimp only
        rw [show countOf s a = 1 by unfold countOf; rw [hb, hr]; simp, hn]
        simp only [decide_true, if_true, Nat.add_sub_cancel_left, Bool.and_self]
        rw [show decide (a + 1 < s.length) = true by simp; omega, if_pos rfl, dots]
        simp
      · refine Or.inl ⟨a + 1 + (r - a), by omega, general (r - a) (by omega) (by unfold countOf; rw [hb]), (fun h => by cases h), fun r' h => ?_⟩
        cases h
        exact ⟨by omega, fun h => absurd hn h, fun _ => by omega⟩
  · have general : ∀ count, countOf s a = count →
        excerpt s a = .ok (dotsBefore a ++ visible (part s a (a + count)) ++ dotsAfter (a + count) s.length, decide (a + count < s.length)) := by
      intro count he
      unfold excerpt
      dsimp only
      rw [he, show decide (s[a]? = some '\n') = false by simp [hn]]
      simp only [Bool.false_and, Bool.false_eq_true, if_false]
      unfold substr
      rw [if_neg (by omega)]
      simp only [Res.bind]
      rw [after, dots]
      have : visible (part s a (a + count)) = (s.drop a).take count := by
        unfold part
        rw [Nat.add_sub_cancel_left]
        cases count with
        | zero => rfl
        | succ k =>
          cases hd : s.drop a with
          | nil => rfl
          | cons c t =>
            have hc : s[a]? = some c := by
              have := congrArg (·[0]?) hd
              simpa using this
            have : c ≠ '\n' := fun e => hn (by rw [hc, e])
            rw [List.take_succ_cons]
            unfold visible
            split
            · rename_i heq; cases heq; exact absurd rfl this
            · rfl
      rw [this]
    cases hb : nextBreak s (a + 1) with
    | none => exact Or.inl ⟨a + 60, by omega, general 60 (by unfold countOf; rw [hb]), fun _ => by omega, fun r h => by cases h⟩
    | some r =>
      obtain ⟨h1, h2, h3⟩ := nextBreak_some hb
      refine Or.inl ⟨a + (r - a), by omega, general (r - a) (by unfold countOf; rw [hb]), (fun h => by cases h), fun r' h => ?_⟩
      cases h
      exact ⟨by omega, fun _ => by omega, fun h => absurd h hn⟩

theorem same_before {s t : Str} {p : Nat} (h : s.take p = t.take p) {i : Nat} (hi : i < p) : s[i]? = t[i]? := by
  have := congrArg (·[i]?) h
  simpa [List.getElem?_take, hi] using this

theorem offset_le (s t : Str) (p : Nat) : offsetOf s t p ≤ 30 := by
  unfold offsetOf
  split <;> omega

theorem start_eq {s t : Str} {p : Nat} (h : FirstDifference s t p) : startPos s t p = p - offsetOf s t p := by
  obtain ⟨h1, h2, h3, h4⟩ := h
  unfold startPos
  dsimp only
  split
  · omega
  · split
    · rfl
    · rename_i a b
      have : p = min s.length t.length := by omega
      rw [← this]
      omega

/-- Both excerpts begin at the same place, not far before the difference, and on the same line. -/
theorem start_spec {s t : Str} {p : Nat} (h : FirstDifference s t p) :
    startPos s t p ≤ p ∧ p ≤ startPos s t p + 30 ∧ ∀ i, startPos s t p < i → i < p → s[i]? ≠ some '\n' := by
  rw [start_eq h]
  have ho := offset_le s t p
  refine ⟨by omega, by omega, ?_⟩
  obtain ⟨h1, h2, h3, h4⟩ := h
  intro i hi hp hs
  have ht : t[i]? = some '\n' := by rw [← same_before h3 hp]; exact hs
  have back : ∀ (u : Str), u[i]? = some '\n' → ∀ l, breakBackwards u p = some l → i ≤ l ∧ l ≤ p := by
    intro u hu l hl
    unfold breakBackwards at hl
    split at hl
    · obtain ⟨a, b, c⟩ := lastBreak_some hl
      refine ⟨?_, a⟩
      rcases Nat.lt_or_ge l i with x | x
      · exact absurd hu (c i x (by omega))
      · exact x
    · cases hl
  have one : p < s.length ∨ p < t.length := by
    rcases Nat.lt_or_ge p s.length with x | x
    · exact Or.inl x
    · rcases Nat.lt_or_ge p t.length with y | y
      · exact Or.inr y
      · rw [List.getElem?_eq_none x, List.getElem?_eq_none y] at h4
        exact absurd rfl h4
  have some_of : ∀ (u : Str), u[i]? = some '\n' → p < u.length → ∃ l, breakBackwards u p = some l := by
    intro u hu hl
    unfold breakBackwards
    rw [if_pos hl]
    cases e : lastBreak u p with
    | some l => exact ⟨l, rfl⟩
    | none => exact absurd hu (lastBreak_none e i (by omega))
  unfold offsetOf at hi
  cases hs' : breakBackwards s p with
  | none =>
    cases ht' : breakBackwards t p with
    | none =>
      rcases one with x | x
      · obtain ⟨l, hl⟩ := some_of s hs x; rw [hs'] at hl; cases hl
      · obtain ⟨l, hl⟩ := some_of t ht x; rw [ht'] at hl; cases hl
    | some l =>
      have := back t ht l ht'
      rw [hs', ht'] at hi
      simp only [minPos] at hi
      omega
  | some l =>
    have hl := back s hs l hs'
    cases ht' : breakBackwards t p with
    | none =>
      rw [hs', ht'] at hi
      simp only [minPos] at hi
      omega
    | some m =>
      have hm := back t ht m ht'
      rw [hs', ht'] at hi
      simp only [minPos] at hi
      omega

theorem part_split (s : Str) {a p b : Nat} (h1 : a ≤ p) (h2 : p ≤ b) : part s a b = part s a p ++ part s p b := by
  unfold part
  rw [show b - a = (p - a) + (b - p) by omega, List.take_add, List.drop_drop, show a + (p - a) = p by omega]

theorem part_cons {s : Str} {p b : Nat} {c : Char} (hc : s[p]? = some c) (h : p < b) : part s p b = c :: part s (p + 1) b := by
  unfold part
  have hlt : p < s.length := (List.getElem?_eq_some_iff.mp hc).1
  rw [List.drop_eq_getElem_cons hlt, show b - p = (b - (p + 1)) + 1 by omega, List.take_succ_cons]
  congr 1
  exact (List.getElem?_eq_some_iff.mp hc).2

theorem visible_append {x : Str} (hx : x ≠ []) (y : Str) : visible (x ++ y) = visible x ++ y := by
  cases x with
  | nil => exact absurd rfl hx
  | cons c t =>
    rw [List.cons_append]
    unfold visible
    split
    · rename_i heq
      cases heq
      rfl
    · rename_i hne
      split
      · rename_i heq
        cases heq
        exact absurd rfl (hne _)
      · rfl

theorem visible_cons {c : Char} (hc : c ≠ '\n') (y : Str) : visible (c :: y) = c :: y := by
  unfold visible
  split
  · rename_i heq; cases heq; exact absurd rfl hc
  · rfl

theorem part_ne_nil {s : Str} {a p : Nat} (h1 : a < p) (h2 : p ≤ s.length) : part s a p ≠ [] := by
  unfold part
  intro h
  have := congrArg List.length h
  simp at this
  omega

/-- What one of the excerpts shows. -/
theorem shows (s : Str) (a p : Nat) (h1 : a ≤ p) (h2 : p ≤ a + 30) (h3 : p ≤ s.length) (h4 : ∀ i, a < i → i < p → s[i]? ≠ some '\n') :
    ∃ e trunc, excerpt s a = .ok (e, trunc) ∧
      (∀ c, s[p]? = some c → c ≠ '\n' → ∃ rest, e = dotsBefore a ++ visible (part s a p) ++ c :: rest) ∧
      (s[p]? = none → e = dotsBefore a ++ visible (part s a p) ∧ trunc = false) ∧
      (s[p]? = some '\n' → dotsBefore a ++ visible (part s a p) <+: e) ∧
      (trunc = false → e = dotsBefore a ++ visible (s.drop a)) := by
  rcases excerpt_spec s a (by omega) with ⟨b, hab, he, hn, hs⟩ | ⟨hn, hn', he⟩
  · refine ⟨_, _, he, ?_, ?_, ?_, ?_⟩
    · intro c hc hne
      have hpb : p < b := by
        cases e : nextBreak s (a + 1) with
        | none => have := hn e; omega
        | some r =>
          obtain ⟨x, y, z⟩ := nextBreak_some e
          have := (hs r e).1
          rcases Nat.lt_trichotomy r p with k | k | k
          · exact absurd y (h4 r (by omega) k)
          · rw [k, hc] at y; cases y; exact absurd rfl hne
          · omega
      refine ⟨part s (p + 1) b ++ dotsAfter b s.length, ?_⟩
      rw [part_split s h1 (Nat.le_of_lt hpb), part_cons hc hpb]
      rcases Nat.lt_or_ge a p with k | k
      · rw [visible_append (part_ne_nil k h3)]
        simp
      · have : a = p := by omega
        subst this
        have : part s a a = [] := by unfold part; simp
        rw [this, List.nil_append, visible_cons hne]
        simp [visible]
    · intro hc
      have hl : s.length = p := by
        have := List.getElem?_eq_none_iff.mp hc
        omega
      have hnb : nextBreak s (a + 1) = none := by
        cases e : nextBreak s (a + 1) with
        | none => rfl
        | some r =>
          obtain ⟨x, y, z⟩ := nextBreak_some e
          have : r < s.length := (List.getElem?_eq_some_iff.mp y).1
          exact absurd y (h4 r (by omega) (by omega))
      have hb := hn hnb
      have e1 : part s a b = part s a p := by
        unfold part
        rw [List.take_of_length_le (by simp; omega), List.take_of_length_le (by simp; omega)]
      rw [e1]
      refine ⟨?_, by simp; omega⟩
      unfold dotsAfter
      rw [if_neg (by omega)]
      simp
    · intro hc
      rcases Nat.lt_or_ge a p with k | k
      · have hpb : p ≤ b := by
          cases e : nextBreak s (a + 1) with
          | none => have := hn e; omega
          | some r =>
            obtain ⟨x, y, z⟩ := nextBreak_some e
            have := (hs r e).1
            rcases Nat.lt_or_ge r p with k | k
            · exact absurd y (h4 r (by omega) k)
            · omega
        rw [part_split s h1 hpb, visible_append (part_ne_nil k h3)]
        exact ⟨part s p b ++ dotsAfter b s.length, by simp⟩
      · have : a = p := by omega
        subst this
        have : part s a a = [] := by unfold part; simp
        rw [this]
        exact ⟨visible (part s a b) ++ dotsAfter b s.length, by simp [visible]⟩
    · intro ht
      have hb : s.length ≤ b := by simpa using ht
      unfold dotsAfter
      rw [if_neg (by omega)]
      have : part s a b = s.drop a := by
        unfold part
        exact List.take_of_length_le (by simp; omega)
      rw [this]
      simp
  · refine ⟨_, _, he, ?_, ?_, ?_, ?_⟩
    · intro c hc hne
      have : ¬ a < p := by
        intro k
        have k2 : p ≠ a + 1 := by
          intro e; rw [e, hn'] at hc; cases hc; exact hne rfl
        exact h4 (a + 1) (by omega) (by omega) hn'
      have : a = p := by omega
      subst this
      rw [hn] at hc
      cases hc
      exact absurd rfl hne
    · intro hc
      have : s.length ≤ p := List.getElem?_eq_none_iff.mp hc
      have k : a + 1 < s.length := (List.getElem?_eq_some_iff.mp hn').1
      exact absurd hn' (h4 (a + 1) (by omega) (by omega))
    · intro hc
      rcases Nat.lt_or_ge a p with k | k
      · have : p = a + 1 := by
          rcases Nat.lt_or_ge (a + 1) p with x | x
          · exact absurd hn' (h4 (a + 1) (by omega) x)
          · omega
        subst this
        have : part s a (a + 1) = ['\n'] := by
          rw [part_cons hn (by omega)]
          unfold part
          simp
        rw [this]
        exact ⟨"\\n...".toList, by simp [visible]⟩
      · have : a = p := by omega
        subst this
        have : part s a a = [] := by unfold part; simp
        rw [this]
        exact ⟨"\\n\\n...".toList, by simp [visible]⟩
    · intro h; cases h

theorem mismatch_spec : ∀ (s t : Str), s.take (mismatch s t) = t.take (mismatch s t) ∧ mismatch s t ≤ s.length ∧ mismatch s t ≤ t.length ∧
    (s ≠ t → s[mismatch s t]? ≠ t[mismatch s t]?) ∧ (s = t → mismatch s t = s.length)
  | [], [] => ⟨rfl, Nat.le_refl _, Nat.le_refl _, fun h => absurd rfl h, fun _ => rfl⟩
  | [], b :: t => ⟨rfl, Nat.le_refl _, Nat.zero_le _, fun _ => by simp [mismatch], fun h => by cases h⟩
  | a :: s, [] => ⟨rfl, Nat.zero_le _, Nat.le_refl _, fun _ => by simp [mismatch], fun h => by cases h⟩
  | a :: s, b :: t => by
    obtain ⟨h1, h2, h3, h4, h5⟩ := mismatch_spec s t
    unfold mismatch
    by_cases e : a = b
    · subst e
      rw [if_pos rfl]
      refine ⟨by simp [h1], by simp; omega, by simp; omega, fun h => ?_, fun h => ?_⟩
      · simp only [List.getElem?_cons_succ]
        exact h4 (fun x => h (by rw [x]))
      · cases h
        simp [h5 rfl]
    · rw [if_neg e]
      refine ⟨rfl, Nat.zero_le _, Nat.zero_le _, fun _ => by simp [e], fun h => ?_⟩
      cases h
      exact absurd rfl e

theorem difference_unique {s t : Str} {p q : Nat} (hp : FirstDifference s t p) (hq : FirstDifference s t q) : p = q := by
  rcases Nat.lt_trichotomy p q with h | h | h
  · exact absurd (same_before hq.2.2.1 h) hp.2.2.2
  · exact h
  · exact absurd (same_before hp.2.2.1 h) hq.2.2.2

theorem mismatch_eq {s t : Str} {p : Nat} (hp : FirstDifference s t p) : mismatch s t = p := by
  have hne : s ≠ t := fun e => hp.2.2.2 (by rw [e])
  obtain ⟨h1, h2, h3, h4, h5⟩ := mismatch_spec s t
  exact difference_unique ⟨h2, h3, h1, h4 hne⟩ hp

theorem left_ne {x : Str} (h : x ≠ []) (y : Str) : x ++ y ≠ [] := fun e => h (List.append_eq_nil_iff.mp e).1

theorem prediction_eq (x y : Str) : predictionMessage x y = "Obtained : ".toList ++ x ++ ['\n'] ++ ("Predicted: ".toList ++ y) := by
  unfold predictionMessage
  rw [Messages.appendLine_eq (by simp) (by simp)]

theorem failureText_eq {x y : Str} (hx : x ≠ []) (hy : y ≠ []) :
    failureText x y = "operator== returned false".toList ++ ['\n'] ++ x ++ ['\n'] ++ ['\n'] ++ y := by
  unfold failureText appendAdvice
  rw [if_neg hy, Messages.appendLine_eq (by decide) hx, Messages.appendLine_eq (left_ne (left_ne (by decide) _) _) (by decide)]

theorem preliminary_eq {info s t o q : Str} {p : Nat} {trunc : Bool} (hi : info ≠ []) (he : excerpts s t p = .ok (o, q, trunc)) :
    preliminary info s t p = .ok (info ++ ['\n'] ++ (if trunc then "Surrounding substring(s):".toList else "Full strings:".toList) ++ ['\n'] ++ predictionMessage o q) := by
  unfold preliminary
  rw [he]
  have hx : (if trunc = true then "Surrounding substring(s):".toList else "Full strings:".toList) ≠ [] := by cases trunc <;> decide
  have hp : predictionMessage o q ≠ [] := by rw [prediction_eq]; simp
  simp only [Res.bind]
  rw [Messages.appendLine_eq hi hx, Messages.appendLine_eq (left_ne (left_ne hi _) _) hp]

end StringReports
open StringReports

/-- **C107** There is a report if and only if the strings differ, whichever they are; in particular, no position which is used to put it together is out of range. -/
theorem C107_total (s t : Str) (adv : Option Advisor) :
    (s = t → testStrings s t adv = .ok none) ∧ (s ≠ t → ∃ r, testStrings s t adv = .ok (some r)) := by
  obtain ⟨h1, h2, h3, h4, h5⟩ := mismatch_spec s t
  constructor
  · intro e
    have := h5 e
    unfold testStrings
    dsimp only
    rw [this]
    subst e
    simp
  · intro hne
    have hd : FirstDifference s t (mismatch s t) := ⟨h2, h3, h1, h4 hne⟩
    obtain ⟨a1, a2, a3⟩ := start_spec hd
    obtain ⟨eo, tO, ho, _⟩ := shows s _ _ a1 a2 h2 a3
    obtain ⟨ep, tp, hp, _⟩ := shows t _ _ a1 a2 h3 (fun i x y => by rw [← same_before h1 y]; exact a3 i x y)
    have pre : ∀ info, ∃ m, preliminary info s t (mismatch s t) = .ok m := by
      intro info
      unfold preliminary excerpts
      dsimp only
      rw [ho, hp]
      exact ⟨_, rfl⟩
    have len : ∀ c st ad, ∃ r, lengths s t c (mismatch s t) st ad adv = .ok r := by
      intro c st ad
      unfold lengths
      dsimp only
      cases adv with
      | some x => exact ⟨_, rfl⟩
      | none =>
        obtain ⟨m, hm⟩ := pre ("First ".toList ++ st ++ " character: ".toList ++ displayCharacter c.toNat)
        rw [hm]
        exact ⟨_, rfl⟩
    unfold testStrings
    dsimp only
    cases hs : s[mismatch s t]? with
    | none =>
      cases ht : t[mismatch s t]? with
      | none => rw [hs, ht] at h4; exact absurd rfl (h4 hne)
      | some b =>
        obtain ⟨r, hr⟩ := len b "missing".toList "short".toList
        dsimp only
        rw [hr]
        exact ⟨_, rfl⟩
    | some a =>
      cases ht : t[mismatch s t]? with
      | none =>
        obtain ⟨r, hr⟩ := len a "excess".toList "long".toList
        dsimp only
        rw [hr]
        exact ⟨_, rfl⟩
      | some b =>
        obtain ⟨m, hm⟩ := pre []
        dsimp only
        rw [hm]
        exact ⟨_, rfl⟩

example : ∃ r, testStrings "abc".toList "abd".toList none = .ok (some r) := (C107_total _ _ _).2 (by decide)

/-- **C107** If the first difference is between two characters, then the report says on which line it is, or at which character if it is on the first line; both characters; and, after a blank line,
the excerpts and the advice given for the two characters, if any. -/
theorem C107_difference (s t : Str) (p : Nat) (a b : Char) (adv : Option Advisor) (hd : FirstDifference s t p) (ha : s[p]? = some a) (hb : t[p]? = some b) :
    ∃ o q trunc, excerpts s t p = .ok (o, q, trunc) ∧ testStrings s t adv = .ok (some {
      description := "First difference detected ".toList ++
        (if (s.take p).count '\n' = 0 then "at character ".toList ++ Nat.toDigits 10 p else "on line ".toList ++ Nat.toDigits 10 ((s.take p).count '\n' + 1)) ++ ":".toList
      message := "operator== returned false\n".toList ++ characterMessage a.toNat b.toNat ++ "\n\n".toList ++
        (if trunc then "Surrounding substring(s):".toList else "Full strings:".toList) ++ "\nObtained : ".toList ++ o ++ "\nPredicted: ".toList ++ q ++
        (match adv with
          | none => []
          | some x => if x.advice a b = [] then [] else (if x.leader = [] then [] else '\n' :: x.leader) ++ x.advice a b) }) := by
  obtain ⟨a1, a2, a3⟩ := start_spec hd
  obtain ⟨eo, tO, ho, _⟩ := shows s _ _ a1 a2 hd.1 a3
  obtain ⟨ep, tp, hp, _⟩ := shows t _ _ a1 a2 hd.2.1 (fun i x y => by rw [← same_before hd.2.2.1 y]; exact a3 i x y)
  have hex : excerpts s t p = .ok (eo, ep, decide (startPos s t p > 0) || tO || tp) := by
    unfold excerpts
    dsimp only
    rw [ho, hp]
    rfl
  refine ⟨eo, ep, _, hex, ?_⟩
  generalize (decide (startPos s t p > 0) || tO || tp) = trunc at hex
  have hx : (if trunc = true then "Surrounding substring(s):".toList else "Full strings:".toList) ≠ [] := by cases trunc <;> decide
  have hne : ∀ x y, predictionMessage x y ≠ [] := fun x y => by rw [prediction_eq]; exact left_ne (left_ne (left_ne (by decide) _) _) _
  have hpre : preliminary [] s t p = .ok ((if trunc then "Surrounding substring(s):".toList else "Full strings:".toList) ++ "\nObtained : ".toList ++ eo ++ "\nPredicted: ".toList ++ ep) := by
    unfold preliminary
    rw [hex]
    simp only [Res.bind]
    have h0 : ∀ x : Str, x ≠ [] → appendLine [] x = x := by
      intro x hx
      unfold appendLine Text.appendIndented
      rw [if_neg hx, if_pos rfl]
    rw [h0 _ hx, Messages.appendLine_eq hx (hne _ _), prediction_eq,
      show "\nPredicted: ".toList = ['\n'] ++ "Predicted: ".toList from rfl, show "\nObtained : ".toList = ['\n'] ++ "Obtained : ".toList from rfl]
    simp only [List.append_assoc]
  have hpne : (if trunc = true then "Surrounding substring(s):".toList else "Full strings:".toList) ++ "\nObtained : ".toList ++ eo ++ "\nPredicted: ".toList ++ ep ≠ [] :=
    left_ne (left_ne (left_ne (left_ne hx _) _) _) _
  have hm := mismatch_eq hd
  unfold testStrings
  dsimp only
  rw [hm, ha, hb]
  dsimp only
  rw [hpre]
  simp only [Res.bind, Res.ok.injEq, Option.some.injEq, Report.mk.injEq]
  have hcount : (t.take p).count '\n' = (s.take p).count '\n' := by rw [hd.2.2.1]
  constructor
  · rw [hcount]
    unfold difference
    by_cases h0 : (s.take p).count '\n' = 0
    · rw [if_pos h0, if_neg (by omega)]
    · rw [if_neg h0, if_pos (by omega)]
  · have hf : ∀ x : Str, x ≠ [] → failureText (characterMessage a.toNat b.toNat) x = "operator== returned false\n".toList ++ characterMessage a.toNat b.toNat ++ "\n\n".toList ++ x := by
      intro x hx
      rw [failureText_eq (by unfold characterMessage; exact hne _ _) hx,
        show "operator== returned false\n".toList = "operator== returned false".toList ++ ['\n'] from rfl, show "\n\n".toList = ['\n'] ++ ['\n'] from rfl]
      simp only [List.append_assoc]
    cases adv with
    | none =>
      dsimp only
      rw [hf _ hpne]
      simp only [List.append_assoc, List.append_nil]
    | some x =>
      dsimp only
      unfold appendAdvice
      by_cases hadv : x.advice a b = []
      · rw [if_pos hadv, if_pos hadv, hf _ hpne]
        simp only [List.append_assoc, List.append_nil]
      · rw [if_neg hadv, if_neg hadv]
        by_cases hl : x.leader = []
        · rw [hl, if_pos rfl]
          unfold appendLine Text.appendIndented
          rw [if_pos rfl, hf _ (left_ne hpne _)]
          simp only [List.append_assoc, List.nil_append]
        · rw [if_neg hl, Messages.appendLine_eq hpne hl, hf _ (left_ne (left_ne (left_ne hpne _) _) _)]
          simp only [List.append_assoc, List.singleton_append, List.cons_append, List.nil_append]

example : FirstDifference "one\ntwo".toList "one\ntoo".toList 5 := by unfold FirstDifference; decide

/-- **C107** Both excerpts begin at the same place `a`, which is at most thirty characters before the difference at `p`, and such that no line break comes between them. They show what the strings have
in common from there; then the character which is different, unless it is a line break; if a string ends there, then so does its excerpt. -/
theorem C107_excerpts (s t : Str) (p : Nat) (hd : FirstDifference s t p) :
    ∃ a o q trunc, excerpts s t p = .ok (o, q, trunc) ∧ a ≤ p ∧ p ≤ a + 30 ∧ (∀ i, a < i → i < p → s[i]? ≠ some '\n') ∧
      dotsBefore a ++ visible (part s a p) <+: o ∧ dotsBefore a ++ visible (part s a p) <+: q ∧
      (∀ c, s[p]? = some c → c ≠ '\n' → dotsBefore a ++ visible (part s a p) ++ [c] <+: o) ∧
      (∀ c, t[p]? = some c → c ≠ '\n' → dotsBefore a ++ visible (part s a p) ++ [c] <+: q) ∧
      (s[p]? = none → o = dotsBefore a ++ visible (part s a p)) ∧
      (t[p]? = none → q = dotsBefore a ++ visible (part s a p)) := by
  obtain ⟨a1, a2, a3⟩ := start_spec hd
  obtain ⟨eo, tO, ho, o1, o2, o3, _⟩ := shows s _ _ a1 a2 hd.1 a3
  obtain ⟨ep, tp, hp, p1, p2, p3, _⟩ := shows t _ _ a1 a2 hd.2.1 (fun i x y => by rw [← same_before hd.2.2.1 y]; exact a3 i x y)
  have hpart : part t (startPos s t p) p = part s (startPos s t p) p := by
    unfold part
    have hx : ∀ u : Str, (u.drop (startPos s t p)).take (p - startPos s t p) = (u.take p).drop (startPos s t p) := by
      intro u
      rw [List.drop_take]
    rw [hx, hx, hd.2.2.1]
  rw [hpart] at p1 p2 p3
  refine ⟨startPos s t p, eo, ep, decide (startPos s t p > 0) || tO || tp, ?_, a1, a2, a3, ?_, ?_, ?_, ?_, fun h => (o2 h).1, fun h => (p2 h).1⟩
  · unfold excerpts
    dsimp only
    rw [ho, hp]
    rfl
  · cases e : s[p]? with
    | none => rw [(o2 e).1]; exact List.prefix_refl _
    | some c =>
      by_cases hc : c = '\n'
      · exact o3 (by rw [e, hc])
      · obtain ⟨r, hr⟩ := o1 c e hc
        exact ⟨c :: r, by rw [hr]⟩
  · cases e : t[p]? with
    | none => rw [(p2 e).1]; exact List.prefix_refl _
    | some c =>
      by_cases hc : c = '\n'
      · exact p3 (by rw [e, hc])
      · obtain ⟨r, hr⟩ := p1 c e hc
        exact ⟨c :: r, by rw [hr]⟩
  · intro c hc hne
    obtain ⟨r, hr⟩ := o1 c hc hne
    exact ⟨r, by rw [hr]; simp⟩
  · intro c hc hne
    obtain ⟨r, hr⟩ := p1 c hc hne
    exact ⟨r, by rw [hr]; simp⟩

/-- **C107** The context is as large as it can be: the excerpts begin with the strings, with the line, or thirty characters before the difference, provided that it is not a line break. -/
theorem C107_context (s t : Str) (p : Nat) (hd : FirstDifference s t p) (hs : s[p]? ≠ some '\n') (ht : t[p]? ≠ some '\n') :
    ∃ a, ((a = 0 ∧ p ≤ 30) ∨ a + 30 = p ∨ s[a]? = some '\n') ∧ a ≤ p ∧ p ≤ a + 30 ∧
      excerpts s t p = (excerpt s a).bind fun o => (excerpt t a).bind fun q => .ok (o.1, q.1, decide (a > 0) || o.2 || q.2) := by
  obtain ⟨a1, a2, -⟩ := start_spec hd
  refine ⟨startPos s t p, ?_, a1, a2, rfl⟩
  have back : ∀ (u : Str), u.take p = s.take p → u[p]? ≠ some '\n' → ∀ l, breakBackwards u p = some l → l < p ∧ s[l]? = some '\n' := by
    intro u hu hn l hl
    unfold breakBackwards at hl
    split at hl
    · obtain ⟨x, y, -⟩ := lastBreak_some hl
      have hlt : l < p := by
        rcases Nat.lt_or_ge l p with k | k
        · exact k
        · have : l = p := by omega
          rw [this] at y
          exact absurd y hn
      exact ⟨hlt, by rw [← same_before hu hlt]; exact y⟩
    · cases hl
  rw [start_eq hd]
  unfold offsetOf
  have done : ∀ l, l < p ∧ s[l]? = some '\n' → (p - min 30 (p - l) = 0 ∧ p ≤ 30) ∨ p - min 30 (p - l) + 30 = p ∨ s[p - min 30 (p - l)]? = some '\n' := by
    intro l hl
    rcases Nat.lt_or_ge 30 (p - l) with k | k
    · exact Or.inr (Or.inl (by omega))
    · refine Or.inr (Or.inr ?_)
      rw [show p - min 30 (p - l) = l by omega]
      exact hl.2
  cases e1 : breakBackwards t p with
  | none =>
    cases e2 : breakBackwards s p with
    | none => simp only [minPos]; omega
    | some m => exact done m (back s rfl hs m e2)
  | some l =>
    have hl := back t hd.2.2.1.symm ht l e1
    cases e2 : breakBackwards s p with
    | none => exact done l hl
    | some m =>
      have hm := back s rfl hs m e2
      simp only [minPos]
      rcases Nat.le_total l m with k | k
      · rw [Nat.min_eq_left k]; exact done l hl
      · rw [Nat.min_eq_right k]; exact done m hm

/-- **C107 (part)** Excerpts are parts of the strings, in which only a line break at the beginning has been replaced, and dots are shown where, and only where, something has been left out.
What is missing: two line breaks in a row, `C107_full_violated`. -/
theorem C107_genuine_partial (s t : Str) (p : Nat) (hd : FirstDifference s t p) (hs : ∀ i : Nat, s[i]? = some '\n' → s[i + 1]? ≠ some '\n')
    (ht : ∀ i : Nat, t[i]? = some '\n' → t[i + 1]? ≠ some '\n') :
    ∃ a b c, a ≤ p ∧ p ≤ b ∧ p ≤ c ∧ excerpts s t p = .ok (dotsBefore a ++ visible (part s a b) ++ dotsAfter b s.length, dotsBefore a ++ visible (part t a c) ++ dotsAfter c t.length,
      decide (a > 0) || decide (b < s.length) || decide (c < t.length)) := by
  obtain ⟨a1, a2, a3⟩ := start_spec hd
  have key : ∀ u : Str, u.take p = s.take p → p ≤ u.length → (∀ i : Nat, u[i]? = some '\n' → u[i + 1]? ≠ some '\n') → ∃ b, p ≤ b ∧
      excerpt u (startPos s t p) = .ok (dotsBefore (startPos s t p) ++ visible (part u (startPos s t p) b) ++ dotsAfter b u.length, decide (b < u.length)) := by
    intro u hu hl hnn
    rcases excerpt_spec u (startPos s t p) (by omega) with ⟨b, hab, he, hn, hb⟩ | ⟨x, y, _⟩
    · refine ⟨b, ?_, he⟩
      cases e : nextBreak u (startPos s t p + 1) with
      | none => have := hn e; omega
      | some r =>
        have h1 := (hb r e).1
        obtain ⟨x, y, -⟩ := nextBreak_some e
        rcases Nat.lt_or_ge r p with k | k
        · rw [same_before hu k] at y
          exact absurd y (a3 r (by omega) k)
        · omega
    · exact absurd y (hnn _ x)
  obtain ⟨b, hb, eb⟩ := key s rfl hd.1 hs
  obtain ⟨c, hc, ec⟩ := key t hd.2.2.1.symm hd.2.1 ht
  refine ⟨startPos s t p, b, c, a1, hb, hc, ?_⟩
  unfold excerpts
  dsimp only
  rw [eb, ec]
  rfl

example : FirstDifference "one\ntwo\nthree".toList "one\ntoo\nthree".toList 5 ∧ excerpts "one\ntwo\nthree".toList "one\ntoo\nthree".toList 5 =
    .ok ("...\\ntwo\n...".toList, "...\\ntoo\n...".toList, true) := by unfold FirstDifference; decide

/-- **C107 (part)** The excerpts differ, unless one of the strings has a line break where the other differs from it for the first time.  What is missing: line breaks, `C107_differ_violated`. -/
theorem C107_differ_partial (s t : Str) (p : Nat) (hd : FirstDifference s t p) (hs : s[p]? ≠ some '\n') (ht : t[p]? ≠ some '\n') :
    ∃ o q trunc, excerpts s t p = .ok (o, q, trunc) ∧ o ≠ q := by
  obtain ⟨a, o, q, trunc, he, -, -, -, ho, hq, h1, h2, h3, h4⟩ := C107_excerpts s t p hd
  refine ⟨o, q, trunc, he, ?_⟩
  have hne := hd.2.2.2
  intro e
  subst e
  cases es : s[p]? with
  | none =>
    cases et : t[p]? with
    | none => rw [es, et] at hne; exact hne rfl
    | some d =>
      obtain ⟨r, hr⟩ := h2 d et (fun x => ht (by rw [et, x]))
      have := congrArg List.length (hr.trans (h3 es))
      simp at this
  | some c =>
    obtain ⟨r, hr⟩ := h1 c es (fun x => hs (by rw [es, x]))
    cases et : t[p]? with
    | none =>
      have := congrArg List.length (hr.trans (h4 et))
      simp at this
    | some d =>
      obtain ⟨r', hr'⟩ := h2 d et (fun x => ht (by rw [et, x]))
      have := hr.trans hr'.symm
      simp only [List.append_assoc, List.append_cancel_left_eq, List.singleton_append, List.cons.injEq] at this
      rw [es, et, this.1] at hne
      exact hne rfl

example : ("hello\nwurld".toList)[7]? ≠ some '\n' ∧ FirstDifference "hello\nwurld".toList "hello\nworld".toList 7 := by unfold FirstDifference; decide

/-- **C107 (violated)** Otherwise the report may show twice the same. -/
theorem C107_differ_violated :
    (excerpts "a\nb".toList "a\\nb".toList 1 = .ok ("...\\nb".toList, "...\\nb".toList, true) ∧ FirstDifference "a\nb".toList "a\\nb".toList 1) ∧
    (excerpts "a\nbc\n".toList "a\nbc...".toList 4 = .ok ("...\\nbc\n".toList, "...\\nbc...".toList, true)) ∧
    ∃ s t : Str, ∃ p o, s ≠ t ∧ FirstDifference s t p ∧ excerpts s t p = .ok (o, o, true) :=
  ⟨⟨by decide, by unfold FirstDifference; decide⟩, by decide, "a\nb".toList, "a\\nb".toList, 1, "...\\nb".toList, by decide, by unfold FirstDifference; decide, by decide⟩

/-- **C107** If the report says that the strings are shown in full, then they are. -/
theorem C107_full (s t : Str) (p : Nat) (hd : FirstDifference s t p) (o q : Str) (h : excerpts s t p = .ok (o, q, false)) : o = visible s ∧ q = visible t := by
  obtain ⟨a1, a2, a3⟩ := start_spec hd
  obtain ⟨eo, tO, ho, -, -, -, o4⟩ := shows s _ _ a1 a2 hd.1 a3
  obtain ⟨ep, tp, hp, -, -, -, p4⟩ := shows t _ _ a1 a2 hd.2.1 (fun i x y => by rw [← same_before hd.2.2.1 y]; exact a3 i x y)
  unfold excerpts at h
  dsimp only at h
  rw [ho, hp] at h
  simp only [Res.bind, Res.ok.injEq, Prod.mk.injEq, Bool.or_eq_false_iff, decide_eq_false_iff_not] at h
  obtain ⟨rfl, rfl, ⟨h1, h2⟩, h3⟩ := h
  have h0 : startPos s t p = 0 := by omega
  rw [o4 h2, p4 h3, h0]
  exact ⟨rfl, rfl⟩

/-- **C107 (part)** Strings of at most sixty characters are shown in full if they contain no line breaks and differ soon.  What is missing: line breaks, `C107_full_violated`. -/
theorem C107_full_partial (s t : Str) (p : Nat) (hd : FirstDifference s t p) (hp : p ≤ 30) (hs : SingleLine s) (ht : SingleLine t) (ls : s.length ≤ 60) (lt : t.length ≤ 60) :
    excerpts s t p = .ok (s, t, false) := by
  have no : ∀ u : Str, SingleLine u → ∀ i : Nat, u[i]? ≠ some '\n' := fun u hu i e => hu (List.mem_of_getElem? e)
  have h0 : startPos s t p = 0 := by
    rw [start_eq hd]
    have hb : ∀ u : Str, SingleLine u → breakBackwards u p = none := by
      intro u hu
      unfold breakBackwards
      split
      · cases e : lastBreak u p with
        | none => rfl
        | some l => exact absurd (lastBreak_some e).2.1 (no u hu l)
      · rfl
    unfold offsetOf
    rw [hb s hs, hb t ht]
    simp only [minPos]
    omega
  have key : ∀ u : Str, SingleLine u → u.length ≤ 60 → excerpt u 0 = .ok (u, false) := by
    intro u hu hl
    rcases excerpt_spec u 0 (Nat.zero_le _) with ⟨b, _, he, hn, _⟩ | ⟨h, _⟩
    · have hnb : nextBreak u (0 + 1) = none := by
        cases e : nextBreak u (0 + 1) with
        | none => rfl
        | some r => exact absurd (nextBreak_some e).2.1 (no u hu r)
      have hb := hn hnb
      rw [he]
      have e1 : part u 0 b = u := by
        unfold part
        simp only [List.drop_zero, Nat.sub_zero]
        exact List.take_of_length_le (by omega)
      have e2 : visible u = u := by
        cases u with
        | nil => rfl
        | cons c r => exact visible_cons (fun e => hu (by rw [e]; simp)) r
      rw [e1, e2]
      unfold dotsBefore dotsAfter
      rw [if_pos rfl, if_neg (by omega)]
      simp
      omega
    · exact absurd h (no u hu 0)
  unfold excerpts
  dsimp only
  rw [h0, key s hs ls, key t ht lt]
  rfl

example : FirstDifference "hello wurld".toList "hello world".toList 7 ∧ SingleLine "hello world".toList := by unfold FirstDifference SingleLine; decide

/-- **C107 (violated)** A string which consists of two line breaks is shown in full, but dots say that something has been left out. -/
theorem C107_full_violated : excerpts "\n\n".toList "\na".toList 1 = .ok ("\\n\\n...".toList, "\\na".toList, true) := by decide

/-- **C107 (part)** If the difference is on the first line, and is not a line break, then each excerpt is a single line.  What is missing: other lines, `C107_line_violated`. -/
theorem C107_line_partial (s t : Str) (p : Nat) (hd : FirstDifference s t p) (h0 : SingleLine (s.take p)) (hs : s[p]? ≠ some '\n') (ht : t[p]? ≠ some '\n')
    (o q : Str) (trunc : Bool) (h : excerpts s t p = .ok (o, q, trunc)) : SingleLine o ∧ SingleLine q := by
  obtain ⟨a1, a2, a3⟩ := start_spec hd
  have key : ∀ u : Str, u.take p = s.take p → p ≤ u.length → u[p]? ≠ some '\n' → ∀ e b, excerpt u (startPos s t p) = .ok (e, b) → SingleLine e := by
    intro u hu hl hp e b he
    have hfirst : u[startPos s t p]? ≠ some '\n' := by
      rcases Nat.lt_or_ge (startPos s t p) p with k | k
      · rw [same_before hu k]
        intro e
        refine h0 ?_
        have : (s.take p)[startPos s t p]? = some '\n' := by rw [List.getElem?_take, if_pos k]; exact e
        exact List.mem_of_getElem? this
      · have : startPos s t p = p := by omega
        rw [this]; exact hp
    rcases excerpt_spec u (startPos s t p) (by omega) with ⟨c, hac, hx, hn, hb⟩ | ⟨x, _⟩
    · rw [hx] at he
      cases he
      have nb : ∀ i, startPos s t p ≤ i → i < c → u[i]? ≠ some '\n' := by
        intro i h1 h2
        by_cases hi : i = startPos s t p
        · rw [hi]; exact hfirst
        · cases e : nextBreak u (startPos s t p + 1) with
          | none => exact nextBreak_none e i (by omega)
          | some r =>
            have := (hb r e).2.1 hfirst
            exact (nextBreak_some e).2.2 i (by omega) (by omega)
      have hpart : '\n' ∉ part u (startPos s t p) c := by
        unfold part
        intro hm
        obtain ⟨i, hi⟩ := List.mem_iff_getElem?.mp hm
        rw [List.getElem?_take] at hi
        split at hi
        · rw [List.getElem?_drop] at hi
          exact nb _ (by omega) (by omega) hi
        · cases hi
      have hvis : visible (part u (startPos s t p) c) = part u (startPos s t p) c := by
        cases e : part u (startPos s t p) c with
        | nil => rfl
        | cons x r => exact visible_cons (fun y => hpart (by rw [e, y]; simp)) r
      rw [hvis]
      unfold SingleLine
      intro hm
      simp only [List.mem_append] at hm
      rcases hm with (hm | hm) | hm
      · unfold dotsBefore at hm
        split at hm <;> simp at hm
      · exact hpart hm
      · unfold dotsAfter at hm
        split at hm <;> simp at hm
    · exact absurd x hfirst
  unfold excerpts at h
  dsimp only at h
  cases eo : excerpt s (startPos s t p) with
  | throws => rw [eo] at h; cases h
  | ub => rw [eo] at h; cases h
  | ok x =>
    cases ep : excerpt t (startPos s t p) with
    | throws => rw [eo, ep] at h; cases h
    | ub => rw [eo, ep] at h; cases h
    | ok y =>
      rw [eo, ep] at h
      simp only [Res.bind, Res.ok.injEq, Prod.mk.injEq] at h
      obtain ⟨rfl, rfl, -⟩ := h
      exact ⟨key s rfl hd.1 hs x.1 x.2 eo, key t hd.2.2.1.symm hd.2.1 ht y.1 y.2 ep⟩

/-- **C107 (violated)** On other lines the line break at the end of the line is part of the excerpt, so that it is not a single line. -/
theorem C107_line_violated : excerpts "a\nbc\nd".toList "a\nbe\nd".toList 3 = .ok ("...\\nbc\n...".toList, "...\\nbe\n...".toList, true) := by decide

/-- **C107 (part)** If one of the strings goes on where the other ends, then the report says so, and what the first character is which is missing or too much; then come the excerpts.
What is missing: this is so only if no advice is given for characters, `C107_lengths_violated`. -/
theorem C107_lengths_partial (s r : Str) (c : Char) :
    (∃ o q trunc, excerpts s (s ++ c :: r) s.length = .ok (o, q, trunc) ∧ testStrings s (s ++ c :: r) none = .ok (some {
      description := "Lengths differ\nObtained string is too short".toList
      message := "operator== returned false\nObtained : ".toList ++ Nat.toDigits 10 s.length ++ "\nPredicted: ".toList ++ Nat.toDigits 10 (s ++ c :: r).length ++
        "\n\nFirst missing character: ".toList ++ displayCharacter c.toNat ++ "\n".toList ++
        (if trunc then "Surrounding substring(s):".toList else "Full strings:".toList) ++ "\nObtained : ".toList ++ o ++ "\nPredicted: ".toList ++ q })) ∧
    (∃ o q trunc, excerpts (s ++ c :: r) s s.length = .ok (o, q, trunc) ∧ testStrings (s ++ c :: r) s none = .ok (some {
      description := "Lengths differ\nObtained string is too long".toList
      message := "operator== returned false\nObtained : ".toList ++ Nat.toDigits 10 (s ++ c :: r).length ++ "\nPredicted: ".toList ++ Nat.toDigits 10 s.length ++
        "\n\nFirst excess character: ".toList ++ displayCharacter c.toNat ++ "\n".toList ++
        (if trunc then "Surrounding substring(s):".toList else "Full strings:".toList) ++ "\nObtained : ".toList ++ o ++ "\nPredicted: ".toList ++ q })) := by
  have d1 : FirstDifference s (s ++ c :: r) s.length := ⟨Nat.le_refl _, by simp, by simp, by simp⟩
  have d2 : FirstDifference (s ++ c :: r) s s.length := ⟨by simp, Nat.le_refl _, by simp, by simp⟩
  have hne : ∀ x y, predictionMessage x y ≠ [] := fun x y => by rw [prediction_eq]; exact left_ne (left_ne (left_ne (by decide) _) _) _
  have rep : ∀ (u v : Str) (st ad o q : Str) (trunc : Bool), excerpts u v s.length = .ok (o, q, trunc) →
      lengths u v c s.length st ad none = .ok { description := "Lengths differ\nObtained string is too ".toList ++ ad, message :=
        "operator== returned false\nObtained : ".toList ++ Nat.toDigits 10 u.length ++ "\nPredicted: ".toList ++ Nat.toDigits 10 v.length ++
        "\n\nFirst ".toList ++ st ++ " character: ".toList ++ displayCharacter c.toNat ++ "\n".toList ++
        (if trunc then "Surrounding substring(s):".toList else "Full strings:".toList) ++ "\nObtained : ".toList ++ o ++ "\nPredicted: ".toList ++ q } := by
    intro u v st ad o q trunc he
    have hx : (if trunc = true then "Surrounding substring(s):".toList else "Full strings:".toList) ≠ [] := by cases trunc <;> decide
    have hpre := preliminary_eq (info := "First ".toList ++ st ++ " character: ".toList ++ displayCharacter c.toNat) (left_ne (left_ne (left_ne (by decide) _) _) _) he
    unfold lengths
    dsimp only
    rw [hpre]
    simp only [Res.bind, Res.ok.injEq, Report.mk.injEq]
    constructor
    · rw [Messages.appendLine_eq (by decide) (left_ne (by decide) _)]
      simp only [List.append_assoc]
      rfl
    · rw [failureText_eq (hne _ _) (left_ne (left_ne (left_ne (left_ne (left_ne (left_ne (left_ne (by decide) _) _) _) _) _) _) _), prediction_eq, prediction_eq,
        show "operator== returned false\nObtained : ".toList = "operator== returned false".toList ++ ['\n'] ++ "Obtained : ".toList from rfl,
        show "\nPredicted: ".toList = ['\n'] ++ "Predicted: ".toList from rfl, show "\n\nFirst ".toList = ['\n'] ++ ['\n'] ++ "First ".toList from rfl,
        show "\nObtained : ".toList = ['\n'] ++ "Obtained : ".toList from rfl, show "\n".toList = ['\n'] from rfl]
      simp only [List.append_assoc]
  constructor
  · obtain ⟨a, o, q, trunc, he, -⟩ := C107_excerpts _ _ _ d1
    refine ⟨o, q, trunc, he, ?_⟩
    have := rep s (s ++ c :: r) "missing".toList "short".toList o q trunc he
    unfold testStrings
    dsimp only
    rw [mismatch_eq d1]
    simp only [List.getElem?_eq_none (Nat.le_refl _), List.getElem?_append_right (Nat.le_refl _), Nat.sub_self, List.getElem?_cons_zero]
    rw [this]
    simp only [Res.bind, Res.ok.injEq, Option.some.injEq, Report.mk.injEq]
    refine ⟨rfl, ?_⟩
    rw [show "\n\nFirst missing character: ".toList = "\n\nFirst ".toList ++ "missing".toList ++ " character: ".toList from rfl]
    simp only [List.append_assoc]
  · obtain ⟨a, o, q, trunc, he, -⟩ := C107_excerpts _ _ _ d2
    refine ⟨o, q, trunc, he, ?_⟩
    have := rep (s ++ c :: r) s "excess".toList "long".toList o q trunc he
    unfold testStrings
    dsimp only
    rw [mismatch_eq d2]
    simp only [List.getElem?_eq_none (Nat.le_refl _), List.getElem?_append_right (Nat.le_refl _), Nat.sub_self, List.getElem?_cons_zero]
    rw [this]
    simp only [Res.bind, Res.ok.injEq, Option.some.injEq, Report.mk.injEq]
    refine ⟨rfl, ?_⟩
    rw [show "\n\nFirst excess character: ".toList = "\n\nFirst ".toList ++ "excess".toList ++ " character: ".toList from rfl]
    simp only [List.append_assoc]

/-- **C107 (violated)** If advice is given for characters, then for strings of different lengths there is neither advice nor any excerpt, nor is the first character named which is missing. -/
theorem C107_lengths_violated (x : Advisor) :
    testStrings "ab".toList "abc".toList (some x) =
      .ok (some ⟨"Lengths differ\nObtained string is too short".toList, "operator== returned false\nObtained : 2\nPredicted: 3".toList⟩) := by
  rfl

end Verif.Props
