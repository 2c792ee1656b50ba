import Verif.Lemmas.TidyMsvc

/-
More fuel does not change a result.
-/
set_option linter.unusedSimpArgs false
set_option linter.unusedVariables false

namespace Verif.TidyName
open Verif.Text Verif.Spec.Text Verif.Spec.TidyName

def Mono {α : Type} (f : Nat → Option α) : Prop := ∀ m r, f m = some r → ∀ k, f (m + k) = some r

theorem mono_of_step {α : Type} {f : Nat → Option α} (h : ∀ m r, f m = some r → f (m + 1) = some r) : Mono f := by
  intro m r hm k
  induction k with
  | zero => exact hm
  | succ k ih => exact h _ _ ih

theorem replaceAllFrom_step {p to : Str} : ∀ (m : Nat) {s : Str} {pos : Nat} {r : Str}, replaceAllFrom p to m s pos = some r → replaceAllFrom p to (m + 1) s pos = some r
  | 0, s, pos, r, h => by simp [replaceAllFrom] at h
  | m + 1, s, pos, r, h => by
    rw [replaceAllFrom] at h ⊢
    split at h <;> rename_i hf
    · exact h
    · exact replaceAllFrom_step m h

theorem replaceRecFrom_step {p to : Str} : ∀ (m : Nat) {s : Str} {pos : Nat} {r : Str}, replaceRecFrom p to m s pos = some r → replaceRecFrom p to (m + 1) s pos = some r
  | 0, s, pos, r, h => by simp [replaceRecFrom] at h
  | m + 1, s, pos, r, h => by
    rw [replaceRecFrom] at h ⊢
    split at h <;> rename_i hf
    · exact h
    · exact replaceRecFrom_step m h

theorem replaceIfFrom_step {l r' : Char → Bool} {p to : Str} : ∀ (m : Nat) {s : Str} {pos : Nat} {r : Str}, replaceIfFrom l r' p to m s pos = some r → replaceIfFrom l r' p to (m + 1) s pos = some r
  | 0, s, pos, r, h => by simp [replaceIfFrom] at h
  | m + 1, s, pos, r, h => by
    rw [replaceIfFrom] at h ⊢
    split at h <;> rename_i hf
    · exact h
    · split at h <;> rename_i hq
      · exact (if_pos hq).trans (replaceIfFrom_step m h)
      · exact (if_neg hq).trans (replaceIfFrom_step m h)

theorem processLiterals_step {env : Env} : ∀ (m : Nat) {s : Str} {pos : Nat} {r}, processLiterals env m s pos = some r → processLiterals env (m + 1) s pos = some r
  | 0, s, pos, r, h => by simp [processLiterals] at h
  | m + 1, s, pos, r, h => by
    rw [processLiterals] at h ⊢
    split at h <;> rename_i hp
    · rw [if_pos hp]
      split at h <;> rename_i hl
      · exact processLiterals_step m h
      · exact h
      · exact h
      · exact h
    · rw [if_neg hp]; exact h

theorem removeEnumSpec_step : ∀ (m : Nat) {s : Str} {pos : Nat} {r}, removeEnumSpec m s pos = some r → removeEnumSpec (m + 1) s pos = some r
  | 0, s, pos, r, h => by simp [removeEnumSpec] at h
  | m + 1, s, pos, r, h => by
    rw [removeEnumSpec] at h ⊢
    split at h <;> rename_i hp
    · exact h
    · split at h <;> rename_i hq
      · exact (if_pos hq).trans (removeEnumSpec_step m h)
      · exact (if_neg hq).trans h

theorem casts_step : ∀ (m : Nat) {s : Str} {o pos : Nat} {n : Int} {r}, casts m s o pos n = some r → casts (m + 1) s o pos n = some r
  | 0, s, o, pos, n, r, h => by simp [casts] at h
  | m + 1, s, o, pos, n, r, h => by
    rw [casts] at h ⊢
    split at h <;> rename_i hp
    · rw [if_pos hp]; exact h
    · rw [if_neg hp]
      dsimp only at h ⊢
      generalize (if charAt s pos = '(' then n + 1 else if charAt s pos = ')' then n - 1 else n) = n' at h ⊢
      generalize (if pos + 1 < s.length ∧ (charAt s (pos + 1)).isDigit = true then splice s o (pos + 1 - o) [] else s) = t at h ⊢
      split at h <;> rename_i hn
      · rw [if_pos hn]
        split at h <;> rename_i hf
        · exact h
        · exact casts_step m h
      · rw [if_neg hn]
        exact casts_step m h

theorem arrayIterators_step : ∀ (m : Nat) {s : Str} {pos : Nat} {r}, arrayIterators m s pos = some r → arrayIterators (m + 1) s pos = some r
  | 0, s, pos, r, h => by simp [arrayIterators] at h
  | m + 1, s, pos, r, h => by
    rw [arrayIterators] at h ⊢
    split at h <;> rename_i hf
    · exact h
    · exact h
    · split at h <;> rename_i hq
      · exact (if_pos hq).trans h
      · refine (if_neg hq).trans ?_
        dsimp only at h ⊢
        split at h <;> rename_i hp
        · exact (if_pos hp).trans (arrayIterators_step m h)
        · exact (if_neg hp).trans (arrayIterators_step m h)

theorem lift_step {f : Nat → Option Str} (h : ∀ m r, f m = some r → f (m + 1) = some r) (m : Nat) (r : Res Str) (hm : lift (f m) = some r) : lift (f (m + 1)) = some r := by
  simp only [lift, Option.map_eq_some_iff] at hm ⊢
  obtain ⟨a, h1, h2⟩ := hm
  exact ⟨a, h _ _ h1, h2⟩

theorem all_step (s p to : Str) (m : Nat) (r : Res Str) (h : lift (replaceAll m s p to) = some r) : lift (replaceAll (m + 1) s p to) = some r :=
  lift_step (f := fun m => replaceAll m s p to) (fun m r h => replaceAllFrom_step m h) m r h

theorem rec_step (s p to : Str) (m : Nat) (r : Res Str) (h : lift (replaceRec m s p to) = some r) : lift (replaceRec (m + 1) s p to) = some r :=
  lift_step (f := fun m => replaceRec m s p to) (fun m r h => replaceRecFrom_step m h) m r h

theorem delim_step (s a p b to : Str) (m : Nat) (r : Res Str) (h : lift (replaceDelim m s a p b to) = some r) : lift (replaceDelim (m + 1) s a p b to) = some r :=
  lift_step (f := fun m => replaceDelim m s a p b to) (fun m r h => replaceIfFrom_step m h) m r h

theorem then_step {x x' : Out} {g g' : Str → Out} {r : Res Str} (hx : ∀ r, x = some r → x' = some r) (hg : ∀ s r, g s = some r → g' s = some r)
    (h : x.then g = some r) : x'.then g' = some r := by
  cases hm : x with
  | none => rw [hm] at h; simp [Out.then] at h
  | some y =>
    rw [hm] at h
    rw [hx y hm]
    cases y with
    | ok s => exact hg s r h
    | throws => exact h
    | ub => exact h

theorem tidy_step (b : Bool) (s : Str) (m : Nat) (r : Res Str) (h : tidy b m s = some r) : tidy b (m + 1) s = some r := by
  unfold tidy at h ⊢
  refine then_step ?_ ?_ h
  · intro r h
    cases b
    · exact h
    · exact then_step (all_step _ _ _ _) (fun s => all_step _ _ _ _) h
  · intro s r h
    refine then_step (delim_step _ _ _ _ _ _) (fun s r h => ?_) h
    refine then_step (delim_step _ _ _ _ _ _) (fun s r h => ?_) h
    refine then_step (fun r h => removeEnumSpec_step m h) (fun s r h => ?_) h
    unfold removeCasts at h ⊢
    split at h
    · exact h
    · exact casts_step m h

theorem tidyClang_step (env : Env) (b : Bool) (s : Str) (m : Nat) (r : Res Str) (h : tidyClang env b m s = some r) : tidyClang env b (m + 1) s = some r := by
  unfold tidyClang at h ⊢
  refine then_step (all_step _ _ _ _) (fun s r h => ?_) h
  refine then_step (all_step _ _ _ _) (fun s r h => ?_) h
  refine then_step (rec_step _ _ _ _) (fun s r h => ?_) h
  refine then_step (fun r h => processLiterals_step m h) (fun s r h => ?_) h
  exact then_step (fun _ h => h) (fun s r h => tidy_step b s m r h) h

theorem tidyGcc_step (env : Env) (b : Bool) (s : Str) (m : Nat) (r : Res Str) (h : tidyGcc env b m s = some r) : tidyGcc env b (m + 1) s = some r := by
  unfold tidyGcc at h ⊢
  refine then_step (all_step _ _ _ _) (fun s r h => ?_) h
  refine then_step (all_step _ _ _ _) (fun s r h => ?_) h
  refine then_step (rec_step _ _ _ _) (fun s r h => ?_) h
  refine then_step (fun r h => processLiterals_step m h) (fun s r h => ?_) h
  exact then_step (fun _ h => h) (fun s r h => tidy_step b s m r h) h

theorem tidyMsvc_step (i : Option Str) (s : Str) (m : Nat) (r : Res Str) (h : tidyMsvc i m s = some r) : tidyMsvc i (m + 1) s = some r := by
  unfold tidyMsvc at h ⊢
  dsimp only at h ⊢
  refine then_step (delim_step _ _ _ _ _ _) (fun s r h => ?_) h
  refine then_step (delim_step _ _ _ _ _ _) (fun s r h => ?_) h
  refine then_step (delim_step _ _ _ _ _ _) (fun s r h => ?_) h
  refine then_step (all_step _ _ _ _) (fun s r h => ?_) h
  refine then_step (all_step _ _ _ _) (fun s r h => ?_) h
  refine then_step (all_step _ _ _ _) (fun s r h => ?_) h
  refine then_step (all_step _ _ _ _) (fun s r h => ?_) h
  refine then_step (all_step _ _ _ _) (fun s r h => ?_) h
  refine then_step ?_ (fun s r h => ?_) h
  · intro r h
    cases i with
    | none => exact h
    | some t => exact all_step _ _ _ m r h
  refine then_step (all_step _ _ _ _) (fun s r h => ?_) h
  refine then_step (all_step _ _ _ _) (fun s r h => ?_) h
  exact arrayIterators_step m h

theorem ends_of {f : Nat → Out} (h : ∀ m r, f m = some r → f (m + 1) = some r) (n : Nat) {r : Str} (hn : f n = some (.ok r)) : Ends f r := by
  refine ⟨n, fun m hm => ?_⟩
  obtain ⟨k, rfl⟩ := Nat.exists_eq_add_of_le hm
  exact mono_of_step h n _ hn k

end Verif.TidyName
