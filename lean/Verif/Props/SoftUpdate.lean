import Verif.Lemmas.SoftUpdateOk
import Mathlib.Order.Nat
/-
C46: a soft update makes the destination match the source.
-/
set_option linter.unusedSectionVars false

namespace Verif.Props
open Verif.SoftUpdate Verif.Spec.SoftUpdate

namespace SoftUpdate

section
variable {N C S : Type} [LinearOrder N] [DecidableEq C] {nm : Naming N} {reduce : C → C → C}

theorem updatedAt_mono {Sub Sub' : S → S → S → S → Prop} {f o g w : N → Option (C ⊕ S)} {n : N} (h : UpdatedAt nm reduce Sub f o g w n)
    (hm : ∀ d d', f n = some (.inr d) → o n = some (.inr d') → ∀ e e', Sub d d' e e' → Sub' d d' e e') : UpdatedAt nm reduce Sub' f o g w n := by
  unfold UpdatedAt at *
  split at h
  · exact h
  · exact h
  · exact h
  · exact h
  · rename_i h1 h2
    obtain ⟨e, e', a, b, c⟩ := h
    exact ⟨e, e', a, b, hm _ _ h1 h2 e e' c⟩
  · exact h

/-- The stages of the update of one level. -/
theorem updateEntries_spec {sub : S → S → Res (S × S)} {Sub : S → S → S → S → Prop} (hsub : ∀ d d' e e', sub d d' = .ok (e, e') → Sub d d' e e') {frm to frm' new : Entries N C S}
    (hf : (keys frm).Nodup) (ht : (keys to).Nodup) (hk : NoPatternForKeep nm to) (h : updateEntries nm reduce sub frm to = .ok (frm', new)) :
    (keys frm').Nodup ∧ (keys new).Nodup ∧ ∃ g, Restored nm (fun n => lookup n frm) (fun n => lookup n to) g ∧
      ∀ n, UpdatedAt nm reduce Sub g (fun n => lookup n to) (fun n => lookup n frm') (fun n => lookup n new) n := by
  unfold updateEntries at h
  cases hb : copyBack nm to frm with
  | throws => rw [hb] at h; cases h
  | ub => rw [hb] at h; cases h
  | ok frm₁ =>
    rw [hb] at h
    simp only [Res.bind] at h
    obtain ⟨b1, b2⟩ := copyBack_spec (nm := nm) (fun n => lookup n frm) to ht hk to [] frm frm₁ rfl hf (by intro n; simp [keys]) hb
    cases hu : update nm reduce sub (frm₁.length + to.length + 1) (sortEntries frm₁) (sortEntries to) ⟨[], []⟩ with
    | throws => rw [hu] at h; cases h
    | ub => rw [hu] at h; cases h
    | ok s =>
      rw [hu] at h
      cases h
      have hF := sortEntries_strict b1
      have hT := sortEntries_strict ht
      obtain ⟨⟨k1, k2⟩, h2⟩ := update_inv hF hT hsub _ Inv.start hu
      refine ⟨by rw [k1]; exact strict_nodup hF, by rw [k2]; exact strict_nodup hF, fun n => lookup n frm₁, b2, ?_⟩
      intro n
      have := h2 n
      have e1 : ∀ n, lookup n (sortEntries frm₁) = lookup n frm₁ := lookup_perm (sortEntries_perm _) (strict_nodup hF)
      have e2 : ∀ n, lookup n (sortEntries to) = lookup n to := lookup_perm (sortEntries_perm _) (strict_nodup hT)
      simp only [e1, e2] at this
      exact this

end

variable {N C : Type} [LinearOrder N] [DecidableEq C] {nm : Naming N} {reduce : C → C → C}

theorem softUpdate_spec : ∀ (depth : Nat) (frm to frm' new : Dir N C depth), WellFormed nm depth frm → WellFormed nm depth to →
    softUpdate nm reduce depth frm to = .ok (frm', new) → Updated nm reduce depth frm to frm' new
  | 0, frm, _, _, _, _, _, _ => nomatch frm
  | depth + 1, frm, to, frm', new, hf, ht, h => by
    obtain ⟨h1, h2, g, h3, h4⟩ := updateEntries_spec (S := Dir N C depth)
      (Sub := fun d d' e e' => WellFormed nm depth d → WellFormed nm depth d' → Updated nm reduce depth d d' e e')
      (fun d d' e e' h w w' => softUpdate_spec depth d d' e e' w w' h) hf.1 ht.1 ht.2.1 h
    refine ⟨h1, h2, g, h3, fun n => updatedAt_mono (h4 n) ?_⟩
    intro d d' hd hd' e e' hs
    refine hs ?_ (ht.2.2 n d' (lookup_mem hd'))
    -- what is a directory after copying back was one before
    by_cases hsp : Special nm (fun n => lookup (S := Dir N C depth) n frm) (fun n => lookup (S := Dir N C depth) n to) n
    · obtain ⟨⟨c, hc⟩, _⟩ := hsp
      have := hd'.symm.trans hc
      cases this
    · have := (h3 n).2 hsp
      rw [hd] at this
      exact hf.2.2 n d (lookup_mem this.symm)

/-- In the absence of special files nothing is copied back and there are no patterns. -/
theorem updated_plain (hp : ∀ n, nm.isPattern (nm.patternOf n) = true) : ∀ (depth : Nat) (frm to frm' new : Dir N C depth), Plain nm depth frm → Plain nm depth to →
    Updated nm reduce depth frm to frm' new → ∀ p, content depth frm' p = content depth frm p ∧ content depth new p = content depth frm p
  | 0, frm, _, _, _, _, _, _ => nomatch frm
  | depth + 1, frm, to, frm', new, hf, ht, h => by
    obtain ⟨_, _, g, h3, h4⟩ := h
    intro p
    cases p with
    | nil => exact ⟨rfl, rfl⟩
    | cons n p =>
      have hns : ∀ n, ¬ Special nm (fun n => lookup (S := Dir N C depth) n frm) (fun n => lookup (S := Dir N C depth) n to) n := by
        rintro n ⟨⟨c, hc⟩, h⟩
        obtain ⟨a, b, _⟩ := ht _ (lookup_mem hc)
        rcases h with h | h
        · simp only at a; rw [h.1] at a; cases a
        · simp only at b; rw [h.2] at b; cases b
      have hg : ∀ n, g n = lookup (S := Dir N C depth) n frm := fun n => (h3 n).2 (hns n)
      have h4n := h4 n
      -- there are no files with patterns in the two directories
      have hnp : ∀ m, nm.isPattern m = true → lookup (S := Dir N C depth) m to = none ∧ lookup (S := Dir N C depth) m new = none := by
        intro m hm
        have h1 : lookup (S := Dir N C depth) m to = none := by
          cases hl : lookup (S := Dir N C depth) m to with
          | none => rfl
          | some v =>
            have := (ht _ (lookup_mem hl)).1
            simp only at this; rw [hm] at this; cases this
        have h2 : lookup (S := Dir N C depth) m frm = none := by
          cases hl : lookup (S := Dir N C depth) m frm with
          | none => rfl
          | some v =>
            have := (hf _ (lookup_mem hl)).1
            simp only at this; rw [hm] at this; cases this
        refine ⟨h1, ?_⟩
        have := h4 m
        unfold UpdatedAt at this
        rw [hg, h2] at this
        exact this.2
      have hsame : ∀ c c', Same nm reduce (fun n => lookup (S := Dir N C depth) n to) (fun n => lookup (S := Dir N C depth) n new) n c c' ↔ c = c' := by
        intro c c'
        have : patterns nm (fun n => lookup (S := Dir N C depth) n to) (fun n => lookup (S := Dir N C depth) n new) n = none := by
          unfold patterns
          split
          · rfl
          · split
            · exact (hnp _ (hp n)).2
            · exact (hnp _ (hp n)).1
        unfold Same
        rw [this]
      unfold UpdatedAt at h4n
      unfold content
      rw [hg] at h4n
      dsimp only at h4n
      split at h4n
      · rename_i h1
        rw [h1, h4n.1, h4n.2]
        exact ⟨rfl, rfl⟩
      · rename_i h1 _
        rw [h1, h4n.1, h4n.2]
        exact ⟨rfl, rfl⟩
      · rename_i c c' h1 _
        obtain ⟨a1, a2, a3⟩ := h4n
        have hnew : lookup (S := Dir N C depth) n new = some (.inl c) := by
          by_cases he : c = c'
          · rw [he]; exact a2 ((hsame c c').mpr he)
          · exact a3 fun h => he ((hsame c c').mp h)
        rw [h1, a1, hnew]
        exact ⟨rfl, rfl⟩
      · exact h4n.elim
      · rename_i d d' h1 h2
        obtain ⟨e, e', a1, a2, a3⟩ := h4n
        rw [h1, a1, a2]
        exact updated_plain hp depth d d' e e' ((hf _ (lookup_mem h1)).2.2 d rfl) ((ht _ (lookup_mem h2)).2.2 d' rfl) a3 p
      · rename_i d h1 _
        rw [h1, h4n.1, h4n.2]
        exact ⟨rfl, rfl⟩

end SoftUpdate

section
variable {N C : Type} [LinearOrder N] [DecidableEq C] (nm : Naming N) (reduce : C → C → C)

/-- **C46 (part)** Whenever a soft update completes, the destination has, at every level, what the source has: nothing else remains; directories are the same; a file has the content
it has in the source, or its old content if that is the same once what the patterns match has been removed.  Before that, the files with patterns and those which keep
directories are copied into the source, and nothing else changes in the source.

What is missing: an update need not complete, see `C46_overrun_violated` and `C46_file_over_directory_violated`. -/
theorem C46_updated_partial (depth : Nat) (frm to frm' new : Dir N C depth) (hf : WellFormed nm depth frm) (ht : WellFormed nm depth to)
    (h : softUpdate nm reduce depth frm to = .ok (frm', new)) : Updated nm reduce depth frm to frm' new :=
  SoftUpdate.softUpdate_spec depth frm to frm' new hf ht h

/-- **C46 (part)** In the absence of files with patterns and of those which keep directories, an update which completes leaves the source as it is, and the destination is
identical to it: the same files, with the same contents, and directories, at every path. -/
theorem C46_identical_partial (hp : ∀ n, nm.isPattern (nm.patternOf n) = true) (depth : Nat) (frm to frm' new : Dir N C depth) (hf : WellFormed nm depth frm)
    (ht : WellFormed nm depth to) (hf' : Plain nm depth frm) (ht' : Plain nm depth to) (h : softUpdate nm reduce depth frm to = .ok (frm', new)) (path : List N) :
    content depth frm' path = content depth frm path ∧ content depth new path = content depth frm path :=
  SoftUpdate.updated_plain hp depth frm to frm' new hf' ht' (SoftUpdate.softUpdate_spec depth frm to frm' new hf ht h) path

/-- **C46 (part)** An update completes if, on every level, no file replaces a directory, directories do not have the names of special files, and the last entry of the
source is matched in the destination or has nothing after it there. -/
theorem C46_completes_partial (hp : ∀ n, nm.isPattern (nm.patternOf n) = true) : ∀ (depth : Nat) (frm to : Dir N C depth), WellFormed nm depth frm → WellFormed nm depth to →
    Completable nm depth frm to → ∃ r, softUpdate nm reduce depth frm to = .ok r
  | 0, frm, _, _, _, _ => nomatch frm
  | depth + 1, frm, to, hf, ht, h => by
    obtain ⟨c1, c2, c3, c4, c5⟩ := h
    obtain ⟨frm₁, hb⟩ := copyBack_ok (S := Dir N C depth) (nm := nm) to frm hf.1 c1
    obtain ⟨b1, b2⟩ := copyBack_spec (S := Dir N C depth) (nm := nm) (fun n => lookup (S := Dir N C depth) n frm) to ht.1 ht.2.1 to [] frm frm₁ rfl hf.1 (by intro n; simp [keys]) hb
    have hF := sortEntries_strict b1
    have hT := sortEntries_strict ht.1
    have e1 : ∀ n, lookup n (sortEntries frm₁) = lookup n frm₁ := lookup_perm (sortEntries_perm _) (strict_nodup hF)
    have e2 : ∀ n, lookup n (sortEntries to) = lookup (S := Dir N C depth) n to := lookup_perm (sortEntries_perm _) (strict_nodup hT)
    have mF : ∀ n v, (n, v) ∈ sortEntries frm₁ → lookup n frm₁ = some v := fun n v h => by rw [← e1]; exact lookup_of_mem (strict_nodup hF) h
    have mT : ∀ n v, (n, v) ∈ sortEntries to → lookup (S := Dir N C depth) n to = some v := fun n v h => by rw [← e2]; exact lookup_of_mem (strict_nodup hT) h
    have hdir : ∀ n d, lookup n frm₁ = some (.inr d) → lookup (S := Dir N C depth) n frm = some (.inr d) := by
      intro n d hd
      by_cases hsp : Special nm (fun n => lookup (S := Dir N C depth) n frm) (fun n => lookup (S := Dir N C depth) n to) n
      · have := (b2 n).1 hsp
        obtain ⟨⟨c, hc⟩, _⟩ := hsp
        simp only at hc
        rw [hd, hc] at this; cases this
      · rw [← (b2 n).2 hsp]; exact hd
    have hable : Able nm (softUpdate nm reduce depth) (sortEntries frm₁) (sortEntries to) := by
      refine ⟨?_, hp, ?_, ?_, ?_⟩
      · rintro ⟨n, v⟩ hx ⟨m, w⟩ hy he hk
        simp only at he hk ⊢
        subst he
        cases v with
        | inr _ => simp [kind] at hk
        | inl c =>
          cases w with
          | inl _ => rfl
          | inr d =>
            exfalso
            have h1 := mF _ _ hx
            have h2 := mT _ _ hy
            by_cases hsp : Special nm (fun n => lookup (S := Dir N C depth) n frm) (fun n => lookup (S := Dir N C depth) n to) n
            · obtain ⟨⟨c, hc⟩, _⟩ := hsp
              simp only at hc
              rw [h2] at hc; cases hc
            · rw [(b2 n).2 hsp] at h1
              exact c3 n c d h1 h2
      · rintro ⟨n, v⟩ hx hk
        cases v with
        | inl _ => simp [kind] at hk
        | inr d => exact (c1 n d (hdir n d (mF _ _ hx))).1
      · rintro ⟨n, v⟩ hx hk
        cases v with
        | inl _ => simp [kind] at hk
        | inr d => exact c2 n d (mT _ _ hx)
      · intro n d d' h1 h2
        have h1' := hdir n d (mF _ _ h1)
        have h2' := mT _ _ h2
        exact C46_completes_partial hp depth d d' (hf.2.2 n d (lookup_mem h1')) (ht.2.2 n d' (lookup_mem h2')) (c5 n d d' h1' h2')
    have hcov : Covered (sortEntries frm₁) (sortEntries to) := by
      rcases c4 _ b2 with h0 | ⟨x, hx, hmax, h0⟩
      · left
        rw [List.eq_nil_iff_forall_not_mem]
        rintro ⟨n, v⟩ hm
        have := mF _ _ hm
        rw [h0 n] at this; cases this
      · right
        cases hl : lookup x frm₁ with
        | none => exact absurd hl hx
        | some v =>
          refine ⟨(x, v), lookup_mem (by rw [e1]; exact hl), ?_, ?_⟩
          · rintro ⟨n, w⟩ hm
            exact hmax n (by rw [mF _ _ hm]; simp)
          · rcases h0 with h0 | h0
            · left
              rintro ⟨n, w⟩ hm
              exact h0 n (by rw [mT _ _ hm]; simp)
            · right
              simp only [hl] at h0
              cases hl2 : lookup (S := Dir N C depth) x to with
              | none => rw [hl2] at h0; cases v <;> exact h0.elim
              | some w =>
                refine ⟨(x, w), lookup_mem (by rw [e2]; exact hl2), rfl, ?_⟩
                rw [hl2] at h0
                cases v <;> cases w <;> first | rfl | exact h0.elim
    obtain ⟨s, hs⟩ := update_ok (reduce := reduce) (Sub := fun _ _ _ _ => True) hF hT hable (fun _ _ _ _ _ => trivial) (frm₁.length + List.length (α := N × (C ⊕ Dir N C depth)) to + 1) Inv.start hcov (by
      rw [(sortEntries_perm frm₁).length_eq, (sortEntries_perm (C := C) (S := Dir N C depth) to).length_eq]; omega)
    refine ⟨(s.frm, s.to), ?_⟩
    unfold softUpdate updateEntries
    rw [hb]
    exact congrArg (fun r : Res (Done N C (Dir N C depth)) => r.bind fun s => .ok (s.frm, s.to)) hs

/-- **C46 (violated)** An update does not complete, whatever the contents, if the last entry of the source is not matched in the destination and there is something after it in the
destination: an iterator is dereferenced which is at its end. -/
theorem C46_overrun_violated (depth : Nat) (frm to : Dir N C (depth + 1)) (hf : WellFormed nm (depth + 1) frm) (ht : WellFormed nm (depth + 1) to)
    (g : N → Option (C ⊕ Dir N C depth)) (hg : Restored nm (fun n => lookup (S := Dir N C depth) n frm) (fun n => lookup (S := Dir N C depth) n to) g)
    (x y : N) (hx : g x ≠ none) (hmax : ∀ z, g z ≠ none → z ≤ x) (hxy : x < y) (hy : lookup (S := Dir N C depth) y to ≠ none)
    (hne : ¬ SameKind (g x) (lookup (S := Dir N C depth) x to)) (r : Dir N C (depth + 1) × Dir N C (depth + 1)) : softUpdate nm reduce (depth + 1) frm to ≠ .ok r := by
  intro h
  unfold softUpdate updateEntries at h
  cases hb : copyBack (S := Dir N C depth) nm to frm with
  | throws => rw [hb] at h; cases h
  | ub => rw [hb] at h; cases h
  | ok frm₁ =>
    rw [hb] at h
    simp only [Res.bind] at h
    obtain ⟨b1, b2⟩ := copyBack_spec (S := Dir N C depth) (nm := nm) (fun n => lookup (S := Dir N C depth) n frm) to ht.1 ht.2.1 to [] frm frm₁ rfl hf.1 (by intro n; simp [keys]) hb
    have hgl : ∀ n, lookup n frm₁ = g n := by
      intro n
      by_cases hs : Special nm (fun n => lookup (S := Dir N C depth) n frm) (fun n => lookup (S := Dir N C depth) n to) n
      · rw [(b2 n).1 hs, (hg n).1 hs]
      · rw [(b2 n).2 hs, (hg n).2 hs]
    have hF := sortEntries_strict b1
    have hT := sortEntries_strict ht.1
    have e1 : ∀ n, lookup n (sortEntries frm₁) = lookup n frm₁ := lookup_perm (sortEntries_perm _) (strict_nodup hF)
    have e2 : ∀ n, lookup n (sortEntries to) = lookup (S := Dir N C depth) n to := lookup_perm (sortEntries_perm _) (strict_nodup hT)
    cases hl : lookup x frm₁ with
    | none => exact hx (by rw [← hgl]; exact hl)
    | some v =>
      cases hl2 : lookup (S := Dir N C depth) y to with
      | none => exact hy hl2
      | some w =>
        cases hu : update nm reduce (softUpdate nm reduce depth) (frm₁.length + List.length (α := N × (C ⊕ Dir N C depth)) to + 1) (sortEntries frm₁)
            (sortEntries (C := C) (S := Dir N C depth) to) ⟨[], []⟩ with
        | throws => rw [hu] at h; cases h
        | ub => rw [hu] at h; cases h
        | ok s =>
          refine update_overrun (Sub := fun _ _ _ _ => True) hF hT (fun _ _ _ _ _ => trivial) (x, v) (y, w) hxy ?_ ?_ _ Inv.start (lookup_mem (by rw [e1]; exact hl))
            (lookup_mem (by rw [e2]; exact hl2)) s hu
          · rintro ⟨n, u⟩ hm
            refine hmax n ?_
            rw [← hgl, ← e1, lookup_of_mem (strict_nodup hF) hm]
            simp
          · rintro ⟨n, u⟩ hm
            unfold equiv
            by_cases hn : x = n
            · subst hn
              have h3 : lookup (S := Dir N C depth) x to = some u := by rw [← e2]; exact lookup_of_mem (strict_nodup hT) hm
              rw [h3, ← hgl, hl] at hne
              cases v <;> cases u <;> first | exact absurd trivial hne | simp [kind]
            · simp [hn]

end

/-! ### Examples, and what goes wrong -/

namespace SoftUpdate

/-- Names are numbers: the last digit is the extension, 9 being that of files with patterns, and 1000 is the file which keeps a directory. -/
def naming : Naming Nat := ⟨fun n => n % 10 == 9, fun n => n == 1000, fun n => n / 10, fun n => n / 10 * 10 + 9⟩

/-- The patterns cover all but the last digits of contents. -/
def red (p c : Nat) : Nat := c % (p + 1)

def frm₁ : Dir Nat Nat 2 := ([(20, .inl 5), (31, .inl 107), (40, .inr ([(50, .inl 1)] : Entries Nat Nat (Dir Nat Nat 0)))] : Entries Nat Nat (Dir Nat Nat 1))

def to₁ : Dir Nat Nat 2 :=
  ([(39, .inl 9), (31, .inl 17), (10, .inl 3), (40, .inr ([(50, .inl 2), (1000, .inl 0)] : Entries Nat Nat (Dir Nat Nat 0))), (60, .inl 4)] : Entries Nat Nat (Dir Nat Nat 1))

end SoftUpdate

namespace SoftUpdate

instance decDir : (depth : Nat) → DecidableEq (Dir Nat Nat depth)
  | 0 => fun a => nomatch a
  | depth + 1 =>
    have := decDir depth
    inferInstanceAs (DecidableEq (List (Nat × (Nat ⊕ Dir Nat Nat depth))))

instance decPair (depth : Nat) : DecidableEq (Dir Nat Nat depth × Dir Nat Nat depth) := inferInstance

/-- A file. -/
abbrev file {S : Type} (n c : Nat) : Nat × (Nat ⊕ S) := (n, .inl c)

/-- A directory. -/
abbrev dir {S : Type} (n : Nat) (d : S) : Nat × (Nat ⊕ S) := (n, .inr d)

/-- A directory, from its entries. -/
abbrev mk (depth : Nat) (l : Entries Nat Nat (Dir Nat Nat depth)) : Dir Nat Nat (depth + 1) := l

end SoftUpdate

open SoftUpdate in
/-- An update of two levels: 10 and 60 go, 20 is new, 31 stays as it is because of the patterns of 39, and within 40 the file 50 is replaced and 1000 is kept. -/
example : softUpdate naming red 2 frm₁ to₁ = .ok (mk 1 [file 20 5, file 31 107, file 39 9, dir 40 (mk 0 [file 50 1, file 1000 0])],
    mk 1 [file 20 5, file 31 17, file 39 9, dir 40 (mk 0 [file 50 1, file 1000 0])]) := by
  decide +kernel

open SoftUpdate in
/-- The directories of the example meet the hypotheses of `C46_updated_partial`. -/
example : WellFormed naming 2 frm₁ ∧ WellFormed naming 2 to₁ := by
  have hk : ∀ (S : Type) (l : Entries Nat Nat S), (∀ e ∈ l, naming.isPattern e.1 = true → e.1 ≠ 1009) → NoPatternForKeep naming l := by
    intro S l h e he hp k hk hs
    have h1 := h e he hp
    simp only [naming, beq_iff_eq] at hp hk hs
    omega
  refine ⟨⟨by decide, hk _ _ (by simp [frm₁, naming]), ?_⟩, ⟨by decide, hk _ _ (by simp [to₁, naming]), ?_⟩⟩
  · intro n d h
    simp only [frm₁, List.mem_cons, Prod.mk.injEq, reduceCtorEq, and_false, false_or, List.not_mem_nil, or_false] at h
    cases h.2
    exact ⟨by decide, hk _ _ (by simp [naming]), by simp⟩
  · intro n d h
    simp only [to₁, List.mem_cons, Prod.mk.injEq, reduceCtorEq, and_false, false_or, List.not_mem_nil, or_false] at h
    cases h.2
    exact ⟨by decide, hk _ _ (by simp [naming]), by simp⟩

open SoftUpdate in
/-- Two directories without special files, as in `C46_identical_partial`. -/
example : ∃ r, softUpdate naming red 1 (mk 0 [file 10 1, file 20 2]) (mk 0 [file 20 1, file 15 3]) = .ok r ∧ Plain naming 1 (mk 0 [file 10 1, file 20 2]) ∧
    Plain naming 1 (mk 0 [file 20 1, file 15 3]) := by
  refine ⟨(mk 0 [file 10 1, file 20 2], mk 0 [file 10 1, file 20 2]), by decide +kernel, ?_, ?_⟩
  · intro e he
    rcases List.mem_cons.mp he with rfl | he
    · exact ⟨by decide, by decide, by simp⟩
    · rcases List.mem_cons.mp he with rfl | he
      · exact ⟨by decide, by decide, by simp⟩
      · cases he
  · intro e he
    rcases List.mem_cons.mp he with rfl | he
    · exact ⟨by decide, by decide, by simp⟩
    · rcases List.mem_cons.mp he with rfl | he
      · exact ⟨by decide, by decide, by simp⟩
      · cases he

open SoftUpdate in
/-- Two directories which meet the hypotheses of `C46_completes_partial`. -/
example : Completable naming 1 (mk 0 [file 10 1, file 20 2]) (mk 0 [file 20 1, file 15 3]) := by
  have l1 : ∀ n, lookup n (mk 0 [file 10 1, file 20 2]) = if 10 = n then some (.inl 1) else if 20 = n then some (.inl 2) else none := by
    intro n; unfold lookup; by_cases h : 10 = n <;> by_cases h' : 20 = n <;> simp [h, h']
  have l2 : ∀ n, lookup n (mk 0 [file 20 1, file 15 3]) = if 20 = n then some (.inl 1) else if 15 = n then some (.inl 3) else none := by
    intro n; unfold lookup; by_cases h : 20 = n <;> by_cases h' : 15 = n <;> simp [h, h']
  refine ⟨?_, ?_, ?_, ?_, ?_⟩
  · intro n d h
    rw [l1] at h
    split at h <;> [cases h; split at h <;> cases h]
  · intro n d h
    rw [l2] at h
    split at h <;> [cases h; split at h <;> cases h]
  · intro n c d _ h
    rw [l2] at h
    split at h <;> [cases h; split at h <;> cases h]
  · intro g hg
    have hns : ∀ n, ¬ Special naming (fun n => lookup n (mk 0 [file 10 1, file 20 2])) (fun n => lookup n (mk 0 [file 20 1, file 15 3])) n := by
      rintro n ⟨⟨c, hc⟩, h⟩
      simp only [l2] at hc
      simp only [naming, beq_iff_eq, beq_eq_false_iff_ne] at h
      split at hc
      · omega
      · split at hc
        · omega
        · cases hc
    have hg' : ∀ n, g n = lookup n (mk 0 [file 10 1, file 20 2]) := fun n => (hg n).2 (hns n)
    right
    refine ⟨20, by rw [hg', l1]; decide, ?_, .inl ?_⟩
    · intro z hz
      rw [hg', l1] at hz
      split at hz
      · omega
      · split at hz
        · omega
        · exact absurd rfl hz
    · intro z hz
      rw [l2] at hz
      split at hz
      · omega
      · split at hz
        · omega
        · exact absurd rfl hz
  · intro n d d' h
    rw [l1] at h
    split at h <;> [cases h; split at h <;> cases h]

open SoftUpdate in
/-- The overrun: the source has a file 10, the destination another one, 20. -/
example : softUpdate naming red 1 (mk 0 [file 10 1]) (mk 0 [file 20 1]) = .ub := by decide +kernel

/-- **C46 (violated)** A file does not replace a directory of the same name: an exception is thrown. -/
theorem C46_file_over_directory_violated : softUpdate SoftUpdate.naming SoftUpdate.red 2 (SoftUpdate.mk 1 [SoftUpdate.file 10 1])
    (SoftUpdate.mk 1 [SoftUpdate.dir 10 (SoftUpdate.mk 0 [])]) = .throws := by
  decide +kernel

end Verif.Props
