import Verif.Spec.PathCheck
import Verif.Lemmas.SoftUpdate
/- Lemmas about the comparison of paths. -/
set_option linter.unusedSectionVars false

namespace Verif.PathCheck
open Verif.SoftUpdate Verif.Spec.SoftUpdate Verif.Spec.PathCheck

theorem passes_ok {l : Log} : Passes (.ok l) ↔ ∀ b ∈ l, b = true := by
  constructor
  · rintro ⟨log, h, h'⟩
    cases h
    exact h'
  · exact fun h => ⟨l, rfl, h⟩

theorem not_passes_throws : ¬ Passes .throws := fun ⟨_, h, _⟩ => nomatch h

theorem not_passes_ub : ¬ Passes .ub := fun ⟨_, h, _⟩ => nomatch h

theorem passes_andThen {l : Log} {r : Res Log} : Passes (Log.andThen l r) ↔ (∀ b ∈ l, b = true) ∧ Passes r := by
  cases r with
  | throws => exact ⟨fun h => absurd h not_passes_throws, fun h => absurd h.2 not_passes_throws⟩
  | ub => exact ⟨fun h => absurd h not_passes_ub, fun h => absurd h.2 not_passes_ub⟩
  | ok m =>
    show Passes (.ok (l ++ m)) ↔ _
    rw [passes_ok, passes_ok]
    simp only [List.mem_append, or_imp, forall_and]

theorem passes_bind {r s : Res Log} : Passes (r.bind fun log => Log.andThen log s) ↔ Passes r ∧ Passes s := by
  cases r with
  | throws => exact ⟨fun h => absurd h not_passes_throws, fun h => absurd h.1 not_passes_throws⟩
  | ub => exact ⟨fun h => absurd h not_passes_ub, fun h => absurd h.1 not_passes_ub⟩
  | ok m => show Passes (Log.andThen m s) ↔ _; rw [passes_andThen, passes_ok]

section
variable {N C S : Type} [LinearOrder N] [DecidableEq C] {nm : Names N}

theorem firstMismatch_eq : ∀ {l l' : List N}, (firstMismatch l l').1 = (firstMismatch l l').2 ↔ l = l'
  | [], [] => by simp [firstMismatch]
  | [], n :: l => by simp [firstMismatch]
  | n :: l, [] => by simp [firstMismatch]
  | n :: l, n' :: l' => by
    unfold firstMismatch
    split
    · rename_i h
      subst h
      rw [firstMismatch_eq]
      simp
    · rename_i h
      simp [h]

theorem firstMismatch_self : ∀ (l : List N), firstMismatch l l = (none, none)
  | [] => rfl
  | n :: l => by unfold firstMismatch; rw [if_pos rfl, firstMismatch_self l]

theorem lookup_cons (n m : N) (v : C ⊕ S) (l : Entries N C S) : lookup n ((m, v) :: l) = if m = n then some v else lookup n l := by
  unfold lookup
  rw [List.find?_cons]
  by_cases h : m = n <;> simp [h]

/-- Something is in both or in none, and the relation holds. -/
def Both {α : Type} (R : α → α → Prop) : Option α → Option α → Prop
  | none, none => True
  | some x, some y => R x y
  | _, _ => False

theorem keys_eq {l l' : Entries N C S} (h : Strict l) (h' : Strict l') (hk : ∀ n, n ∈ keys l ↔ n ∈ keys l') : keys l = keys l' := by
  induction l generalizing l' with
  | nil =>
    cases l' with
    | nil => rfl
    | cons y l' => exact absurd ((hk y.1).mpr (by simp [keys])) (by simp [keys])
  | cons x l ih =>
    cases l' with
    | nil => exact absurd ((hk x.1).mp (by simp [keys])) (by simp [keys])
    | cons y l' =>
      have a := List.pairwise_cons.mp h
      have a' := List.pairwise_cons.mp h'
      have lt : ∀ n ∈ keys l, x.1 < n := fun n hn => by
        obtain ⟨z, hz, rfl⟩ := mem_keys.mp hn
        exact a.1 z hz
      have lt' : ∀ n ∈ keys l', y.1 < n := fun n hn => by
        obtain ⟨z, hz, rfl⟩ := mem_keys.mp hn
        exact a'.1 z hz
      have kc : ∀ n, (n = x.1 ∨ n ∈ keys l) ↔ (n = y.1 ∨ n ∈ keys l') := fun n => by
        have := hk n
        simpa [keys] using this
      have e : x.1 = y.1 := by
        rcases (kc x.1).mp (Or.inl rfl) with e | e
        · exact e
        · rcases (kc y.1).mpr (Or.inl rfl) with e' | e'
          · exact e'.symm
          · exact absurd (lt_trans (lt' _ e) (lt _ e')) (lt_irrefl _)
      have := ih a.2 a'.2 (fun n => by
        constructor
        · intro hn
          rcases (kc n).mp (Or.inr hn) with r | r
          · exact absurd (lt n hn) (by rw [r, e]; exact lt_irrefl _)
          · exact r
        · intro hn
          rcases (kc n).mpr (Or.inr hn) with r | r
          · exact absurd (lt' n hn) (by rw [r, ← e]; exact lt_irrefl _)
          · exact r)
      show x.1 :: keys l = y.1 :: keys l'
      rw [e, this]

theorem mem_keys_iff {n : N} {l : Entries N C S} : n ∈ keys l ↔ lookup n l ≠ none := by
  rw [ne_eq, lookup_none, Classical.not_not]

theorem both_keys {R : C ⊕ S → C ⊕ S → Prop} {l l' : Entries N C S} (h : ∀ n, Both R (lookup n l) (lookup n l')) (n : N) : n ∈ keys l ↔ n ∈ keys l' := by
  rw [mem_keys_iff, mem_keys_iff]
  have := h n
  revert this
  cases lookup n l <;> cases lookup n l' <;> simp [Both]

/-- What is not ignored. -/
def visible (nm : Names N) (n : N) : Bool := !(nm.isStore n || nm.isKeep n) && !nm.isPattern n

theorem visible_iff {n : N} : visible nm n = true ↔ ¬ Ignored nm n := by
  unfold visible Ignored
  cases nm.isStore n <;> cases nm.isKeep n <;> cases nm.isPattern n <;> simp

theorem lookup_filter {p : N → Bool} (n : N) : ∀ l : Entries N C S, lookup n (l.filter fun e => p e.1) = if p n then lookup n l else none
  | [] => by simp [lookup]
  | (m, v) :: l => by
    rw [List.filter_cons, lookup_cons]
    by_cases hp : p m = true
    · rw [if_pos hp, lookup_cons, lookup_filter n l]
      by_cases hm : m = n
      · subst hm; simp [hp]
      · simp [hm]
    · rw [if_neg hp, lookup_filter n l]
      by_cases hm : m = n
      · subst hm; simp [hp]
      · simp [hm]

theorem filter_keys_nodup {p : N × (C ⊕ S) → Bool} {l : Entries N C S} (h : (keys l).Nodup) : (keys (l.filter p)).Nodup :=
  h.sublist (List.Sublist.map _ List.filter_sublist)

theorem listing_strict {l : Entries N C S} (h : (keys l).Nodup) : Strict (listing nm l) := sortEntries_strict (filter_keys_nodup h)

theorem lookup_listing {l : Entries N C S} (h : (keys l).Nodup) (n : N) : lookup n (listing nm l) = if visible nm n then lookup n l else none := by
  unfold listing
  rw [lookup_perm (sortEntries_perm _) (strict_nodup (listing_strict (nm := nm) h))]
  exact lookup_filter (p := visible nm) n l

variable {strict : Bool} {comparer : Comparer N C S} {sub : S → S → Res Log}

/-- What is compared further. -/
def Inner (comparer : Comparer N C S) (sub : S → S → Res Log) (dir : Entries N C S) (n n' : N) : C ⊕ S → C ⊕ S → Prop
  | .inl c, .inl c' => Passes (comparer n n' c c' dir)
  | .inr d, .inr d' => Passes (sub d d')
  | _, _ => False

theorem checkPath_passes {dir : Entries N C S} {n n' : N} {x y : C ⊕ S} :
    Passes (checkPath strict comparer sub dir n n' x y) ↔ (strict = true → n = n') ∧ Inner comparer sub dir n n' x y := by
  unfold checkPath finalTokens
  cases x <;> cases y <;> simp only [kind]
  case inl.inr => simp [passes_ok, Inner]
  case inr.inl => simp [passes_ok, Inner]
  all_goals
    rw [if_pos trivial]
    cases strict with
    | false =>
      try dsimp only
      simp [passes_andThen, Inner]
    | true =>
      by_cases h : n = n'
      · subst h
        simp [passes_andThen, Inner]
      · simp [passes_andThen, h]

theorem checkPaths_passes {dir : Entries N C S} : ∀ {l l' : Entries N C S}, keys l = keys l' → (keys l).Nodup →
    (Passes (checkPaths strict comparer sub dir l l') ↔ ∀ n, Both (Inner comparer sub dir n n) (lookup n l) (lookup n l'))
  | [], [], _, _ => by
    simp [checkPaths, passes_ok, lookup, Both]
  | [], y :: l', h, _ => by simp [keys] at h
  | x :: l, [], h, _ => by simp [keys] at h
  | (m, x) :: l, (m', y) :: l', h, hd => by
    have h1 : m = m' ∧ keys l = keys l' := by simpa [keys] using h
    obtain ⟨rfl, h2⟩ := h1
    have hd' : m ∉ keys l ∧ (keys l).Nodup := by simpa [keys] using hd
    unfold checkPaths
    rw [passes_bind, checkPath_passes, checkPaths_passes h2 hd'.2]
    constructor
    · rintro ⟨⟨-, a⟩, b⟩ n
      rw [lookup_cons, lookup_cons]
      by_cases hm : m = n
      · subst hm
        rw [if_pos rfl, if_pos rfl]
        exact a
      · rw [if_neg hm, if_neg hm]
        exact b n
    · intro a
      refine ⟨⟨fun _ => rfl, ?_⟩, fun n => ?_⟩
      · have := a m
        rw [lookup_cons, lookup_cons, if_pos rfl, if_pos rfl] at this
        exact this
      · by_cases hm : m = n
        · subst hm
          rw [lookup_none.mpr hd'.1, lookup_none.mpr (h2 ▸ hd'.1)]
          trivial
        · have := a n
          rw [lookup_cons, lookup_cons, if_neg hm, if_neg hm] at this
          exact this

theorem checkEntries_passes {d d' : Entries N C S} (hd : (keys d).Nodup) (hd' : (keys d').Nodup) :
    Passes (checkEntries nm strict comparer sub d d') ↔ ∀ n, ¬ Ignored nm n → Both (Inner comparer sub d' n n) (lookup n d) (lookup n d') := by
  have hs := listing_strict (nm := nm) hd
  have hs' := listing_strict (nm := nm) hd'
  have key : (∀ n, ¬ Ignored nm n → Both (Inner comparer sub d' n n) (lookup n d) (lookup n d')) ↔
      ∀ n, Both (Inner comparer sub d' n n) (lookup n (listing nm d)) (lookup n (listing nm d')) := by
    refine forall_congr' fun n => ?_
    rw [lookup_listing hd, lookup_listing hd', ← visible_iff]
    cases visible nm n <;> simp [Both]
  rw [key]
  unfold checkEntries
  dsimp only
  rw [passes_andThen]
  by_cases he : keys (listing nm d) = keys (listing nm d')
  · have hlen : (listing nm d).length = (listing nm d').length := by
      have := congrArg List.length he
      simpa [keys] using this
    have hm : firstMismatch ((listing nm d).map (·.1)) ((listing nm d').map (·.1)) = (none, none) := by
      show firstMismatch (keys _) (keys _) = _
      rw [he, firstMismatch_self]
    rw [hm]
    dsimp only
    rw [checkPaths_passes he (strict_nodup hs)]
    simp [hlen]
  · have hr : ¬ ∀ n, Both (Inner comparer sub d' n n) (lookup n (listing nm d)) (lookup n (listing nm d')) := fun h =>
      he (keys_eq hs hs' fun n => by
        rw [mem_keys_iff, mem_keys_iff]
        have := h n
        revert this
        cases lookup n (listing nm d) <;> cases lookup n (listing nm d') <;> simp [Both])
    refine iff_of_false (fun h => ?_) hr
    have hne : (firstMismatch (keys (listing nm d)) (keys (listing nm d'))).1 ≠ (firstMismatch (keys (listing nm d)) (keys (listing nm d'))).2 := fun h => he (firstMismatch_eq.mp h)
    have h2 := h.2
    revert h2
    show ¬ Passes (match firstMismatch (keys (listing nm d)) (keys (listing nm d')) with
      | (none, none) => checkPaths strict comparer sub d' (listing nm d) (listing nm d')
      | (n, n') => .ok [decide (n = n')])
    generalize firstMismatch (keys (listing nm d)) (keys (listing nm d')) = p at hne
    obtain ⟨a, b⟩ := p
    cases a <;> cases b
    · exact absurd rfl hne
    all_goals
      rw [passes_ok]
      simp only [List.mem_singleton, forall_eq, decide_eq_true_eq]
      exact hne

end

section
variable {N C : Type} [LinearOrder N] [DecidableEq C] {nm : Names N} {strict : Bool} {comparer : FileChecker N C}

theorem distinct_nodup {depth : Nat} {d : Dir N C (depth + 1)} (h : Distinct (depth + 1) d) : (keys (S := Dir N C depth) d).Nodup := h.1

theorem checkDirectory_passes : ∀ (depth : Nat) (d d' : Dir N C depth), Distinct depth d → Distinct depth d' →
    (Passes (checkDirectory nm strict comparer depth d d') ↔ Agree nm (passesFile comparer) depth d d')
  | 0, d, _, _, _ => nomatch d
  | depth + 1, d, d', h, h' => by
    unfold checkDirectory Agree
    rw [checkEntries_passes h.1 h'.1]
    refine forall_congr' fun n => imp_congr_right fun _ => ?_
    cases e : lookup (S := Dir N C depth) n d with
    | none => cases e' : lookup (S := Dir N C depth) n d' <;> simp [Both]
    | some x =>
      cases e' : lookup (S := Dir N C depth) n d' with
      | none => cases x <;> simp [Both]
      | some y =>
        cases x with
        | inl c => cases y <;> simp [Both, Inner, passesFile]
        | inr a =>
          cases y with
          | inl c => simp [Both, Inner]
          | inr b => exact checkDirectory_passes depth a b (h.2 n a (lookup_mem e)) (h'.2 n b (lookup_mem e'))

theorem checkPath_agree {depth : Nat} {dir : Entries N C (Dir N C depth)} {n n' : N} {x y : C ⊕ Dir N C depth} (hx : ∀ d, x = .inr d → Distinct depth d)
    (hy : ∀ d, y = .inr d → Distinct depth d) :
    Passes (checkPath strict (comparer _) (checkDirectory nm strict comparer depth) dir n n' x y) ↔
      (strict = true → n = n') ∧ AgreeItems nm (passesFile comparer) depth n n' dir x y := by
  rw [checkPath_passes]
  refine and_congr_right fun _ => ?_
  cases x <;> cases y
  case inr.inr d d' => exact checkDirectory_passes depth d d' (hx d rfl) (hy d' rfl)
  all_goals exact Iff.rfl

theorem agree_congr {File File' : Agreement N C} (hf : ∀ S n n' c c' dir, File S n n' c c' dir ↔ File' S n n' c c' dir) : ∀ (depth : Nat) (d d' : Dir N C depth),
    Agree nm File depth d d' ↔ Agree nm File' depth d d'
  | 0, _, _ => Iff.rfl
  | depth + 1, d, d' => by
    unfold Agree
    refine forall_congr' fun n => imp_congr_right fun _ => ?_
    cases lookup (S := Dir N C depth) n d with
    | none => cases lookup (S := Dir N C depth) n d' <;> exact Iff.rfl
    | some x =>
      cases lookup (S := Dir N C depth) n d' with
      | none => cases x <;> exact Iff.rfl
      | some y =>
        cases x with
        | inl c =>
          cases y with
          | inl c' => exact hf ..
          | inr b => exact Iff.rfl
        | inr a =>
          cases y with
          | inl c => exact Iff.rfl
          | inr b => exact agree_congr hf depth a b

theorem agreeItems_congr {File File' : Agreement N C} (hf : ∀ S n n' c c' dir, File S n n' c c' dir ↔ File' S n n' c c' dir) {depth : Nat} {n n' : N}
    {dir : Entries N C (Dir N C depth)} {x y : C ⊕ Dir N C depth} : AgreeItems nm File depth n n' dir x y ↔ AgreeItems nm File' depth n n' dir x y := by
  cases x <;> cases y
  · exact hf ..
  · exact Iff.rfl
  · exact Iff.rfl
  · exact agree_congr hf ..

end

section
variable {N C S : Type} [LinearOrder N] [DecidableEq C] {nm : Names N} {reduce : C → C → C}

theorem stringBased_passes {n n' : N} {c c' : C} {dir : Entries N C S} : Passes (stringBased nm reduce n n' c c' dir) ↔ SameContent nm reduce n n' c c' dir := by
  unfold stringBased SameContent
  cases nm.isPattern n with
  | true => simp [passes_ok]
  | false =>
    simp only [Bool.false_eq_true, if_false]
    cases lookup (nm.patternOf n') dir with
    | none => simp [passes_ok]
    | some p =>
      cases p with
      | inl p => simp [passes_ok]
      | inr d => exact iff_of_false not_passes_throws id

end

section
variable {N C S : Type} [LinearOrder N] [DecidableEq C] {nm : Names N} {strict : Bool} {comparer : Comparer N C S} {sub : S → S → Res Log}

theorem andThen_ok {l : Log} {r : Res Log} (h : ∃ m, r = .ok m) : ∃ m, Log.andThen l r = .ok m := by
  obtain ⟨m, rfl⟩ := h
  exact ⟨l ++ m, rfl⟩

theorem checkPath_ok {dir : Entries N C S} {n n' : N} {x y : C ⊕ S} (hc : ∀ c c', ∃ l, comparer n n' c c' dir = .ok l)
    (hs : ∀ d d', x = .inr d → y = .inr d' → ∃ l, sub d d' = .ok l) : ∃ l, checkPath strict comparer sub dir n n' x y = .ok l := by
  unfold checkPath
  split
  · rename_i hk
    generalize finalTokens strict n n' = t
    obtain ⟨log, same⟩ := t
    dsimp only
    apply andThen_ok
    cases same with
    | false => exact ⟨[], rfl⟩
    | true =>
      rw [if_pos rfl]
      cases x with
      | inl c =>
        cases y with
        | inl c' => exact hc c c'
        | inr d => cases hk
      | inr d =>
        cases y with
        | inl c => cases hk
        | inr d' => exact hs d d' rfl rfl
  · exact ⟨_, rfl⟩

theorem checkPaths_ok {dir : Entries N C S} (hc : ∀ n n' c c', ∃ l, comparer n n' c c' dir = .ok l) : ∀ (l l' : Entries N C S),
    (∀ n n' d d', (n, Sum.inr d) ∈ l → (n', Sum.inr d') ∈ l' → ∃ r, sub d d' = .ok r) → ∃ r, checkPaths strict comparer sub dir l l' = .ok r
  | [], l', _ => ⟨[], by unfold checkPaths; rfl⟩
  | x :: l, [], _ => ⟨[], rfl⟩
  | (n, x) :: l, (n', y) :: l', hs => by
    obtain ⟨r, hr⟩ := checkPath_ok (strict := strict) (dir := dir) (x := x) (y := y) (hc n n') fun d d' e e' => hs n n' d d' (by simp [e]) (by simp [e'])
    obtain ⟨m, hm⟩ := checkPaths_ok hc l l' fun n n' d d' h h' => hs n n' d d' (List.mem_cons_of_mem _ h) (List.mem_cons_of_mem _ h')
    unfold checkPaths
    rw [hr, hm]
    exact ⟨r ++ m, rfl⟩

theorem mem_listing {e : N × (C ⊕ S)} {l : Entries N C S} (h : e ∈ listing nm l) : e ∈ l := by
  unfold listing at h
  exact (List.mem_filter.mp ((sortEntries_perm _).mem_iff.mp h)).1

theorem checkEntries_ok {d d' : Entries N C S} (hc : ∀ n n' c c', ∃ l, comparer n n' c c' d' = .ok l)
    (hs : ∀ n n' e e', (n, Sum.inr e) ∈ d → (n', Sum.inr e') ∈ d' → ∃ r, sub e e' = .ok r) : ∃ r, checkEntries nm strict comparer sub d d' = .ok r := by
  unfold checkEntries
  dsimp only
  apply andThen_ok
  split
  · exact checkPaths_ok hc _ _ fun n n' e e' h h' => hs n n' e e' (mem_listing h) (mem_listing h')
  · exact ⟨_, rfl⟩

end

section
variable {N C : Type} [LinearOrder N] [DecidableEq C] {nm : Names N} {strict : Bool} {reduce : C → C → C}

theorem pattern_not_dir (hl : Lawful nm) {depth : Nat} {l : Entries N C (Dir N C depth)} (h : NoPatternDirectory nm (depth + 1) l) (n : N) (d : Dir N C depth) :
    lookup (nm.patternOf n) l ≠ some (.inr d) := fun e => by
  have := (h _ _ (lookup_mem e)).1
  rw [hl.pattern] at this
  cases this

theorem stringBased_ok (hl : Lawful nm) {depth : Nat} {l : Entries N C (Dir N C depth)} (h : NoPatternDirectory nm (depth + 1) l) (n n' : N) (c c' : C) :
    ∃ r, stringBased nm reduce n n' c c' l = .ok r := by
  unfold stringBased
  split
  · exact ⟨_, rfl⟩
  · split
    · exact ⟨_, rfl⟩
    · exact ⟨_, rfl⟩
    · rename_i e
      exact absurd e (pattern_not_dir hl h n' _)

theorem checkDirectory_ok (hl : Lawful nm) : ∀ (depth : Nat) (d d' : Dir N C depth), NoPatternDirectory nm depth d' → ∃ r, checkDirectory nm strict (basic nm reduce) depth d d' = .ok r
  | 0, d, _, _ => nomatch d
  | depth + 1, d, d', h => by
    unfold checkDirectory
    exact checkEntries_ok (S := Dir N C depth) (fun n n' c c' => stringBased_ok hl h n n' c c') fun n n' e e' _ h' => checkDirectory_ok hl depth e e' (h n' e' h').2

theorem sameContent_refl {S : Type} {n n' : N} {c : C} {dir : Entries N C S} (h : ∀ d, lookup (nm.patternOf n') dir ≠ some (.inr d)) : SameContent nm reduce n n' c c dir := by
  unfold SameContent
  split
  · rfl
  · split
    · rfl
    · rfl
    · rename_i e
      exact absurd e (h _)

theorem agree_refl (hl : Lawful nm) : ∀ (depth : Nat) (d : Dir N C depth), NoPatternDirectory nm depth d → Agree nm (same nm reduce) depth d d
  | 0, d, _ => nomatch d
  | depth + 1, d, h => by
    intro n _
    cases e : lookup (S := Dir N C depth) n d with
    | none => trivial
    | some x =>
      cases x with
      | inl c => exact sameContent_refl fun d => pattern_not_dir hl h n d
      | inr a => exact agree_refl hl depth a (h n a (lookup_mem e)).2

theorem wellFormed_distinct : ∀ (depth : Nat) (d : Dir N C depth), WellFormed nm.toNaming depth d → Distinct depth d
  | 0, d, _ => nomatch d
  | depth + 1, _, h => ⟨h.1, fun n e he => wellFormed_distinct depth e (h.2.2 n e he)⟩

/-- What is not a special file is as it was in the source. -/
theorem restored_dir {S : Type} {f t g : N → Option (C ⊕ S)} (h : Restored nm.toNaming f t g) {n : N} {d : S} (hg : g n = some (.inr d)) : f n = some (.inr d) := by
  by_cases hs : Special nm.toNaming f t n
  · obtain ⟨⟨c, hc⟩, _⟩ := hs
    have := (h n).1 ⟨⟨c, hc⟩, by assumption⟩
    rw [this, hc] at hg
    cases hg
  · rw [← (h n).2 hs]
    exact hg

/-- One level of `updated_distinct`. -/
theorem level_distinct {S : Type} {Sub : S → S → S → S → Prop} {P : S → Prop} {f t g f' w : N → Option (C ⊕ S)} {n : N} (hg : Restored nm.toNaming f t g)
    (hu : UpdatedAt nm.toNaming reduce Sub g t f' w n) (hs : ∀ d d' e e', f n = some (.inr d) → t n = some (.inr d') → Sub d d' e e' → P e ∧ P e')
    (hc : ∀ d, f n = some (.inr d) → P d) (d : S) (hd : f' n = some (.inr d) ∨ w n = some (.inr d)) : P d := by
  unfold UpdatedAt at hu
  split at hu
  · rw [hu.1, hu.2] at hd
    rcases hd with hd | hd <;> cases hd
  · rw [hu.1, hu.2] at hd
    rcases hd with hd | hd <;> cases hd
  · rename_i c c' _ _
    obtain ⟨u1, u2, u3⟩ := hu
    rcases hd with hd | hd
    · rw [u1] at hd; cases hd
    · by_cases hS : Same nm.toNaming reduce t w n c c'
      · rw [u2 hS] at hd; cases hd
      · rw [u3 hS] at hd; cases hd
  · exact hu.elim
  · rename_i a b h1 h2
    obtain ⟨e, e', u1, u2, u3⟩ := hu
    have ih := hs a b e e' (restored_dir hg h1) h2 u3
    rcases hd with hd | hd
    · rw [u1] at hd; cases hd; exact ih.1
    · rw [u2] at hd; cases hd; exact ih.2
  · rename_i a h1 _
    have ih := hc a (restored_dir hg h1)
    rw [hu.1, hu.2] at hd
    rcases hd with hd | hd <;> (cases hd; exact ih)

theorem updated_distinct : ∀ (depth : Nat) (frm old frm' new : Dir N C depth), WellFormed nm.toNaming depth frm → WellFormed nm.toNaming depth old →
    Updated nm.toNaming reduce depth frm old frm' new → Distinct depth frm' ∧ Distinct depth new
  | 0, d, _, _, _, _, _, _ => nomatch d
  | depth + 1, frm, old, frm', new, hf, ho, h => by
    obtain ⟨k, k', g, hg, hu⟩ := h
    have main : ∀ n d, (lookup (S := Dir N C depth) n frm' = some (.inr d) ∨ lookup (S := Dir N C depth) n new = some (.inr d)) → Distinct depth d := fun n d hd =>
      level_distinct (P := Distinct depth) hg (hu n)
        (fun a b e e' h1 h2 u => updated_distinct depth a b e e' (hf.2.2 n a (lookup_mem h1)) (ho.2.2 n b (lookup_mem h2)) u)
        (fun a h1 => wellFormed_distinct depth a (hf.2.2 n a (lookup_mem h1))) d hd
    exact ⟨⟨k, fun n d hd => main n d (Or.inl (lookup_of_mem k hd))⟩, ⟨k', fun n d hd => main n d (Or.inr (lookup_of_mem k' hd))⟩⟩

/-- `SameContent` in terms of what there is in the directory of the prediction. -/
def SameIn {S : Type} (nm : Names N) (reduce : C → C → C) (n : N) (c c' : C) (w : N → Option (C ⊕ S)) : Prop :=
  if nm.isPattern n = true then c = c'
  else
    match w (nm.patternOf n) with
    | none => c = c'
    | some (.inl p) => reduce p c = reduce p c'
    | some (.inr _) => False

theorem sameIn_refl {S : Type} {n : N} {c : C} {w : N → Option (C ⊕ S)} (h : ∀ d, w (nm.patternOf n) ≠ some (.inr d)) : SameIn nm reduce n c c w := by
  unfold SameIn
  split
  · rfl
  · split
    · rfl
    · rfl
    · rename_i e
      exact absurd e (h _)

/-- One level of `Agree`. -/
def AgreeAt {S : Type} (nm : Names N) (reduce : C → C → C) (R : S → S → Prop) (w : N → Option (C ⊕ S)) (n : N) : Option (C ⊕ S) → Option (C ⊕ S) → Prop
  | none, none => True
  | some (.inl c), some (.inl c') => SameIn nm reduce n c c' w
  | some (.inr e), some (.inr e') => R e e'
  | _, _ => False

/-- One level of `updated_agree`. -/
theorem level_agree {S : Type} (hl : Lawful nm) {Sub : S → S → S → S → Prop} {R : S → S → Prop} {f t g f' w : N → Option (C ⊕ S)} (hg : Restored nm.toNaming f t g)
    (hu : ∀ n, UpdatedAt nm.toNaming reduce Sub g t f' w n) (hp : ∀ n d, f (nm.patternOf n) ≠ some (.inr d)) {n : N} (hn : ¬ Ignored nm n)
    (hs : ∀ d d' e e', f n = some (.inr d) → t n = some (.inr d') → Sub d d' e e' → R e e') (hc : ∀ d, f n = some (.inr d) → R d d) :
    AgreeAt nm reduce R w n (f' n) (w n) := by
  have nodir : ∀ n d, w (nm.patternOf n) ≠ some (.inr d) := fun n d hd =>
    level_distinct (P := fun _ => False) hg (hu (nm.patternOf n)) (fun _ _ _ _ h1 _ _ => absurd h1 (hp n _)) (fun _ h1 => absurd h1 (hp n _)) d (Or.inr hd)
  have hi : nm.isPattern n = false ∧ nm.isKeep n = false := by
    unfold Ignored at hn
    cases e1 : nm.isPattern n <;> cases e2 : nm.isKeep n <;> simp_all
  have hns : ¬ Special nm.toNaming f t n := by
    rintro ⟨-, ⟨e, -⟩ | ⟨-, e⟩⟩
    · rw [hi.1] at e; cases e
    · rw [hi.2] at e; cases e
  have hgn := (hg n).2 hns
  have un := hu n
  unfold UpdatedAt at un
  split at un
  · rw [un.1, un.2]; trivial
  · rw [un.1, un.2]
    exact sameIn_refl (nodir n)
  · rename_i c c' h1 h2
    obtain ⟨u1, u2, u3⟩ := un
    rw [u1]
    by_cases hS : Same nm.toNaming reduce t w n c c'
    · rw [u2 hS]
      show SameIn nm reduce n c c' w
      unfold SameIn
      rw [if_neg (by rw [hi.1]; exact Bool.false_ne_true)]
      unfold Same patterns at hS
      rw [if_neg (by rw [hi.1]; exact Bool.false_ne_true)] at hS
      by_cases hq : nm.patternOf n < n
      · rw [if_pos hq] at hS
        cases e : w (nm.patternOf n) with
        | none => rw [e] at hS; exact hS
        | some p =>
          cases p with
          | inl p => rw [e] at hS; exact hS
          | inr p => exact absurd e (nodir n p)
      · rw [if_neg hq] at hS
        cases eo : t (nm.patternOf n) with
        | none =>
          rw [eo] at hS
          have hS : c = c' := hS
          subst hS
          cases e : w (nm.patternOf n) with
          | none => rfl
          | some p =>
            cases p with
            | inl p => rfl
            | inr p => exact absurd e (nodir n p)
        | some p =>
          cases p with
          | inr p => rw [eo] at hS; exact hS.elim
          | inl p =>
            rw [eo] at hS
            have hsp : Special nm.toNaming f t (nm.patternOf n) :=
              ⟨⟨p, eo⟩, Or.inl ⟨hl.pattern n, n, by rw [← hgn, h1]; exact Option.some_ne_none _, (hl.stem n).symm, hi.1⟩⟩
            have hgq := (hg (nm.patternOf n)).1 hsp
            have uq := hu (nm.patternOf n)
            unfold UpdatedAt at uq
            rw [hgq, eo] at uq
            obtain ⟨_, q2, q3⟩ := uq
            have e : w (nm.patternOf n) = some (.inl p) := by
              by_cases hQ : Same nm.toNaming reduce t w (nm.patternOf n) p p
              · exact q2 hQ
              · exact q3 hQ
            rw [e]
            exact hS
    · rw [u3 hS]
      exact sameIn_refl (nodir n)
  · exact un.elim
  · rename_i a b h1 h2
    obtain ⟨e, e', u1, u2, u3⟩ := un
    rw [u1, u2]
    exact hs a b e e' (restored_dir hg h1) h2 u3
  · rename_i a h1 _
    rw [un.1, un.2]
    exact hc a (restored_dir hg h1)

theorem updated_agree (hl : Lawful nm) : ∀ (depth : Nat) (frm old frm' new : Dir N C depth), NoPatternDirectory nm depth frm →
    Updated nm.toNaming reduce depth frm old frm' new → Agree nm (same nm reduce) depth frm' new
  | 0, d, _, _, _, _, _ => nomatch d
  | depth + 1, frm, old, frm', new, hp, h => by
    obtain ⟨_, _, g, hg, hu⟩ := h
    intro n hn
    have := level_agree (R := Agree nm (same nm reduce) depth) hl hg hu (fun n d => pattern_not_dir hl hp n d) hn
      (fun a b e e' h1 _ u => updated_agree hl depth a b e e' (hp n a (lookup_mem h1)).2 u) (fun a h1 => agree_refl hl depth a (hp n a (lookup_mem h1)).2)
    revert this
    show AgreeAt nm reduce (Agree nm (same nm reduce) depth) _ n (lookup (S := Dir N C depth) n frm') (lookup (S := Dir N C depth) n new) → _
    cases lookup (S := Dir N C depth) n frm' with
    | none => cases lookup (S := Dir N C depth) n new <;> exact id
    | some x =>
      cases lookup (S := Dir N C depth) n new with
      | none => cases x <;> exact id
      | some y => cases x <;> cases y <;> exact id

theorem agree_exact (hl : Lawful nm) : ∀ (depth : Nat) (d d' : Dir N C depth), NoPatterns nm depth d' →
    (Agree nm (same nm reduce) depth d d' ↔ Agree nm (fun _ _ _ c c' _ => c = c') depth d d')
  | 0, d, _, _ => nomatch d
  | depth + 1, d, d', h => by
    unfold Agree
    refine forall_congr' fun n => imp_congr_right fun _ => ?_
    cases lookup (S := Dir N C depth) n d with
    | none => cases lookup (S := Dir N C depth) n d' <;> exact Iff.rfl
    | some x =>
      cases e : lookup (S := Dir N C depth) n d' with
      | none => cases x <;> exact Iff.rfl
      | some y =>
        cases x with
        | inl c =>
          cases y with
          | inl c' =>
            show SameContent nm reduce n n c c' d' ↔ c = c'
            have : lookup (S := Dir N C depth) (nm.patternOf n) d' = none := by
              cases e : lookup (S := Dir N C depth) (nm.patternOf n) d' with
              | none => rfl
              | some v =>
                have := (h _ (lookup_mem e)).1
                rw [hl.pattern] at this
                cases this
            unfold SameContent
            rw [this]
            simp
          | inr b => exact Iff.rfl
        | inr a =>
          cases y with
          | inl c => exact Iff.rfl
          | inr b => exact agree_exact hl depth a b ((h _ (lookup_mem e)).2 b rfl)

theorem agree_symm : ∀ (depth : Nat) (d d' : Dir N C depth), Agree nm (fun _ _ _ c c' _ => c = c') depth d d' → Agree nm (fun _ _ _ c c' _ => c = c') depth d' d
  | 0, d, _, _ => nomatch d
  | depth + 1, d, d', h => by
    intro n hn
    have := h n hn
    revert this
    cases lookup (S := Dir N C depth) n d with
    | none =>
      cases lookup (S := Dir N C depth) n d' with
      | none => exact id
      | some y => cases y <;> exact id
    | some x =>
      cases lookup (S := Dir N C depth) n d' with
      | none => cases x <;> exact id
      | some y =>
        cases x with
        | inl c =>
          cases y with
          | inl c' => exact Eq.symm
          | inr b => exact id
        | inr a =>
          cases y with
          | inl c => exact id
          | inr b => exact agree_symm depth a b

theorem agree_trans : ∀ (depth : Nat) (d d' d'' : Dir N C depth), Agree nm (fun _ _ _ c c' _ => c = c') depth d d' → Agree nm (fun _ _ _ c c' _ => c = c') depth d' d'' →
    Agree nm (fun _ _ _ c c' _ => c = c') depth d d''
  | 0, d, _, _, _, _ => nomatch d
  | depth + 1, d, d', d'', h, h' => by
    intro n hn
    have h1 := h n hn
    have h2 := h' n hn
    revert h1 h2
    cases lookup (S := Dir N C depth) n d' with
    | none =>
      cases lookup (S := Dir N C depth) n d with
      | none => intro _; exact id
      | some x => cases x <;> exact fun h => h.elim
    | some y =>
      cases lookup (S := Dir N C depth) n d with
      | none => cases y <;> exact fun h => h.elim
      | some x =>
        cases lookup (S := Dir N C depth) n d'' with
        | none => cases y <;> exact fun _ h => h.elim
        | some z =>
          cases x <;> cases y <;> cases z
          case inl.inl.inl => exact Eq.trans
          case inr.inr.inr a b c => exact agree_trans depth a b c
          all_goals first | exact fun _ h => h.elim | exact fun h => h.elim

end

end Verif.PathCheck
