import Verif.Spec.Materials
/-
Lemmas about the preparation of materials.
-/
set_option linter.unusedSectionVars false
set_option linter.unusedSimpArgs false
namespace Verif.Materials
open Verif.Spec.Materials

variable {C : Type}

theorem below_iff {p q r : Path} : below p q = some r ↔ q = p ++ r := by
  induction p generalizing q with
  | nil => simp [below, eq_comm]
  | cons a p ih =>
    cases q with
    | nil => simp [below]
    | cons b q =>
      simp only [below, List.cons_append, List.cons.injEq]
      by_cases h : a = b
      · subst h; simp [ih]
      · have : ¬ b = a := fun e => h e.symm
        simp [h, this]

theorem below_append (p r : Path) : below p (p ++ r) = some r := below_iff.2 rfl

theorem below_none {p q : Path} : below p q = none ↔ ¬ p <+: q := by
  constructor
  · intro h ⟨r, hr⟩
    rw [← hr, below_append] at h
    cases h
  · intro h
    cases e : below p q with
    | none => rfl
    | some r => exact absurd ⟨r, (below_iff.1 e).symm⟩ h

theorem get_nil (q : Path) : get ([] : FS C) q = none := rfl

theorem get_cons (e : Path × Node C) (fs : FS C) (q : Path) : get (e :: fs) q = if e.1 = q then some e.2 else get fs q := by
  unfold get
  by_cases h : e.1 = q
  · simp [h]
  · simp [h]

theorem get_append (a b : FS C) (q : Path) : get (a ++ b) q = (get a q).or (get b q) := by
  induction a with
  | nil => simp [get_nil]
  | cons e a ih =>
    rw [List.cons_append, get_cons, get_cons, ih]
    by_cases h : e.1 = q <;> simp [h]

theorem get_mem {e : Path × Node C} {fs : FS C} (h : e ∈ fs) : get fs e.1 ≠ none := by
  induction fs with
  | nil => cases h
  | cons f fs ih =>
    rw [get_cons]
    by_cases hf : f.1 = e.1
    · simp [hf]
    · rw [if_neg hf]
      rcases List.mem_cons.1 h with h | h
      · exact absurd (by rw [h]) hf
      · exact ih h

theorem get_removeAll (p : Path) (fs : FS C) (q : Path) : get (removeAll p fs) q = match below p q with | some _ => none | none => get fs q := by
  unfold removeAll
  induction fs with
  | nil => cases below p q <;> rfl
  | cons e fs ih =>
    rw [List.filter_cons]
    by_cases h : e.1 = q
    · subst h
      cases hb : below p e.1 with
      | none =>
        simp only [Option.isNone_none, if_true]
        rw [get_cons, get_cons, if_pos rfl, if_pos rfl]
      | some r =>
        rw [hb] at ih
        simpa using ih
    · split
      · rw [get_cons, get_cons, if_neg h, if_neg h, ih]
      · rw [ih, get_cons, if_neg h]

theorem get_transplant (src dst : Path) (fs : FS C) (q : Path) : get (transplant src dst fs) q = match below dst q with | some r => get fs (src ++ r) | none => none := by
  unfold transplant
  induction fs with
  | nil => cases below dst q <;> rfl
  | cons e fs ih =>
    cases hb : below src e.1 with
    | none =>
      rw [List.filterMap_cons]
      simp only [hb, Option.map_none]
      rw [ih]
      cases hd : below dst q with
      | none => rfl
      | some r =>
        dsimp only
        rw [get_cons, if_neg]
        intro h
        rw [h, below_append] at hb
        cases hb
    | some s =>
      rw [List.filterMap_cons]
      simp only [hb, Option.map_some]
      rw [get_cons, ih]
      have hs := below_iff.1 hb
      dsimp only
      cases hd : below dst q with
      | none =>
        dsimp only
        rw [if_neg]
        intro h
        rw [← h, below_append] at hd
        cases hd
      | some r =>
        dsimp only
        rw [get_cons]
        have hr := below_iff.1 hd
        rw [hr, hs]
        simp only [List.append_cancel_left_eq]

theorem mem_prefixes {p q : Path} : q ∈ prefixes p ↔ q <+: p := by
  unfold prefixes
  rw [List.mem_map]
  constructor
  · rintro ⟨k, _, rfl⟩
    exact List.take_prefix _ _
  · intro h
    refine ⟨q.length, ?_, ?_⟩
    · have := h.length_le
      simp only [List.mem_range]
      omega
    · rw [List.prefix_iff_eq_take.1 h]
      simp [List.take_take]

theorem get_dirs (l : List Path) (q : Path) : get (l.map fun q => (q, (Node.dir : Node C))) q = if q ∈ l then some .dir else none := by
  induction l with
  | nil => simp [get_nil]
  | cons p l ih =>
    rw [List.map_cons, get_cons, ih]
    by_cases h : p = q
    · simp [h]
    · have : ¬ q = p := fun e => h e.symm
      simp [h, this]

theorem isFile_iff {fs : FS C} {p : Path} : isFile fs p = true ↔ ∃ c, get fs p = some (.file c) := by
  unfold isFile
  split
  · next c h => simp [h]
  · next h =>
    simp only [Bool.false_eq_true, false_iff]
    rintro ⟨c, hc⟩
    exact h c hc

theorem isDir_iff {fs : FS C} {p : Path} : isDir fs p = true ↔ get fs p = some .dir := by
  unfold isDir
  split
  · next h => simp [h]
  · next h =>
    simp only [Bool.false_eq_true, false_iff]
    exact h

theorem exists'_iff {fs : FS C} {p : Path} : exists' fs p = true ↔ get fs p ≠ none := by
  unfold exists'
  cases get fs p <;> simp

theorem createDirectories_ok {p : Path} {fs fs' : FS C} (h : createDirectories p fs = .ok fs') (q : Path) :
    get fs' q = if q <+: p then some .dir else get fs q := by
  unfold createDirectories at h
  split at h
  · cases h
  · next hf =>
    cases h
    rw [get_append, get_dirs]
    simp only [List.mem_filter, mem_prefixes]
    by_cases hq : q <+: p
    · cases hg : get fs q with
      | none => simp [hq, exists', hg]
      | some n =>
        cases n with
        | dir => simp [hq, exists', hg]
        | file c =>
          refine absurd ?_ hf
          rw [List.any_eq_true]
          exact ⟨q, mem_prefixes.2 hq, isFile_iff.2 ⟨c, hg⟩⟩
    · simp [hq]

theorem createDirectories_of {p : Path} {fs : FS C} (h : ∀ q c, q <+: p → get fs q ≠ some (.file c)) : ∃ fs', createDirectories p fs = .ok fs' := by
  unfold createDirectories
  rw [if_neg]
  · exact ⟨_, rfl⟩
  · rw [List.any_eq_true]
    rintro ⟨q, hq, hf⟩
    obtain ⟨c, hc⟩ := isFile_iff.1 hf
    exact h q c (mem_prefixes.1 hq) hc

/-- A copy changes nothing except at its destination. -/
theorem copy_frame {src dst : Path} {fs fs' : FS C} (h : copy src dst fs = .ok fs') {q : Path} (hq : ¬ dst <+: q) : get fs' q = get fs q := by
  unfold copy at h
  split at h
  · cases h
  · split at h
    · split at h
      · cases h
      · split at h
        · cases h
        · cases h
          rw [get_cons, if_neg]
          intro e
          exact hq ⟨_, e⟩
    · split at h
      · cases h
        rw [get_cons, if_neg]
        intro e
        exact hq ⟨[], by rw [← e]; simp⟩
      · cases h
  · split at h
    · cases h
    · split at h
      · cases h
      · cases h
        rw [get_append, get_transplant, below_none.2 hq]
        simp

theorem any_below {fs : FS C} {dst : Path} : fs.any (fun e => (below dst e.1).any fun r => r != []) = false ↔ ∀ r, r ≠ [] → get fs (dst ++ r) = none := by
  constructor
  · intro h r hr
    cases hg : get fs (dst ++ r) with
    | none => rfl
    | some n =>
      unfold get at hg
      obtain ⟨e, he, _⟩ := Option.map_eq_some_iff.1 hg
      have h1 := List.mem_of_find?_eq_some he
      have h2 := List.find?_some he
      simp only [beq_iff_eq] at h2
      have h3 := List.any_eq_false.1 h e h1
      rw [h2, below_append] at h3
      simp [hr] at h3
  · intro h
    rw [List.any_eq_false]
    intro e he hb
    cases hd : below dst e.1 with
    | none => rw [hd] at hb; simp at hb
    | some r =>
      rw [hd] at hb
      simp only [Option.any_some, bne_iff_ne, ne_eq] at hb
      exact get_mem he (by rw [below_iff.1 hd]; exact h r hb)

/-- A copy to where there is nothing, or of a directory to an empty directory. -/
theorem copy_fresh {src dst : Path} {fs : FS C} (hs : get fs src ≠ none) (hsf : ∀ c, get fs src = some (.file c) → ∀ r, r ≠ [] → get fs (src ++ r) = none)
    (hd : ∀ r, r ≠ [] → get fs (dst ++ r) = none) (h0 : (get fs dst = none ∧ get fs (parent dst) = some .dir) ∨ (get fs dst = some .dir ∧ get fs src = some .dir)) :
    ∃ fs', copy src dst fs = .ok fs' ∧ ∀ r, get fs' (dst ++ r) = get fs (src ++ r) := by
  unfold copy
  cases hg : get fs src with
  | none => exact absurd hg hs
  | some n =>
    cases n with
    | file c =>
      dsimp only
      have h1 : get fs dst = none ∧ get fs (parent dst) = some .dir := by
        rcases h0 with h0 | h0
        · exact h0
        · rw [hg] at h0; cases h0.2
      rw [h1.1]
      dsimp only
      rw [if_pos (isDir_iff.2 h1.2)]
      refine ⟨_, rfl, fun r => ?_⟩
      rw [get_cons]
      by_cases hr : r = []
      · subst hr; simp [hg]
      · rw [if_neg, hd r hr, hsf c hg r hr]
        intro e
        exact hr (by simpa using e)
    | dir =>
      dsimp only
      rw [if_neg, if_neg]
      · refine ⟨_, rfl, fun r => ?_⟩
        rw [get_append, get_transplant, below_append]
        dsimp only
        by_cases hr : r = []
        · subst hr
          simp [hg]
        · rw [hd r hr]
          simp
      · rw [any_below.2 hd]
        simp
      · simp only [Bool.or_eq_true, Bool.not_eq_true', Bool.or_eq_false_iff, not_or, not_and, Bool.not_eq_false, Bool.not_eq_true]
        rcases h0 with h0 | h0
        · refine ⟨?_, fun _ => isDir_iff.2 h0.2⟩
          unfold isFile
          rw [h0.1]
        · refine ⟨?_, fun hn => ?_⟩
          · unfold isFile
            rw [h0.1]
          · rw [isDir_iff.2 h0.1] at hn
            cases hn

theorem createDirectory_frame {p : Path} {fs fs' : FS C} (h : createDirectory p fs = .ok fs') {q : Path} (hq : ¬ p <+: q) : get fs' q = get fs q := by
  unfold createDirectory at h
  split at h
  · cases h; rfl
  · split at h
    · cases h
    · cases h
      rw [get_cons, if_neg]
      intro e
      exact hq ⟨[], by simpa using e⟩

theorem createDirectory_fresh {p : Path} {fs : FS C} (h0 : get fs p = none) (h1 : get fs (parent p) = some .dir) :
    createDirectory p fs = .ok ((p, .dir) :: fs) := by
  unfold createDirectory
  rw [if_neg, if_neg]
  · simp only [Bool.or_eq_true, Bool.not_eq_true', not_or, Bool.not_eq_true, Bool.not_eq_false]
    refine ⟨?_, isDir_iff.2 h1⟩
    unfold exists'
    rw [h0]
    rfl
  · rw [isDir_iff, h0]
    simp

variable {R : Roots}

theorem prefix_total {p q t : Path} (hp : p <+: t) (hq : q <+: t) : p <+: q ∨ q <+: p := by
  rcases Nat.le_total p.length q.length with h | h
  · exact Or.inl (List.prefix_of_prefix_length_le hp hq h)
  · exact Or.inr (List.prefix_of_prefix_length_le hq hp h)

/-- Materials are neither in the temporary materials nor do they contain them. -/
theorem materials_apart (hR : Apart R.materials R.temporary) (rel r : Path) : ¬ R.temporary ++ rel <+: R.materials ++ r ∧ ¬ R.materials ++ r <+: R.temporary ++ rel := by
  constructor
  · intro h
    have h1 : R.temporary <+: R.materials ++ r := (List.prefix_append _ _).trans h
    rcases prefix_total h1 (List.prefix_append R.materials r) with h2 | h2
    · exact hR.2 h2
    · exact hR.1 h2
  · intro h
    have h1 : R.materials <+: R.temporary ++ rel := (List.prefix_append _ _).trans h
    rcases prefix_total h1 (List.prefix_append R.temporary rel) with h2 | h2
    · exact hR.1 h2
    · exact hR.2 h2

theorem prefix_work {t q : Path} {l : Path} (h : t ++ l <+: q) : t <+: q := (List.prefix_append _ _).trans h

theorem working_prefix (fs : FS C) (rel : Path) : R.temporary ++ rel <+: working R fs rel := by
  unfold working temporary
  split
  · exact List.prefix_append _ _
  · exact List.prefix_rfl

theorem copyWorking_frame {rel : Path} {fs fs' : FS C} (h : copyWorking R rel fs = .ok fs') {q : Path} (hq : ¬ R.temporary ++ rel <+: q) : get fs' q = get fs q := by
  unfold copyWorking at h
  have hw : ¬ working R fs rel <+: q := fun e => hq ((working_prefix fs rel).trans e)
  split at h
  · exact copy_frame h hw
  · exact createDirectory_frame h hw

theorem copyAuxiliary_frame {rel : Path} {fs fs' : FS C} (h : copyAuxiliary R rel fs = .ok fs') {q : Path} (hq : ¬ R.temporary ++ rel <+: q) : get fs' q = get fs q := by
  unfold copyAuxiliary at h
  split at h
  · exact copy_frame h fun e => hq (prefix_work e)
  · cases h; rfl

theorem fresh_state {rel : Path} {fs fs₁ : FS C} (h : createDirectories (temporary R rel) (removeAll (temporary R rel) fs) = .ok fs₁) (q : Path) :
    get fs₁ q = if q <+: R.temporary ++ rel then some .dir else if R.temporary ++ rel <+: q then none else get fs q := by
  rw [createDirectories_ok h, get_removeAll]
  unfold temporary
  split
  · rfl
  · split
    · next r hr => rw [if_pos ⟨r, (below_iff.1 hr).symm⟩]
    · next hr => rw [if_neg (below_none.1 hr)]

/-- What one call changes, whatever the circumstances. -/
theorem setMaterials_frame {rel : Path} {done done' : List Path} {fs fs' : FS C} (h : setMaterials R rel done fs = .ok (done', fs')) {q : Path}
    (hq : ¬ R.temporary ++ rel <+: q) : get fs' q = get fs q ∨ (q <+: R.temporary ++ rel ∧ get fs' q = some .dir) := by
  unfold setMaterials at h
  split at h
  · cases h; exact Or.inl rfl
  · split at h
    · cases h; exact Or.inl rfl
    · cases h1 : createDirectories (temporary R rel) (removeAll (temporary R rel) fs) with
      | throws => rw [h1] at h; cases h
      | ub => rw [h1] at h; cases h
      | ok fs₁ =>
        rw [h1] at h
        cases h2 : copyWorking R rel fs₁ with
        | throws => simp only [Res.bind, h2] at h; cases h
        | ub => simp only [Res.bind, h2] at h; cases h
        | ok fs₂ =>
          cases h3 : copyAuxiliary R rel fs₂ with
          | throws => simp only [Res.bind, h2, h3] at h; cases h
          | ub => simp only [Res.bind, h2, h3] at h; cases h
          | ok fs₃ =>
            simp only [Res.bind, h2, h3] at h
            cases h
            rw [copyAuxiliary_frame h3 hq, copyWorking_frame h2 hq, fresh_state h1]
            by_cases hp : q <+: R.temporary ++ rel
            · rw [if_pos hp]; exact Or.inr ⟨hp, rfl⟩
            · rw [if_neg hp, if_neg hq]; exact Or.inl rfl

/-- Among the materials, there is nothing below what is not a directory. -/
def FilesClosed (R : Roots) (fs : FS C) : Prop := ∀ r, get fs (R.materials ++ r) ≠ some .dir → ∀ s, s ≠ [] → get fs (R.materials ++ r ++ s) = none

theorem not_prefix_self {p : Path} {n : String} {r : Path} : ¬ p ++ n :: r <+: p := by
  intro h
  have := h.length_le
  simp at this
  omega

theorem parent_snoc (p : Path) (n : String) : parent (p ++ [n]) = p := by simp [parent]

theorem not_branch {p : Path} {a b : String} {r s : Path} (hab : a ≠ b) : ¬ p ++ a :: r <+: p ++ b :: s := by
  rintro ⟨t, ht⟩
  simp only [List.append_assoc, List.cons_append, List.append_cancel_left_eq, List.cons.injEq] at ht
  exact hab ht.1

/-- The materials of a test for which this has not been done. -/
theorem setMaterials_new (hR : Apart R.materials R.temporary) {rel : Path} {done : List Path} {fs : FS C} (hc : FilesClosed R fs) (hm : HasMaterials R fs rel)
    (hb : NotBlocked R fs rel) (hd : working R fs rel ∉ done) :
    ∃ fs', setMaterials R rel done fs = .ok (done ++ [working R fs rel], fs') ∧ Prepared R fs fs' rel := by
  unfold setMaterials
  have he : exists' fs (original R rel) = true := exists'_iff.2 (by unfold original; rw [hm]; simp)
  rw [he]
  simp only [Bool.not_true, Bool.false_eq_true, if_false, List.contains_iff_mem, if_neg hd]
  obtain ⟨fs₁, h1⟩ : ∃ fs₁, createDirectories (temporary R rel) (removeAll (temporary R rel) fs) = .ok fs₁ := by
    refine createDirectories_of fun q c hq hg => ?_
    rw [get_removeAll] at hg
    cases hbl : below (temporary R rel) q with
    | some r => rw [hbl] at hg; cases hg
    | none =>
      rw [hbl] at hg
      have := hb q c hq hg
      exact below_none.1 hbl (by rw [this]; exact List.prefix_rfl)
  rw [h1]
  simp only [Res.bind]
  have g1 := fresh_state h1
  have gM : ∀ r, get fs₁ (R.materials ++ r) = get fs (R.materials ++ r) := fun r => by
    rw [g1, if_neg (materials_apart hR rel r).2, if_neg (materials_apart hR rel r).1]
  have gM' : ∀ r, get fs₁ (R.materials ++ rel ++ r) = get fs (R.materials ++ rel ++ r) := fun r => by
    rw [List.append_assoc, gM]
  have gT : get fs₁ (R.temporary ++ rel) = some .dir := by rw [g1, if_pos List.prefix_rfl]
  have gB : ∀ n r, get fs₁ (R.temporary ++ rel ++ n :: r) = none := fun n r => by
    rw [g1, if_neg not_prefix_self, if_pos (List.prefix_append _ _)]
  by_cases hp : HasPrediction R fs rel
  · have hp1 : hasPrediction R fs₁ rel = true := exists'_iff.2 (by unfold original; rw [gM']; exact hp)
    -- the working copy
    obtain ⟨fs₂, h2, w1, w2⟩ : ∃ fs₂, copyWorking R rel fs₁ = .ok fs₂ ∧
        (get fs (R.materials ++ rel ++ ["WorkingCopy"]) ≠ none → CopyOf fs fs₂ (R.temporary ++ rel ++ ["WorkingCopy"]) (R.materials ++ rel ++ ["WorkingCopy"])) ∧
        (get fs (R.materials ++ rel ++ ["WorkingCopy"]) = none → EmptyDir fs₂ (R.temporary ++ rel ++ ["WorkingCopy"])) := by
      unfold copyWorking working originalWorking
      rw [hp1]
      simp only [if_true]
      unfold original temporary
      by_cases hw : get fs (R.materials ++ rel ++ ["WorkingCopy"]) = none
      · rw [if_neg (by rw [exists'_iff, gM', hw]; simp), createDirectory_fresh (gB _ _) (by rw [parent_snoc, gT])]
        refine ⟨_, rfl, fun h => absurd hw h, fun _ => ⟨?_, fun r hr => ?_⟩⟩
        · rw [get_cons, if_pos rfl]
        · rw [get_cons, if_neg]
          · rw [List.append_assoc]; exact gB _ _
          · intro e; exact hr (by simpa using e)
      · rw [if_pos (by rw [exists'_iff, gM']; exact hw)]
        obtain ⟨fs₂, h2, c⟩ := copy_fresh (src := R.materials ++ rel ++ ["WorkingCopy"]) (dst := R.temporary ++ rel ++ ["WorkingCopy"]) (fs := fs₁) (by rw [gM']; exact hw)
          (fun c h r hr => by
            rw [gM'] at h
            rw [List.append_assoc (R.materials ++ rel), gM']
            rw [List.append_assoc] at h
            have := hc _ (by rw [h]; simp) r hr
            rw [← this]; simp)
          (fun r _ => by rw [List.append_assoc (R.temporary ++ rel)]; exact gB _ _) (Or.inl ⟨gB _ _, by rw [parent_snoc, gT]⟩)
        refine ⟨fs₂, h2, fun _ r => ?_, fun h => absurd h hw⟩
        rw [c, List.append_assoc (R.materials ++ rel), gM']
    have f2 : ∀ q, ¬ R.temporary ++ rel ++ ["WorkingCopy"] <+: q → get fs₂ q = get fs₁ q := by
      intro q hq
      unfold copyWorking working at h2
      rw [hp1] at h2
      simp only [if_true, temporary] at h2
      split at h2
      · exact copy_frame h2 hq
      · exact createDirectory_frame h2 hq
    have gM2 : ∀ r, get fs₂ (R.materials ++ rel ++ r) = get fs (R.materials ++ rel ++ r) := fun r => by
      rw [copyWorking_frame h2 (by rw [List.append_assoc R.materials]; exact (materials_apart hR rel _).1), gM']
    have hp2 : hasPrediction R fs₂ rel = true := exists'_iff.2 (by unfold original; rw [gM2]; exact hp)
    have gT2 : get fs₂ (R.temporary ++ rel) = some .dir := by rw [f2 _ not_prefix_self, gT]
    have gB2 : ∀ n r, n ≠ "WorkingCopy" → get fs₂ (R.temporary ++ rel ++ n :: r) = none := fun n r hn => by
      rw [f2 _ (not_branch fun e => hn e.symm), gB]
    obtain ⟨fs₃, h3, a1, f3⟩ : ∃ fs₃, copyAuxiliary R rel fs₂ = .ok fs₃ ∧ CopyOf fs fs₃ (R.temporary ++ rel ++ ["Auxiliary"]) (R.materials ++ rel ++ ["Auxiliary"]) ∧
        ∀ q, ¬ R.temporary ++ rel ++ ["Auxiliary"] <+: q → get fs₃ q = get fs₂ q := by
      unfold copyAuxiliary
      rw [hp2]
      simp only [Bool.true_and]
      unfold original temporary
      by_cases ha : get fs (R.materials ++ rel ++ ["Auxiliary"]) = none
      · rw [if_neg (by rw [exists'_iff, gM2, ha]; simp)]
        refine ⟨_, rfl, fun r => ?_, fun _ _ => rfl⟩
        rw [List.append_assoc, List.append_assoc (R.materials ++ rel)]
        show get fs₂ (R.temporary ++ rel ++ "Auxiliary" :: r) = get fs (R.materials ++ rel ++ "Auxiliary" :: r)
        rw [gB2 _ _ (by decide)]
        cases r with
        | nil => exact ha.symm
        | cons n r =>
          rw [List.append_assoc] at ha
          have := hc _ (by rw [ha]; simp) (n :: r) (by simp)
          rw [← this]; simp
      · rw [if_pos (by rw [exists'_iff, gM2]; exact ha)]
        obtain ⟨fs₃, h3, c⟩ := copy_fresh (src := R.materials ++ rel ++ ["Auxiliary"]) (dst := R.temporary ++ rel ++ ["Auxiliary"]) (fs := fs₂) (by rw [gM2]; exact ha)
          (fun c h r hr => by
            rw [gM2] at h
            rw [List.append_assoc (R.materials ++ rel), gM2]
            rw [List.append_assoc] at h
            have := hc _ (by rw [h]; simp) r hr
            rw [← this]; simp)
          (fun r _ => by rw [List.append_assoc (R.temporary ++ rel)]; exact gB2 _ _ (by decide)) (Or.inl ⟨gB2 _ _ (by decide), by rw [parent_snoc, gT2]⟩)
        refine ⟨fs₃, h3, fun r => ?_, fun q hq => copy_frame h3 hq⟩
        rw [c, List.append_assoc (R.materials ++ rel), gM2]
    rw [h2]
    simp only [h3]
    refine ⟨fs₃, rfl, fun h => absurd hp h, ?_, fun _ hw r => ?_, fun _ hw => ⟨?_, fun r hr => ?_⟩, fun _ => a1, fun _ n r hn ha => ?_⟩
    · rw [f3 _ not_prefix_self, gT2]
    · rw [f3 _ (by rw [List.append_assoc (R.temporary ++ rel)]; exact not_branch (by decide)), w1 hw]
    · rw [f3 _ (not_branch (by decide)), (w2 hw).1]
    · rw [f3 _ (by rw [List.append_assoc (R.temporary ++ rel)]; exact not_branch (by decide)), (w2 hw).2 r hr]
    · rw [f3 _ (not_branch fun e => ha e.symm), gB2 _ _ hn]
  · have hp1 : hasPrediction R fs₁ rel = false := by
      cases h : hasPrediction R fs₁ rel with
      | false => rfl
      | true =>
        have := exists'_iff.1 h
        unfold original at this
        rw [gM'] at this
        exact absurd this hp
    obtain ⟨fs₂, h2, c⟩ := copy_fresh (src := R.materials ++ rel) (dst := R.temporary ++ rel) (fs := fs₁) (by rw [gM, hm]; simp)
      (fun c h => by rw [gM, hm] at h; cases h)
      (fun r hr => by
        cases r with
        | nil => exact absurd rfl hr
        | cons n r => exact gB n r) (Or.inr ⟨gT, by rw [gM, hm]⟩)
    have h2' : copyWorking R rel fs₁ = .ok fs₂ := by
      unfold copyWorking working originalWorking
      rw [hp1]
      simp only [Bool.false_eq_true, if_false]
      rw [if_pos (by rw [exists'_iff]; unfold original; rw [gM, hm]; simp)]
      exact h2
    have hp2 : hasPrediction R fs₂ rel = false := by
      cases h : hasPrediction R fs₂ rel with
      | false => rfl
      | true =>
        have := exists'_iff.1 h
        unfold original at this
        rw [copyWorking_frame h2' (by rw [List.append_assoc R.materials]; exact (materials_apart hR rel _).1), gM'] at this
        exact absurd this hp
    rw [h2']
    simp only
    unfold copyAuxiliary
    rw [hp2]
    simp only [Bool.false_and, Bool.false_eq_true, if_false]
    refine ⟨fs₂, rfl, fun _ r => ?_, ?_, fun h => absurd h hp, fun h => absurd h hp, fun h => absurd h hp, fun h => absurd h hp⟩
    · rw [c, gM']
    · have := c []
      simp only [List.append_nil] at this
      rw [this, gM, hm]

theorem tree_above {fs : FS C} (h : Tree fs) : ∀ (s p : Path), s ≠ [] → get fs (p ++ s) ≠ none → get fs p = some .dir
  | [], _, hs, _ => absurd rfl hs
  | [n], p, _, hg => h.2 p n hg
  | n :: m :: s, p, _, hg => by
    have := tree_above h (m :: s) (p ++ [n]) (by simp) (by simpa using hg)
    exact h.2 p n (by rw [this]; simp)

theorem tree_below {fs : FS C} (h : Tree fs) {p : Path} (hp : get fs p ≠ some .dir) (s : Path) (hs : s ≠ []) : get fs (p ++ s) = none :=
  Classical.byContradiction fun hg => hp (tree_above h s p hs hg)

theorem filesClosed_of_tree {fs : FS C} (h : Tree fs) : FilesClosed R fs := fun _ hr s hs => tree_below h hr s hs

/-- The materials have not changed. -/
def SameMaterials (R : Roots) (fs fs' : FS C) : Prop := ∀ r, get fs' (R.materials ++ r) = get fs (R.materials ++ r)

theorem setMaterials_same (hR : Apart R.materials R.temporary) {rel : Path} {done done' : List Path} {fs fs' : FS C} (h : setMaterials R rel done fs = .ok (done', fs')) :
    SameMaterials R fs fs' := fun r => by
  rcases setMaterials_frame h (materials_apart hR rel r).1 with h | h
  · exact h
  · exact absurd h.1 (materials_apart hR rel r).2

theorem setSuite_same (hR : Apart R.materials R.temporary) : ∀ {rels done : List Path} {fs fs' : FS C}, setSuite R rels done fs = .ok fs' → SameMaterials R fs fs'
  | [], _, _, _, h => by cases h; exact fun _ => rfl
  | rel :: rels, done, fs, fs', h => by
    unfold setSuite at h
    cases h1 : setMaterials R rel done fs with
    | throws => rw [h1] at h; cases h
    | ub => rw [h1] at h; cases h
    | ok r =>
      rw [h1] at h
      intro p
      rw [setSuite_same hR h, setMaterials_same hR h1]

theorem setSuites_same (hR : Apart R.materials R.temporary) : ∀ {l : List (List Path)} {fs fs' : FS C}, setSuites R l fs = .ok fs' → SameMaterials R fs fs'
  | [], _, _, h => by cases h; exact fun _ => rfl
  | s :: l, fs, fs', h => by
    unfold setSuites at h
    cases h1 : setSuite R s [] fs with
    | throws => rw [h1] at h; cases h
    | ub => rw [h1] at h; cases h
    | ok r =>
      rw [h1] at h
      intro p
      rw [setSuites_same hR h, setSuite_same hR h1]

theorem SameMaterials.prediction {fs fs' : FS C} (h : SameMaterials R fs fs') (rel : Path) : HasPrediction R fs' rel ↔ HasPrediction R fs rel := by
  unfold HasPrediction
  rw [List.append_assoc, h]

theorem SameMaterials.hasPrediction {fs fs' : FS C} (h : SameMaterials R fs fs') (rel : Path) : hasPrediction R fs' rel = hasPrediction R fs rel := by
  unfold Materials.hasPrediction exists' original
  rw [List.append_assoc, h]

theorem SameMaterials.working {fs fs' : FS C} (h : SameMaterials R fs fs') (rel : Path) : working R fs' rel = working R fs rel := by
  unfold Materials.working
  rw [h.hasPrediction]

theorem SameMaterials.prepared {fs₀ fs fs' : FS C} (h : SameMaterials R fs₀ fs) {rel : Path} (hp : Prepared R fs fs' rel) : Prepared R fs₀ fs' rel := by
  have e : ∀ r, get fs (R.materials ++ rel ++ r) = get fs₀ (R.materials ++ rel ++ r) := fun r => by rw [List.append_assoc, h]
  have e' : ∀ n r, get fs (R.materials ++ rel ++ [n] ++ r) = get fs₀ (R.materials ++ rel ++ [n] ++ r) := fun n r => by rw [List.append_assoc _ [n], e]
  have hP := h.prediction rel
  refine ⟨fun hn r => ?_, hp.root, fun hn hw r => ?_, fun hn hw => ?_, fun hn r => ?_, fun hn => hp.nothingElse (hP.2 hn)⟩
  · rw [hp.simple (fun x => hn (hP.1 x)), e]
  · rw [hp.working (hP.2 hn) (by rw [e]; exact hw), e']
  · exact hp.empty (hP.2 hn) (by rw [e]; exact hw)
  · rw [hp.auxiliary (hP.2 hn), e']

/-- Preparing the materials of another test does no harm if they are apart. -/
theorem prepared_frame {fs₀ fs fs' : FS C} {rel : Path} (hp : Prepared R fs₀ fs rel)
    (hsame : ∀ q, R.temporary ++ rel <+: q → get fs' q = get fs q) : Prepared R fs₀ fs' rel := by
  have e : ∀ r, get fs' (R.temporary ++ rel ++ r) = get fs (R.temporary ++ rel ++ r) := fun r => hsame _ (List.prefix_append _ _)
  have e' : ∀ n r, get fs' (R.temporary ++ rel ++ [n] ++ r) = get fs (R.temporary ++ rel ++ [n] ++ r) := fun n r => by rw [List.append_assoc _ [n], e]
  refine ⟨fun hn r => ?_, ?_, fun hn hw r => ?_, fun hn hw => ⟨?_, fun r hr => ?_⟩, fun hn r => ?_, fun hn n r h1 h2 => ?_⟩
  · rw [e, hp.simple hn]
  · rw [hsame _ List.prefix_rfl, hp.root]
  · rw [e', hp.working hn hw]
  · rw [e, (hp.empty hn hw).1]
  · rw [e', (hp.empty hn hw).2 r hr]
  · rw [e', hp.auxiliary hn]
  · rw [e, hp.nothingElse hn n r h1 h2]

theorem append_apart {t p q : Path} (h : Apart p q) : Apart (t ++ p) (t ++ q) :=
  ⟨fun e => h.1 ((List.prefix_append_right_inj t).1 e), fun e => h.2 ((List.prefix_append_right_inj t).1 e)⟩

theorem apart_below {p q r : Path} (h : Apart p q) (hr : p <+: r) : ¬ q <+: r ∧ ¬ r <+: q := by
  refine ⟨fun e => ?_, fun e => h.1 (hr.trans e)⟩
  rcases prefix_total hr e with h1 | h1
  · exact h.1 h1
  · exact h.2 h1

/-- What holds in between; `ready` are the tests which have been dealt with. -/
structure Inv (R : Roots) (tests : Path → Prop) (fs₀ : FS C) (ready : Path → Prop) (fs : FS C) : Prop where
  same : SameMaterials R fs₀ fs
  prepared : ∀ rel, ready rel → Prepared R fs₀ fs rel
  free : ∀ rel, tests rel → NotBlocked R fs rel
  relevant : ∀ rel, ready rel → tests rel ∧ HasMaterials R fs₀ rel
  elsewhere : SameElsewhere R fs₀ fs ready

variable {tests : Path → Prop} {fs₀ : FS C}

theorem working_inj (hap : ∀ rel rel', tests rel → tests rel' → rel = rel' ∨ Apart rel rel') {fs : FS C} {rel rel' : Path} (h : tests rel) (h' : tests rel')
    (e : working R fs rel = working R fs rel') : rel = rel' := by
  rcases hap rel rel' h h' with h1 | h1
  · exact h1
  · have h2 := working_prefix (R := R) fs rel
    rw [e] at h2
    exact absurd (working_prefix (R := R) fs rel') (apart_below (append_apart (t := R.temporary) h1) h2).1

/-- One test. -/
theorem setMaterials_inv (hR : Apart R.materials R.temporary) (ht : Tree fs₀) (hap : ∀ rel rel', tests rel → tests rel' → rel = rel' ∨ Apart rel rel')
    (hdir : ∀ rel, tests rel → HasMaterials R fs₀ rel ∨ get fs₀ (R.materials ++ rel) = none)
    {ready : Path → Prop} {fs : FS C} {rel : Path} {done : List Path} (hi : Inv R tests fs₀ ready fs) (hrel : tests rel)
    (hd : ∀ w ∈ done, ∃ rel', ready rel' ∧ w = working R fs₀ rel') :
    ∃ done' fs', setMaterials R rel done fs = .ok (done', fs') ∧ Inv R tests fs₀ (fun x => ready x ∨ (x = rel ∧ HasMaterials R fs₀ rel)) fs' ∧
      ∀ w ∈ done', ∃ rel', (ready rel' ∨ (rel' = rel ∧ HasMaterials R fs₀ rel)) ∧ w = working R fs₀ rel' := by
  rcases hdir rel hrel with hm | hm
  · by_cases hw : working R fs rel ∈ done
    · obtain ⟨rel', hr', he⟩ := hd _ hw
      rw [hi.same.working] at he
      have := working_inj hap hrel (hi.relevant _ hr').1 he
      subst this
      refine ⟨done, fs, ?_, ?_, fun w hw => ?_⟩
      · unfold setMaterials
        rw [if_neg, if_pos]
        · simpa using hw
        · have : exists' fs (original R rel) = true := exists'_iff.2 (by unfold original; rw [hi.same, hm]; simp)
          simp [this]
      · have e : (fun x => ready x ∨ (x = rel ∧ HasMaterials R fs₀ rel)) = ready := by
          funext x
          exact propext ⟨fun h => h.elim id fun h => h.1 ▸ hr', Or.inl⟩
        rw [e]
        exact hi
      · obtain ⟨rel', h1, h2⟩ := hd w hw
        exact ⟨rel', Or.inl h1, h2⟩
    · have hc : FilesClosed R fs := by
        intro r hr s hs
        rw [List.append_assoc, hi.same, ← List.append_assoc]
        exact tree_below ht (by rw [← hi.same]; exact hr) s hs
      obtain ⟨fs', h1, h2⟩ := setMaterials_new hR (done := done) hc (by unfold HasMaterials; rw [hi.same]; exact hm) (hi.free rel hrel) hw
      refine ⟨_, fs', h1, ⟨?_, ?_, ?_, ?_, ?_⟩, ?_⟩
      · intro r
        rw [setMaterials_same hR h1, hi.same]
      · rintro x (hx | ⟨rfl, _⟩)
        · rcases hap x rel (hi.relevant x hx).1 hrel with rfl | ha
          · exact hi.same.prepared h2
          · refine prepared_frame (hi.prepared x hx) fun q hq => ?_
            have hb := apart_below (append_apart (t := R.temporary) ha) hq
            rcases setMaterials_frame h1 hb.1 with h | h
            · exact h
            · exact absurd h.1 hb.2
        · exact hi.same.prepared h2
      · intro x hx q c hq hg
        by_cases hqt : R.temporary ++ rel <+: q
        · rcases hap rel x hrel hx with rfl | ha
          · exact (List.IsPrefix.eq_of_length hq (Nat.le_antisymm hq.length_le hqt.length_le))
          · exact absurd hq (apart_below (append_apart (t := R.temporary) ha) hqt |> fun h => fun e => h.2 e)
        · rcases setMaterials_frame h1 hqt with h | h
          · rw [h] at hg
            exact hi.free x hx q c hq hg
          · rw [h.2] at hg
            cases hg
      · rintro x (hx | ⟨rfl, hx⟩)
        · exact hi.relevant x hx
        · exact ⟨hrel, hx⟩
      · intro q hq
        have hq1 := hq rel (Or.inr ⟨rfl, hm⟩)
        have hq2 := hi.elsewhere q fun x hx => hq x (Or.inl hx)
        rcases setMaterials_frame h1 hq1 with h | h
        · rw [h]
          rcases hq2 with h2 | ⟨h2, h3, x, h4, h5⟩
          · exact Or.inl h2
          · exact Or.inr ⟨h2, h3, x, Or.inl h4, h5⟩
        · rcases hq2 with h2 | ⟨h2, h3, _⟩
          · cases hg : get fs₀ q with
            | none => exact Or.inr ⟨rfl, h.2, rel, Or.inr ⟨rfl, hm⟩, h.1⟩
            | some n =>
              cases n with
              | dir => exact Or.inl h.2
              | file c =>
                have := hi.free rel hrel q c h.1 (by rw [h2, hg])
                exact absurd (by rw [this]; exact List.prefix_rfl) hq1
          · exact Or.inr ⟨h2, h.2, rel, Or.inr ⟨rfl, hm⟩, h.1⟩
      · intro w hw'
        rcases List.mem_append.1 hw' with hw' | hw'
        · obtain ⟨rel', h3, h4⟩ := hd w hw'
          exact ⟨rel', Or.inl h3, h4⟩
        · rw [List.mem_singleton] at hw'
          exact ⟨rel, Or.inr ⟨rfl, hm⟩, by rw [hw', hi.same.working]⟩
  · have hn : ¬ HasMaterials R fs₀ rel := by unfold HasMaterials; rw [hm]; simp
    refine ⟨done, fs, ?_, ?_, fun w hw => ?_⟩
    · unfold setMaterials
      rw [if_pos]
      unfold exists' original
      rw [hi.same, hm]
      rfl
    · have e : (fun x => ready x ∨ (x = rel ∧ HasMaterials R fs₀ rel)) = ready := by
        funext x
        exact propext ⟨fun h => h.elim id fun h => absurd h.2 hn, Or.inl⟩
      rw [e]
      exact hi
    · obtain ⟨rel', h1, h2⟩ := hd w hw
      exact ⟨rel', Or.inl h1, h2⟩

theorem Inv.congr {ready ready' : Path → Prop} {fs : FS C} (hi : Inv R tests fs₀ ready fs) (h : ∀ x, ready x ↔ ready' x) : Inv R tests fs₀ ready' fs := by
  have : ready = ready' := funext fun x => propext (h x)
  rw [← this]
  exact hi

/-- A suite. -/
theorem setSuite_inv (hR : Apart R.materials R.temporary) (ht : Tree fs₀) (hap : ∀ rel rel', tests rel → tests rel' → rel = rel' ∨ Apart rel rel')
    (hdir : ∀ rel, tests rel → HasMaterials R fs₀ rel ∨ get fs₀ (R.materials ++ rel) = none) :
    ∀ (rels : List Path) (ready : Path → Prop) (fs : FS C) (done : List Path), Inv R tests fs₀ ready fs → (∀ rel ∈ rels, tests rel) →
      (∀ w ∈ done, ∃ rel', ready rel' ∧ w = working R fs₀ rel') →
      ∃ fs', setSuite R rels done fs = .ok fs' ∧ Inv R tests fs₀ (fun x => ready x ∨ (x ∈ rels ∧ HasMaterials R fs₀ x)) fs'
  | [], ready, fs, done, hi, _, _ => ⟨fs, rfl, hi.congr fun x => by simp⟩
  | rel :: rels, ready, fs, done, hi, hr, hd => by
    obtain ⟨done', fs₁, h1, h2, h3⟩ := setMaterials_inv hR ht hap hdir hi (hr rel (by simp)) hd
    obtain ⟨fs', h4, h5⟩ := setSuite_inv hR ht hap hdir rels _ fs₁ done' h2 (fun x hx => hr x (by simp [hx])) h3
    refine ⟨fs', ?_, h5.congr fun x => ?_⟩
    · unfold setSuite
      rw [h1]
      exact h4
    · constructor
      · rintro ((h | ⟨rfl, h⟩) | ⟨h, h'⟩)
        · exact Or.inl h
        · exact Or.inr ⟨by simp, h⟩
        · exact Or.inr ⟨by simp [h], h'⟩
      · rintro (h | ⟨h, h'⟩)
        · exact Or.inl (Or.inl h)
        · rcases List.mem_cons.1 h with rfl | h
          · exact Or.inl (Or.inr ⟨rfl, h'⟩)
          · exact Or.inr ⟨h, h'⟩

/-- All suites. -/
theorem setSuites_inv (hR : Apart R.materials R.temporary) (ht : Tree fs₀) (hap : ∀ rel rel', tests rel → tests rel' → rel = rel' ∨ Apart rel rel')
    (hdir : ∀ rel, tests rel → HasMaterials R fs₀ rel ∨ get fs₀ (R.materials ++ rel) = none) :
    ∀ (l : List (List Path)) (ready : Path → Prop) (fs : FS C), Inv R tests fs₀ ready fs → (∀ s ∈ l, ∀ rel ∈ s, tests rel) →
      ∃ fs', setSuites R l fs = .ok fs' ∧ Inv R tests fs₀ (fun x => ready x ∨ ((∃ s ∈ l, x ∈ s) ∧ HasMaterials R fs₀ x)) fs'
  | [], ready, fs, hi, _ => ⟨fs, rfl, hi.congr fun x => by simp⟩
  | s :: l, ready, fs, hi, hr => by
    obtain ⟨fs₁, h1, h2⟩ := setSuite_inv hR ht hap hdir s ready fs [] hi (fun x hx => hr s (by simp) x hx) (by simp)
    obtain ⟨fs', h4, h5⟩ := setSuites_inv hR ht hap hdir l _ fs₁ h2 (fun s' hs' => hr s' (by simp [hs']))
    refine ⟨fs', ?_, h5.congr fun x => ?_⟩
    · unfold setSuites
      rw [h1]
      exact h4
    · constructor
      · rintro ((h | ⟨h, h'⟩) | ⟨⟨s', h, h''⟩, h'⟩)
        · exact Or.inl h
        · exact Or.inr ⟨⟨s, by simp, h⟩, h'⟩
        · exact Or.inr ⟨⟨s', by simp [h], h''⟩, h'⟩
      · rintro (h | ⟨⟨s', h, h''⟩, h'⟩)
        · exact Or.inl (Or.inl h)
        · rcases List.mem_cons.1 h with rfl | h
          · exact Or.inl (Or.inr ⟨h'', h'⟩)
          · exact Or.inr ⟨⟨s', h, h''⟩, h'⟩

end Verif.Materials
