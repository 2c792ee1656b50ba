import Verif.Lemmas.ProjectCreatorWhole

set_option linter.unusedVariables false
set_option linter.unusedSimpArgs false

/-
Lemmas on the copying of a directory into itself, which cannot succeed.
-/
namespace Verif.ProjectCreator
open Verif.Text Verif.Materials Verif.Spec.ProjectCreator

/-- What there is stays as it is. -/
def Keeps (fs fs' : Disk) : Prop := ∀ p v, get fs p = some v → get fs' p = some v

theorem Keeps.refl (fs : Disk) : Keeps fs fs := fun _ _ h => h
theorem Keeps.trans {a b c : Disk} (h : Keeps a b) (g : Keeps b c) : Keeps a c := fun p v e => g p v (h p v e)

theorem keeps_cons {fs : Disk} {d : Path} {v : Node Str} (h : get fs d = none) : Keeps fs ((d, v) :: fs) := by
  intro p w hp
  rw [get_cons, if_neg]
  · exact hp
  · rintro rfl
    rw [h] at hp; cases hp

theorem bind_ok {σ : Type} {x : Out σ} {f : σ → Out σ} {s : σ} (h : x.bind f = .ok s) : ∃ t, x = .ok t ∧ f t = .ok s := by
  cases x with
  | ok t => exact ⟨t, rfl, h⟩
  | failed t => cases h
  | endless => cases h

theorem forEach_inv {σ : Type} {f : String → σ → Out σ} (I : σ → Prop) (hf : ∀ x t t', f x t = .ok t' → I t → I t') {xs : List String} {s s' : σ} (h : forEach f xs s = .ok s') (h0 : I s) : I s' := by
  induction xs generalizing s with
  | nil => cases h; exact h0
  | cons y ys ih =>
    obtain ⟨t, h1, h2⟩ := bind_ok h
    exact ih h2 (hf _ _ _ h1 h0)

/-- Each of the entries is reached. -/
theorem forEach_reach {σ : Type} {f : String → σ → Out σ} (I : σ → Prop) (hf : ∀ x t t', f x t = .ok t' → I t → I t') {xs : List String} {s s' : σ} (h : forEach f xs s = .ok s') (h0 : I s)
    {x : String} (hx : x ∈ xs) : ∃ t t' ys, I t ∧ f x t = .ok t' ∧ forEach f ys t' = .ok s' := by
  induction xs generalizing s with
  | nil => cases hx
  | cons y ys ih =>
    obtain ⟨t, h1, h2⟩ := bind_ok h
    rcases List.mem_cons.1 hx with rfl | hx
    · exact ⟨s, t, ys, h0, h1, h2⟩
    · exact ih h2 (hf _ _ _ h1 h0) hx

/-- The directory into which another is copied. -/
theorem made_ok {fs fs1 : Disk} {dst : Path} (h : (if isFile fs dst then Out.failed fs
         else if exists' fs dst then .ok fs
         else if isDir fs (parent dst) then .ok ((dst, .dir) :: fs)
         else .failed fs) = Out.ok fs1) : Keeps fs fs1 ∧ get fs1 dst = some .dir := by
  split at h
  · cases h
  · next hf =>
    split at h
    · next he =>
      cases h
      refine ⟨Keeps.refl _, ?_⟩
      rw [exists'_iff] at he
      cases hg : get fs dst with
      | none => exact absurd hg he
      | some v =>
        cases v with
        | dir => rfl
        | file c => exact absurd (by unfold isFile; rw [hg]) hf
    · next he =>
      rw [exists'_iff, Classical.not_not] at he
      split at h
      · cases h
        exact ⟨keeps_cons he, by rw [get_cons, if_pos rfl]⟩
      · cases h

/-- Copying changes nothing of what there is. -/
theorem copyTree_keeps {skip : Bool} {n : Nat} {src dst : Path} {fs fs' : Disk} (h : copyTree skip n src dst fs = .ok fs') : Keeps fs fs' := by
  induction n generalizing src dst fs fs' with
  | zero => cases h
  | succ n ih =>
    unfold copyTree at h
    cases hg : get fs src with
    | none => rw [hg] at h; cases h
    | some v =>
      rw [hg] at h
      cases v with
      | file c =>
        dsimp only at h
        generalize (if isDir fs dst = true then dst ++ src.getLast?.toList else dst) = q at h
        by_cases he : exists' fs q = true
        · rw [if_pos he] at h
          split at h
          · cases h; exact Keeps.refl _
          · cases h
        · rw [if_neg he] at h
          rw [exists'_iff, Classical.not_not] at he
          split at h
          · cases h; exact keeps_cons he
          · cases h
      | dir =>
        dsimp only at h
        obtain ⟨fs1, h1, h2⟩ := bind_ok h
        exact (made_ok h1).1.trans (forEach_inv (Keeps fs1) (fun x t t' hx ht => ht.trans (ih hx)) h2 (Keeps.refl _))

/-- A directory cannot be copied into itself. -/
theorem copyTree_self {skip : Bool} {n : Nat} {q s : Path} {fs fs' : Disk} (hs : s ≠ []) (hd : ∀ t, t <+: s → t ≠ s → get fs (q ++ t) = some .dir) : copyTree skip n q (q ++ s) fs ≠ .ok fs' := by
  induction n generalizing q s fs fs' with
  | zero => intro h; cases h
  | succ n ih =>
    intro h
    obtain ⟨x, s, rfl⟩ : ∃ x t, s = x :: t := by
      cases s with
      | nil => exact absurd rfl hs
      | cons x t => exact ⟨x, t, rfl⟩
    have hq : get fs q = some .dir := by simpa using hd [] (by simp) (by simp)
    unfold copyTree at h
    rw [hq] at h
    dsimp only at h
    obtain ⟨fs1, h1, h2⟩ := bind_ok h
    obtain ⟨k1, k2⟩ := made_ok h1
    have hall : ∀ t, t <+: x :: s → get fs1 (q ++ t) = some .dir := by
      intro t ht
      by_cases he : t = x :: s
      · rw [he]; exact k2
      · exact k1 _ _ (hd t ht he)
    have hx : x ∈ children fs1 q := by
      rw [mem_children, hall [x] (by simp)]
      simp
    obtain ⟨t, t', -, g1, g2, -⟩ := forEach_reach (Keeps fs1) (fun y a b hy ha => ha.trans (copyTree_keeps hy)) h2 (Keeps.refl _) hx
    refine ih (q := q ++ [x]) (s := s ++ [x]) (fs := t) (fs' := t') (by simp) ?_ (by
      rw [show q ++ [x] ++ (s ++ [x]) = q ++ x :: s ++ [x] by simp]
      exact g2)
    intro u hu hne
    rw [List.prefix_concat_iff] at hu
    rcases hu with hu | hu
    · exact absurd hu hne
    · have : q ++ [x] ++ u = q ++ x :: u := by simp
      rw [this]
      exact g1 _ _ (hall _ (by rw [List.cons_prefix_cons]; exact ⟨rfl, hu⟩))

theorem onDisk_ok {f : Disk → Out Disk} {s s' : St} (h : onDisk f s = .ok s') : f s.fs = .ok s'.fs ∧ s'.reported = s.reported := by
  unfold onDisk at h
  cases hf : f s.fs with
  | ok fs => rw [hf] at h; cases h; exact ⟨rfl, rfl⟩
  | failed fs => rw [hf] at h; cases h
  | endless => rw [hf] at h; cases h

/-- Nothing is changed of what there is, unless there is a report; and there is no report any more if there is none at the end. -/
def Fine (s s' : St) : Prop := s'.reported = false → s.reported = false ∧ Keeps s.fs s'.fs

theorem Fine.refl (s : St) : Fine s s := fun h => ⟨h, Keeps.refl _⟩
theorem Fine.trans {a b c : St} (h : Fine a b) (g : Fine b c) : Fine a c := fun e =>
  let ⟨e1, e2⟩ := g e
  let ⟨e3, e4⟩ := h e1
  ⟨e3, e4.trans e2⟩

theorem onDisk_fine {f : Disk → Out Disk} {s s' : St} (h : onDisk f s = .ok s') (hf : ∀ a b, f a = .ok b → Keeps a b) : Fine s s' := by
  obtain ⟨h1, h2⟩ := onDisk_ok h
  exact fun e => ⟨by rw [← h2]; exact e, hf _ _ h1⟩

theorem copySubdir_fine {fuel : Nat} {target src : Path} {s s' : St} (h : copySubdir fuel target src s = .ok s') : Fine s s' := by
  unfold copySubdir at h
  cases hc : copyTree false fuel src (target ++ src.getLast?.toList) s.fs with
  | ok fs => rw [hc] at h; cases h; exact fun e => ⟨e, copyTree_keeps hc⟩
  | failed fs => rw [hc] at h; cases h; intro e; cases e
  | endless => rw [hc] at h; cases h

theorem createDirectory_keeps {p : Path} {a b : Disk} (hn : get a p = none) (h : lift (createDirectory p) a = .ok b) : Keeps a b := by
  unfold lift at h
  cases hc : createDirectory p a with
  | ok fs =>
    rw [hc] at h
    cases h
    unfold createDirectory at hc
    split at hc
    · cases hc; exact Keeps.refl _
    · split at hc
      · cases hc
      · cases hc; exact keeps_cons hn
  | throws => rw [hc] at h; cases h
  | ub => rw [hc] at h; cases h

theorem copyEntry_fine {P : Parent} {fuel : Nat} {src target : Path} {x : String} {s s' : St} (h : copyEntry P fuel src target x s = .ok s') : Fine s s' := by
  unfold copyEntry at h
  split at h
  · split at h
    · unfold copyOutput at h
      obtain ⟨t, h1, h2⟩ := bind_ok h
      refine Fine.trans (onDisk_fine h1 fun a b hab => ?_) (forEach_inv (Fine t) (fun y a b hab ha => ?_) h2 (Fine.refl _))
      · split at hab
        · cases hab; exact Keeps.refl _
        · next hn =>
          rw [exists'_iff, Classical.not_not] at hn
          exact createDirectory_keeps hn hab
      · split at hab
        · exact ha.trans (copySubdir_fine hab)
        · cases hab; exact ha
    · split at h
      · exact copySubdir_fine h
      · cases h; exact Fine.refl _
  · exact onDisk_fine h fun a b hab => copyTree_keeps hab

section
variable {P : Parent} {X : Commands} {year : Str} {fuel : Nat} {d : Data} {fs : Disk} {E : Path → Prop}

theorem onDisk_reported {f : Disk → Out Disk} {s s' : St} (h : onDisk f s = .ok s') : s'.reported = s.reported := (onDisk_ok h).2

/-- A project cannot be created in one of the directories which are copied. -/
theorem initProject_inside (hr : Rooted fs) (hb : ∀ q c, q <+: d.root.location → get fs q ≠ some (.file c))
    (hN : ∀ p, get fs p ≠ none → p.length < fuel) (ht : Template (template P) year d fs) (ha : Apart d.root.location (template P)) (hX : Confined X d.root.location E)
    (hs : get fs (sequoiaIn P.root) = none) {x : String} (h1 : x ≠ "output") (h2 : x ≠ "build") (h3 : x ≠ "dependencies") (hx : P.root ++ [x] <+: d.root.location) (s' : St) (rep : Bool)
    (h : initProject P X year fuel d ⟨fs, rep⟩ = .ok s') : s'.reported = true := by
  unfold initProject at h
  split at h
  · cases h
  next hacc =>
  have hacc : accepted d fs = true := by simpa using hacc
  have hu : unused fs d.root.location = true := by
    unfold accepted at hacc
    simp only [Bool.and_eq_true] at hacc
    exact hacc.1.1.1.2
  obtain ⟨fs1, g1, g2, g3⟩ := prepare_ok (fuel := fuel) (X := X) (E := E) hr hu hb hN ht ha hX
  obtain ⟨s1, k1, h⟩ := bind_ok h
  obtain ⟨s2, k2, h⟩ := bind_ok h
  obtain ⟨s3, k3, k4⟩ := bind_ok h
  have e1 := (onDisk_ok k1).1
  dsimp only at e1
  rw [g1] at e1
  injection e1 with e1
  rw [onDisk_reported k4, onDisk_reported k3]
  unfold copySequoia at k2
  obtain ⟨s4, k5, k6⟩ := bind_ok k2
  rw [onDisk_reported k6]
  -- what there is before sequoia is copied
  obtain ⟨u, hu'⟩ := hx
  have hdep : ∀ r, get fs1 (d.root.location ++ "dependencies" :: r) = edit (change year d ("dependencies" :: r)) (get fs (template P ++ "dependencies" :: r)) := by
    intro r
    rw [g2 _ (outside_commands hX (by decide) (by decide) r)]
    unfold base
    rw [below_source_dep]
    dsimp only
    rw [if_neg (prefix_source_dep _ _), unused_none hr hu (by decide) (by decide)]
    simp
  have hdirs : ∀ t, t <+: u ++ ["dependencies", "sequoia"] → get fs1 (P.root ++ [x] ++ t) = some .dir := by
    intro t ht'
    have hcase : t <+: u ∧ t ≠ u ∨ t = u ∨ t = u ++ ["dependencies"] ∨ t = u ++ ["dependencies", "sequoia"] := by
      rw [show u ++ ["dependencies", "sequoia"] = u ++ ["dependencies"] ++ ["sequoia"] by simp, List.prefix_concat_iff, List.prefix_concat_iff] at ht'
      rcases ht' with h | h | h
      · exact Or.inr (Or.inr (Or.inr (by simpa using h)))
      · exact Or.inr (Or.inr (Or.inl h))
      · by_cases he : t = u
        · exact Or.inr (Or.inl he)
        · exact Or.inl ⟨h, he⟩
    rcases hcase with ⟨h, he⟩ | rfl | rfl | rfl
    · have hp : P.root ++ [x] ++ t <+: d.root.location := by rw [← hu', prefix_append_cancel]; exact h
      rw [g3 _ fun h' => he ?_, if_pos hp]
      rw [← hu', prefix_append_cancel] at h'
      exact h.eq_of_length (Nat.le_antisymm h.length_le h'.length_le)
    · rw [hu']
      have := g2 [] (by rw [List.append_nil]; exact outside_commands_root hX (Or.inr rfl))
      rw [List.append_nil] at this
      rw [this]
      unfold base
      have h0 : below ["Source", sourceName d.root.back] [] = none := by rw [below_none]; simp
      rw [h0]
      dsimp only
      rw [if_neg (by simp), List.append_nil, List.append_nil, ht.dir]
      rcases unused_root hu with h | h <;> rw [h] <;> rfl
    · rw [← List.append_assoc, hu', hdep]
      have := hr (template P ++ ["dependencies"]) "sequoia" (by
        have := ht.sequoia
        rw [show template P ++ ["dependencies"] ++ ["sequoia"] = template P ++ ["dependencies", "sequoia"] by simp, this]
        simp)
      rw [this]; rfl
    · rw [← List.append_assoc, hu', hdep, ht.sequoia]; rfl
  have hseq : sequoiaRoot P s1.fs = P.root := by
    unfold sequoiaRoot
    rw [if_neg]
    rw [exists'_iff, Classical.not_not, ← e1]
    have n1 : ¬ d.root.location <+: sequoiaIn P.root := by
      intro hp
      rw [← hu'] at hp
      unfold sequoiaIn at hp
      rw [List.append_assoc, prefix_append_cancel, List.singleton_append, List.cons_prefix_cons] at hp
      exact h3 hp.1
    have n2 : ¬ sequoiaIn P.root <+: d.root.location := by
      intro hp
      rw [← hu'] at hp
      unfold sequoiaIn at hp
      rw [List.append_assoc, prefix_append_cancel, List.singleton_append, List.cons_prefix_cons] at hp
      exact h3 hp.1.symm
    rw [g3 _ n1, if_neg n2]
    exact hs
  rw [hseq] at k5
  have hxin : x ∈ children s1.fs P.root := by
    rw [mem_children, ← e1]
    have := hdirs [] (by simp)
    rw [List.append_nil] at this
    rw [this]; simp
  obtain ⟨t, t', ys, m1, m2, m3⟩ := forEach_reach (fun t => Fine s1 t) (fun y a b hy ha => ha.trans (copyEntry_fine hy)) k5 (Fine.refl _) hxin
  cases hrep : s4.reported with
  | true => rfl
  | false =>
    exfalso
    have f1 := forEach_inv (Fine t') (fun y a b hy ha => ha.trans (copyEntry_fine hy)) m3 (Fine.refl _) hrep
    have f2 := copyEntry_fine m2 f1.1
    have f3 := m1 f2.1
    have hd : ∀ r, r <+: u ++ ["dependencies", "sequoia"] → get t.fs (P.root ++ [x] ++ r) = some .dir := fun r hr' => f3.2 _ _ (by rw [← e1]; exact hdirs r hr')
    unfold copyEntry at m2
    have hne : ∀ z, x ≠ z → P.root ++ [x] ≠ P.root ++ [z] := fun z hz h => hz (by simpa using h)
    rw [if_pos (isDir_iff.2 (by simpa using hd [] (by simp))), if_neg (hne _ h1), if_pos (hne _ h2)] at m2
    unfold copySubdir at m2
    rw [getLast_snoc] at m2
    cases hc : copyTree false fuel (P.root ++ [x]) (sequoiaIn d.root.location ++ [x]) t.fs with
    | ok fs2 =>
      have e : sequoiaIn d.root.location ++ [x] = P.root ++ [x] ++ (u ++ ["dependencies", "sequoia"] ++ [x]) := by
        rw [← hu']; simp [sequoiaIn]
      rw [e] at hc
      refine copyTree_self (by simp) ?_ hc
      intro r hr' hne'
      rw [List.prefix_concat_iff] at hr'
      rcases hr' with hr' | hr'
      · exact absurd hr' hne'
      · exact hd r hr'
    | failed fs2 =>
      rw [hc] at m2
      cases m2
      have := f1.1
      cases this
    | endless => rw [hc] at m2; cases m2

end

end Verif.ProjectCreator
