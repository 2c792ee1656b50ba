import Verif.Spec.Incremental
import Verif.Lemmas.PruneFiles
import Verif.Props.Dependency
set_option linter.unusedSimpArgs false
set_option linter.unusedVariables false
/-
Lemmas on incremental testing: the records are right for every test which has not been changed.
-/
namespace Verif.Incremental
open Verif.Dependency Verif.PruneFiles Verif.Spec.Stale Verif.Spec.Prune Verif.Spec.Incremental

section
variable {K : Type} {fs fs' : List (File K)} {ι : Nat → Nat} {x : Nat}

theorem changed_mono {folder : Bool} {s t : Nat} (h : s ≤ t) (hc : TestChangedAfter fs folder t x) : TestChangedAfter fs folder s x := by
  rcases hc with ⟨y, h1, f, h2, h3⟩ | ⟨f, m, h1, h2, h3⟩
  · exact .inl ⟨y, h1, f, h2, by omega⟩
  · refine .inr ⟨f, m, h1, h2, ?_⟩
    rcases h3 with ⟨h3, h4⟩ | ⟨z, h3, h4⟩
    · exact .inl ⟨h3, by omega⟩
    · exact .inr ⟨z, h3, by omega⟩

theorem changed_folder {folder : Bool} {t : Nat} (hc : TestChangedAfter fs false t x) : TestChangedAfter fs folder t x := by
  rcases hc with h | ⟨f, m, h1, h2, h3⟩
  · exact .inl h
  · refine .inr ⟨f, m, h1, h2, ?_⟩
    rcases h3 with ⟨h3, h4⟩ | h3
    · cases h3
    · exact .inr h3

/-- Without changes, what a file depends on is the same. -/
theorem unchanged_includes {t : Nat} (he : Evolved t fs fs' ι) (hT' : Tidy fs') {x' : Nat} (hn : ∀ y, DependsOn fs' x' y → ¬ ChangedAfter fs' t y) {y : Nat} {f : File K}
    (hy : fs[y]? = some f) (hd : DependsOn fs' x' (ι y)) : ∃ f', fs'[ι y]? = some f' ∧ SameFile f f' ∧ f'.time = f.time ∧ f'.time ≤ t ∧ f'.includes = f.includes.map ι := by
  obtain ⟨f', h1, h2, h3, _⟩ := he.kept y f hy
  have ht : f'.time ≤ t := Nat.not_lt.mp fun h => hn _ hd ⟨f', h1, h⟩
  obtain ⟨h5, h6⟩ := h3 ht
  refine ⟨f', h1, h2, h5, ht, ?_⟩
  rcases h6 with h6 | ⟨z, h6, h7⟩
  · exact h6
  · exfalso
    have hz := hT'.inRange _ z ⟨f', h1, h6⟩
    have hdz : DependsOn fs' x' z := .includes hd ⟨f', h1, h6⟩
    exact hn z hdz ⟨_, List.getElem?_eq_getElem hz, he.created z _ (List.getElem?_eq_getElem hz) h7⟩

theorem dependsOn_back {t : Nat} (he : Evolved t fs fs' ι) (hT : Tidy fs) (hT' : Tidy fs') (hx : ∃ f, fs[x]? = some f)
    (hn : ∀ y, DependsOn fs' (ι x) y → ¬ ChangedAfter fs' t y) {y' : Nat} (hd : DependsOn fs' (ι x) y') :
    ∃ y, DependsOn fs x y ∧ ι y = y' ∧ ∃ f, fs[y]? = some f := by
  induction hd with
  | self => exact ⟨x, .self, rfl, hx⟩
  | @includes y' z' hd hi ih =>
    obtain ⟨y, h1, rfl, f, h2⟩ := ih
    obtain ⟨f', k1, k2, k3, k4, k5⟩ := unchanged_includes he hT' hn h2 hd
    obtain ⟨f'', k6, k7⟩ := hi
    rw [k1] at k6; cases k6
    rw [k5, List.mem_map] at k7
    obtain ⟨z, k7, rfl⟩ := k7
    have hz := hT.inRange y z ⟨f, h2, k7⟩
    exact ⟨z, .includes h1 ⟨f, h2, k7⟩, rfl, _, List.getElem?_eq_getElem hz⟩
  | @source y' z' hd hs ih =>
    obtain ⟨y, h1, rfl, f, h2⟩ := ih
    have hdz : DependsOn fs' (ι x) z' := .source hd hs
    obtain ⟨f', g', a1, a2, a3, a4, a5, a6⟩ := hs
    have hold : Old fs ι z' := Classical.byContradiction fun h => hn z' hdz ⟨g', a2, he.created z' g' a2 h⟩
    obtain ⟨z, g, b1, rfl⟩ := hold
    obtain ⟨g'', k1, ⟨k2, k2', _⟩, k3, k4, k5⟩ := unchanged_includes he hT' hn b1 hdz
    rw [a2] at k1; cases k1
    obtain ⟨f'', l1, ⟨l2, l2', _⟩, _⟩ := he.kept y f h2
    rw [a1] at l1; cases l1
    rw [k5, List.mem_map] at a6
    obtain ⟨w, a6, e⟩ := a6
    have hw := hT.inRange z w ⟨g, b1, a6⟩
    have := he.distinct w y _ f (List.getElem?_eq_getElem hw) h2 e
    subst this
    exact ⟨z, .source h1 ⟨f, g, h2, b1, by rw [← l2']; exact a3, by rw [← k2']; exact a4, by rw [← l2, ← k2]; exact a5, a6⟩, rfl, g, b1⟩

theorem dependsOn_forth {t : Nat} (he : Evolved t fs fs' ι) (hT : Tidy fs) (hT' : Tidy fs') (hx : ∃ f, fs[x]? = some f)
    (hn : ∀ y, DependsOn fs' (ι x) y → ¬ ChangedAfter fs' t y) {y : Nat} (hd : DependsOn fs x y) : DependsOn fs' (ι x) (ι y) ∧ ∃ f, fs[y]? = some f := by
  induction hd with
  | self => exact ⟨.self, hx⟩
  | @includes y z hd hi ih =>
    obtain ⟨h1, f, h2⟩ := ih
    obtain ⟨f', k1, k2, k3, k4, k5⟩ := unchanged_includes he hT' hn h2 h1
    obtain ⟨f'', k6, k7⟩ := hi
    have hz := hT.inRange y z ⟨f'', k6, k7⟩
    rw [h2] at k6; cases k6
    exact ⟨.includes h1 ⟨f', k1, by rw [k5]; exact List.mem_map_of_mem k7⟩, _, List.getElem?_eq_getElem hz⟩
  | @source y z hd hs ih =>
    obtain ⟨h1, f, h2⟩ := ih
    refine ⟨.source h1 (he.sources y z hs), ?_⟩
    obtain ⟨_, g, _, b, _⟩ := hs
    exact ⟨g, b⟩

/-- A test which has not been changed is as it was. -/
theorem unchanged {t : Nat} (he : Evolved t fs fs' ι) (hT : Tidy fs) (hT' : Tidy fs') (hx : ∃ f, fs[x]? = some f) (hc : ¬ TestChangedAfter fs' false t (ι x)) : Agree fs fs' ι x := by
  have hn : ∀ y, DependsOn fs' (ι x) y → ¬ ChangedAfter fs' t y := fun y h h' => hc (.inl ⟨y, h, h'⟩)
  refine ⟨fun y hd => ?_, fun y' => ⟨fun h => ?_, ?_⟩, ?_⟩
  · obtain ⟨hd', f, hf⟩ := dependsOn_forth he hT hT' hx hn hd
    obtain ⟨f', h1, h2, h3, h4, h5⟩ := unchanged_includes he hT' hn hf hd'
    exact ⟨f, f', hf, h1, h2, h3, h5⟩
  · obtain ⟨y, h1, h2, _⟩ := dependsOn_back he hT hT' hx hn h
    exact ⟨y, h1, h2⟩
  · rintro ⟨y, h, rfl⟩
    exact (dependsOn_forth he hT hT' hx hn h).1
  · obtain ⟨f, hf⟩ := hx
    obtain ⟨f', h1, _, _, h4⟩ := he.kept x f hf
    refine ⟨f, f', hf, h1, h4 fun m hm s hs => Nat.not_lt.mp fun h => hc (.inr ⟨f', m, h1, hm, .inr ⟨s, hs, h⟩⟩)⟩

/-- If it has not been changed after a time, then it had not been changed after that time before. -/
theorem unchanged_before {s : Nat} {folder : Bool} (ha : Agree fs fs' ι x) (hc : ¬ TestChangedAfter fs' folder s (ι x)) : ¬ TestChangedAfter fs folder s x := by
  rintro (⟨y, h1, f, h2, h3⟩ | ⟨f, m, h1, h2, h3⟩)
  · obtain ⟨f₀, f', k0, k1, k2, k3, k4⟩ := ha.same y h1
    rw [h2] at k0; cases k0
    exact hc (.inl ⟨ι y, (ha.all _).mpr ⟨y, h1, rfl⟩, f', k1, by omega⟩)
  · obtain ⟨f₀, f', k0, k1, k2⟩ := ha.materials
    rw [h1] at k0; cases k0
    exact hc (.inr ⟨f', m, k1, by rw [k2]; exact h2, h3⟩)
end

section
variable {K : Type} [LinearOrder K] {form : Form K} {sort : List K → List K} {tests : K → Prop} {pass : List (File K) → Nat → Bool}

/-- What the records say about the tests. -/
structure Inv (tests : K → Prop) (pass : List (File K) → Nat → Bool) (form : Form K) (s : State K) (t : Nat) : Prop where
  wf : WellFormed s.files
  good : Good form s.disk
  stampLe : ∀ a, s.disk.stamp = some a → a ≤ t
  timeLe : ∀ p, s.passesTime = some p → p ≤ t
  order : ∀ a p, s.disk.stamp = some a → s.passesTime = some p → a ≤ p
  known : ∀ k ∈ PruneFiles.fails form s.disk, tests k
  noTime : s.passesTime = none → PruneFiles.passes form s.disk = []
  passed : ∀ a p, s.disk.stamp = some a → s.passesTime = some p → ∀ x k, tests k → TestAt s.files x k → k ∈ PruneFiles.passes form s.disk →
    ¬ TestChangedAfter s.files true p x → pass s.files x = true
  other : ∀ a, s.disk.stamp = some a → ∀ x k, tests k → TestAt s.files x k → k ∉ PruneFiles.passes form s.disk → k ∉ PruneFiles.fails form s.disk →
    ¬ TestChangedAfter s.files false a x → pass s.files x = true

/-- What is selected. -/
theorem selection_spec (hsort : Sorts sort) {s : State K} {t : Nat} (hi : Inv tests pass form s t) {exe : Option Nat} {sel : List K}
    (h : selection form sort exe s = .ok (some sel)) :
    ∃ a, s.disk.stamp = some a ∧ (∀ k ∈ PruneFiles.fails form s.disk, k ∈ sel) ∧
      ∀ x k, TestAt s.files x k → k ∉ sel → ¬ NeedsToRun s.files a (s.passesTime.map fun p => (PruneFiles.passes form s.disk, p)) x k := by
  unfold selection at h
  cases ha : s.disk.stamp with
  | none => rw [ha] at h; cases h
  | some a =>
    rw [ha] at h
    simp only at h
    have hps : ∀ ps stamp, (s.passesTime.map fun p => (readTests form s.disk.passes, p)) = some (ps, stamp) → ps.Pairwise (· ≤ ·) := by
      intro ps stamp he
      cases hp : s.passesTime with
      | none => rw [hp] at he; cases he
      | some p => rw [hp] at he; cases he; exact hi.good.ps
    by_cases hexe : ∀ f ∈ s.files, ∀ e, exe = some e → f.time < e
    · obtain ⟨hT, ⟨layer, hl⟩, _⟩ := hi.wf
      obtain ⟨r, h1, h2⟩ := Props.C43_selected_partial (fun l => (hsort l).1) hT hl hexe hps (prune := a)
      rw [h1] at h
      simp only [Res.bind, testsToRun, ha, Res.ok.injEq, Option.some.injEq] at h
      have hr : r.Pairwise (· ≤ ·) := by
        unfold findStaleTests at h1
        cases hq : propagate a exe s.files with
        | ok ws => rw [hq] at h1; simp only [Res.bind, Res.ok.injEq] at h1; rw [← h1]; exact (hsort _).2
        | throws => rw [hq] at h1; cases h1
        | ub => rw [hq] at h1; cases h1
      have hm := fun k => mem_setUnion hr hi.good.fs k
      refine ⟨a, rfl, fun k hk => ?_, ?_⟩
      · rw [← h]; exact (hm k).mpr (.inr hk)
      · rintro x k ⟨f, f1, f2, f3, f4⟩ hk hneed
        exact hk (by rw [← h]; exact (hm k).mpr (.inl ((h2 k).mpr ⟨x, f, f1, f2, f3, f4, hneed⟩)))
    · exfalso
      obtain ⟨f, hx⟩ := Classical.not_forall.mp hexe
      obtain ⟨hf, hx⟩ := Classical.not_imp.mp hx
      obtain ⟨e, hx⟩ := Classical.not_forall.mp hx
      obtain ⟨hee, hlt⟩ := Classical.not_imp.mp hx
      subst hee
      rw [Props.C43_executable_out_of_date sort _ ⟨f, hf, Nat.not_lt.mp hlt⟩] at h
      cases h

/-- What is not selected passes. -/
theorem not_selected (hsort : Sorts sort) {s : State K} {t : Nat} (hi : Inv tests pass form s t) {exe : Option Nat} {sel : List K}
    (h : selection form sort exe s = .ok (some sel)) {x : Nat} {k : K} (hk : tests k) (hx : TestAt s.files x k) (hn : k ∉ sel) : pass s.files x = true := by
  obtain ⟨a, ha, hF, hS⟩ := selection_spec hsort hi h
  have hneed := hS x k hx hn
  have hkF : k ∉ PruneFiles.fails form s.disk := fun h => hn (hF k h)
  by_cases hP : k ∈ PruneFiles.passes form s.disk
  · cases hp : s.passesTime with
    | none => rw [hi.noTime hp] at hP; cases hP
    | some p =>
      rw [hp] at hneed
      refine hi.passed a p ha hp x k hk hx hP fun hc => hneed ⟨fun ps stamp he _ => ?_, fun hno => absurd hP (hno _ _ rfl)⟩
      cases he
      exact ⟨changed_mono (hi.order a p ha hp) hc, hc⟩
  · refine hi.other a ha x k hk hx hP hkF fun hc => hneed ⟨fun ps stamp he hm => ?_, fun _ => hc⟩
    cases hp : s.passesTime with
    | none => rw [hp] at he; cases he
    | some p => rw [hp] at he; cases he; exact absurd hm hP

theorem inv_start {fs : List (File K)} (h : WellFormed fs) : Inv tests pass form ⟨fs, ⟨none, none, none⟩, none⟩ 0 := by
  refine ⟨h, good_empty none, by simp, by simp, by simp, ?_, fun _ => rfl, by simp, by simp⟩
  intro k hk
  simp [PruneFiles.fails, readTests] at hk

theorem inv_change (hd : Determined pass) {s : State K} {t : Nat} (hi : Inv tests pass form s t) {fs : List (File K)} {ι : Nat → Nat} (hw : WellFormed fs) (he : Evolved t s.files fs ι) :
    Inv tests pass form (step form sort s (.change fs)) t := by
  have key : ∀ (folder : Bool) (a : Nat), a ≤ t → ∀ x k, TestAt fs x k → ¬ TestChangedAfter fs folder a x →
      ∃ x₀, TestAt s.files x₀ k ∧ ¬ TestChangedAfter s.files folder a x₀ ∧ pass fs x = pass s.files x₀ := by
    intro folder a hle x k ⟨f', f1, f2, f3, f4⟩ hc
    have hold : Old s.files ι x := Classical.byContradiction fun h => hc (.inl ⟨x, .self, f', f1, by have := he.created x f' f1 h; omega⟩)
    obtain ⟨x₀, f, g1, rfl⟩ := hold
    have hag := unchanged he hi.wf.1 hw.1 ⟨f, g1⟩ fun h => hc (changed_folder (changed_mono hle h))
    obtain ⟨f'', k1, ⟨k2, k3, k4, k5⟩, _⟩ := he.kept x₀ f g1
    rw [f1] at k1; cases k1
    exact ⟨x₀, ⟨f, g1, by rw [← k3]; exact f2, by rw [← k4]; exact f3, by rw [← k5]; exact f4⟩, unchanged_before hag hc, hd _ _ _ _ hag⟩
  refine ⟨hw, hi.good, hi.stampLe, hi.timeLe, hi.order, hi.known, hi.noTime, ?_, ?_⟩
  · intro a p ha hp x k hk hx hm hc
    obtain ⟨x₀, h1, h2, h3⟩ := key true p (hi.timeLe p hp) x k hx hc
    show pass fs x = true
    rw [h3]
    exact hi.passed a p ha hp x₀ k hk h1 hm h2
  · intro a ha x k hk hx hm hm' hc
    obtain ⟨x₀, h1, h2, h3⟩ := key false a (hi.stampLe a ha) x k hx hc
    show pass fs x = true
    rw [h3]
    exact hi.other a ha x₀ k hk h1 hm hm' h2

omit [LinearOrder K] in
theorem passes_of {fs : List (File K)} (hw : WellFormed fs) {x : Nat} {k : K} (hk : tests k) (hx : TestAt fs x k) (h : ¬ Failing tests pass fs k) : pass fs x = true := by
  cases hp : pass fs x with
  | true => rfl
  | false => exact absurd ⟨hk, x, hx, hp⟩ h

theorem inv_all (hsort : Sorts sort) {s : State K} {t begin' recorded : Nat} {failed : List K} (hi : Inv tests pass form s t) (ht : t ≤ begin') (hp : Proper form (.all failed begin'))
    (hf : ∀ k, k ∈ failed ↔ Failing tests pass s.files k) : Inv tests pass form (step form sort s (.run (.all failed begin') recorded)) begin' := by
  obtain ⟨h1, h2, h3⟩ := step_all hsort hp s.disk
  have hst : (applyAll s.disk ((Run.all failed begin').ops form sort s.disk)).stamp = some begin' := by
    rw [Run.ops, updateAll_disk]
  refine ⟨hi.wf, h1, ?_, ?_, ?_, ?_, fun _ => h3, ?_, ?_⟩
  · intro a ha
    rw [show (step form sort s (.run (.all failed begin') recorded)).disk.stamp = some begin' from hst] at ha
    cases ha; exact Nat.le_refl _
  · intro p hp; cases hp
  · intro a p _ hp; cases hp
  · intro k hk
    exact ((hf k).mp ((h2 k).mp hk)).1
  · intro a p _ hp; cases hp
  · intro a _ x k hk hx _ hnf _
    exact passes_of hi.wf hk hx fun h => hnf ((h2 k).mpr ((hf k).mpr h))

theorem inv_selected (hsort : Sorts sort) {s : State K} {t recorded : Nat} {executed failed : List K} (hi : Inv tests pass form s t) (ht : t ≤ recorded) (hp : Proper form (.selected executed failed))
    (hs : ∀ a, s.disk.stamp = some a → ∀ k ∈ PruneFiles.passes form s.disk, k ∉ executed → ∀ x, tests k → TestAt s.files x k → pass s.files x = true)
    (he : ∀ k ∈ executed, tests k) (hf : ∀ k, k ∈ failed ↔ k ∈ executed ∧ Failing tests pass s.files k) :
    Inv tests pass form (step form sort s (.run (.selected executed failed) recorded)) recorded := by
  obtain ⟨h1, h2, h3⟩ := step_selected hsort hp hi.good
  have hst : (applyAll s.disk ((Run.selected executed failed).ops form sort s.disk)).stamp = s.disk.stamp := by
    rw [Run.ops, updateSelected_disk]
  refine ⟨hi.wf, h1, ?_, ?_, ?_, ?_, ?_, ?_, ?_⟩
  · intro a ha
    have := hi.stampLe a (hst ▸ ha)
    omega
  · intro p hp
    cases hp; exact Nat.le_refl _
  · intro a p ha hp
    cases hp
    have := hi.stampLe a (hst ▸ ha)
    omega
  · intro k hk
    rcases (h2 k).mp hk with hk | ⟨hk, _⟩
    · exact he k ((hf k).mp hk).1
    · exact hi.known k hk
  · intro h; cases h
  · intro a p ha _ x k hk hx hm _
    obtain ⟨hm, hnf⟩ := (h3 k).mp hm
    by_cases hex : k ∈ executed
    · exact passes_of hi.wf hk hx fun h => hnf ((hf k).mpr ⟨hex, h⟩)
    · exact hs a (hst ▸ ha) k (hm.resolve_left hex) hex x hk hx
  · intro a ha x k hk hx hnp hnf hc
    have e1 : k ∉ failed := fun h => hnf ((h2 k).mpr (.inl h))
    have e2 : k ∉ executed := fun h => hnp ((h3 k).mpr ⟨.inl h, e1⟩)
    have e3 : k ∉ PruneFiles.passes form s.disk := fun h => hnp ((h3 k).mpr ⟨.inr h, e1⟩)
    have e4 : k ∉ PruneFiles.fails form s.disk := fun h => hnf ((h2 k).mpr (.inr ⟨h, e2⟩))
    exact hi.other a (hst ▸ ha) x k hk hx e3 e4 hc

theorem inv_history (hsort : Sorts sort) (hd : Determined pass) {s : State K} {t : Nat} (h : History tests pass form sort s t) : Inv tests pass form s t := by
  induction h with
  | start hw => exact inv_start hw
  | change _ hw he ih => exact inv_change hd ih hw he
  | all _ ht hp hf ih => exact inv_all hsort ih ht hp hf
  | pruned _ ht hp hsel hin he hf ih =>
    refine inv_selected hsort ih ht hp (fun a _ k _ hex x hk hx => ?_) he hf
    exact not_selected hsort ih hsel hk hx fun h => hex (hin k h hk)
  | @selected s t recorded executed failed _ ht hp hold he hf ih =>
    refine inv_selected hsort ih ht hp (fun a ha k hm hex x hk hx => ?_) he hf
    cases hpt : s.passesTime with
    | none => rw [ih.noTime hpt] at hm; cases hm
    | some p => exact ih.passed a p ha hpt x k hk hx hm (hold k hm hex p hpt x hx)
end

end Verif.Incremental
