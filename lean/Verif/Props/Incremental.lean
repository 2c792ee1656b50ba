import Verif.Lemmas.Incremental
import Verif.Props.PruneFiles
set_option linter.unusedSimpArgs false
/-
Properties of incremental testing, C102.
-/
namespace Verif.Props
open Verif.Dependency Verif.PruneFiles Verif.Incremental Verif.Spec.Stale Verif.Spec.Prune Verif.Spec.Incremental

section
variable {K : Type} [LinearOrder K] {form : Form K} {sort : List K → List K} {tests : K → Prop} {passes : List (File K) → Nat → Bool}

/-- **C102 (part)** However the project has been developed, the next pruned run selects every test which would fail if all tests were run: to leave out the others does no harm.

What is missing: runs of tests chosen by the user, changes during a pruned run and executables which are out of date, for which the claim is false, see below. -/
theorem C102_safe_partial (hsort : Sorts sort) (hd : Determined passes) {s : State K} {t : Nat} (h : History tests passes form sort s t) {exe : Option Nat} {selected : List K}
    (hs : selection form sort exe s = .ok (some selected)) : ∀ k, Failing tests passes s.files k → k ∈ selected := by
  rintro k ⟨hk, x, hx, hp⟩
  refine Classical.byContradiction fun hn => ?_
  have := not_selected hsort (inv_history hsort hd h) hs hk hx hn
  rw [hp] at this
  cases this

/-- **C102 (part)** What is recorded after a pruned run is what would be recorded after a run of all tests: the failures are exactly the tests which fail.

What is missing: see `C102_safe_partial`. -/
theorem C102_same_partial (hsort : Sorts sort) (hd : Determined passes) {s : State K} {t : Nat} (h : History tests passes form sort s t) {exe : Option Nat} {selected executed failed : List K}
    (hs : selection form sort exe s = .ok (some selected)) (hin : ∀ k ∈ selected, tests k → k ∈ executed) (hp : Proper form (.selected executed failed))
    (hf : ∀ k, k ∈ failed ↔ k ∈ executed ∧ Failing tests passes s.files k) (recorded : Nat) :
    (∀ k, k ∈ failed ↔ Failing tests passes s.files k) ∧
    ∀ k, k ∈ readTests form (step form sort s (.run (.selected executed failed) recorded)).disk.failures ↔ Failing tests passes s.files k := by
  have hi := inv_history hsort hd h
  have key : ∀ k, k ∈ failed ↔ Failing tests passes s.files k := fun k => by
    rw [hf k]
    exact ⟨fun h => h.2, fun h' => ⟨hin k (C102_safe_partial hsort hd h hs k h') h'.1, h'⟩⟩
  refine ⟨key, fun k => ?_⟩
  obtain ⟨_, h2, _⟩ := step_selected hsort hp hi.good
  rw [← key k]
  refine (h2 k).trans ⟨?_, .inl⟩
  rintro (h | ⟨h, hne⟩)
  · exact h
  · obtain ⟨a, _, hF, _⟩ := selection_spec hsort hi hs
    exact absurd (hin k (hF k h) (hi.known k h)) hne

/-- **C102** As soon as all tests have been run, pruning is possible: there is a selection, provided that the executable is newer than all files; if it is not then this is said by an exception, and nothing is run. -/
theorem C102_possible (hsort : Sorts sort) (hd : Determined passes) {s : State K} {t : Nat} (h : History tests passes form sort s t) (exe : Option Nat) {a : Nat} (ha : s.disk.stamp = some a) :
    ((∀ f ∈ s.files, ∀ e, exe = some e → f.time < e) → ∃ selected, selection form sort exe s = .ok (some selected)) ∧
    (¬ (∀ f ∈ s.files, ∀ e, exe = some e → f.time < e) → selection form sort exe s = .throws) := by
  have hi := inv_history hsort hd h
  unfold selection
  rw [ha]
  simp only
  constructor
  · intro hexe
    obtain ⟨hT, ⟨layer, hl⟩, _⟩ := hi.wf
    obtain ⟨r, h1, _⟩ := C43_selected_partial (fun l => (hsort l).1) hT hl hexe (prune := a) (passes := s.passesTime.map fun p => (readTests form s.disk.passes, p)) (by
      intro ps stamp he
      cases hp : s.passesTime with
      | none => rw [hp] at he; cases he
      | some p => rw [hp] at he; cases he; exact hi.good.ps)
    rw [h1]
    exact ⟨_, by simp only [Res.bind, testsToRun, ha]; rfl⟩
  · intro hexe
    obtain ⟨f, hx⟩ := Classical.not_forall.mp hexe
    obtain ⟨hf, hx⟩ := Classical.not_imp.mp hx
    obtain ⟨e, hx⟩ := Classical.not_forall.mp hx
    obtain ⟨hee, hlt⟩ := Classical.not_imp.mp hx
    subst hee
    rw [C43_executable_out_of_date sort _ ⟨f, hf, Nat.not_lt.mp hlt⟩]
    rfl
end

/-! ### An example, and violations -/

/-- The header `Dep.hpp`, last changed at the given time; the test `ATest.cpp`, which includes it, and the test `BTest.cpp`, which does not. -/
def twoTests (changed : Nat) : List (File Nat) := [⟨1, false, false, 2, changed, [], none⟩, ⟨2, true, true, 0, 1, [0], none⟩, ⟨3, true, true, 1, 1, [], none⟩]

/-- Tests pass unless there is a mistake in a file on which they depend: one was made at time 40. -/
noncomputable def unlessMistaken (fs : List (File Nat)) (x : Nat) : Bool :=
  @decide (¬ ∃ y f, DependsOn fs x y ∧ fs[y]? = some f ∧ f.time = 40) (Classical.propDecidable _)

theorem unlessMistaken_determined : Determined unlessMistaken := by
  intro fs fs' ι x ha
  unfold unlessMistaken
  congr 1
  refine propext (not_congr ⟨?_, ?_⟩)
  · rintro ⟨y', f', h1, h2, h3⟩
    obtain ⟨y, h4, rfl⟩ := (ha.all y').mp h1
    obtain ⟨f, f'', k0, k1, _, k3, _⟩ := ha.same y h4
    rw [h2] at k1; cases k1
    exact ⟨y, f, h4, k0, by omega⟩
  · rintro ⟨y, f, h1, h2, h3⟩
    obtain ⟨f₀, f', k0, k1, _, k3, _⟩ := ha.same y h1
    rw [h2] at k0; cases k0
    exact ⟨ι y, f', (ha.all _).mpr ⟨y, h1, rfl⟩, k1, by omega⟩

theorem twoTests_file {t x : Nat} {f : File Nat} (h : (twoTests t)[x]? = some f) :
    x = 0 ∧ f = ⟨1, false, false, 2, t, [], none⟩ ∨ x = 1 ∧ f = ⟨2, true, true, 0, 1, [0], none⟩ ∨ x = 2 ∧ f = ⟨3, true, true, 1, 1, [], none⟩ := by
  match x, h with
  | 0, h => cases h; exact .inl ⟨rfl, rfl⟩
  | 1, h => cases h; exact .inr (.inl ⟨rfl, rfl⟩)
  | 2, h => cases h; exact .inr (.inr ⟨rfl, rfl⟩)
  | n + 3, h => simp [twoTests] at h

theorem twoTests_source {t x y : Nat} (h : SourceOf (twoTests t) x y) : False := by
  obtain ⟨f, g, h1, h2, h3, h4, h5, h6⟩ := h
  rcases twoTests_file h1 with ⟨_, rfl⟩ | ⟨_, rfl⟩ | ⟨_, rfl⟩ <;> rcases twoTests_file h2 with ⟨_, rfl⟩ | ⟨_, rfl⟩ | ⟨_, rfl⟩ <;> simp at h3 h4 h5

theorem twoTests_wellFormed (t : Nat) : WellFormed (twoTests t) := by
  have hi : ∀ x y, Includes (twoTests t) x y → x = 1 ∧ y = 0 := by
    rintro x y ⟨f, h1, h2⟩
    rcases twoTests_file h1 with ⟨rfl, rfl⟩ | ⟨rfl, rfl⟩ | ⟨rfl, rfl⟩ <;> simp at h2
    exact ⟨rfl, h2⟩
  refine ⟨⟨?_, ?_, ?_⟩, ⟨fun x => if x = 1 then 1 else 0, ?_, ?_⟩, ?_⟩
  · intro x y h
    rw [(hi x y h).2]; simp [twoTests]
  · intro x f y g h1 h2 h3 h4 h5
    obtain ⟨rfl, rfl⟩ := hi x y ⟨f, h1, h3⟩
    cases h1; cases h4; simp at h5
  · intro x f g h1 h2 h3 h4
    rcases twoTests_file h1 with ⟨rfl, rfl⟩ | ⟨rfl, rfl⟩ | ⟨rfl, rfl⟩
    · cases h2
    · cases h3; simp at h4
    · cases h3
  · intro x y h
    obtain ⟨rfl, rfl⟩ := hi x y h
    decide
  · intro x s y h
    exact absurd h twoTests_source
  · intro x y f g h1 h2 h3 h4 _ _ h5
    rcases twoTests_file h1 with ⟨rfl, rfl⟩ | ⟨rfl, rfl⟩ | ⟨rfl, rfl⟩ <;> rcases twoTests_file h2 with ⟨rfl, rfl⟩ | ⟨rfl, rfl⟩ | ⟨rfl, rfl⟩ <;> simp at h3 h4 h5 ⊢

/-- The header is changed. -/
theorem twoTests_evolved {t a b : Nat} (h : t < b) : Evolved t (twoTests a) (twoTests b) id := by
  refine ⟨fun x y _ _ _ _ h => h, ?_, ?_, fun x y h => absurd h twoTests_source⟩
  · intro x f hf
    rcases twoTests_file hf with ⟨rfl, rfl⟩ | ⟨rfl, rfl⟩ | ⟨rfl, rfl⟩
    · exact ⟨_, rfl, ⟨rfl, rfl, rfl, rfl⟩, fun h' => absurd h' (Nat.not_le.mpr h), fun _ => rfl⟩
    · exact ⟨_, rfl, ⟨rfl, rfl, rfl, rfl⟩, fun _ => ⟨rfl, .inl rfl⟩, fun _ => rfl⟩
    · exact ⟨_, rfl, ⟨rfl, rfl, rfl, rfl⟩, fun _ => ⟨rfl, .inl rfl⟩, fun _ => rfl⟩
  · intro y f' hf hn
    exfalso
    refine hn ?_
    rcases twoTests_file hf with ⟨rfl, rfl⟩ | ⟨rfl, rfl⟩ | ⟨rfl, rfl⟩
    · exact ⟨0, _, rfl, rfl⟩
    · exact ⟨1, _, rfl, rfl⟩
    · exact ⟨2, _, rfl, rfl⟩

theorem twoTests_dependsOn {t y : Nat} : DependsOn (twoTests t) 1 y ↔ y = 1 ∨ y = 0 := by
  constructor
  · intro h
    induction h with
    | self => exact .inl rfl
    | includes _ hi _ =>
      obtain ⟨f, h1, h2⟩ := hi
      rcases twoTests_file h1 with ⟨rfl, rfl⟩ | ⟨rfl, rfl⟩ | ⟨rfl, rfl⟩ <;> simp at h2
      exact .inr h2
    | source _ hs _ => exact absurd hs twoTests_source
  · rintro (rfl | rfl)
    · exact .self
    · exact .includes .self ⟨_, rfl, by simp⟩

theorem twoTests_dependsOn' {t y : Nat} (h : DependsOn (twoTests t) 2 y) : y = 2 := by
  induction h with
  | self => rfl
  | includes _ hi ih =>
    obtain ⟨f, h1, h2⟩ := hi
    subst ih
    cases h1; simp at h2
  | source _ hs _ => exact absurd hs twoTests_source

/-- `ATest.cpp` fails once there is a mistake in the header. -/
theorem twoTests_failing (t k : Nat) : Failing (fun _ => True) unlessMistaken (twoTests t) k ↔ k = 0 ∧ t = 40 := by
  unfold Failing unlessMistaken
  simp only [true_and, decide_eq_false_iff_not, Classical.not_not]
  constructor
  · rintro ⟨x, ⟨f, h1, h2, h3, h4⟩, y, g, h5, h6, h7⟩
    rcases twoTests_file h1 with ⟨rfl, rfl⟩ | ⟨rfl, rfl⟩ | ⟨rfl, rfl⟩
    · cases h2
    · rcases twoTests_dependsOn.mp h5 with rfl | rfl
      · cases h6; simp at h7
      · cases h6; exact ⟨h4.symm, h7⟩
    · have := twoTests_dependsOn' h5
      subst this
      cases h6; simp at h7
  · rintro ⟨rfl, rfl⟩
    exact ⟨1, ⟨_, rfl, rfl, rfl, rfl⟩, 0, _, twoTests_dependsOn.mpr (.inr rfl), rfl, rfl⟩

/-- All tests are run at time 10 and pass; the header is changed at 20, and the test which is selected by pruning passes, which is recorded at 30. -/
def afterPruned : State Nat :=
  step letters sortNat (step letters sortNat (step letters sortNat ⟨twoTests 1, ⟨none, none, none⟩, none⟩ (.run (.all [] 10) 11)) (.change (twoTests 20))) (.run (.selected [0] []) 30)

theorem twoTests_none {t : Nat} (h : t ≠ 40) (k : Nat) : k ∈ ([] : List Nat) ↔ Failing (fun _ => True) unlessMistaken (twoTests t) k := by
  rw [twoTests_failing]; simp [h]

/-- A history with a run of all tests, a change and a pruned run. -/
theorem afterPruned_history : History (fun _ => True) unlessMistaken letters sortNat afterPruned 30 := by
  have h1 : History (fun _ => True) unlessMistaken letters sortNat (step letters sortNat ⟨twoTests 1, ⟨none, none, none⟩, none⟩ (.run (.all [] 10) 11)) 10 :=
    .all (.start (twoTests_wellFormed 1)) (by omega) ⟨List.nodup_nil, by simp⟩ (twoTests_none (by omega))
  have h2 := History.change h1 (twoTests_wellFormed 20) (twoTests_evolved (by omega) : Evolved 10 (twoTests 1) (twoTests 20) id)
  refine .pruned (exe := some 25) (selected := [0]) h2 (by omega) ⟨List.nodup_nil, by simp, by simp, fun k _ => letters_legible k⟩ (by rfl) (fun k h _ => h) (fun _ _ => trivial) fun k => ?_
  rw [show k ∈ ([] : List Nat) ↔ Failing (fun _ => True) unlessMistaken (twoTests 20) k from twoTests_none (by omega) k]
  exact ⟨fun h => absurd ((twoTests_failing 20 k).mp h).2 (by omega), fun h => h.2⟩

/-- After that a mistake is made, at time 40, and the test is selected. -/
example : History (fun _ => True) unlessMistaken letters sortNat (step letters sortNat afterPruned (.change (twoTests 40))) 30 ∧
    Failing (fun _ => True) unlessMistaken (twoTests 40) 0 ∧ selection letters sortNat (some 50) (step letters sortNat afterPruned (.change (twoTests 40))) = .ok (some [0]) :=
  ⟨.change afterPruned_history (twoTests_wellFormed 40) (twoTests_evolved (by omega) : Evolved 30 (twoTests 20) (twoTests 40) id), (twoTests_failing 40 0).mpr ⟨rfl, rfl⟩, by rfl⟩

/-- **C102 (violated)** If, after a change, the user runs tests which they have chosen, then tests which failed to be chosen may be taken to pass from then on, although they have been affected by the change: here a
mistake is made, the user runs `BTest.cpp`, which has nothing to do with it, and `ATest.cpp` is not selected by pruning although it would fail. -/
theorem C102_chosen_violated : ∃ (s : State Nat) (t recorded : Nat), History (fun _ => True) unlessMistaken letters sortNat s t ∧ Determined unlessMistaken ∧ t < recorded ∧
    Proper letters (.selected [1] []) ∧ ¬ Failing (fun _ => True) unlessMistaken s.files 1 ∧ Failing (fun _ => True) unlessMistaken s.files 0 ∧
    selection letters sortNat (some 60) s = .ok (some [0]) ∧ selection letters sortNat (some 60) (step letters sortNat s (.run (.selected [1] []) recorded)) = .ok (some []) := by
  refine ⟨step letters sortNat afterPruned (.change (twoTests 40)), 30, 50, .change afterPruned_history (twoTests_wellFormed 40) (twoTests_evolved (by omega) : Evolved 30 (twoTests 20) (twoTests 40) id),
    unlessMistaken_determined, by omega, ⟨List.nodup_nil, by simp, by simp, fun k _ => letters_legible k⟩, fun h => absurd ((twoTests_failing 40 1).mp h).1 (by omega),
    (twoTests_failing 40 0).mpr ⟨rfl, rfl⟩, by rfl, by rfl⟩

/-- All tests are run at time 10, the header is changed at 20; the test which is selected by pruning is run from 30 to 50 and passes. -/
def afterSlow : State Nat :=
  step letters sortNat (step letters sortNat (step letters sortNat ⟨twoTests 1, ⟨none, none, none⟩, none⟩ (.run (.all [] 10) 11)) (.change (twoTests 20))) (.run (.selected [0] []) 50)

/-- **C102 (violated)** What is changed during a pruned run is overlooked: here a mistake is made while the test is run, and before the passes are recorded; the test is not selected by the next pruned run, although it
would fail. -/
theorem C102_meanwhile_violated : ∃ (s : State Nat) (begin' recorded : Nat) (fs : List (File Nat)), History (fun _ => True) unlessMistaken letters sortNat s recorded ∧ Determined unlessMistaken ∧
    begin' < recorded ∧ Evolved begin' s.files fs id ∧ WellFormed fs ∧ (∀ f ∈ s.files, f.time < begin') ∧ Failing (fun _ => True) unlessMistaken fs 0 ∧
    selection letters sortNat (some 60) (step letters sortNat s (.change fs)) = .ok (some []) := by
  refine ⟨afterSlow, 30, 50, twoTests 40, ?_, unlessMistaken_determined, by omega, (twoTests_evolved (by omega) : Evolved 30 (twoTests 20) (twoTests 40) id), twoTests_wellFormed 40, by decide,
    (twoTests_failing 40 0).mpr ⟨rfl, rfl⟩, by rfl⟩
  have h1 : History (fun _ => True) unlessMistaken letters sortNat (step letters sortNat ⟨twoTests 1, ⟨none, none, none⟩, none⟩ (.run (.all [] 10) 11)) 10 :=
    .all (.start (twoTests_wellFormed 1)) (by omega) ⟨List.nodup_nil, by simp⟩ (twoTests_none (by omega))
  have h2 := History.change h1 (twoTests_wellFormed 20) (twoTests_evolved (by omega) : Evolved 10 (twoTests 1) (twoTests 20) id)
  refine .pruned (exe := some 25) (selected := [0]) h2 (by omega) ⟨List.nodup_nil, by simp, by simp, fun k _ => letters_legible k⟩ (by rfl) (fun k h _ => h) (fun _ _ => trivial) fun k => ?_
  rw [show k ∈ ([] : List Nat) ↔ Failing (fun _ => True) unlessMistaken (twoTests 20) k from twoTests_none (by omega) k]
  exact ⟨fun h => absurd ((twoTests_failing 20 k).mp h).2 (by omega), fun h => h.2⟩

/-- **C102 (violated)** If all tests are run with an executable which is out of date then this is not noticed, and neither are, from then on, the changes which it lacks: here a mistake is made at time 40, and all tests are
run at time 50 with an executable from before, so that they pass.  After the executable has been updated, pruning selects nothing, although a test would fail. -/
theorem C102_executable_violated : ∃ (s : State Nat) (t begin' : Nat) (fs : List (File Nat)), History (fun _ => True) unlessMistaken letters sortNat s t ∧ Determined unlessMistaken ∧
    Evolved t s.files fs id ∧ WellFormed fs ∧ (∀ f ∈ fs, f.time < begin') ∧ (∀ k, k ∈ ([] : List Nat) ↔ Failing (fun _ => True) unlessMistaken s.files k) ∧ Failing (fun _ => True) unlessMistaken fs 0 ∧
    selection letters sortNat (some 60) (step letters sortNat (step letters sortNat s (.change fs)) (.run (.all [] begin') 51)) = .ok (some []) := by
  refine ⟨afterPruned, 30, 50, twoTests 40, afterPruned_history, unlessMistaken_determined, (twoTests_evolved (by omega) : Evolved 30 (twoTests 20) (twoTests 40) id), twoTests_wellFormed 40, by decide,
    twoTests_none (t := 20) (by omega), (twoTests_failing 40 0).mpr ⟨rfl, rfl⟩, by rfl⟩

end Verif.Props
