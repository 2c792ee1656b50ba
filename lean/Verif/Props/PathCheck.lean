import Verif.Lemmas.PathCheck
import Verif.Props.SoftUpdate
/-
C67: a check of paths passes if and only if what is there is what is predicted.
-/
set_option linter.unusedSectionVars false

namespace Verif.Props
open Verif.SoftUpdate Verif.PathCheck Verif.Spec.SoftUpdate Verif.Spec.PathCheck

namespace PathCheck

section
variable {N C : Type} [LinearOrder N] [DecidableEq C] {nm : Names N} {comparer : FileChecker N C}

theorem within_passes {strict : Bool} {depth : Nat} {dir dir' : Entries N C (Dir N C depth)} {n n' : N} (hd : Distinct (depth + 1) dir) (hd' : Distinct (depth + 1) dir') :
    Passes (check nm strict comparer (.within dir n) (.within dir' n')) ↔ (strict = true → n = n') ∧
      ∃ x y, lookup n dir = some x ∧ lookup n' dir' = some y ∧ AgreeItems nm (passesFile comparer) depth n n' dir' x y := by
  show Passes (checkFound strict (comparer _) (checkDirectory nm strict comparer depth) dir' n n' (lookup n dir) (lookup n' dir')) ↔ _
  cases e : lookup n dir with
  | none =>
    refine iff_of_false (fun h => ?_) (fun ⟨_, _, _, h, _⟩ => nomatch h)
    cases e' : lookup n' dir' with
    | none =>
      rw [e'] at h
      unfold checkFound finalTokens at h
      cases strict with
      | false => exact not_passes_throws h
      | true =>
        by_cases hn : n = n'
        · simp [hn, not_passes_throws] at h
        · simp [hn, passes_ok] at h
    | some y => rw [e'] at h; exact absurd (passes_ok.mp h) (by simp)
  | some x =>
    cases e' : lookup n' dir' with
    | none => exact iff_of_false (fun h => absurd (passes_ok.mp h) (by simp)) (fun ⟨_, _, _, _, h, _⟩ => nomatch h)
    | some y =>
      have key := checkPath_agree (nm := nm) (strict := strict) (comparer := comparer) (dir := dir') (n := n) (n' := n') (x := x) (y := y)
        (fun d h => hd.2 n d (lookup_mem (h ▸ e))) (fun d h => hd'.2 n' d (lookup_mem (h ▸ e')))
      refine key.trans (and_congr_right fun _ => ⟨fun h => ⟨x, y, rfl, rfl, h⟩, ?_⟩)
      rintro ⟨_, _, h1, h2, h⟩
      cases h1; cases h2
      exact h

theorem inj_on {α : Type 1} {β : Type} {f : α → β} : ∀ {l : List α}, (l.map f).Nodup → ∀ {x y : α}, x ∈ l → y ∈ l → f x = f y → x = y
  | [], _, _, _, hx, _, _ => nomatch hx
  | a :: l, h, x, y, hx, hy, e => by
    rw [List.map_cons, List.nodup_cons] at h
    rcases List.mem_cons.mp hx with hx1 | hx1 <;> rcases List.mem_cons.mp hy with hy1 | hy1
    · rw [hx1, hy1]
    · exact absurd (List.mem_map.mpr ⟨y, hy1, by rw [← e, hx1]⟩) h.1
    · exact absurd (List.mem_map.mpr ⟨x, hx1, by rw [e, hy1]⟩) h.1
    · exact inj_on h.2 hx1 hy1 e

theorem passesFile_basic {reduce : C → C → C} (S : Type) (n n' : N) (c c' : C) (dir : Entries N C S) : passesFile (basic nm reduce) S n n' c c' dir ↔ same nm reduce S n n' c c' dir :=
  stringBased_passes

theorem agreeItems_basic {reduce : C → C → C} {depth : Nat} {n n' : N} {dir : Entries N C (Dir N C depth)} {x y : C ⊕ Dir N C depth} :
    AgreeItems nm (passesFile (basic nm reduce)) depth n n' dir x y ↔ AgreeItems nm (same nm reduce) depth n n' dir x y := agreeItems_congr passesFile_basic

end

end PathCheck

section
variable {N C : Type} [LinearOrder N] [DecidableEq C] {nm : Names N} {reduce : C → C → C}

/-- **C67** A check of equivalence of two paths passes if and only if both exist, have the same name, and are either two files with the same content, or two directories with, at all
levels, the same names and files with the same content.  Entries called `.DS_Store` or `.keep`, and those with the extension `.seqpat`, are ignored, and so is the part of
the contents matched by the patterns in the file beside the prediction with the latter extension. -/
theorem C67_equivalence {depth : Nat} {dir dir' : Entries N C (Dir N C depth)} {n n' : N} (hd : Distinct (depth + 1) dir) (hd' : Distinct (depth + 1) dir') :
    Passes (check nm true (basic nm reduce) (.within dir n) (.within dir' n')) ↔
      n = n' ∧ ∃ x y, lookup n dir = some x ∧ lookup n' dir' = some y ∧ AgreeItems nm (same nm reduce) depth n n' dir' x y := by
  rw [PathCheck.within_passes hd hd']
  simp only [PathCheck.agreeItems_basic, forall_const]

/-- **C67** A check of weak equivalence does not depend on the names of the two paths, but in all else it is as for equivalence. -/
theorem C67_weak {depth : Nat} {dir dir' : Entries N C (Dir N C depth)} {n n' : N} (hd : Distinct (depth + 1) dir) (hd' : Distinct (depth + 1) dir') :
    Passes (check nm false (basic nm reduce) (.within dir n) (.within dir' n')) ↔
      ∃ x y, lookup n dir = some x ∧ lookup n' dir' = some y ∧ AgreeItems nm (same nm reduce) depth n n' dir' x y := by
  rw [PathCheck.within_passes hd hd']
  simp only [PathCheck.agreeItems_basic, Bool.false_eq_true, false_implies, true_and]

/-- **C67** If there are comparers for various extensions, a check passes if and only if the comparisons made by the comparers for the extensions of the files, or by the
default one, do. -/
theorem C67_bespoke {E : Type} [DecidableEq E] (extension : N → E) (dflt : E × FileChecker N C) (others : List (E × FileChecker N C)) (he : ((dflt :: others).map (·.1)).Nodup)
    {depth : Nat} {dir dir' : Entries N C (Dir N C depth)} {n n' : N} {strict : Bool} (hd : Distinct (depth + 1) dir) (hd' : Distinct (depth + 1) dir') :
    Passes (check nm strict (bespokeChecker extension dflt others) (.within dir n) (.within dir' n')) ↔ (strict = true → n = n') ∧
      ∃ x y, lookup n dir = some x ∧ lookup n' dir' = some y ∧ AgreeItems nm (chosen extension dflt others) depth n n' dir' x y := by
  rw [PathCheck.within_passes hd hd']
  have key : ∀ (S : Type) (n n' : N) (c c' : C) (dir : Entries N C S), passesFile (bespokeChecker extension dflt others) S n n' c c' dir ↔ chosen extension dflt others S n n' c c' dir := by
    intro S n n' c c' dir
    have hm : ((dflt.1, dflt.2 S) :: others.map fun p => (p.1, p.2 S)) = (dflt :: others).map fun p => (p.1, p.2 S) := rfl
    unfold passesFile chosen bespokeChecker bespoke
    dsimp only
    rw [hm, List.find?_map]
    cases h : (dflt :: others).find? ((fun e : E × Comparer N C S => decide (e.1 = extension n)) ∘ fun p => (p.1, p.2 S)) with
    | none =>
      rw [List.find?_eq_none] at h
      have hn : ∀ p ∈ dflt :: others, p.1 ≠ extension n := fun p hp => by simpa using h p hp
      exact ⟨fun h => ⟨fun p hp e => absurd e (hn p hp), fun _ => h⟩, fun h => h.2 hn⟩
    | some q =>
      have hq := List.mem_of_find?_eq_some h
      have hqe : q.1 = extension n := by simpa using List.find?_some h
      refine ⟨fun hp => ⟨fun p hp' e => ?_, fun hn => absurd hqe (hn q hq)⟩, fun h => h.1 q hq hqe⟩
      have : p = q := PathCheck.inj_on he hp' hq (e.trans hqe.symm)
      rw [this]
      exact hp
  refine and_congr_right fun _ => ?_
  simp only [agreeItems_congr key]

/-- **C67** A check of two paths, at least one of which exists, completes, provided that no directory has a name like that of a file with patterns: it passes or reports a failure. -/
theorem C67_completes (hl : Lawful nm) {strict : Bool} {depth : Nat} {dir dir' : Entries N C (Dir N C depth)} {n n' : N} (hp : NoPatternDirectory nm (depth + 1) dir')
    (h : lookup n dir ≠ none ∨ lookup n' dir' ≠ none) :
    ¬ Passes (check nm strict (basic nm reduce) (.within dir n) (.within dir' n')) ↔ Fails (check nm strict (basic nm reduce) (.within dir n) (.within dir' n')) := by
  have ok : ∃ log, check nm strict (basic nm reduce) (.within dir n) (.within dir' n') = .ok log := by
    show ∃ log, checkFound strict (basic nm reduce _) (checkDirectory nm strict (basic nm reduce) depth) dir' n n' (lookup n dir) (lookup n' dir') = .ok log
    cases e : lookup n dir with
    | none =>
      cases e' : lookup n' dir' with
      | none => exact absurd h (by rw [e, e']; simp)
      | some y => exact ⟨_, rfl⟩
    | some x =>
      cases e' : lookup n' dir' with
      | none => exact ⟨_, rfl⟩
      | some y => exact checkPath_ok (fun c c' => stringBased_ok hl hp n n' c c') fun d d' _ h' => checkDirectory_ok hl depth d d' (hp n' d' (lookup_mem (h' ▸ e'))).2
  obtain ⟨log, hlog⟩ := ok
  rw [hlog, passes_ok]
  constructor
  · intro h
    refine ⟨log, rfl, Classical.byContradiction fun hf => h fun b hb => ?_⟩
    cases b with
    | true => rfl
    | false => exact absurd hb hf
  · rintro ⟨_, h, hf⟩ ha
    cases h
    cases ha _ hf

/-- **C67** What exists is equivalent to itself. -/
theorem C67_reflexive (hl : Lawful nm) {strict : Bool} {depth : Nat} {dir : Entries N C (Dir N C depth)} {n : N} (hd : Distinct (depth + 1) dir)
    (hp : NoPatternDirectory nm (depth + 1) dir) (he : lookup n dir ≠ none) : Passes (check nm strict (basic nm reduce) (.within dir n) (.within dir n)) := by
  rw [PathCheck.within_passes hd hd]
  refine ⟨fun _ => rfl, ?_⟩
  cases e : lookup n dir with
  | none => exact absurd e he
  | some x =>
    refine ⟨x, x, rfl, rfl, PathCheck.agreeItems_basic.mpr ?_⟩
    cases x with
    | inl c => exact sameContent_refl fun d => pattern_not_dir hl hp n d
    | inr d => exact agree_refl hl depth d (hp n d (lookup_mem e)).2

/-- **C67** In the absence of files with patterns, weak equivalence of directories amounts to the same names and the same contents, apart from what is ignored; it is symmetric and
transitive. -/
theorem C67_exact (hl : Lawful nm) {depth : Nat} {d d' : Dir N C depth} (hd : Distinct depth d) (hd' : Distinct depth d') (hp' : NoPatterns nm depth d') :
    (Passes (checkDirectory nm false (basic nm reduce) depth d d') ↔ Agree nm (fun _ _ _ c c' _ => c = c') depth d d') ∧
    (NoPatterns nm depth d → Passes (checkDirectory nm false (basic nm reduce) depth d d') → Passes (checkDirectory nm false (basic nm reduce) depth d' d)) ∧
    (∀ d'' : Dir N C depth, Distinct depth d'' → NoPatterns nm depth d'' → Passes (checkDirectory nm false (basic nm reduce) depth d d') →
      Passes (checkDirectory nm false (basic nm reduce) depth d' d'') → Passes (checkDirectory nm false (basic nm reduce) depth d d'')) := by
  have key : ∀ a b : Dir N C depth, Distinct depth a → Distinct depth b → NoPatterns nm depth b →
      (Passes (checkDirectory nm false (basic nm reduce) depth a b) ↔ Agree nm (fun _ _ _ c c' _ => c = c') depth a b) := fun a b ha hb hp => by
    rw [checkDirectory_passes depth a b ha hb, agree_congr PathCheck.passesFile_basic, agree_exact hl depth a b hp]
  refine ⟨key d d' hd hd' hp', fun hp h => ?_, fun d'' hd'' hp'' h h' => ?_⟩
  · rw [key d' d hd' hd hp]
    exact agree_symm depth d d' ((key d d' hd hd' hp').mp h)
  · rw [key d d'' hd hd'' hp'']
    exact agree_trans depth d d' d'' ((key d d' hd hd' hp').mp h) ((key d' d'' hd' hd'' hp'').mp h')

/-- **C67** Once a directory of predictions has been updated from a working directory, a check of the latter against the former passes. -/
theorem C67_update (hl : Lawful nm) {depth : Nat} {frm to frm' new : Dir N C depth} (hf : WellFormed nm.toNaming depth frm) (ht : WellFormed nm.toNaming depth to)
    (hp : NoPatternDirectory nm depth frm) (h : softUpdate nm.toNaming reduce depth frm to = .ok (frm', new)) (strict : Bool) :
    Passes (checkDirectory nm strict (basic nm reduce) depth frm' new) := by
  have hu := SoftUpdate.softUpdate_spec depth frm to frm' new hf ht h
  obtain ⟨d1, d2⟩ := updated_distinct depth frm to frm' new hf ht hu
  rw [checkDirectory_passes depth frm' new d1 d2, agree_congr PathCheck.passesFile_basic]
  exact updated_agree hl depth frm to frm' new hp hu

/-- **C67 (violated)** According to the documentation, names are ignored for weak equivalence, both those of files and those of directories.  But two directories, each of which has
one file, with the same content, fail the check if the names of the files differ. -/
theorem C67_names_violated {depth : Nat} (n n' : N) (c : C) (hn : ¬ Ignored nm n) (hne : n ≠ n') :
    ¬ Passes (checkDirectory nm false (basic nm reduce) (depth + 1) ([(n, .inl c)] : Entries N C (Dir N C depth)) ([(n', .inl c)] : Entries N C (Dir N C depth))) := by
  have hd : ∀ m : N, Distinct (depth + 1) ([(m, .inl c)] : Entries N C (Dir N C depth)) := fun m =>
    ⟨by simp, fun k d hk => by
      rcases List.mem_cons.mp hk with h | h
      · cases h
      · cases h⟩
  rw [checkDirectory_passes (depth + 1) _ _ (hd n) (hd n')]
  intro h
  have := h n hn
  rw [lookup_cons, lookup_cons, if_pos rfl, if_neg (Ne.symm hne)] at this
  exact this

/-- **C67 (violated)** A check of an empty path passes whenever the prediction does not exist, whatever its name. -/
theorem C67_empty_violated {strict : Bool} {depth : Nat} {dir : Entries N C (Dir N C depth)} {n : N} (h : lookup n dir = none) :
    Passes (check nm strict (basic nm reduce) .empty (.within dir n)) := by
  show Passes (.ok [(lookup n dir).isNone])
  rw [h, passes_ok]
  simp

/-- **C67 (violated)** Conversely, an exception is thrown if there is nothing at the path and the prediction is empty. -/
theorem C67_missing_violated {strict : Bool} {depth : Nat} {dir : Entries N C (Dir N C depth)} {n : N} (h : lookup n dir = none) :
    check nm strict (basic nm reduce) (.within dir n) .empty = .throws := by
  show (if (lookup n dir).isNone then _ else _) = _
  rw [h]
  rfl

end

namespace PathCheck
open SoftUpdate

/-- Names as in `SoftUpdate.naming`; 7 stands for `.DS_Store`. -/
def names : Names Nat := { naming with isStore := fun n => n == 7 }

theorem names_lawful : Lawful names := ⟨fun n => by simp [names, naming], fun n => by simp [names, naming]; omega⟩

end PathCheck

open SoftUpdate PathCheck in
/-- The check of a working directory against the predictions passes: what is matched by the patterns of 39 is disregarded in 31, and 7 and 1000 are ignored. -/
example : Passes (checkDirectory names true (basic names red) 2 (mk 1 [file 31 107, file 7 5, dir 40 (mk 0 [file 50 1])])
    (mk 1 [dir 40 (mk 0 [file 50 1, file 1000 0]), file 31 17, file 39 9])) :=
  ⟨_, rfl, by decide +kernel⟩

open SoftUpdate PathCheck in
/-- Files whose names end in 1 are compared by something which is always satisfied, all others by their content. -/
example : Passes (checkDirectory names true (bespokeChecker (· % 10) (0, basic names red) [(1, fun _ _ _ _ _ _ => .ok [true])]) 1 (mk 0 [file 31 1, file 40 2, file 52 3])
    (mk 0 [file 52 3, file 31 2, file 40 2])) :=
  ⟨_, rfl, by decide +kernel⟩

open SoftUpdate PathCheck in
/-- A check of two files which differ fails; their names do not matter for weak equivalence. -/
example : Fails (check (depth := 0) names true (basic names red) (.within [file 31 1] 31) (.within [file 31 2] 31)) ∧
    Fails (check (depth := 0) names true (basic names red) (.within [file 31 1] 31) (.within [file 32 1] 32)) ∧
    Passes (check (depth := 0) names false (basic names red) (.within [file 31 1] 31) (.within [file 32 1] 32)) :=
  ⟨⟨_, rfl, by decide +kernel⟩, ⟨_, rfl, by decide +kernel⟩, ⟨_, rfl, by decide +kernel⟩⟩

open SoftUpdate PathCheck in
/-- Patterns are looked for beside the prediction only: the check is not symmetric. -/
example : Fails (checkDirectory names true (basic names red) 2 (mk 1 [dir 40 (mk 0 [file 50 1, file 1000 0]), file 31 17, file 39 9])
    (mk 1 [file 31 107, file 7 5, dir 40 (mk 0 [file 50 1])])) :=
  ⟨_, rfl, by decide +kernel⟩

open SoftUpdate PathCheck in
/-- The update of `Verif.Props.SoftUpdate`, after which the check passes. -/
example : ∃ frm' new, softUpdate naming red 2 frm₁ to₁ = .ok (frm', new) ∧ NoPatternDirectory names 2 frm₁ ∧ Passes (checkDirectory names true (basic names red) 2 frm' new) := by
  refine ⟨mk 1 [file 20 5, file 31 107, file 39 9, dir 40 (mk 0 [file 50 1, file 1000 0])],
    mk 1 [file 20 5, file 31 17, file 39 9, dir 40 (mk 0 [file 50 1, file 1000 0])], by decide +kernel, ?_, ⟨_, rfl, by decide +kernel⟩⟩
  intro n d h
  simp only [frm₁, List.mem_cons, Prod.mk.injEq, reduceCtorEq, and_false, false_or, List.not_mem_nil, or_false] at h
  obtain ⟨rfl, h⟩ := h
  cases h
  refine ⟨by decide, fun n d h => ?_⟩
  rcases List.mem_cons.mp h with h | h
  · cases h
  · cases h

end Verif.Props
