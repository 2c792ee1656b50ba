import Verif.Model.Reports
import Verif.Spec.Reports
import Verif.Props.PathEquivalence
/-
C72: the files in which the outcome of tests is recorded.
-/
namespace Verif.Props
open Verif.PathEquivalence Verif.Spec.PathEquivalence Verif.Reports Verif.Spec.Reports

open PathEquivalence
namespace Reports

theorem append_inj_left {a b c : String} (h : a ++ c = b ++ c) : a = b := by
  have h1 := congrArg String.toList h
  rw [String.toList_append, String.toList_append] at h1
  have h2 := List.append_cancel_right h1
  exact String.toList_inj.1 h2

theorem mismatch_branch : ∀ (p : List String) {a b : String} (_ : a ≠ b) (l m : List String), (mismatch (p ++ a :: l) (p ++ b :: m)).1 = a :: l
  | [], a, b, h, l, m => by simp [mismatch, h]
  | x :: p, a, b, h, l, m => by simpa [mismatch] using mismatch_branch p h l m

/-- The last name is replaced. -/
def renamed (g : String → String) (p : List String) : List String :=
  match p.getLast? with
  | none => []
  | some f => p.dropLast ++ [g f]

theorem renamed_append {g : String → String} {p r : List String} (hr : r ≠ []) : renamed g (p ++ r) = p ++ renamed g r := by
  unfold renamed
  cases h : r.getLast? with
  | none => exact absurd (List.getLast?_eq_none_iff.1 h) hr
  | some f =>
    rw [List.getLast?_append, h]
    simp only [Option.some_or]
    rw [List.dropLast_append_of_ne_nil hr, List.append_assoc]

theorem renamed_ne {g : String → String} {r : List String} (hr : r ≠ []) : renamed g r ≠ [] := by
  unfold renamed
  cases h : r.getLast? with
  | none => exact absurd (List.getLast?_eq_none_iff.1 h) hr
  | some f => simp

theorem mem_renamed {g : String → String} {r : List String} {x : String} (h : x ∈ renamed g r) : x ∈ r ∨ ∃ f ∈ r, x = g f := by
  unfold renamed at h
  cases h' : r.getLast? with
  | none => rw [h'] at h; cases h
  | some f =>
    rw [h'] at h
    rcases List.mem_append.1 h with h | h
    · exact Or.inl (List.dropLast_subset _ h)
    · exact Or.inr ⟨f, List.mem_of_getLast? h', by simpa using h⟩

theorem relative_renamed {g : String → String} {r : List String} (hr : Relative r) (hg : ∀ f ∈ r, g f ≠ "/" ∧ g f ≠ ".." ∧ g f ≠ "") : Relative (renamed g r) := by
  refine ⟨renamed_ne hr.1, fun e => ?_, fun e => ?_, fun e => ?_⟩
  · rcases mem_renamed e with h | ⟨f, h, h'⟩
    · exact hr.2.1 h
    · exact (hg f h).1 h'.symm
  · rcases mem_renamed e with h | ⟨f, h, h'⟩
    · exact hr.2.2.1 h
    · exact (hg f h).2.1 h'.symm
  · rcases mem_renamed e with h | ⟨f, h, h'⟩
    · exact hr.2.2.2 h
    · exact (hg f h).2.2 h'.symm

theorem clear_renamed {g : String → String} {dir p r : List String} (hr : Relative r) (hg : ∀ f, r.getLast? = some f → g f ∉ dir) (h : Clear dir p r) : Clear dir (renamed g p) (renamed g r) := by
  cases h with
  | absolute => rw [renamed_append hr.1]; exact .absolute _
  | overlap k x t _ hs hx ht => rw [renamed_append hr.1]; exact .overlap k x t _ hs hx ht
  | within k x t hx =>
    rw [renamed_append (by simp)]
    cases t with
    | nil => exact .within k (g x) [] (hg x rfl)
    | cons y t =>
      have : renamed g (x :: y :: t) = x :: renamed g (y :: t) := renamed_append (p := [x]) (by simp)
      rw [this]
      exact .within k x _ hx

theorem clear_absolute {dir p r : List String} (hr : Relative r) (h : Clear dir p r) (ha : isAbsolute p = true) : p = dir ++ r := by
  cases h with
  | absolute => rfl
  | overlap k x l _ h1 h2 h3 =>
    rw [List.append_assoc, List.cons_append, isAbsolute_ups (fun e => h3.2.1 (by rw [e]; exact List.mem_cons_self))] at ha
    cases ha
  | within k x l hx =>
    rw [isAbsolute_ups (fun e => hr.2.1 (by rw [e]; exact List.mem_cons_self))] at ha
    cases ha

theorem txt_suffix (s : String) : (s ++ ".txt").toList.getLast? = some 't' := by
  rw [String.toList_append]
  simp

theorem summaryName_plain (stem : String → String) (d : Option String) (f : String) : summaryName stem d f ≠ "/" ∧ summaryName stem d f ≠ ".." ∧ summaryName stem d f ≠ "" := by
  have h := txt_suffix (stem f ++ discriminated d)
  have e : summaryName stem d f = stem f ++ discriminated d ++ ".txt" := rfl
  rw [← e] at h
  refine ⟨fun e => ?_, fun e => ?_, fun e => ?_⟩ <;> rw [e] at h <;> revert h <;> decide

theorem summaryPath_renamed {stem : String → String} {S repo source : List String} {d : Option String} (hs : source ≠ []) :
    summaryPath stem S repo source d =
      if !isAbsolute (renamed (summaryName stem d) source) then
        match repo.getLast? with
        | none => .ok (renamed (summaryName stem d) source)
        | some b => (rebaseFrom (renamed (summaryName stem d) source) repo).bind fun r => .ok (S ++ b :: r)
      else .ok (S ++ (mismatch (renamed (summaryName stem d) source) S).1) := by
  unfold summaryPath renamed
  cases h : source.getLast? with
  | none => exact absurd (List.getLast?_eq_none_iff.1 h) hs
  | some f => rfl

end Reports
open Reports

section
variable {root out : List String} {t o : String} {stem : String → String} {d : Option String}

/-- **C72** The summary of a test is put in a place below the directory of summaries which depends only on where in the repository its source is, namely in the same place but for the name of the file, and not on the
form in which the compiler has recorded the path.  The project has the directories `t`, for tests, and `o`, for output, and no directory above the tests is named like a summary. -/
theorem C72_place (hroot : Absolute root) (ht : Relative [t]) (hto : t ≠ o) {source p : List String} {f : String} (hr : Relative (p ++ [f]))
    (hn : summaryName stem d f ∉ root ++ [t]) (hc : Clear (root ++ [t]) source (p ++ [f])) :
    summaryPath stem (root ++ o :: out) (root ++ [t]) source d = .ok (root ++ o :: out ++ t :: p ++ [summaryName stem d f]) := by
  have habs : Absolute (root ++ [t]) := by
    obtain ⟨l, rfl, h1, h2, h3⟩ := hroot
    refine ⟨l ++ [t], by simp, ?_, ?_, ?_⟩
    · rw [List.mem_append]; exact fun e => e.elim h1 ht.2.1
    · rw [List.mem_append]; exact fun e => e.elim h2 ht.2.2.1
    · rw [List.mem_append]; exact fun e => e.elim h3 ht.2.2.2
  have hren : renamed (summaryName stem d) (p ++ [f]) = p ++ [summaryName stem d f] := by rw [renamed_append (by simp)]; rfl
  have hr' : Relative (p ++ [summaryName stem d f]) := by
    rw [← hren]
    exact relative_renamed hr fun f _ => summaryName_plain stem d f
  have hc' : Clear (root ++ [t]) (renamed (summaryName stem d) source) (p ++ [summaryName stem d f]) := by
    rw [← hren]
    refine clear_renamed hr (fun f' hf' => ?_) hc
    have : f = f' := by simpa using hf'
    rw [← this]
    exact hn
  have hsrc : source ≠ [] := clear_ne hr hc
  rw [summaryPath_renamed hsrc]
  split
  · have : (root ++ [t]).getLast? = some t := by simp
    rw [this]
    dsimp only
    rw [rebaseFrom_clear habs hr' hc']
    simp [Res.bind]
  · next ha =>
    have ha : isAbsolute (renamed (summaryName stem d) source) = true := by simpa using ha
    have h1 := clear_absolute hr' hc' ha
    rw [h1]
    have h2 := mismatch_branch root hto (p ++ [summaryName stem d f]) out
    simp only [List.append_assoc, List.cons_append, List.nil_append] at h2 ⊢
    rw [h2]

/-- **C72** Hence the summaries of two tests are put in the same file exactly if their sources are in the same directory and have the same name, but for the extension. -/
theorem C72_distinct (hroot : Absolute root) (ht : Relative [t]) (hto : t ≠ o) {source source' p p' : List String} {f f' : String} (hr : Relative (p ++ [f])) (hr' : Relative (p' ++ [f']))
    (hn : summaryName stem d f ∉ root ++ [t]) (hn' : summaryName stem d f' ∉ root ++ [t]) (hc : Clear (root ++ [t]) source (p ++ [f])) (hc' : Clear (root ++ [t]) source' (p' ++ [f'])) :
    summaryPath stem (root ++ o :: out) (root ++ [t]) source d = summaryPath stem (root ++ o :: out) (root ++ [t]) source' d ↔ p = p' ∧ stem f = stem f' := by
  rw [C72_place hroot ht hto hr hn hc, C72_place hroot ht hto hr' hn' hc']
  simp only [Res.ok.injEq, List.append_assoc, List.append_cancel_left_eq, List.cons_append, List.cons.injEq, true_and]
  constructor
  · intro h
    have h1 := List.append_inj' h rfl
    refine ⟨h1.1, ?_⟩
    have h2 : summaryName stem d f = summaryName stem d f' := by simpa using h1.2
    exact append_inj_left (append_inj_left h2)
  · rintro ⟨rfl, h⟩
    unfold summaryName
    rw [h]

/-- **C72** Tests in the same file which are told apart by discriminators have summaries of their own: these are in the same file exactly if the discriminators are the same; an empty one is as good as none, in which case the
summary is named after the source. -/
theorem C72_discriminators (hroot : Absolute root) (ht : Relative [t]) (hto : t ≠ o) {source p : List String} {f : String} (hr : Relative (p ++ [f])) (hc : Clear (root ++ [t]) source (p ++ [f]))
    (hn : ∀ d, summaryName stem d f ∉ root ++ [t]) (x y : String) :
    (summaryPath stem (root ++ o :: out) (root ++ [t]) source (some x) = summaryPath stem (root ++ o :: out) (root ++ [t]) source (some y) ↔ x = y) ∧
    summaryPath stem (root ++ o :: out) (root ++ [t]) source (some "") = summaryPath stem (root ++ o :: out) (root ++ [t]) source none ∧
    summaryPath stem (root ++ o :: out) (root ++ [t]) source none = .ok (root ++ o :: out ++ t :: p ++ [stem f ++ ".txt"]) := by
  rw [C72_place hroot ht hto hr (hn _) hc, C72_place hroot ht hto hr (hn _) hc, C72_place hroot ht hto hr (hn _) hc, C72_place hroot ht hto hr (hn _) hc]
  have key : ∀ x y : String, discriminated (some x) = discriminated (some y) → x = y := by
    intro x y h
    unfold discriminated at h
    have := congrArg String.toList h
    by_cases hx : x = "" <;> by_cases hy : y = "" <;> simp_all
  refine ⟨⟨fun h => ?_, fun h => by rw [h]⟩, rfl, by simp [summaryName, discriminated]⟩
  simp only [Res.ok.injEq, List.append_assoc, List.append_cancel_left_eq, List.cons_append, List.cons.injEq, true_and] at h
  have h2 : summaryName stem (some x) f = summaryName stem (some y) f := by simpa using h
  have h3 := congrArg String.toList (append_inj_left h2)
  rw [String.toList_append, String.toList_append] at h3
  exact key x y (String.toList_inj.1 (List.append_cancel_left h3))

end

namespace Reports

theorem write_eq (fs : Files) (p : List String) (s : String) : (fs.write p s) p = some s := by simp [Files.write]

theorem write_ne (fs : Files) {p q : List String} (s : String) (h : q ≠ p) : (fs.write p s) q = fs q := by simp [Files.write, h]

theorem versionedWrite_ne (fs : Files) {p q : List String} (s : String) (h : q ≠ p) : versionedWrite p s fs q = fs q := by
  unfold versionedWrite
  split
  · exact write_ne fs s h
  · rfl

theorem versionedWrite_eq (fs : Files) (p : List String) (s : String) : versionedWrite p s fs p = if s = "" then (fs p).map fun _ => "" else some s := by
  unfold versionedWrite
  by_cases h : s = ""
  · subst h
    cases hp : fs p <;> simp [hp, write_eq]
  · have : s.isEmpty = false := by simpa using h
    simp [h, this, write_eq]

theorem writeVersioned_ne (fs : Files) {o : Report} {q : List String} (h1 : q ≠ o.diagnosticsFile) (h2 : q ≠ o.exceptionsFile) : writeVersioned o fs q = fs q := by
  unfold writeVersioned
  split
  · rfl
  · rw [versionedWrite_ne _ _ h2, versionedWrite_ne _ _ h1]

theorem toFile_ne {o : Report} {t : Tracker} {q : List String} (h : q ≠ o.summaryFile) : (toFile o t).files q = t.files q := by
  unfold toFile
  split
  · rfl
  · split <;> exact write_ne _ _ h

theorem record_ne {o : Report} {t : Tracker} {q : List String} (h : q ≠ o.summaryFile) (h1 : q ≠ o.diagnosticsFile) (h2 : q ≠ o.exceptionsFile) : (record t o).files q = t.files q := by
  unfold record
  rw [toFile_ne h]
  exact writeVersioned_ne _ h1 h2

theorem foldl_ne {q : List String} : ∀ (os : List Report) (t : Tracker), (∀ o ∈ os, q ≠ o.summaryFile ∧ q ≠ o.diagnosticsFile ∧ q ≠ o.exceptionsFile) → (os.foldl record t).files q = t.files q
  | [], _, _ => rfl
  | o :: os, t, h => by
    have h1 := h o (by simp)
    rw [List.foldl_cons, foldl_ne os _ (fun x hx => h x (by simp [hx])), record_ne h1.1 h1.2.1 h1.2.2]

/-- What the file of a summary holds later on, if it has been written to. -/
theorem foldl_written {q : List String} (hq : q ≠ []) : ∀ (os : List Report) (t : Tracker) (s : String), (∀ o ∈ os, q ≠ o.diagnosticsFile ∧ q ≠ o.exceptionsFile) → q ∈ t.written → t.files q = some s →
    (os.foldl record t).files q = some (s ++ concat ((os.filter fun o => o.summaryFile = q).map (·.summary)))
  | [], t, s, _, _, h => by simp [concat, h]
  | o :: os, t, s, ho, hw, h => by
    have h1 := ho o (by simp)
    have h2 : ∀ x ∈ os, q ≠ x.diagnosticsFile ∧ q ≠ x.exceptionsFile := fun x hx => ho x (by simp [hx])
    rw [List.foldl_cons]
    by_cases he : o.summaryFile = q
    · have h3 : (record t o).files q = some (s ++ o.summary) ∧ q ∈ (record t o).written := by
        unfold record toFile
        rw [if_neg (by rw [he]; simpa using hq), if_pos (by simpa [he] using hw)]
        refine ⟨?_, hw⟩
        dsimp only
        rw [he, write_eq, writeVersioned_ne _ h1.1 h1.2, h]
        rfl
      rw [foldl_written hq os _ _ h2 h3.2 h3.1, List.filter_cons]
      simp [he, concat, String.append_assoc]
    · have h3 : (record t o).files q = some s ∧ q ∈ (record t o).written := by
        refine ⟨?_, ?_⟩
        · rw [record_ne (fun e => he e.symm) h1.1 h1.2, h]
        · unfold record toFile
          split
          · exact hw
          · split
            · exact hw
            · exact List.mem_cons_of_mem _ hw
      rw [foldl_written hq os _ _ h2 h3.2 h3.1, List.filter_cons]
      simp [he]

theorem foldl_unwritten {q : List String} (hq : q ≠ []) : ∀ (os : List Report) (t : Tracker), (∀ o ∈ os, q ≠ o.diagnosticsFile ∧ q ≠ o.exceptionsFile) → q ∉ t.written → (∃ o ∈ os, o.summaryFile = q) →
    (os.foldl record t).files q = some (concat ((os.filter fun o => o.summaryFile = q).map (·.summary)))
  | [], _, _, _, h => by obtain ⟨o, ho, _⟩ := h; cases ho
  | o :: os, t, ho, hw, h => by
    have h1 := ho o (by simp)
    have h2 : ∀ x ∈ os, q ≠ x.diagnosticsFile ∧ q ≠ x.exceptionsFile := fun x hx => ho x (by simp [hx])
    rw [List.foldl_cons]
    by_cases he : o.summaryFile = q
    · have h3 : (record t o).files q = some o.summary ∧ q ∈ (record t o).written := by
        unfold record toFile
        rw [if_neg (by rw [he]; simpa using hq), if_neg (by simpa [he] using hw)]
        refine ⟨?_, by simp [he]⟩
        dsimp only
        rw [he, write_eq]
      rw [foldl_written hq os _ _ h2 h3.2 h3.1, List.filter_cons]
      simp [he, concat]
    · have h3 : q ∉ (record t o).written := by
        unfold record toFile
        split
        · exact hw
        · split
          · exact hw
          · rw [List.mem_cons]
            exact fun e => e.elim (fun e => he e.symm) hw
      have h4 : ∃ x ∈ os, x.summaryFile = q := by
        obtain ⟨x, hx, hx'⟩ := h
        rcases List.mem_cons.1 hx with rfl | hx
        · exact absurd hx' he
        · exact ⟨x, hx, hx'⟩
      rw [foldl_unwritten hq os _ h2 h3 h4, List.filter_cons]
      simp [he]

end Reports
open Reports

/-- **C72** After a run, a file for summaries holds the summaries of all tests of the run which are to be put there, in the order in which they were processed, each of them once, and nothing from previous runs; a file to which no
test of the run refers is as it was. -/
theorem C72_summaries (os : List Report) (fs : Files) (q : List String) (hq : q ≠ []) (ho : ∀ o ∈ os, q ≠ o.diagnosticsFile ∧ q ≠ o.exceptionsFile) :
    runAll os fs q = if ∃ o ∈ os, o.summaryFile = q then some (concat ((os.filter fun o => o.summaryFile = q).map (·.summary))) else fs q := by
  unfold runAll
  split
  · next h => exact foldl_unwritten hq os ⟨[], fs⟩ ho (by simp) h
  · next h => exact foldl_ne os ⟨[], fs⟩ fun o hx => ⟨fun e => h ⟨o, hx, e.symm⟩, ho o hx⟩

/-- **C72 (part)** After a run, the file for the diagnostics of a test holds the diagnostics of this run, or nothing if there are none; after a critical failure it is as it was.  The same holds for the file for exceptions.

What is missing: no other test of the run may have the same file, see `C72_diagnostics_violated`. -/
theorem C72_diagnostics_partial (before after : List Report) (o : Report) (fs : Files) (q : List String) (text : String)
    (hq : (q = o.diagnosticsFile ∧ text = o.diagnostics ∧ q ≠ o.exceptionsFile) ∨ (q = o.exceptionsFile ∧ text = o.exceptions ∧ q ≠ o.diagnosticsFile)) (hs : q ≠ o.summaryFile)
    (ho : ∀ x ∈ before ++ after, q ≠ x.summaryFile ∧ q ≠ x.diagnosticsFile ∧ q ≠ x.exceptionsFile) :
    runAll (before ++ o :: after) fs q = if o.critical then fs q else if text = "" then (fs q).map (fun _ => "") else some text := by
  unfold runAll
  rw [List.foldl_append, List.foldl_cons, foldl_ne after _ (fun x hx => ho x (by simp [hx]))]
  have hb := foldl_ne before ⟨[], fs⟩ (fun x hx => ho x (by simp [hx]))
  generalize before.foldl record ⟨[], fs⟩ = t at hb
  dsimp only at hb
  unfold record
  rw [toFile_ne hs]
  dsimp only
  unfold writeVersioned
  split
  · exact hb
  · rcases hq with ⟨h1, h2, h3⟩ | ⟨h1, h2, h3⟩
    · rw [versionedWrite_ne _ _ h3, h1, versionedWrite_eq, ← h1, hb, h2]
    · rw [h1, versionedWrite_eq, ← h1, versionedWrite_ne _ _ h3, hb, h2]

namespace Reports

theorem mode_of {a b : String} {m m' : Mode} (h : a ++ "_" ++ tag m = b ++ "_" ++ tag m') : a = b ∧ m = m' := by
  have hl := congrArg (fun s : String => s.toList.getLast?) h
  have hm : m = m' := by
    cases m <;> cases m' <;> first | rfl | (simp [tag, String.toList_append] at hl)
  subst hm
  exact ⟨append_inj_left (append_inj_left h), rfl⟩

end Reports

/-- **C72** The files for diagnostics of two tests on the same platform are the same exactly if the names of their suites are the same, but for spaces and underscores, and so are the stems of the names of their sources and the kinds of the
tests; and they differ from the files for exceptions. -/
theorem C72_diagnostics_files (stem : String → String) (dir : List String) (suite suite' source source' : String) (mode mode' : Mode) (platform : Option String) :
    (∀ suffix, diagnosticsPath stem dir suite source mode suffix platform = diagnosticsPath stem dir suite' source' mode' suffix platform ↔
      underscored suite = underscored suite' ∧ stem source = stem source' ∧ mode = mode') ∧
    diagnosticsPath stem dir suite source mode "Output" platform ≠ diagnosticsPath stem dir suite' source' mode' "Exceptions" platform := by
  refine ⟨fun suffix => ?_, fun h => ?_⟩
  · unfold diagnosticsPath
    simp only [List.append_cancel_left_eq, List.cons.injEq, and_true]
    constructor
    · rintro ⟨h1, h2⟩
      have h3 := mode_of (append_inj_left (append_inj_left (append_inj_left h2)))
      exact ⟨h1, h3.1, h3.2⟩
    · rintro ⟨h1, h2, rfl⟩
      rw [h1, h2]
      exact ⟨rfl, rfl⟩
  · unfold diagnosticsPath at h
    simp only [List.append_cancel_left_eq, List.cons.injEq, and_true] at h
    have h1 := append_inj_left (append_inj_left h.2)
    have hl := congrArg (fun s : String => s.toList.getLast?) h1
    cases mode <;> cases mode' <;> simp [tag, String.toList_append] at hl

namespace Reports

/-- For names with a single extension of three letters. -/
def stem (f : String) : String := String.ofList (f.toList.take (f.length - 4))

def dir : List String := ["/", "Project", "output", "DiagnosticsOutput"]

/-- A test which is to detect failures, in a file called `FooTest.cpp`. -/
def outcome (place : List String) (text : String) : Report where
  summaryFile := ["/", "Project", "output", "TestSummaries", "Tests"] ++ place ++ ["FooTest.txt"]
  summary := "Summary"
  diagnosticsFile := diagnosticsPath stem dir "Suite" "FooTest.cpp" .falseNegative "Output" none
  diagnostics := text
  exceptionsFile := diagnosticsPath stem dir "Suite" "FooTest.cpp" .falseNegative "Exceptions" none
  exceptions := ""
  critical := false

end Reports

/- The hypotheses are met. -/
example : Absolute ["/", "Project"] := ⟨_, rfl, by decide, by decide, by decide⟩
example : Relative (["A"] ++ ["FooTest.cpp"]) ∧ Relative ["Tests"] := by unfold Relative; decide
example : summaryName stem none "FooTest.cpp" ∉ ["/", "Project"] ++ ["Tests"] := by decide +kernel
example : Clear (["/", "Project"] ++ ["Tests"]) ["..", "Tests", "A", "FooTest.cpp"] (["A"] ++ ["FooTest.cpp"]) :=
  .overlap 1 "Tests" [] ["A", "FooTest.cpp"] ⟨["/", "Project"], rfl⟩ (by decide) (by unfold Relative; decide)
example : summaryPath stem (["/", "Project"] ++ "output" :: ["TestSummaries"]) (["/", "Project"] ++ ["Tests"]) ["..", "Tests", "A", "FooTest.cpp"] none =
    .ok ["/", "Project", "output", "TestSummaries", "Tests", "A", "FooTest.txt"] := by decide +kernel
example : (outcome ["A"] "text").summaryFile ≠ (outcome ["A"] "text").diagnosticsFile ∧ (outcome ["A"] "text").summaryFile ≠ (outcome ["A"] "text").exceptionsFile ∧
    (outcome ["A"] "text").diagnosticsFile ≠ (outcome ["A"] "text").exceptionsFile := by decide +kernel
example : runAll [outcome ["A"] "x", outcome ["A"] "y"] (fun _ => some "old") ["/", "Project", "output", "TestSummaries", "Tests", "A", "FooTest.txt"] = some "SummarySummary" := by decide +kernel

/-- Two tests in the same file, which are told apart. -/
example : summaryPath (fun _ => "FooTest") ["/", "Project", "output", "TestSummaries"] ["/", "Project", "Tests"] ["/", "Project", "Tests", "A", "FooTest.cpp"] (some "x") =
    .ok ["/", "Project", "output", "TestSummaries", "Tests", "A", "FooTest_x.txt"] ∧ (∀ d, summaryName (fun _ => "FooTest") d "FooTest.cpp" ∉ ["/", "Project", "Tests"]) := by
  refine ⟨by decide +kernel, fun d h => ?_⟩
  have h2 : ∀ x ∈ ["/", "Project", "Tests"], x.toList.reverse.take 2 ≠ ['t', 'x'] := by decide +kernel
  refine h2 _ h ?_
  simp [summaryName]

/-- **C72 (violated)** The file for diagnostics depends on the suite and on the name of the source, but not on the directory of the source nor on the name of the test: if there are two such tests in a suite then only the diagnostics
of the last one are kept, even if it has none. -/
theorem C72_diagnostics_violated :
    (outcome ["A"] "x").summaryFile ≠ (outcome ["B"] "").summaryFile ∧ (outcome ["A"] "x").diagnosticsFile = (outcome ["B"] "").diagnosticsFile ∧
    ∀ fs, runAll [outcome ["A"] "x", outcome ["B"] ""] fs (outcome ["A"] "x").diagnosticsFile = some "" := by
  have h1 : (outcome ["A"] "x").diagnosticsFile ≠ (outcome ["A"] "x").summaryFile := by decide +kernel
  have h2 : (outcome ["A"] "x").diagnosticsFile ≠ (outcome ["B"] "").summaryFile := by decide +kernel
  have h3 : (outcome ["A"] "x").diagnosticsFile ≠ (outcome ["A"] "x").exceptionsFile := by decide +kernel
  refine ⟨by decide +kernel, rfl, fun fs => ?_⟩
  unfold runAll
  rw [List.foldl_cons, List.foldl_cons, List.foldl_nil]
  unfold record
  rw [toFile_ne h2]
  dsimp only
  unfold writeVersioned
  rw [if_neg (by decide), versionedWrite_ne _ _ (by exact h3)]
  show versionedWrite (outcome ["A"] "x").diagnosticsFile "" _ (outcome ["A"] "x").diagnosticsFile = some ""
  rw [versionedWrite_eq, if_pos rfl, toFile_ne h1]
  dsimp only
  rw [if_neg (by decide), versionedWrite_ne _ _ h3, versionedWrite_eq, if_neg (by decide)]
  rfl

end Verif.Props
