import Verif.Lemmas.TestFilesAgain
import Verif.Lemmas.InsertSort
import Verif.Lemmas.TextForms
import Verif.Spec.ProjectCreator

/-
C99: the files of a new test.
-/
namespace Verif.Props
open Verif.Text Verif.FileEditors Verif.Materials Verif.ProjectCreator Verif.TestCreator Verif.TestFiles Verif.Spec.TestFiles

/-! ### Examples -/

/-- What is below a directory, in the order of the list. -/
def walkList (fs : Disk) (root : Path) : List Path := (fs.map (·.1)).filter fun p => root.isPrefixOf p && p != root && exists' fs p

/-- All that is below a directory is visited. -/
theorem walkList_walks : Walks walkList := by
  intro fs root p
  unfold walkList
  rw [List.mem_filter]
  constructor
  · rintro ⟨-, h⟩
    simp only [Bool.and_eq_true, bne_iff_ne, ne_eq] at h
    obtain ⟨r, hr⟩ := List.isPrefixOf_iff_prefix.1 h.1.1
    exact ⟨exists'_iff.1 h.2, r, fun e => h.1.2 (by rw [← hr, e, List.append_nil]), hr.symm⟩
  · rintro ⟨h, r, hr, rfl⟩
    refine ⟨?_, ?_⟩
    · cases hg : get fs (root ++ r) with
      | none => exact absurd hg h
      | some n =>
        unfold Materials.get at hg
        rw [Option.map_eq_some_iff] at hg
        obtain ⟨e, he, _⟩ := hg
        have h1 := List.mem_of_find?_eq_some he
        have h2 := List.find?_some he
        rw [beq_iff_eq] at h2
        exact List.mem_map.2 ⟨e, h1, h2⟩
    · simp only [Bool.and_eq_true, bne_iff_ne, ne_eq]
      exact ⟨⟨List.isPrefixOf_iff_prefix.2 (List.prefix_append ..), fun e => hr (by simpa using e)⟩, exists'_iff.2 h⟩

/-- An environment for the examples. -/
def sampleEnv : Env := ⟨insertSort, walkList⟩

/-- A project for the examples. -/
def samplePaths : Project where
  sourceRepo := ["Source"]
  sourceProject := ["Source", "p"]
  sourceCmake := ["Source", "CMakeLists.txt"]
  tests := ["Tests"]
  testTemplates := ["TT"]
  sourceTemplates := ["ST"]
  includes := ["Main", "Includes.hpp"]
  main := ⟨["Main", "Main.cpp"], ["Main", "CMakeLists.txt"]⟩
  ancillary := []

/-- A main file. -/
def mainBefore : String := "{\n  runner.execute();\n}\n"

/-- The disk on which that project is. -/
def sampleDisk : Disk :=
  [([], .dir), (["Source"], .dir), (["Source", "p"], .dir), (["Source", "p", "A"], .dir), (["Source", "p", "A", "Thing.h"], .file []), (["Source", "CMakeLists.txt"], .file "set(SourceList\n)\n".toList),
   (["Tests"], .dir), (["TT"], .dir), (["TT", "MyBehaviouralTest.hpp"], .file "// Copyright //\nclass ?forename_?surname : ?_test;\n".toList),
   (["TT", "MyBehaviouralTest.cpp"], .file "// Copyright //\n#include \"?BehaviouralTest.hpp\"\n#include \"?Header.hpp\"\n".toList),
   (["ST"], .dir), (["ST", "MyFreeFunctions.hpp"], .file "// Copyright //\nnamespace\n?{\n?}\n".toList), (["ST", "MyCpp.cpp"], .file "// Copyright //\n#include \"?.hpp\"\nnamespace\n?{\n?}\n".toList),
   (["Main"], .dir), (["Main", "Includes.hpp"], .file "#include <x>\n\n".toList), (["Main", "Main.cpp"], .file mainBefore.toList), (["Main", "CMakeLists.txt"], .file "#!target_sources(\n)\n".toList)]

/-- A request for a test of the header with this name. -/
def sampleRequest (header : String) : Request :=
  ⟨⟨false, [header]⟩, "thing".toList, "S".toList, [], "free".toList, false, "N".toList, "1".toList, "  ".toList, "p".toList⟩

/-- A test, with a function for its text. -/
def sampleTest (header : String) (text : List String → Str → Res Str) (generate : Option Generate) : Test :=
  ⟨⟨false, [header]⟩, "ThingFree".toList, "MyBehavioural".toList, ["Test.hpp".toList, "Test.cpp".toList], text, "S".toList, "  ".toList, ["thing_free_test{\"Thing Free Test\"}".toList], generate⟩

/-! ### C99 -/

variable {env : Env} {P : Project} {t : Test} {s s' : TestFiles.St}

/-- **C99** Whatever happens, whether the files are created, an exception is thrown or the process is killed, what has been there is still there: apart from the main files, the file with the includes
and the files for CMake, nothing is changed. -/
theorem C99_kept (hw : Walks env.walk) (h : finalize env P t s = .ok s' ∨ finalize env P t s = .failed s') {p : Path} (hp : get s.fs p ≠ none) (he : ¬ Edited P p) : get s'.fs p = get s.fs p := by
  rcases finalize_frame hw h with rfl | ⟨src, g, -, hf⟩
  · rfl
  · by_cases hc : get s'.fs p = get s.fs p
    · exact hc
    · rcases hf p hc with h | h
      · exact absurd h.2 he
      · exact absurd h.1 hp

/-- **C99** A file is written if it is there, or the directory for it is and nothing else is in its place; otherwise there is an exception, and nothing is changed.  If the process is killed on the way then the
file is as before or empty.  No other file is changed in any case. -/
theorem C99_write (p : Path) (text : Str) (s : TestFiles.St) :
    ((∃ c, get s.fs p = some (.file c)) ∨ (get s.fs p = none ∧ get s.fs p.dropLast = some .dir) → 2 ≤ s.left →
      ∃ s', write p text s = .ok s' ∧ get s'.fs p = some (.file text) ∧ ∀ q, q ≠ p → get s'.fs q = get s.fs q) ∧
    (get s.fs p = some .dir ∨ (get s.fs p = none ∧ get s.fs p.dropLast ≠ some .dir) → write p text s = .failed s) ∧
    (s.left < 2 → ∃ s', write p text s = .failed s' ∧ (s' = s ∨ get s'.fs p = some (.file [])) ∧ ∀ q, q ≠ p → get s'.fs q = get s.fs q) := by
  have hput : ∀ (fs : Disk) (c : Str), (∃ c, get fs p = some (.file c)) ∨ (get fs p = none ∧ get fs p.dropLast = some .dir) → put p c fs = .ok ((p, .file c) :: fs) := by
    intro fs c h
    unfold put
    rw [if_pos]
    rcases h with ⟨c', h⟩ | ⟨h1, h2⟩
    · simp [isFile, h]
    · simp [isFile, exists', isDir, parent, h1, h2]
  have hnot : ∀ (fs : Disk) (c : Str), ¬ ((∃ c, get fs p = some (.file c)) ∨ (get fs p = none ∧ get fs p.dropLast = some .dir)) → put p c fs = .throws := by
    intro fs c h
    unfold put
    rw [if_neg]
    intro hc
    apply h
    simp only [isFile, exists', isDir, parent, Bool.or_eq_true, Bool.and_eq_true, Bool.not_eq_true'] at hc
    cases hg : get fs p with
    | none =>
      rw [hg] at hc
      cases hd : get fs p.dropLast with
      | none => rw [hd] at hc; simp at hc
      | some n =>
        rw [hd] at hc
        cases n with
        | dir => exact .inr ⟨rfl, rfl⟩
        | file c => simp at hc
    | some n =>
      rw [hg] at hc
      cases n with
      | dir => simp at hc
      | file c => exact .inl ⟨c, rfl⟩
  have hget : ∀ (fs : Disk) (c : Str), get ((p, .file c) :: fs) p = some (.file c) := fun fs c => by simp [Materials.get]
  have hother : ∀ (fs : Disk) (c : Str) q, q ≠ p → get ((p, .file c) :: fs) q = get fs q := fun fs c q hq => by simp [Materials.get, Ne.symm hq]
  obtain ⟨fs, n⟩ := s
  refine ⟨fun h hn => ?_, fun h => ?_, fun hn => ?_⟩
  · obtain ⟨m, rfl⟩ := Nat.exists_eq_add_of_le' hn
    refine ⟨⟨(p, .file text) :: (p, .file []) :: fs, m⟩, ?_, hget _ _, fun q hq => ?_⟩
    · simp only [write, change, Ending.bind, hput _ _ h]
      rw [hput _ _ (.inl ⟨[], hget _ _⟩)]
    · rw [hother _ _ q hq, hother _ _ q hq]
  · have hn : put p [] fs = .throws := by
      refine hnot _ _ ?_
      rintro (⟨c, hc⟩ | ⟨h1, h2⟩)
      · rcases h with h | ⟨h, _⟩ <;> rw [hc] at h <;> cases h
      · rcases h with h | ⟨_, h⟩
        · rw [h1] at h; cases h
        · exact h h2
    cases n <;> simp [write, change, Ending.bind, hn]
  · match n, hn with
    | 0, _ => exact ⟨_, rfl, .inl rfl, fun _ _ => rfl⟩
    | 1, _ =>
      by_cases h : (∃ c, get fs p = some (.file c)) ∨ (get fs p = none ∧ get fs p.dropLast = some .dir)
      · refine ⟨⟨(p, .file []) :: fs, 0⟩, ?_, .inr (hget _ _), fun q hq => hother _ _ q hq⟩
        simp only [write, change, Ending.bind, hput _ _ h]
      · refine ⟨⟨fs, 1⟩, ?_, .inl rfl, fun _ _ => rfl⟩
        simp only [write, change, Ending.bind, hnot _ _ h]

example : get sampleDisk ["Main", "Main.cpp"] = some (.file mainBefore.toList) ∧ get sampleDisk ["Tests"] = some .dir ∧ get sampleDisk ["Tests", "X.cpp"] = none ∧ get sampleDisk ["Nowhere"] = none := by
  decide +kernel

/-- **C99 (part)** Whatever happens, the only new files are those of the test, in the directory of the tests which corresponds to that of the source, and, if the source had to be created, the source; the only new
directories are those needed for them.  What is missing: the source may be outside the directory of the sources of the project, see `C99_outside_violated`. -/
theorem C99_new_partial (hw : Walks env.walk) (h : finalize env P t s = .ok s' ∨ finalize env P t s = .failed s') {p : Path} (hp : get s.fs p = none) (hn : get s'.fs p ≠ none) :
    ∃ src g, Used P t s.fs src g ∧ ∀ d f, src = P.sourceProject ++ d ++ [f] → (∀ x ∈ P.tests ++ d, x ≠ "." ∧ x ≠ "..") →
      p <+: P.tests ++ d ∨ (∃ stub ∈ t.stubs, p = file P t d stub) ∨
      (g ≠ none ∧ (p <+: P.sourceProject ++ d ∨ p = src ∨ ∃ cpp, CppName f cpp ∧ p = P.sourceProject ++ d ++ [cpp])) := by
  rcases finalize_frame hw h with rfl | ⟨src, g, hu, hf⟩
  · exact absurd hp hn
  · refine ⟨src, g, hu, fun d f h1 h2 => ?_⟩
    rcases hf p (by rw [hp]; exact hn) with h | ⟨-, h | ⟨stub, hs, h⟩ | ⟨hg, h⟩⟩
    · exact absurd hp h.1
    · rw [hostDir_below ⟨f, h1, h2⟩] at h
      exact .inl h
    · rw [outputFile_below ⟨f, h1, h2⟩] at h
      exact .inr (.inl ⟨stub, hs, h⟩)
    · refine .inr (.inr ⟨hg, ?_⟩)
      rcases h with h | h | h
      · subst h1
        rw [parent_project] at h
        exact .inl h
      · exact .inr (.inl h)
      · exact .inr (.inr ⟨_, cppName_replace f, by rw [h, cppPath_below h1]⟩)

/-- **C99 (part)** If the files have been created, then each of them has the content of its template, transformed, unless there has been something in its place; the new ones, and the tests, have been made known, and nothing
else has been edited; if the source had to be created, so it has been.  What is missing: as for `C99_new_partial`. -/
theorem C99_created_partial (hw : Walks env.walk) (hs : Stubs t) (hsep : Separate P t) (h : finalize env P t s = .ok s') :
    ∃ src g, Used P t s.fs src g ∧ ∀ d f r, src = P.sourceProject ++ d ++ [f] → (∀ x ∈ P.tests ++ d, x ≠ "." ∧ x ≠ "..") → src = P.sourceRepo ++ r → r ≠ [] →
      ∃ cpp, CppName f cpp ∧ Done env.sort P t src g d r cpp s.fs s'.fs := finalize_done hw hs hsep h

/-- **C99** If there is no source, and it is not to be created, then nothing is done. -/
theorem C99_missing (hw : Walks env.walk) (h : ∀ p, ¬ Source P s.fs t.header p) (hg : t.generate = none) : finalize env P t s = .failed s := by
  unfold finalize
  split
  · rfl
  · split
    · next src hsrc => exact absurd (locate_some hw hsrc) (h src)
    · rw [hg]

/-- **C99 (part)** If all the files are there and the tests are in the main files, then creating them again changes nothing.  What is missing: as for `C78_twice_partial`, the tests should then never be added again. -/
theorem C99_again_partial (hw : Walks env.walk) {fs : Disk} (hr : Spec.ProjectCreator.Rooted fs) (hrepo : get fs P.sourceRepo = some .dir) (hgiven : t.header.absolute = true ∨ t.header.names ≠ [])
    (hex : ∃ p, Source P fs t.header p) (hne : t.stubs ≠ [])
    (hall : ∀ p, Source P fs t.header p → ∃ d, Below P p d ∧ ∀ stub ∈ t.stubs, get fs (file P t d stub) ≠ none)
    (hsuite : ∀ m, (m = P.main ∨ m ∈ P.ancillary) → ∃ c, get fs m.file = some (.file c) ∧ addToSuite t.suite t.indent t.constructors c = .ok c) (n : Nat) :
    ∃ fs', finalize env P t ⟨fs, n + 2 * (P.ancillary.length + 1) + 1⟩ = .ok ⟨fs', n⟩ ∧ ∀ p, get fs' p = get fs p := by
  unfold finalize
  rw [if_neg]
  · cases hl : locate env fs P.sourceRepo t.header with
    | none =>
      obtain ⟨p, hp⟩ := hex
      exact absurd hp (locate_none hw hl p)
    | some src =>
      dsimp only
      obtain ⟨d, hb, hfiles⟩ := hall src (locate_some hw hl)
      exact createFiles_again hb hr hne hfiles hsuite n
  · have : isDir fs P.sourceRepo = true := isDir_iff.2 hrepo
    simp only [this, Bool.not_true, Bool.or_false, Bool.and_eq_true, List.isEmpty_iff, Bool.not_eq_true', not_and, Bool.not_eq_false]
    intro hnil
    rcases hgiven with h | h
    · exact h
    · exact absurd hnil h

/-- **C99** In the files of the tests of functions and of the semantics of types, no question mark of the template is left. -/
theorem C99_marks {r : Request} {t : Test} (h : (∃ n, behavioural r n = .ok t) ∨ ∃ q types dir, semantics r q types dir = .ok t) (hn : '?' ∉ r.testType) {header : List String} {template text : Str}
    (ht : t.text header template = .ok text) : '?' ∉ text := by
  rcases h with ⟨n, h⟩ | ⟨q, types, dir, h⟩
  · obtain ⟨a, _, h⟩ := res_ok h
    obtain ⟨b, _, h⟩ := res_ok h
    cases h
    exact behaviouralText_marks ht hn
  · obtain ⟨a, _, h⟩ := res_ok h
    obtain ⟨b, _, h⟩ := res_ok h
    obtain ⟨c, _, h⟩ := res_ok h
    cases h
    exact semanticsText_marks ht hn

/-- **C99** The names of the files of each kind of test end as they should. -/
theorem C99_stubs {r : Request} {t : Test} (h : (∃ n, behavioural r n = .ok t) ∨ allocation r = .ok t ∨ ∃ q types dir, semantics r q types dir = .ok t) : Stubs t := by
  have key : t.stubs ∈ [diagnosticsStubs, ["Test.hpp".toList, "Test.cpp".toList], ["AllocationTest.hpp".toList, "AllocationTest.cpp".toList],
      ["TestingUtilities.hpp".toList, "TestingDiagnostics.hpp".toList, "TestingDiagnostics.cpp".toList, "Test.hpp".toList, "Test.cpp".toList]] := by
    rcases h with ⟨n, h⟩ | h | ⟨q, types, dir, h⟩
    · obtain ⟨a, _, h⟩ := res_ok h
      obtain ⟨b, _, h⟩ := res_ok h
      cases h
      dsimp only
      split <;> simp
    · obtain ⟨a, _, h⟩ := res_ok h
      cases h
      dsimp only
      split <;> simp
    · obtain ⟨a, _, h⟩ := res_ok h
      obtain ⟨b, _, h⟩ := res_ok h
      obtain ⟨c, _, h⟩ := res_ok h
      cases h
      dsimp only
      split <;> simp
  have all : ∀ l ∈ [diagnosticsStubs, ["Test.hpp".toList, "Test.cpp".toList], ["AllocationTest.hpp".toList, "AllocationTest.cpp".toList],
      ["TestingUtilities.hpp".toList, "TestingDiagnostics.hpp".toList, "TestingDiagnostics.cpp".toList, "Test.hpp".toList, "Test.cpp".toList]],
      l.Nodup ∧ ∀ stub ∈ l, 4 < stub.length ∧ (stub.drop (stub.length - 4) = ".hpp".toList ∨ stub.drop (stub.length - 4) = ".cpp".toList) := by decide +kernel
  obtain ⟨h1, h2⟩ := all _ key
  refine ⟨h1, fun stub hs => ?_⟩
  obtain ⟨h3, h4⟩ := h2 stub hs
  refine ⟨stub.take (stub.length - 4), ?_, ?_⟩
  · intro e
    have := congrArg List.length e
    simp at this
    omega
  · rcases h4 with h4 | h4
    · exact .inl (by rw [← h4, List.take_append_drop])
    · exact .inr (by rw [← h4, List.take_append_drop])

/-- How the name of a test goes on after the forename: as given, or else as befits the kind of test. -/
def surnameOf (r : Request) (kind : Str) : Str := if r.surname ≠ [] then r.surname else kind ++ (if r.diagnostics then "diagnostics".toList else "test".toList)

/-- The header which is tested: as given, or else called like the test. -/
def headerOf (r : Request) (name : Str) (h : Given) : Prop :=
  (r.header.names = [] ∧ r.header.absolute = false → h = ⟨false, [String.ofList (name ++ ".hpp".toList)]⟩) ∧ (r.header.names ≠ [] ∨ r.header.absolute = true → h = r.header)

theorem headerOf_for (r : Request) (name : Str) : headerOf r name (headerFor r.header name) := by
  unfold headerOf headerFor
  constructor
  · rintro ⟨h1, h2⟩; simp [h1, h2]
  · rintro (h | h)
    · simp [h]
    · simp [h]

theorem suiteFor_given (s n : Str) (h : s ≠ []) : suiteFor s n = s := by simp [suiteFor, h]

theorem surname_eq (r : Request) (kind : Str) : (if r.surname = [] then kind ++ surnameFor r.diagnostics else r.surname) = surnameOf r kind := by
  unfold surnameOf surnameFor
  by_cases hs : r.surname = []
  · rw [if_pos hs, if_neg (c := r.surname ≠ []) fun h => h hs]
  · rw [if_neg hs, if_pos hs]

/-- **C99** What is made of a request for a test of allocations: the test which is added, its files, the header it is for, and the suite. -/
theorem C99_allocation {r : Request} {t : Test} (h : allocation r = .ok t) :
    t.constructors = [r.forename ++ "_".toList ++ surnameOf r "allocation_".toList ++ "{\"Allocation Test\"}".toList] ∧ headerOf r t.camel t.header ∧ (r.suite ≠ [] → t.suite = r.suite) ∧
    t.nameStub = "MyClass".toList ∧ t.stubs = (if r.diagnostics then ["Diagnostics.hpp".toList, "Diagnostics.cpp".toList] else ["AllocationTest.hpp".toList, "AllocationTest.cpp".toList]) ∧
    t.indent = r.indent ∧ t.generate = none := by
  obtain ⟨name, h1, h2⟩ := res_ok h
  cases h2
  refine ⟨?_, headerOf_for r name, suiteFor_given _ _, rfl, rfl, rfl, rfl⟩
  dsimp only
  rw [surname_eq]
  rfl

/-- **C99** Requests for tests of functions and of allocations are never refused, nor are those for tests of semantics if the name of the class can be understood, as far as files are not concerned; and
determining the texts of files of tests is never undefined. -/
theorem C99_defined (r : Request) : (∀ n, ∃ t, behavioural r n = .ok t) ∧ (∃ t, allocation r = .ok t) ∧
    (∀ q types dir names, semanticNames r.forename q = .ok names → ∃ t, semantics r q types dir = .ok t) ∧
    (∀ t, (∃ n, behavioural r n = .ok t) ∨ allocation r = .ok t → ∀ header template, t.text header template ≠ .ub) := by
  have hcamel : ∀ sep s, ∃ c, TestFiles.camel sep s = .ok c := fun sep s => ⟨_, by unfold TestFiles.camel; rw [toCamel_least]⟩
  have hsub : ∀ (rs : List (Str × Str)), (∀ p ∈ rs.map Prod.fst, p ≠ []) → ∀ t, ∃ u, substitute rs t = .ok u := by
    intro rs
    induction rs with
    | nil => exact fun _ t => ⟨t, rfl⟩
    | cons x rs ih =>
      intro h t
      obtain ⟨u, hu⟩ := replaceAllFrom_total («to» := x.2) (h x.1 (by simp)) (t.length + 1) t [] (by omega)
      have hu' : replaceAll (t.length + 1) t x.1 x.2 = some u := by simpa [replaceAll] using hu
      unfold substitute
      rw [hu']
      exact ih (fun r hr => h r (List.mem_cons_of_mem _ hr)) u
  have hspace : ∀ ind t, ∃ u, spacing ind t = .ok u := by
    intro ind t
    unfold spacing
    split
    · exact ⟨_, rfl⟩
    · exact hsub [(['\t'], ind)] (show ∀ p ∈ [['\t']], p ≠ [] by decide) t
  have hcommon : ∀ r t, ∃ u, commonReplacements r t = .ok u := by
    intro r t
    unfold commonReplacements
    obtain ⟨u, hu⟩ := hsub [("?::testing".toList, r.project ++ "::testing".toList),
      ("using namespace sequoia::testing;".toList, if r.project = "sequoia".toList then [] else "using namespace sequoia::testing;\n\n\t".toList),
      ("?forename".toList, r.forename), ("?surname".toList, r.surname)]
      (show ∀ p ∈ ["?::testing".toList, "using namespace sequoia::testing;".toList, "?forename".toList, "?surname".toList], p ≠ [] by decide +kernel) t
    rw [hu]
    exact hspace _ _
  have hcon : ∀ r m, ∃ c, behaviouralConstructor r m = .ok c := by
    intro r m
    unfold behaviouralConstructor
    obtain ⟨c, hc⟩ := hcamel [' '] (r.forename ++ ['_'] ++ (if m = [] then [] else m ++ ['_']) ++ r.surname)
    exact ⟨_, by dsimp only; rw [hc]; rfl⟩
  have hcons : ∀ r, ∃ c, behaviouralConstructors r = .ok c := by
    intro r
    unfold behaviouralConstructors
    obtain ⟨a, ha⟩ := hcon r "false_positive".toList
    obtain ⟨b, hb⟩ := hcon r "false_negative".toList
    obtain ⟨c, hc⟩ := hcon r []
    split
    · exact ⟨_, by rw [ha, Res.bind, hb]; rfl⟩
    · exact ⟨_, by rw [hc]; rfl⟩
  refine ⟨fun n => ?_, ?_, fun q types dir names hn => ?_, fun t ht header template => ?_⟩
  · unfold behavioural
    dsimp only
    obtain ⟨c, hc⟩ := hcamel [] ((if r.forename = [] then toSnake (capitalize (if r.forename = [] then _ else r.forename)) else r.forename) ++ ['_'] ++ r.testType)
    rw [hc, Res.bind]
    obtain ⟨cs, hcs⟩ := hcons _
    rw [hcs]
    exact ⟨_, rfl⟩
  · unfold allocation
    obtain ⟨c, hc⟩ := hcamel [] r.forename
    dsimp only
    rw [hc]
    exact ⟨_, rfl⟩
  · unfold semantics
    rw [hn, Res.bind]
    obtain ⟨c, hc⟩ := hcamel [] names.forename
    obtain ⟨k, hk⟩ := hcamel [] r.testType
    dsimp only
    rw [hc, Res.bind, hk]
    exact ⟨_, rfl⟩
  · have hcopy : ∀ r t, copyright r t = .throws ∨ ∃ u, copyright r t = .ok u := by
      intro r t
      unfold copyright
      split
      · exact .inr ⟨_, rfl⟩
      · exact .inl rfl
    rcases ht with ⟨n, ht⟩ | ht
    · obtain ⟨c, _, ht⟩ := res_ok ht
      obtain ⟨cs, _, ht⟩ := res_ok ht
      cases ht
      show behaviouralText _ _ _ _ ≠ .ub
      unfold behaviouralText
      rcases hcopy _ template with h | ⟨u, h⟩
      · rw [h]; simp [Res.bind]
      · rw [h, Res.bind]
        obtain ⟨v, hv⟩ := hcommon _ u
        rw [hv, Res.bind]
        obtain ⟨k, hk⟩ := hcamel [] r.testType
        dsimp only
        rw [hk, Res.bind]
        obtain ⟨w, hw⟩ := hsub [("?Behavioural".toList, c), ("?Test".toList, k ++ "Test".toList), ("?Header.hpp".toList, pathText header), ("?".toList, r.testType)] (show ∀ p ∈ ["?Behavioural".toList, "?Test".toList, "?Header.hpp".toList, "?".toList], p ≠ [] by decide +kernel) v
        rw [hw]
        simp
    · obtain ⟨c, _, ht⟩ := res_ok ht
      cases ht
      show allocationText _ _ _ ≠ .ub
      unfold allocationText
      rcases hcopy _ template with h | ⟨u, h⟩
      · rw [h]; simp [Res.bind]
      · rw [h, Res.bind]
        obtain ⟨v, hv⟩ := hspace _ u
        rw [hv, Res.bind]
        obtain ⟨x, hx⟩ := hcommon _ v
        rw [hx, Res.bind]
        obtain ⟨k, hk⟩ := hcamel [] r.testType
        dsimp only
        rw [hk, Res.bind]
        obtain ⟨w, hw⟩ := hsub [("?Class".toList, c), ("?Allocation".toList, k), ("?_allocation".toList, r.testType)] (show ∀ p ∈ ["?Class".toList, "?Allocation".toList, "?_allocation".toList], p ≠ [] by decide +kernel) x
        rw [hw, Res.bind]
        split
        · obtain ⟨y, hy⟩ := hsub [("bool PropagateCopy, ".toList, [])] (by decide +kernel) w
          rw [hy]; simp
        · simp

/-- **C99** What is made of a request for a test of semantics; how the name of the test is obtained from that of the class is the subject of C80. -/
theorem C99_semantics {r : Request} {q : Str} {types : List Str} {dir : Option Given} {t : Test} (h : semantics r q types dir = .ok t) :
    ∃ names name, semanticNames r.forename q = .ok names ∧ name = names.forename ∧ t.constructors = [name ++ "_false_negative_".toList ++ surnameOf r [] ++ "{\"False Negative Test\"}".toList, name ++ "_".toList ++ surnameOf r [] ++ "{\"Unit Test\"}".toList] ∧
      headerOf r t.camel t.header ∧ (r.suite ≠ [] → t.suite = r.suite) ∧
      t.nameStub = "MyClass".toList ∧
      t.stubs = (if r.diagnostics then ["Diagnostics.hpp".toList, "Diagnostics.cpp".toList]
        else ["TestingUtilities.hpp".toList, "TestingDiagnostics.hpp".toList, "TestingDiagnostics.cpp".toList, "Test.hpp".toList, "Test.cpp".toList]) ∧
      t.indent = r.indent ∧ t.generate.isSome = dir.isSome ∧ (∀ g, t.generate = some g → (g.cppText.isSome ↔ names.params = [])) ∧
      (∀ g d, t.generate = some g → dir = some d →
        (t.header.absolute = true → g.given = t.header) ∧ (t.header.absolute = false → g.given = ⟨d.absolute, d.names ++ t.header.names⟩)) := by
  obtain ⟨names, h0, h⟩ := res_ok h
  obtain ⟨name, h1, h⟩ := res_ok h
  obtain ⟨kind, h2, h⟩ := res_ok h
  cases h
  refine ⟨names, names.forename, h0, rfl, ?_, headerOf_for r name, suiteFor_given _ _, rfl, rfl, rfl, by simp, fun g hg => ?_, fun g d hg hd => ?_⟩
  · have := surname_eq r []
    rw [List.nil_append] at this
    dsimp only
    rw [this]
    rfl
  · cases dir with
    | none => cases hg
    | some d =>
      cases hg
      by_cases hp : names.params = [] <;> simp [hp]
  · subst hd
    cases hg
    constructor
    · intro ha
      dsimp only at ha ⊢
      simp [TestFiles.append, ha]
    · intro ha
      dsimp only at ha ⊢
      simp [TestFiles.append, ha]

/-- **C99** What is made of a request for a test of functions: if no name is given then it is that of the header. -/
theorem C99_behavioural {r : Request} {n : Option Str} {t : Test} (h : behavioural r n = .ok t) :
    t.header = r.header ∧ (r.suite ≠ [] → t.suite = r.suite) ∧ t.nameStub = "MyBehavioural".toList ∧
    t.stubs = (if r.diagnostics then ["Diagnostics.hpp".toList, "Diagnostics.cpp".toList] else ["Test.hpp".toList, "Test.cpp".toList]) ∧
    t.indent = r.indent ∧ (t.generate.isSome = n.isSome) ∧ t.constructors.length = (if r.diagnostics then 2 else 1) ∧
    (r.forename ≠ [] → r.diagnostics = false → ∃ title, t.constructors = [r.forename ++ "_".toList ++ surnameOf r (r.testType ++ "_".toList) ++ "{\"".toList ++ title ++ "\"}".toList]) ∧
    (r.forename ≠ [] → r.diagnostics = true → ∃ a b, t.constructors = [r.forename ++ "_false_positive_".toList ++ surnameOf r (r.testType ++ "_".toList) ++ "{\"".toList ++ a ++ "\"}".toList,
      r.forename ++ "_false_negative_".toList ++ surnameOf r (r.testType ++ "_".toList) ++ "{\"".toList ++ b ++ "\"}".toList]) := by
  obtain ⟨name, h1, h⟩ := res_ok h
  obtain ⟨cs, h2, h⟩ := res_ok h
  cases h
  have hsur : (if r.surname = [] then r.testType ++ ['_'] ++ surnameFor r.diagnostics else r.surname) = surnameOf r (r.testType ++ "_".toList) := by
    rw [← surname_eq]; rfl
  unfold behaviouralConstructors at h2
  simp only [hsur] at h2
  refine ⟨rfl, suiteFor_given _ _, rfl, rfl, rfl, by simp, ?_⟩
  cases hd : r.diagnostics with
  | false =>
    rw [hd] at h2
    simp only [Bool.false_eq_true, if_false] at h2
    obtain ⟨a, h3, h4⟩ := res_ok h2
    cases h4
    obtain ⟨title, h5, h6⟩ := res_ok h3
    cases h6
    refine ⟨by simp, fun hf _ => ⟨title, ?_⟩, fun _ h => by cases h⟩
    simp [hf]
  | true =>
    rw [hd] at h2
    simp only [if_true] at h2
    obtain ⟨a, h3, h4⟩ := res_ok h2
    obtain ⟨b, h5, h6⟩ := res_ok h4
    cases h6
    obtain ⟨ta, h7, h8⟩ := res_ok h3
    obtain ⟨tb, h9, h10⟩ := res_ok h5
    cases h8; cases h10
    refine ⟨by simp, fun _ h => (nomatch h), fun hf _ => ⟨ta, tb, ?_⟩⟩
    simp [hf]

example : ((allocation { sampleRequest "Thing.hpp" with testType := "regular_allocation".toList, header := ⟨false, []⟩ }).bind fun t => .ok t.constructors) = .ok ["thing_allocation_test{\"Allocation Test\"}".toList] ∧
    ((behavioural (sampleRequest "Thing.hpp") none).bind fun t => .ok t.constructors) = .ok ["thing_free_test{\"Thing Free Test\"}".toList] := by decide +kernel


/-- **C99 (violated)** If the source is not in the directory of the sources of the project, but next to it, then the files are not in the directory of the tests. -/
theorem C99_outside_violated : ∃ fs t s', behavioural (sampleRequest "Thing.hpp") none = .ok t ∧ get fs ["Source", "q", "Thing.hpp"] = some (.file []) ∧
    finalize sampleEnv samplePaths t ⟨fs, 100⟩ = .ok s' ∧ get s'.fs ["q", "ThingFreeTest.hpp"] ≠ none ∧ ∀ p, samplePaths.tests <+: p → get s'.fs p ≠ none → p = samplePaths.tests := by
  refine ⟨(["Source", "q"], .dir) :: (["Source", "q", "Thing.hpp"], .file []) :: sampleDisk, ?_⟩
  have h : (match behavioural (sampleRequest "Thing.hpp") none with
      | .ok t =>
        match finalize sampleEnv samplePaths t ⟨(["Source", "q"], .dir) :: (["Source", "q", "Thing.hpp"], .file []) :: sampleDisk, 100⟩ with
        | .ok s' => exists' s'.fs ["q", "ThingFreeTest.hpp"] && s'.fs.all fun e => !(samplePaths.tests.isPrefixOf e.1) || e.1 == samplePaths.tests
        | _ => false
      | _ => false) = true := by decide +kernel
  split at h
  · next t ht =>
    split at h
    · next s' hs =>
      rw [Bool.and_eq_true, List.all_eq_true] at h
      refine ⟨t, s', ht, by decide +kernel, hs, exists'_iff.1 h.1, fun p hp hg => ?_⟩
      cases hn : get s'.fs p with
      | none => exact absurd hn hg
      | some n =>
        unfold Materials.get at hn
        rw [Option.map_eq_some_iff] at hn
        obtain ⟨e, he, _⟩ := hn
        have h1 := h.2 e (List.mem_of_find?_eq_some he)
        have h2 := List.find?_some he
        rw [beq_iff_eq] at h2
        rw [h2, List.isPrefixOf_iff_prefix.2 hp] at h1
        simpa using h1
    · cases h
  · cases h

/-- **C99 (violated)** If the process is killed once the first file has been copied, then the test cannot be created by trying again: the file is taken to be there already, so that it remains the template, and it is not included. -/
theorem C99_interrupted_violated : ∃ t s1 s2, behavioural (sampleRequest "Thing.hpp") none = .ok t ∧ finalize sampleEnv samplePaths t ⟨sampleDisk, 2⟩ = .failed s1 ∧ finalize sampleEnv samplePaths t ⟨s1.fs, 100⟩ = .ok s2 ∧
    get s2.fs ["Tests", "A", "ThingFreeTest.hpp"] = get sampleDisk ["TT", "MyBehaviouralTest.hpp"] ∧ get s2.fs samplePaths.includes = get sampleDisk samplePaths.includes := by
  have h : (match behavioural (sampleRequest "Thing.hpp") none with
      | .ok t =>
        match finalize sampleEnv samplePaths t ⟨sampleDisk, 2⟩ with
        | .failed s1 =>
          match finalize sampleEnv samplePaths t ⟨s1.fs, 100⟩ with
          | .ok s2 => decide (get s2.fs ["Tests", "A", "ThingFreeTest.hpp"] = get sampleDisk ["TT", "MyBehaviouralTest.hpp"] ∧ get s2.fs samplePaths.includes = get sampleDisk samplePaths.includes)
          | _ => false
        | _ => false
      | _ => false) = true := by decide +kernel
  split at h
  · next t ht =>
    split at h
    · next s1 h1 =>
      split at h
      · next s2 h2 => exact ⟨t, s1, s2, ht, h1, h2, of_decide_eq_true h⟩
      · cases h
    · cases h
  · cases h

/-- A test of the semantics of a class, with an equivalent type. -/
def sampleSemantics (type : String) : Res Test := semantics { sampleRequest "Thing.hpp" with testType := "regular".toList } "p::thing".toList [type.toList] none

/-- The disk with templates for the semantics of a class. -/
def semanticsDisk : Disk :=
  (["TT", "MyClassTestingUtilities.hpp"], .file "// Copyright //\nvoid test(?args);\n".toList) :: (["TT", "MyClassTestingDiagnostics.hpp"], .file "// Copyright //\n".toList) ::
  (["TT", "MyClassTestingDiagnostics.cpp"], .file "// Copyright //\n".toList) :: (["TT", "MyClassTest.hpp"], .file "// Copyright //\n".toList) :: (["TT", "MyClassTest.cpp"], .file "// Copyright //\n".toList) :: sampleDisk

/-- **C99 (violated)** If a test cannot be created, because of a type which is blank, then neither can it be with a proper type afterwards: the first file remains the template. -/
theorem C99_retry_violated : ∃ bad good s1 s2, sampleSemantics " " = .ok bad ∧ sampleSemantics "int" = .ok good ∧
    finalize sampleEnv samplePaths bad ⟨semanticsDisk, 100⟩ = .failed s1 ∧ finalize sampleEnv samplePaths good ⟨s1.fs, 100⟩ = .ok s2 ∧
    get s2.fs ["Tests", "A", "ThingTestingUtilities.hpp"] = get semanticsDisk ["TT", "MyClassTestingUtilities.hpp"] := by
  have h : (match sampleSemantics " ", sampleSemantics "int" with
      | .ok bad, .ok good =>
        match finalize sampleEnv samplePaths bad ⟨semanticsDisk, 100⟩ with
        | .failed s1 =>
          match finalize sampleEnv samplePaths good ⟨s1.fs, 100⟩ with
          | .ok s2 => decide (get s2.fs ["Tests", "A", "ThingTestingUtilities.hpp"] = get semanticsDisk ["TT", "MyClassTestingUtilities.hpp"])
          | _ => false
        | _ => false
      | _, _ => false) = true := by decide +kernel
  split at h
  · next bad good hb hg =>
    split at h
    · next s1 h1 =>
      split at h
      · next s2 h2 => exact ⟨bad, good, s1, s2, hb, hg, h1, h2, of_decide_eq_true h⟩
      · cases h
    · cases h
  · cases h

/-- **C99 (violated)** If the process is killed at the wrong moment, then the main file is empty. -/
theorem C99_truncated_violated : ∃ t s', behavioural (sampleRequest "Thing.hpp") none = .ok t ∧ finalize sampleEnv samplePaths t ⟨sampleDisk, 12⟩ = .failed s' ∧
    get sampleDisk samplePaths.main.file = some (.file mainBefore.toList) ∧ get s'.fs samplePaths.main.file = some (.file []) := by
  have h : (match behavioural (sampleRequest "Thing.hpp") none with
      | .ok t =>
        match finalize sampleEnv samplePaths t ⟨sampleDisk, 12⟩ with
        | .failed s' => decide (get sampleDisk samplePaths.main.file = some (.file mainBefore.toList) ∧ get s'.fs samplePaths.main.file = some (.file []))
        | _ => false
      | _ => false) = true := by decide +kernel
  split at h
  · next t ht =>
    split at h
    · next s' hs => exact ⟨t, s', ht, hs, of_decide_eq_true h⟩
    · cases h
  · cases h

/-! ### Examples, continued -/

/-- The paths of the project are as they should be. -/
theorem sample_separate (header : String) (f : List String → Str → Res Str) (g : Option Generate) (hg : ∀ g' ∈ g, g'.given = ⟨false, ["Other.hpp"]⟩) : Separate samplePaths (sampleTest header f g) := by
  refine ⟨?_, by decide, ?_⟩
  · rintro p (rfl | rfl | ⟨m, rfl | hm, rfl | rfl⟩)
    · decide
    · decide
    · decide
    · decide
    · cases hm
    · cases hm
  · intro g' h hg' hh n
    have hgiven := hg g' hg'
    have : h = ["Source", "p", "Other.hpp"] := by
      unfold headerPath at hh
      rw [hgiven] at hh
      have h2 : (PathEquivalence.rebaseFrom ["Other.hpp"] samplePaths.sourceProject).bind (fun r => .ok (samplePaths.sourceProject ++ r)) = .ok ["Source", "p", "Other.hpp"] := by decide +kernel
      simp only [Bool.false_eq_true, if_false] at hh
      rw [h2] at hh
      cases hh
      rfl
    subst this
    refine ⟨?_, ?_, ?_, ?_⟩
    · rintro (h | h | ⟨m, rfl | hm, h | h⟩)
      · simp [samplePaths] at h
      · simp [samplePaths] at h
      · simp [samplePaths] at h
      · simp [samplePaths] at h
      · cases hm
      · cases hm
    all_goals
      rintro ⟨r, h⟩
      simp [samplePaths] at h

/-- A test is created: the source is found, with another extension; its files are created, included and put into the file for CMake, and the test is put into the main file. -/
example : ∃ t s', behavioural (sampleRequest "Thing.hpp") none = .ok t ∧ Stubs t ∧ finalize sampleEnv samplePaths t ⟨sampleDisk, 100⟩ = .ok s' ∧
    get s'.fs ["Tests", "A", "ThingFreeTest.hpp"] = some (.file "//Copyright N 1.//\nclass thing_free_test : free_test;\n".toList) ∧
    get s'.fs ["Tests", "A", "ThingFreeTest.cpp"] = some (.file "//Copyright N 1.//\n#include \"ThingFreeTest.hpp\"\n#include \"p/A/Thing.h\"\n".toList) ∧
    get s'.fs ["Main", "Includes.hpp"] = some (.file "#include \"A/ThingFreeTest.hpp\"\n#include <x>\n\n".toList) ∧
    get s'.fs ["Main", "Main.cpp"] = some (.file "{\n    runner.add_test_suite(\n      \"S\",\n      thing_free_test{\"Thing Free Test\"}\n    );\n\n  runner.execute();\n}\n".toList) := by
  have h : (match behavioural (sampleRequest "Thing.hpp") none with
      | .ok t =>
        match finalize sampleEnv samplePaths t ⟨sampleDisk, 100⟩ with
        | .ok s' => decide (get s'.fs ["Tests", "A", "ThingFreeTest.hpp"] = some (.file "//Copyright N 1.//\nclass thing_free_test : free_test;\n".toList) ∧
            get s'.fs ["Tests", "A", "ThingFreeTest.cpp"] = some (.file "//Copyright N 1.//\n#include \"ThingFreeTest.hpp\"\n#include \"p/A/Thing.h\"\n".toList) ∧
            get s'.fs ["Main", "Includes.hpp"] = some (.file "#include \"A/ThingFreeTest.hpp\"\n#include <x>\n\n".toList) ∧
            get s'.fs ["Main", "Main.cpp"] = some (.file "{\n    runner.add_test_suite(\n      \"S\",\n      thing_free_test{\"Thing Free Test\"}\n    );\n\n  runner.execute();\n}\n".toList))
        | _ => false
      | _ => false) = true := by decide +kernel
  split at h
  · next t ht =>
    split at h
    · next s' hs => exact ⟨t, s', ht, C99_stubs (.inl ⟨_, ht⟩), hs, of_decide_eq_true h⟩
    · cases h
  · cases h

/-- A test is created together with its source. -/
example : ∃ t s', behavioural (sampleRequest "Other.hpp") (some "n".toList) = .ok t ∧ finalize sampleEnv samplePaths t ⟨sampleDisk, 100⟩ = .ok s' ∧
    get s'.fs ["Source", "p", "Other.hpp"] = some (.file "//Copyright N 1.//\nnamespace n\n{\n}\n".toList) ∧
    get s'.fs ["Source", "p", "Other.cpp"] = some (.file "//Copyright N 1.//\n#include \"p/Other.hpp\"\nnamespace n\n{\n}\n".toList) ∧
    get s'.fs ["Tests", "ThingFreeTest.hpp"] = some (.file "//Copyright N 1.//\nclass thing_free_test : free_test;\n".toList) := by
  have h : (match behavioural (sampleRequest "Other.hpp") (some "n".toList) with
      | .ok t =>
        match finalize sampleEnv samplePaths t ⟨sampleDisk, 100⟩ with
        | .ok s' => decide (get s'.fs ["Source", "p", "Other.hpp"] = some (.file "//Copyright N 1.//\nnamespace n\n{\n}\n".toList) ∧
            get s'.fs ["Source", "p", "Other.cpp"] = some (.file "//Copyright N 1.//\n#include \"p/Other.hpp\"\nnamespace n\n{\n}\n".toList) ∧
            get s'.fs ["Tests", "ThingFreeTest.hpp"] = some (.file "//Copyright N 1.//\nclass thing_free_test : free_test;\n".toList))
        | _ => false
      | _ => false) = true := by decide +kernel
  split at h
  · next t ht =>
    split at h
    · next s' hs => exact ⟨t, s', ht, hs, of_decide_eq_true h⟩
    · cases h
  · cases h

/-- Neither is there a source, nor is it to be created. -/
example : ∃ t, t.generate = none ∧ finalize sampleEnv samplePaths t ⟨sampleDisk, 100⟩ = .failed ⟨sampleDisk, 100⟩ := ⟨sampleTest "Other.hpp" (fun _ c => .ok c) none, rfl, by decide +kernel⟩

/-- Whatever is on a disk is in the list. -/
theorem mem_of_get {fs : Disk} {p : Path} (h : get fs p ≠ none) : ∃ e ∈ fs, e.1 = p := by
  cases hg : get fs p with
  | none => exact absurd hg h
  | some n =>
    unfold Materials.get at hg
    rw [Option.map_eq_some_iff] at hg
    obtain ⟨e, he, _⟩ := hg
    have h2 := List.find?_some he
    rw [beq_iff_eq] at h2
    exact ⟨e, List.mem_of_find?_eq_some he, h2⟩

/-- A disk on which there are the files of the test, and it is in the main file. -/
def finishedDisk : Disk :=
  (["Tests", "A"], .dir) :: (["Tests", "A", "ThingFreeTest.hpp"], .file []) :: (["Tests", "A", "ThingFreeTest.cpp"], .file []) ::
    (["Main", "Main.cpp"], .file "{\n    runner.add_test_suite(\n      \"S\",\n      thing_free_test{\"Thing Free Test\"}\n    );\n\n  runner.execute();\n}\n".toList) :: sampleDisk

/-- The files are there, and the test is in the main file. -/
example : ∃ fs', finalize sampleEnv samplePaths (sampleTest "Thing.h" (fun _ c => .ok c) none) ⟨finishedDisk, 7 + 2 * (samplePaths.ancillary.length + 1) + 1⟩ = .ok ⟨fs', 7⟩ ∧ ∀ p, get fs' p = get finishedDisk p := by
  refine C99_again_partial walkList_walks ?_ (by decide +kernel) (.inr (by decide)) ⟨["Source", "p", "A", "Thing.h"], ⟨by decide +kernel, ["p", "A", "Thing.h"], by decide, rfl⟩, .inl ?_⟩ (by simp [sampleTest]) ?_ ?_ 7
  · intro p n h
    obtain ⟨e, he, h⟩ := mem_of_get h
    have := (show ∀ e ∈ finishedDisk, e.1 ≠ [] → get finishedDisk e.1.dropLast = some .dir by decide +kernel) e he (by rw [h]; simp)
    rwa [h, List.dropLast_concat] at this
  · exact ends_iff.1 (by decide +kernel)
  · rintro p ⟨⟨h, -⟩, hm⟩
    obtain ⟨e, he, rfl⟩ := mem_of_get h
    have hn : ¬ ∀ q, InSources samplePaths finishedDisk q → ¬ Matches ⟨false, ["Thing.h"]⟩ q := fun hn =>
      hn ["Source", "p", "A", "Thing.h"] ⟨by decide +kernel, ["p", "A", "Thing.h"], by decide, rfl⟩ (ends_iff.1 (by decide +kernel))
    rcases hm with hm | ⟨-, hm⟩
    · have := (show ∀ e ∈ finishedDisk, ends ⟨false, ["Thing.h"]⟩ e.1 = true → e.1 = ["Source", "p", "A", "Thing.h"] by decide +kernel) e he (ends_iff.2 hm)
      exact ⟨["A"], ⟨"Thing.h", this, by decide⟩, by decide +kernel⟩
    · exact absurd hm hn
  · rintro m (rfl | hm)
    · exact ⟨_, rfl, by decide +kernel⟩
    · cases hm

/-- A test which meets the requirements, and whose source has to be created. -/
example : ∃ t : Test, t.generate ≠ none ∧ Stubs t ∧ Separate samplePaths t ∧ ∀ p, ¬ Source samplePaths sampleDisk t.header p := by
  refine ⟨sampleTest "Other.hpp" (fun _ c => .ok c) (some ⟨⟨false, ["Other.hpp"]⟩, "MyFreeFunctions.hpp", .ok, some fun _ => .ok⟩), by simp [sampleTest],
    ⟨by decide, fun stub hs => ?_⟩, sample_separate _ _ _ (by simp), locate_none (env := sampleEnv) walkList_walks (by decide +kernel)⟩
  simp only [sampleTest, List.mem_cons, List.not_mem_nil, or_false] at hs
  rcases hs with rfl | rfl
  · exact ⟨"Test".toList, by decide, .inl (by decide)⟩
  · exact ⟨"Test".toList, by decide, .inr (by decide)⟩

end Verif.Props
