import Verif.Lemmas.ProjectPaths
import Verif.Props.PathEquivalence
set_option linter.unusedSimpArgs false
/-
Properties of the paths of a project, C95.
-/
namespace Verif.Props
open Verif.ProjectPaths Verif.PathEquivalence Verif.Spec.ProjectPaths

/-- The path of a record. -/
def pathOf (p : Prune) : Record → Path
  | .stamp => stamp p
  | .external => externalDependencies p
  | .failures id => failures p id
  | .passes id => selectedPasses p id

/-- **C95 (part)** If an executable is somewhere in the directory `build` of a project, then the project is found, together with the cache of CMake, which is looked for beside the executable and then in the
directory above.  What is missing: projects which are themselves inside of a directory called `build`, see `C95_root_violated`. -/
theorem C95_root_partial (sys : System) (arg : String) (args : List String) (root exec dir up : Path) (es : List String)
    (harg : arg ≠ "") (hcan : sys.canonical arg = some exec) (hbelow : Below root exec) (hroot : "build" ∉ root)
    (hdir : DirOf exec dir) (hup : DirOf dir up) (hes : sys.entries dir = some es) :
    ("CMakeCache.txt" ∈ es → discover sys (arg :: args) = .ok ⟨root, exec, dir ++ ["CMakeCache.txt"]⟩) ∧
    ("CMakeCache.txt" ∉ es → ∀ fs, sys.entries up = some fs →
      ("CMakeCache.txt" ∈ fs → discover sys (arg :: args) = .ok ⟨root, exec, up ++ ["CMakeCache.txt"]⟩) ∧
      ("CMakeCache.txt" ∉ fs → discover sys (arg :: args) = .throws)) := by
  obtain ⟨hne, rest, hrest, rfl⟩ := hbelow
  obtain ⟨n, hn⟩ := hdir
  obtain ⟨m, rfl⟩ := hup
  have hupne : up ≠ [] := by
    rintro rfl
    have := congrArg List.length hn
    cases root with
    | nil => simp at hne
    | cons =>
      cases rest with
      | nil => simp at hrest
      | cons => simp at this; omega
  have hpar : parent (root ++ ["build"] ++ rest) = up ++ [m] := by rw [hn, parent_concat (by simp)]
  have hs : splitAtBuild (root ++ ["build"] ++ rest) = (root, "build" :: rest) := by
    simpa using splitAtBuild_eq (rest := rest) hroot
  have key : discover sys (arg :: args) = (getCache sys (up ++ [m])).bind fun c => .ok ⟨root, root ++ ["build"] ++ rest, c⟩ := by
    unfold discover
    simp only [beq_iff_eq, harg, if_false, hcan, hs, hpar]
    rw [if_pos]
    cases root with
    | nil => simp at hne
    | cons =>
      cases rest with
      | nil => simp at hrest
      | cons => simp
  rw [key]
  constructor
  · intro h
    simp [getCache, getCacheIn, hes, h, Res.bind]
  · intro h fs hfs
    constructor
    · intro h2
      simp [getCache, getCacheIn, hes, h, parent_concat hupne, hfs, h2, Res.bind]
    · intro h2
      simp [getCache, getCacheIn, hes, h, parent_concat hupne, hfs, h2, Res.bind]

/-- **C95 (part)** If a project is found, then the executable, which is the one named by the first argument, is somewhere in its directory `build`; there is a cache of CMake, beside the executable or in the
directory above. -/
theorem C95_found (sys : System) (args : List String) (d : Discovered) (h : discover sys args = .ok d) :
    (∃ arg, args.head? = some arg ∧ sys.canonical arg = some d.executable) ∧ Below d.root d.executable ∧
    ∃ dir es, d.cache = dir ++ ["CMakeCache.txt"] ∧ sys.entries dir = some es ∧ "CMakeCache.txt" ∈ es ∧ (DirOf d.executable dir ∨ ∃ x, DirOf d.executable x ∧ DirOf x dir) := by
  unfold discover at h
  split at h
  · simp at h
  split at h
  · simp at h
  split at h
  · simp at h
  rename_i arg _ _ _ exec hcan
  split at h
  · rename_i hc
    simp only [Bool.and_eq_true, Bool.not_eq_true', List.isEmpty_eq_false_iff, gt_iff_lt, decide_eq_true_eq] at hc
    obtain ⟨h1, h2⟩ := hc
    have happ := splitAtBuild_append exec
    rcases splitAtBuild_snd exec with hb | ⟨l, hb⟩
    · rw [hb] at h2; simp at h2
    rw [hb] at h2 happ
    have hl : l ≠ [] := by rintro rfl; simp at h2
    have hB : Below (splitAtBuild exec).1 exec := ⟨h1, l, hl, by simpa using happ.symm⟩
    generalize (splitAtBuild exec).1 = root at *
    obtain ⟨l', n, rfl⟩ : ∃ l' n, l = l' ++ [n] := ⟨l.dropLast, l.getLast hl, (List.dropLast_concat_getLast hl).symm⟩
    obtain ⟨x, r', rfl⟩ : ∃ x r', root = x :: r' := by cases root with | nil => simp at h1 | cons x r' => exact ⟨x, r', rfl⟩
    have hex : exec = (x :: r' ++ "build" :: l') ++ [n] := by simpa using happ.symm
    have hpar : parent exec = x :: r' ++ "build" :: l' := by rw [hex, parent_concat (by simp)]
    rw [hpar] at h
    have hup : ∃ z, x :: r' ++ "build" :: l' = parent (x :: r' ++ "build" :: l') ++ [z] := by
      have hne : x :: r' ++ "build" :: l' ≠ [] := by simp
      refine ⟨(x :: r' ++ "build" :: l').getLast hne, ?_⟩
      unfold parent
      rw [if_neg (by simp), List.dropLast_concat_getLast]
    obtain ⟨z, hz⟩ := hup
    cases hc : getCache sys (x :: r' ++ "build" :: l') with
    | throws => rw [hc] at h; simp [Res.bind] at h
    | ub => rw [hc] at h; simp [Res.bind] at h
    | ok c =>
      rw [hc] at h
      simp only [Res.bind, Res.ok.injEq] at h
      subst h
      obtain ⟨dir, hd, h3, es, h4, h5⟩ := getCache_ok hc
      refine ⟨⟨arg, rfl, hcan⟩, hB, dir, es, h3, h4, h5, ?_⟩
      rcases hd with rfl | rfl
      · exact Or.inl ⟨n, hex⟩
      · exact Or.inr ⟨_, ⟨n, hex⟩, z, hz⟩
  · simp at h

/-- A machine on which the executable of a project is in the directory `build` of that project. -/
def someSystem (exec : Path) : System := ⟨fun _ => some exec, fun _ => some ["CMakeCache.txt", "TestAll"]⟩

example : discover (someSystem ["/", "home", "proj", "build", "clang", "TestAll"]) ["./TestAll"] =
    .ok ⟨["/", "home", "proj"], ["/", "home", "proj", "build", "clang", "TestAll"], ["/", "home", "proj", "build", "clang", "CMakeCache.txt"]⟩ := by decide

/-- **C95 (violated)** The executable is in the directory `build` of a project, but another directory is taken for the project: the first element of the path called `build` is the one which counts. -/
theorem C95_root_violated : ∃ (sys : System) (args : List String) (root exec : Path) (d : Discovered),
    Canonical exec ∧ Below root exec ∧ args.head? = some "./TestAll" ∧ sys.canonical "./TestAll" = some exec ∧ root = ["/", "home", "build", "proj"] ∧ exec = root ++ ["build", "clang", "TestAll"] ∧
    discover sys args = .ok d ∧ d.root = ["/", "home"] := by
  refine ⟨someSystem ["/", "home", "build", "proj", "build", "clang", "TestAll"], ["./TestAll"], ["/", "home", "build", "proj"], ["/", "home", "build", "proj", "build", "clang", "TestAll"], ⟨["/", "home"], ["/", "home", "build", "proj", "build", "clang", "TestAll"], ["/", "home", "build", "proj", "build", "clang", "CMakeCache.txt"]⟩,
    ⟨_, rfl, by decide, by decide, by decide, by decide⟩, ⟨by simp, ["clang", "TestAll"], by simp, rfl⟩, rfl, rfl, rfl, rfl, by decide, rfl⟩

theorem apart_of_ne (root : Path) {a b : String} (p q : Path) (h : a ≠ b) : Apart (root ++ a :: p) (root ++ b :: q) := by
  constructor <;> rw [List.prefix_append_right_inj, List.cons_prefix_cons]
  · exact fun e => h e.1
  · exact fun e => h e.1.symm

/-- **C95 (part)** The directories of a project are directories of its root, none of which is inside of another one: in particular what is written to the output directory can affect neither the sources nor
the tests. -/
theorem C95_apart (root repo : Path) (e : Path → Bool) (h : sourceRepo root = .ok repo) :
    [repo, tests root, materials root, dependencies root, buildSystem root, build root, output root] =
      ["Source", "Tests", "TestMaterials", "dependencies", "build_system", "build", "output"].map (fun n => root ++ [n]) ∧
    [repo, tests root, materials root, dependencies root, buildSystem root, build root, output root].Pairwise Apart ∧
    (auxiliary e root = root ++ ["aux_files"] ∧ e (root ++ ["aux_files"]) = true ∨ dependencies root <+: auxiliary e root ∧ e (root ++ ["aux_files"]) = false) ∧
    ∀ p ∈ [repo, tests root, materials root, buildSystem root, build root, output root], Apart p (auxiliary e root) := by
  unfold sourceRepo at h
  split at h
  · simp at h
  · simp only [Res.ok.injEq] at h
    subst h
    refine ⟨?_, ?_, ?_, ?_⟩
    · simp [tests, materials, dependencies, buildSystem, build, output]
    · simp only [List.pairwise_cons, List.mem_cons, List.not_mem_nil, or_false, forall_eq_or_imp, forall_eq, tests, materials, dependencies, buildSystem, build, output, List.Pairwise.nil, and_true,
        false_imp_iff, implies_true]
      repeat' constructor
      all_goals rw [List.prefix_append_right_inj, List.cons_prefix_cons]
      all_goals simp
    · unfold auxiliary sequoiaRoot
      cases he : e (root ++ ["aux_files"]) <;> simp
    · have hd : auxiliary e root = root ++ "aux_files" :: [] ∨ auxiliary e root = root ++ "dependencies" :: ["sequoia", "aux_files"] := by
        unfold auxiliary sequoiaRoot dependencies
        cases he : e (root ++ ["aux_files"]) <;> simp
      intro p hp
      simp only [List.mem_cons, List.not_mem_nil, or_false] at hp
      rcases hd with hd | hd <;> rw [hd] <;> rcases hp with rfl | rfl | rfl | rfl | rfl | rfl <;> exact apart_of_ne _ _ _ (by decide)

/-- **C95 (part)** What is written during tests is kept in the output directory, in directories none of which is inside of another one: to clear one of them leaves the others alone. -/
theorem C95_output (root : Path) : [temporaryData root, diagnostics root, summaries root, output root ++ ["Recovery"], output root ++ ["Prune"]] =
      ["TestsTemporaryData", "DiagnosticsOutput", "TestSummaries", "Recovery", "Prune"].map (fun n => root ++ ["output", n]) ∧
    [temporaryData root, diagnostics root, summaries root, output root ++ ["Recovery"], output root ++ ["Prune"]].Pairwise Apart ∧
    temporaryData root <+: instabilityAnalysis root ∧ DirOf (recoveryFile root) (output root ++ ["Recovery"]) ∧ DirOf (dumpFile root) (output root ++ ["Recovery"]) ∧ recoveryFile root ≠ dumpFile root := by
  refine ⟨?_, ?_, ⟨["InstabilityAnalysis"], rfl⟩, ⟨"Recovery.txt", by simp [recoveryFile]⟩, ⟨"Dump.txt", by simp [dumpFile]⟩, ?_⟩
  · simp [temporaryData, diagnostics, summaries, output]
  · simp only [List.pairwise_cons, List.mem_cons, List.not_mem_nil, or_false, forall_eq_or_imp, forall_eq, temporaryData, diagnostics, summaries, List.Pairwise.nil, and_true, false_imp_iff, implies_true]
    repeat' constructor
    all_goals rw [List.prefix_append_right_inj, List.cons_prefix_cons]
    all_goals simp
  · unfold recoveryFile dumpFile
    intro h
    have := List.append_cancel_left h
    simp at this

example : recoveryFile ["/", "p"] = ["/", "p", "output", "Recovery", "Recovery.txt"] := rfl

example : ∃ root repo, sourceRepo root = .ok repo ∧ repo = ["/", "home", "proj", "Source"] := ⟨["/", "home", "proj"], _, by decide, rfl⟩

/-- **C95 (part)** Unless the directory of the sources of the project is given, it is the one in `Source` with the name of the root, the first letter in lower case; one that is given clearly is used, and
likewise the file with the main function and the file of common includes, so long as they exist. -/
theorem C95_project (sys : System) (isDir isFile : Path → Bool) (args : List String) (d : Discovered) (m c f mr cr fr : Path) (n : String) (up : Path)
    (hd : discover sys args = .ok d) (hcan : Spec.PathEquivalence.Absolute d.root) (hn : d.root = up ++ [n])
    (hm : Spec.PathEquivalence.Clear d.root m mr) (hmr : Spec.PathEquivalence.Relative mr) (hc : Spec.PathEquivalence.Clear d.root c cr) (hcr : Spec.PathEquivalence.Relative cr)
    (hf : Spec.PathEquivalence.Clear (d.root ++ ["Source"]) f fr) (hfr : Spec.PathEquivalence.Relative fr) (hdir : isDir d.root = true) :
    (isFile (d.root ++ mr) = true → isFile (d.root ++ cr) = true →
      project sys isDir isFile args m c (some f) = .ok (d, d.root ++ mr, d.root ++ cr, d.root ++ ["Source"] ++ fr) ∧
      project sys isDir isFile args m c none = .ok (d, d.root ++ mr, d.root ++ cr, d.root ++ ["Source", uncapitalize n])) ∧
    (¬ (isFile (d.root ++ mr) = true ∧ isFile (d.root ++ cr) = true) → project sys isDir isFile args m c (some f) = .throws ∧ project sys isDir isFile args m c none = .throws) := by
  have hrepo : sourceRepo d.root = .ok (d.root ++ ["Source"]) := by
    unfold sourceRepo
    rw [hn]
    simp
  have habs : Spec.PathEquivalence.Absolute (d.root ++ ["Source"]) := by
    obtain ⟨l, h1, h2, h3, h4⟩ := hcan
    exact ⟨l ++ ["Source"], by rw [h1]; rfl, by simpa using h2, by simpa using h3, by simpa using h4⟩
  have hback : back d.root = .ok n := by simp [back, hn]
  have k : ∀ o, project sys isDir isFile args m c o = (sourceProject d.root o).bind fun s => if isFile (d.root ++ mr) && isFile (d.root ++ cr) then .ok (d, d.root ++ mr, d.root ++ cr, s) else .throws := by
    intro o
    simp [project, hd, within, PathEquivalence.rebaseFrom_clear hcan hmr hm, PathEquivalence.rebaseFrom_clear hcan hcr hc, Res.bind, hdir]
  rw [k, k]
  simp only [sourceProject, hrepo, Res.bind, PathEquivalence.rebaseFrom_clear habs hfr hf, hback]
  constructor
  · intro h1 h2
    simp [h1, h2]
  · intro h
    rw [if_neg (by simpa using h), if_neg (by simpa using h)]
    exact ⟨rfl, rfl⟩

example : Spec.PathEquivalence.Clear ["/", "home", "Proj"] ["TestAll", "TestAllMain.cpp"] ["TestAll", "TestAllMain.cpp"] ∧ Spec.PathEquivalence.Relative ["TestAll", "TestAllMain.cpp"] ∧
    Spec.PathEquivalence.Absolute ["/", "home", "Proj"] :=
  ⟨.within 0 "TestAll" ["TestAllMain.cpp"] (by decide), ⟨by simp, by decide, by decide, by decide⟩, ⟨_, rfl, by decide, by decide, by decide⟩⟩

example : uncapitalize "MyProject" = "myProject" := by decide

example : project (someSystem ["/", "home", "Proj", "build", "clang", "TestAll"]) (fun _ => true) (fun _ => true) ["./TestAll"] ["TestAll", "TestAllMain.cpp"] ["TestAll", "TestAllMain.cpp"] none =
    .ok (⟨["/", "home", "Proj"], ["/", "home", "Proj", "build", "clang", "TestAll"], ["/", "home", "Proj", "build", "clang", "CMakeCache.txt"]⟩, ["/", "home", "Proj", "TestAll", "TestAllMain.cpp"],
      ["/", "home", "Proj", "TestAll", "TestAllMain.cpp"], ["/", "home", "Proj", "Source", "proj"]) := by decide

theorem prune_ok {d : Discovered} {rest : Path} {n : String} (h : d.executable = d.root ++ ["build"] ++ (rest ++ [n])) :
    ∃ s, (d.root ++ ["build"] ++ rest).getLast? = some s ∧ prune d = .ok ⟨output d.root ++ ["Prune"] ++ (if rest = [] then ["."] else rest), s⟩ := by
  have hp : parent d.executable = d.root ++ ["build"] ++ rest := by
    rw [h, ← List.append_assoc, parent_concat (by simp)]
  have hne : d.root ++ ["build"] ++ rest ≠ [] := by simp
  refine ⟨(d.root ++ ["build"] ++ rest).getLast hne, List.getLast?_eq_some_getLast hne, ?_⟩
  unfold prune prunePaths back
  rw [hp, if_neg (by simp), List.getLast?_eq_some_getLast hne]
  simp only [Res.bind, build, relative_append]

/-- The repetition a record belongs to. -/
def recId : Record → Option Nat
  | .stamp => none
  | .external => none
  | .failures id => id
  | .passes id => id

/-- The extension of a record, without the dot. -/
def recExt : Record → String
  | .stamp => "prune"
  | .external => "external"
  | .failures _ => "failures"
  | .passes _ => "passes"

theorem rec_inj {r r' : Record} (h : recId r = recId r') (h' : recExt r = recExt r') : r = r' := by
  cases r <;> cases r' <;> simp_all [recId, recExt]

theorem recExt_dot (r : Record) : '.' ∉ (recExt r).toList ∧ (recExt r).toList ≠ [] := by
  cases r <;> simp only [recExt] <;> exact ⟨by decide, by decide⟩

theorem pathOf_none {p : Prune} {r : Record} (h : recId r = none) : pathOf p r = p.dir ++ [p.stem ++ ("." ++ recExt r)] := by
  cases r with
  | stamp => rfl
  | external => simp [pathOf, externalDependencies, makePath, recExt]
  | failures id => simp only [recId] at h; subst h; simp [pathOf, failures, makePath, recExt]
  | passes id => simp only [recId] at h; subst h; simp [pathOf, selectedPasses, makePath, recExt]

theorem pathOf_some {p : Prune} {r : Record} {n : Nat} (h : recId r = some n) : pathOf p r = p.dir ++ ["InstabilityAnalysis"] ++ [p.stem ++ toString n ++ ("." ++ recExt r)] := by
  cases r with
  | stamp => simp [recId] at h
  | external => simp [recId] at h
  | failures id => simp only [recId] at h; subst h; rfl
  | passes id => simp only [recId] at h; subst h; rfl

/-- The path of any record. -/
theorem pathOf_eq (p : Prune) (r : Record) : ∃ mid suf, pathOf p r = p.dir ++ mid ++ [p.stem ++ suf ++ ("." ++ recExt r)] ∧
    (recId r = none ∧ mid = [] ∧ suf = "" ∨ ∃ n : Nat, recId r = some n ∧ mid = ["InstabilityAnalysis"] ∧ suf = toString n) := by
  cases h : recId r with
  | none => exact ⟨[], "", by rw [pathOf_none h]; simp, Or.inl ⟨rfl, rfl, rfl⟩⟩
  | some n => exact ⟨["InstabilityAnalysis"], toString n, pathOf_some h, Or.inr ⟨n, rfl, rfl, rfl⟩⟩

theorem name_inj {a b : String} {r r' : Record} (h : a ++ ("." ++ recExt r) = b ++ ("." ++ recExt r')) : a = b ∧ recExt r = recExt r' := by
  have h1 := congrArg String.toList h
  simp only [String.toList_append, show ".".toList = ['.'] from rfl, List.singleton_append] at h1
  obtain ⟨h2, h3⟩ := dot_inj (recExt_dot r).1 (recExt_dot r').1 h1
  exact ⟨String.toList_inj.mp h2, String.toList_inj.mp h3⟩

theorem name_ne_dot (a : String) (r : Record) : a ++ ("." ++ recExt r) ≠ "." := by
  intro h
  have h1 := congrArg String.toList h
  simp only [String.toList_append, show ".".toList = ['.'] from rfl, List.singleton_append] at h1
  have h2 := congrArg List.length h1
  have := List.length_pos_iff.mpr (recExt_dot r).2
  simp only [List.length_append, List.length_cons, List.length_nil] at h2
  omega

theorem toString_nat_inj {m n : Nat} (h : toString m = toString n) : m = n := by
  have h1 := congrArg String.toList h
  simp only [toString, Nat.repr, String.toList_ofList] at h1
  have h2 := congrArg (fun l => Nat.ofDigitChars 10 l 0) h1
  simpa using h2

theorem digit_ne (s : String) (n : Nat) : s ++ toString n ≠ "InstabilityAnalysis" := by
  intro h
  obtain ⟨l, c, h1, h2⟩ := toString_getLast n
  have h3 := congrArg (fun x : String => x.toList.getLast?) h
  simp only [String.toList_append, h1] at h3
  rw [← List.append_assoc, List.getLast?_concat] at h3
  have : c = 's' := by
    have h4 : ("InstabilityAnalysis".toList).getLast? = some 's' := by decide
    rw [h4] at h3
    simpa using h3
  subst this
  exact absurd h2 (by decide)

/-- **C95 (part)** The records which are kept for builds, so that tests may be skipped, are in the output directory of the project; no two records of a build are in the same file, nor are records of
builds in different directories. -/
theorem C95_records (d d' : Discovered) (x x' : Path) (r r' : Record) (hc : Canonical d.executable) (hc' : Canonical d'.executable) (hb : Below d.root d.executable) (hb' : Below d'.root d'.executable)
    (hroot : d.root = d'.root) (hx : DirOf d.executable x) (hx' : DirOf d'.executable x') :
    ∃ p p', prune d = .ok p ∧ prune d' = .ok p' ∧ output d.root <+: pathOf p r ∧ (file (pathOf p r) = file (pathOf p' r') ↔ x = x' ∧ r = r') := by
  obtain ⟨hr, re, hre, he⟩ := hb
  obtain ⟨hr', re', hre', he'⟩ := hb'
  obtain ⟨n, hn⟩ := hx
  obtain ⟨n', hn'⟩ := hx'
  obtain ⟨rest, m, rfl⟩ : ∃ l' n, re = l' ++ [n] := ⟨re.dropLast, re.getLast hre, (List.dropLast_concat_getLast hre).symm⟩
  obtain ⟨rest', m', rfl⟩ : ∃ l' n, re' = l' ++ [n] := ⟨re'.dropLast, re'.getLast hre', (List.dropLast_concat_getLast hre').symm⟩
  have hxe : x = d.root ++ ["build"] ++ rest := by
    have := hn.symm.trans he
    rw [← List.append_assoc] at this
    exact (List.append_inj' this rfl).1
  have hxe' : x' = d'.root ++ ["build"] ++ rest' := by
    have := hn'.symm.trans he'
    rw [← List.append_assoc] at this
    exact (List.append_inj' this rfl).1
  have dots : ∀ {e : Path}, Canonical e → "." ∉ e := by
    rintro e ⟨l, rfl, _, _, h, _⟩
    simpa using h
  have hdot := dots hc
  have hdot' := dots hc'
  rw [he] at hdot
  rw [he'] at hdot'
  obtain ⟨s, hs, hp⟩ := prune_ok he
  obtain ⟨s', hs', hp'⟩ := prune_ok he'
  refine ⟨_, _, hp, hp', ?_, ?_⟩
  · obtain ⟨mid, suf, hq, _⟩ := pathOf_eq ⟨output d.root ++ ["Prune"] ++ (if rest = [] then ["."] else rest), s⟩ r
    rw [hq]
    exact ⟨_, by simp only [List.append_assoc]; rfl⟩
  · obtain ⟨mid, suf, hq, hm⟩ := pathOf_eq ⟨output d.root ++ ["Prune"] ++ (if rest = [] then ["."] else rest), s⟩ r
    obtain ⟨mid', suf', hq', hm'⟩ := pathOf_eq ⟨output d'.root ++ ["Prune"] ++ (if rest' = [] then ["."] else rest'), s'⟩ r'
    have hfr : ∀ l : Path, "." ∉ l → file (if l = [] then ["."] else l) = l := by
      intro l hl
      split
      · rename_i h; subst h; rfl
      · exact file_of_not_mem hl
    have hd1 : file (output d.root) = output d.root := file_of_not_mem (by simp [output] at *; exact hdot.1)
    have hd2 : "." ∉ rest := by simp at hdot; exact hdot.2.1
    have hd2' : "." ∉ rest' := by simp at hdot'; exact hdot'.2.1
    have hmid : file mid = mid := by rcases hm with ⟨_, rfl, _⟩ | ⟨_, _, rfl, _⟩ <;> decide
    have hmid' : file mid' = mid' := by rcases hm' with ⟨_, rfl, _⟩ | ⟨_, _, rfl, _⟩ <;> decide
    rw [hq, hq']
    simp only [file_append, hfr _ hd2, hfr _ hd2', hmid, hmid', hd1, ← hroot, show file ["Prune"] = ["Prune"] by decide,
      file_of_not_mem (p := [s ++ suf ++ ("." ++ recExt r)]) (by simpa using fun h => name_ne_dot _ _ h.symm),
      file_of_not_mem (p := [s' ++ suf' ++ ("." ++ recExt r')]) (by simpa using fun h => name_ne_dot _ _ h.symm)]
    constructor
    · intro h
      obtain ⟨h1, h2⟩ := List.append_inj' h rfl
      simp only [List.cons.injEq, and_true] at h2
      obtain ⟨h3, h4⟩ := name_inj h2
      rw [List.append_assoc, List.append_assoc _ rest'] at h1
      have h5 := List.append_cancel_left h1
      rcases hm with ⟨hi, rfl, rfl⟩ | ⟨k, hi, rfl, rfl⟩ <;> rcases hm' with ⟨hi', rfl, rfl⟩ | ⟨k', hi', rfl, rfl⟩
      · simp only [List.append_nil] at h5
        subst h5
        exact ⟨by rw [hxe, hxe', hroot], rec_inj (hi.trans hi'.symm) h4⟩
      · simp only [List.append_nil] at h5
        subst h5
        rw [← List.append_assoc, List.getLast?_concat, Option.some.injEq] at hs
        subst hs
        exact absurd h3.symm (by simpa using digit_ne s' k')
      · simp only [List.append_nil] at h5
        subst h5
        rw [← List.append_assoc, List.getLast?_concat, Option.some.injEq] at hs'
        subst hs'
        exact absurd h3 (by simpa using digit_ne s k)
      · have h6 := (List.append_inj' h5 rfl).1
        subst h6
        rw [hroot, hs', Option.some.injEq] at hs
        subst hs
        have h7 : toString k = toString k' := by
          have := congrArg String.toList h3
          simp only [String.toList_append] at this
          exact String.toList_inj.mp (List.append_cancel_left this)
        have h8 := toString_nat_inj h7
        subst h8
        exact ⟨by rw [hxe, hxe', hroot], rec_inj (hi.trans hi'.symm) h4⟩
    · rintro ⟨h1, rfl⟩
      rw [hxe, hxe', hroot] at h1
      have h6 := List.append_cancel_left h1
      subst h6
      rw [hroot, hs', Option.some.injEq] at hs
      subst hs
      have : mid = mid' ∧ suf = suf' := by
        rcases hm with ⟨hi, rfl, rfl⟩ | ⟨k, hi, rfl, rfl⟩ <;> rcases hm' with ⟨hi', rfl, rfl⟩ | ⟨k', hi', rfl, rfl⟩
        · exact ⟨rfl, rfl⟩
        · rw [hi] at hi'; simp at hi'
        · rw [hi] at hi'; simp at hi'
        · rw [hi, Option.some.injEq] at hi'; subst hi'; exact ⟨rfl, rfl⟩
      rw [this.1, this.2]

example : (prune ⟨["/", "p"], ["/", "p", "build", "clang", "TestAll"], []⟩).bind (fun p => .ok (pathOf p (.failures (some 3)))) =
    .ok ["/", "p", "output", "Prune", "clang", "InstabilityAnalysis", "clang3.failures"] := by decide

example : (prune ⟨["/", "p"], ["/", "p", "build", "TestAll"], []⟩).bind (fun p => .ok (pathOf p .stamp)) = .ok ["/", "p", "output", "Prune", ".", "build.prune"] := by decide

/-- **C95 (violated)** Two executables of a project in the same directory share their records: the stamp which says that all the tests of one of them have been run serves for the other one as well. -/
theorem C95_records_violated : ∃ (d d' : Discovered) (p p' : Prune), Canonical d.executable ∧ Canonical d'.executable ∧ Below d.root d.executable ∧ Below d'.root d'.executable ∧ d.root = d'.root ∧
    d.executable ≠ d'.executable ∧ prune d = .ok p ∧ prune d' = .ok p' ∧ ∀ r, pathOf p r = pathOf p' r := by
  refine ⟨⟨["/", "p"], ["/", "p", "build", "TestAll"], []⟩, ⟨["/", "p"], ["/", "p", "build", "TestSome"], []⟩, ⟨["/", "p", "output", "Prune", "."], "build"⟩, ⟨["/", "p", "output", "Prune", "."], "build"⟩,
    ⟨_, rfl, by decide, by decide, by decide, by decide⟩, ⟨_, rfl, by decide, by decide, by decide, by decide⟩, ⟨by simp, ["TestAll"], by simp, rfl⟩, ⟨by simp, ["TestSome"], by simp, rfl⟩, rfl, by decide, by rfl, by rfl,
    fun _ => rfl⟩

end Verif.Props
