import Verif.Lemmas.ShellRun
/-
C112: what is run, and where the output goes, when the commands of the library are given to a shell.
-/
set_option linter.unusedSimpArgs false
set_option linter.unusedVariables false
namespace Verif.Props
open Verif.ShellRun
open Verif.Shell (withPreamble redirected)
open Verif.Spec.ShellRun

/-- **C112** Two commands which are chained are run one after the other, the second if and only if the first succeeds; this is so whatever they consist of, as long as each of them is a command for itself. -/
theorem C112_chain (sys : Sys) (w : World) (a b : Text) (ha : Understood a) (hb : Understood b) :
    execute sys w (Shell.and a b) =
      match execute sys w a with
      | some (w', true) => execute sys w' b
      | r => r := by
  rcases ha with rfl | ⟨c, cs, ha⟩
  · rw [show Shell.and [] b = b by cases b <;> simp [Shell.and]]
    rfl
  · rcases hb with rfl | ⟨d, ds, hb⟩
    · rw [show Shell.and a [] = a by simp [Shell.and]]
      cases h : execute sys w a with
      | none => rfl
      | some r => obtain ⟨w', b⟩ := r; cases b <;> rfl
    · have e := commands_shell_and ha (by simp) hb (by simp)
      unfold execute
      rw [e, ha, hb]
      exact runAll_append sys (c :: cs) (d :: ds) w

/-- The texts of commands with headings which are chained are understood. -/
theorem C112_understood (head ws : List Text) (cmd file : Text) (append : Bool) (hh : IsHeading head) (hc : commands cmd = some [⟨ws, []⟩]) (hf : file = [] ∨ Plain file) :
    Understood (withPreamble (line head) cmd file append) := by
  have := commands_withPreamble append hh.1 hc hf
  cases hs : stage head ws file append with
  | nil => exact absurd hs (stage_ne_nil _ _ _ _)
  | cons c cs => exact .inr ⟨c, cs, by rw [this, hs]⟩

/-- **C112** A command with a heading and a file for the output: the program is run with exactly these words, in the directory of the shell; the file contains the heading and everything the program writes, to either output; nothing else is changed; and the command succeeds if and only if the program does.
Words which end with digits are no exception. -/
theorem C112_stage (sys : Sys) (w : World) (head ws : List Text) (cmd file : Text) (append : Bool) (hh : IsHeading head) (hw : IsProgram ws)
    (hc : commands cmd = some [⟨ws, []⟩]) (hf : Usable sys w file) :
    execute sys w (withPreamble (line head) cmd file append) = some (ranProgram sys w head ws file append) := by
  unfold execute
  rw [commands_withPreamble append hh.1 hc (hf.imp id And.left)]
  exact runAll_stage sys w head ws file append hh.2 hw (hf.imp id And.right)

/-- **C112** Plain words, separated by blanks, are understood as they are, so that the condition of `C112_stage` is met. -/
theorem C112_words (w : Text) (ws : List Text) (h : ∀ v ∈ w :: ws, Plain v) : commands (line (w :: ws)) = some [⟨w :: ws, []⟩] := by
  rw [← unwords_eq]
  exact commands_words w ws h

/-- **C112** If the file cannot be written then nothing is run, and the command fails. -/
theorem C112_unwritable (sys : Sys) (w : World) (head ws : List Text) (cmd file : Text) (append : Bool) (hh : IsHeading head)
    (hc : commands cmd = some [⟨ws, []⟩]) (hf : Plain file) (hn : sys.writable (resolve w.cwd file) = false) :
    execute sys w (withPreamble (line head) cmd file append) = some (w, false) := by
  have first : ∀ (vs : List Text) (app : Bool) (cs : List Simple), runAll sys w (⟨vs, redirs file app⟩ :: cs) = some (w, false) := by
    intro vs app cs
    have : runSimple sys w ⟨vs, redirs file app⟩ = some (w, false) := by
      unfold runSimple
      simp [redirs, hf.1, redirectAll, hn]
    rw [runAll, this]
  unfold execute
  rw [commands_withPreamble append hh.1 hc (.inr hf)]
  simp only []
  unfold stage
  split
  · exact first _ _ _
  · exact first _ _ _

theorem understood_and {a b : Text} (ha : Understood a) (hb : Understood b) : Understood (Shell.and a b) := by
  rcases ha with rfl | ⟨c, cs, ha⟩
  · rw [show Shell.and [] b = b by cases b <;> simp [Shell.and]]
    exact hb
  · rcases hb with rfl | ⟨d, ds, hb⟩
    · rw [show Shell.and a [] = a by simp [Shell.and]]
      exact .inr ⟨c, cs, ha⟩
    · exact .inr ⟨c, cs ++ d :: ds, by rw [commands_shell_and ha (by simp) hb (by simp)]; simp⟩

/-- The text of several stages which are chained. -/
def stagesText (file : Text) (ss : List Stage) : Text := (ss.map fun s => withPreamble (line s.head) s.text file s.append).foldr Shell.and []

theorem ranProgram_cwd (sys : Sys) (w : World) (head ws : List Text) (file : Text) (append : Bool) : (ranProgram sys w head ws file append).1.cwd = w.cwd := by
  unfold ranProgram; exact received_cwd _ _ _ _

theorem understood_stages (file : Text) (hf : file = [] ∨ Plain file) : ∀ ss : List Stage, (∀ s ∈ ss, s.Fine) → Understood (stagesText file ss)
  | [], _ => .inl rfl
  | t :: ss, ht =>
    understood_and (C112_understood t.head t.words t.text file t.append (ht t (by simp)).1 (ht t (by simp)).2.2 hf)
      (understood_stages file hf ss fun u hu => ht u (by simp [hu]))

/-- **C112** Any number of commands which are chained: they are run in this order until one of them fails, and the output arrives in the file as it should, for each of them. -/
theorem C112_stages (sys : Sys) (file : Text) : ∀ (ss : List Stage) (w : World), (∀ s ∈ ss, s.Fine) → Usable sys w file →
    execute sys w (stagesText file ss) = some (runStages sys file w ss)
  | [], w, _, _ => rfl
  | s :: ss, w, h, hf => by
    have hs := h s (by simp)
    have ih := fun w' hf' => C112_stages sys file ss w' (fun t ht => h t (by simp [ht])) hf'
    have hu := fun ss => understood_stages file (hf.imp id And.left) ss
    show execute sys w (Shell.and (withPreamble (line s.head) s.text file s.append) (stagesText file ss)) = _
    rw [C112_chain sys w _ _ (C112_understood s.head s.words s.text file s.append hs.1 hs.2.2 (hf.imp id And.left)) (hu ss fun t ht => h t (by simp [ht])),
      C112_stage sys w s.head s.words s.text file s.append hs.1 hs.2.1 hs.2.2 hf, runStages]
    have hcwd := ranProgram_cwd sys w s.head s.words file s.append
    cases hr : ranProgram sys w s.head s.words file s.append with
    | mk w' b =>
      rw [hr] at hcwd
      cases b with
      | false => rfl
      | true =>
        simp only [if_true]
        refine ih w' ?_
        unfold Usable at hf ⊢
        rw [hcwd]
        exact hf

/-- **C112 (part)** If all commands but the first append to the file, and all of them succeed, then the file contains everything which has been written.
What is missing: `cmake_cmd` and `build_cmd` cannot be asked to append, so that this is not so for the commands which create a project (`C112_lost_violated`). -/
theorem C112_kept_partial (sys : Sys) (file : Text) (hfile : file ≠ []) : ∀ (ss : List Stage) (w : World) (s : Stage), (∀ t ∈ ss, t.append = true) →
    (runStages sys file w (s :: ss)).2 = true →
    (runStages sys file w (s :: ss)).1.files (resolve w.cwd file) =
      some ((if s.append then contents w.files (resolve w.cwd file) else []) ++ story sys w.cwd w.ran (s :: ss))
  | [], w, s, _, hok => by
    have hok : (ranProgram sys w s.head s.words file s.append).2 = true := by
      rw [runStages] at hok
      split at hok <;> simp_all
    rw [runStages, if_pos hok]
    simp [runStages, ranProgram, received, hfile, story]
  | t :: ss, w, s, ht, hok => by
    have hfirst : (ranProgram sys w s.head s.words file s.append).2 = true := by
      rw [runStages] at hok
      split at hok
      · assumption
      · rename_i hn; exact absurd hok hn
    rw [runStages, if_pos hfirst] at hok
    rw [runStages, if_pos hfirst]
    have ih := C112_kept_partial sys file hfile ss _ t (fun u hu => ht u (by simp [hu])) hok
    rw [ranProgram_cwd] at ih
    rw [ih, if_pos (ht t (by simp))]
    have e1 : (ranProgram sys w s.head s.words file s.append).1.ran = w.ran ++ [(w.cwd, s.words)] := rfl
    rw [e1]
    conv => rhs; rw [story]
    simp [ranProgram, received, hfile, contents]

/-- Changing the directory. -/
theorem execute_cd (sys : Sys) (w : World) (dir : Text) (h : Plain dir) :
    execute sys w (cdCmd dir) = some (if sys.isDir (resolve w.cwd dir) then ({ w with cwd := resolve w.cwd dir }, true) else (w, false)) := by
  have hc : commands (cdCmd dir) = some [⟨[cdWord, dir], []⟩] := by
    have := commands_words cdWord [dir] (by
      intro v hv
      rcases List.mem_cons.mp hv with rfl | hv
      · exact ⟨by decide, by decide⟩
      · rw [List.mem_singleton.mp hv]; exact h)
    exact this
  unfold execute
  rw [hc]
  simp only [runAll, runSimple, redirectAll, if_true]
  cases sys.isDir (resolve w.cwd dir) <;> rfl

theorem understood_cd (dir : Text) (h : Plain dir) : Understood (cdCmd dir) := by
  refine .inr ⟨⟨[cdWord, dir], []⟩, [], ?_⟩
  exact commands_words cdWord [dir] (by
    intro v hv
    rcases List.mem_cons.mp hv with rfl | hv
    · exact ⟨by decide, by decide⟩
    · rw [List.mem_singleton.mp hv]; exact h)

/-- The words for CMake. -/
def cmakeWords (preset : Text) : List Text := ["cmake".toList, "--preset".toList, preset]
/-- The words for a build. -/
def buildWords (preset : Text) : List Text := ["cmake".toList, "--build".toList, "--preset".toList, preset]

theorem plain_words (l : List Text) (h : l.all (fun w => !w.isEmpty && w.all Verif.RunnerArgs.plainChar) = true) : ∀ w ∈ l, Plain w := by
  intro w hw
  have := List.all_eq_true.mp h w hw
  simp only [Bool.and_eq_true, Bool.not_eq_true', List.all_eq_true] at this
  refine ⟨?_, this.2⟩
  rintro rfl
  simp at this

theorem commands_cmake (preset : Text) (h : Plain preset) : commands ("cmake --preset ".toList ++ preset) = some [⟨cmakeWords preset, []⟩] := by
  have := commands_words "cmake".toList ["--preset".toList, preset] (by
    intro v hv
    have hp := plain_words ["cmake".toList, "--preset".toList] (by decide)
    simp only [List.mem_cons, List.not_mem_nil, or_false] at hv
    rcases hv with rfl | rfl | rfl
    · exact hp _ (by simp)
    · exact hp _ (by simp)
    · exact h)
  exact this

theorem commands_build (preset : Text) (h : Plain preset) : commands ("cmake --build --preset ".toList ++ preset) = some [⟨buildWords preset, []⟩] := by
  have := commands_words "cmake".toList ["--build".toList, "--preset".toList, preset] (by
    intro v hv
    have hp := plain_words ["cmake".toList, "--build".toList, "--preset".toList] (by decide)
    simp only [List.mem_cons, List.not_mem_nil, or_false] at hv
    rcases hv with rfl | rfl | rfl | rfl
    · exact hp _ (by simp)
    · exact hp _ (by simp)
    · exact hp _ (by simp)
    · exact h)
  exact this

/-- The heading of CMake. -/
def cmakeHead : List Text := ["Running".toList, "CMake...".toList]
/-- The heading of a build. -/
def buildHead : List Text := ["Building...".toList]

theorem isHeading_of (l : List Text) (h : (l.all (fun w => !w.isEmpty && w.all Verif.RunnerArgs.plainChar) && (l.head?.bind List.head? != some '-')) = true) : IsHeading l := by
  simp only [Bool.and_eq_true, bne_iff_ne, ne_eq] at h
  refine ⟨plain_words l h.1, fun s hs => ?_⟩
  rw [hs] at h
  exact h.2 rfl

/-- **C112** `cmake_cmd` and `build_cmd` throw if there is no directory for the cache; and so does what is built from them. -/
theorem C112_no_cache (mainDir file : Text) (args : Option Text) : cmakeCmd [] file args = .throws ∧ buildCmd [] file = .throws ∧ buildAndRunCmd [] file = .throws ∧
    configureAndBuild mainDir [] file = .throws ∧ configure mainDir [] file = .throws := ⟨rfl, rfl, rfl, rfl, rfl⟩

/-- **C112** Configuring and building a project: CMake is run in the directory of the main file, with the preset which is the last part of the directory of the cache, and the build if and only if this succeeds; if there is no such directory then nothing is run.
Where the output arrives is said exactly; that of the build replaces that of CMake. -/
theorem C112_build (sys : Sys) (w : World) (mainDir file preset : Text) (dirs : List Text) (hm : Plain mainDir) (hp : Plain preset)
    (hf : Usable sys { w with cwd := resolve w.cwd mainDir } file) :
    ∃ text, configureAndBuild mainDir (dirs ++ [preset]) file = .ok text ∧
      execute sys w text = some (
        if sys.isDir (resolve w.cwd mainDir) then
          let r := ranProgram sys { w with cwd := resolve w.cwd mainDir } cmakeHead (cmakeWords preset) file false
          if r.2 then ranProgram sys r.1 buildHead (buildWords preset) file false else r
        else (w, false)) := by
  have hb : back (dirs ++ [preset]) = .ok preset := by simp [back]
  have hh1 : IsHeading cmakeHead := isHeading_of _ (by decide)
  have hh2 : IsHeading buildHead := isHeading_of _ (by decide)
  have hf' : file = [] ∨ Plain file := hf.imp id And.left
  have e1 : (withPreamble "Running CMake...".toList ("cmake --preset ".toList ++ preset) file false) = withPreamble (line cmakeHead) ("cmake --preset ".toList ++ preset) file false := rfl
  have e2 : (withPreamble "Building...".toList ("cmake --build --preset ".toList ++ preset) file false) = withPreamble (line buildHead) ("cmake --build --preset ".toList ++ preset) file false := rfl
  have u1 := C112_understood cmakeHead (cmakeWords preset) _ file false hh1 (commands_cmake preset hp) hf'
  have u2 := C112_understood buildHead (buildWords preset) _ file false hh2 (commands_build preset hp) hf'
  have u01 := understood_and (understood_cd mainDir hm) u1
  refine ⟨_, by simp only [configureAndBuild, cmakeCmd, buildCmd, hb, Res.bind]; rfl, ?_⟩
  rw [e1, e2, C112_chain sys w _ _ u01 u2, C112_chain sys w _ _ (understood_cd mainDir hm) u1, execute_cd sys w mainDir hm]
  cases hd : sys.isDir (resolve w.cwd mainDir) with
  | false => rfl
  | true =>
    simp only [if_true]
    rw [C112_stage sys _ cmakeHead (cmakeWords preset) _ file false hh1 ⟨_, _, rfl, by decide, by decide⟩ (commands_cmake preset hp) hf]
    have hcwd := ranProgram_cwd sys { w with cwd := resolve w.cwd mainDir } cmakeHead (cmakeWords preset) file false
    cases hr : ranProgram sys { w with cwd := resolve w.cwd mainDir } cmakeHead (cmakeWords preset) file false with
    | mk w' b =>
      rw [hr] at hcwd
      cases b with
      | false => rfl
      | true =>
        simp only [if_true]
        rw [C112_stage sys w' buildHead (buildWords preset) _ file false hh2 ⟨_, _, rfl, by decide, by decide⟩ (commands_build preset hp)]
        unfold Usable at hf ⊢
        rw [hcwd]
        exact hf

/-- **C112** Configuring alone, as after the creation of tests, and building with the target which runs the tests. -/
theorem C112_configure (sys : Sys) (w : World) (mainDir file preset : Text) (dirs : List Text) (hm : Plain mainDir) (hp : Plain preset) :
    (Usable sys { w with cwd := resolve w.cwd mainDir } file →
      ∃ text, configure mainDir (dirs ++ [preset]) file = .ok text ∧
        execute sys w text = some (
          if sys.isDir (resolve w.cwd mainDir) then ranProgram sys { w with cwd := resolve w.cwd mainDir } cmakeHead (cmakeWords preset) file false else (w, false))) ∧
    (Usable sys w file →
      ∃ text, buildAndRunCmd (dirs ++ [preset]) file = .ok text ∧
        execute sys w text = some (ranProgram sys w buildHead (buildWords preset ++ ["--target".toList, "run".toList]) file false)) := by
  have hb : back (dirs ++ [preset]) = .ok preset := by simp [back]
  have hh1 : IsHeading cmakeHead := isHeading_of _ (by decide)
  have hh2 : IsHeading buildHead := isHeading_of _ (by decide)
  constructor
  · intro hf
    have u1 := C112_understood cmakeHead (cmakeWords preset) _ file false hh1 (commands_cmake preset hp) (hf.imp id And.left)
    refine ⟨_, by simp only [configure, cmakeCmd, hb, Res.bind]; rfl, ?_⟩
    rw [show (withPreamble "Running CMake...".toList ("cmake --preset ".toList ++ preset) file false) = withPreamble (line cmakeHead) ("cmake --preset ".toList ++ preset) file false from rfl,
      C112_chain sys w _ _ (understood_cd mainDir hm) u1, execute_cd sys w mainDir hm]
    cases hd : sys.isDir (resolve w.cwd mainDir) with
    | false => rfl
    | true =>
      simp only [if_true]
      exact C112_stage sys _ cmakeHead (cmakeWords preset) _ file false hh1 ⟨_, _, rfl, by decide, by decide⟩ (commands_cmake preset hp) hf
  · intro hf
    have hc := commands_words "cmake".toList ["--build".toList, "--preset".toList, preset, "--target".toList, "run".toList] (by
      intro v hv
      have hp' := plain_words ["cmake".toList, "--build".toList, "--preset".toList, "--target".toList, "run".toList] (by decide)
      simp only [List.mem_cons, List.not_mem_nil, or_false] at hv
      rcases hv with rfl | rfl | rfl | rfl | rfl | rfl
      · exact hp' _ (by simp)
      · exact hp' _ (by simp)
      · exact hp' _ (by simp)
      · exact hp
      · exact hp' _ (by simp)
      · exact hp' _ (by simp))
    have e : unwords ["cmake".toList, "--build".toList, "--preset".toList, preset, "--target".toList, "run".toList] =
        "cmake --build --preset ".toList ++ preset ++ " --target run".toList := by
      simp [unwords]
    rw [e] at hc
    refine ⟨_, by simp only [buildAndRunCmd, hb, Res.bind]; rfl, ?_⟩
    exact C112_stage sys w buildHead _ _ file false hh2 ⟨_, _, rfl, by decide, by decide⟩ hc hf

theorem and_assoc' (a b c : Text) : Shell.and (Shell.and a b) c = Shell.and a (Shell.and b c) := by
  cases a <;> cases b <;> cases c <;> simp [Shell.and]

/-- The stages of the first commit. -/
def firstStages : List Stage :=
  [⟨["Placing".toList, "under".toList, "version".toList, "control...".toList], "git init -b trunk".toList, ["git".toList, "init".toList, "-b".toList, "trunk".toList], false⟩,
   ⟨[], "git add . ".toList, ["git".toList, "add".toList, ".".toList], true⟩,
   ⟨[], "git commit -m \"First commit\"".toList, ["git".toList, "commit".toList, "-m".toList, "First commit".toList], true⟩]

/-- The stages of the second commit. -/
def secondStages : List Stage :=
  [⟨["git:".toList, "adding".toList, "sequoia".toList, "dependency...".toList], "git add .".toList, ["git".toList, "add".toList, ".".toList], false⟩,
   ⟨["git:".toList, "committing...".toList], "git commit -m \"Add sequoia dependency\" --quiet".toList,
     ["git".toList, "commit".toList, "-m".toList, "Add sequoia dependency".toList, "--quiet".toList], false⟩]

theorem firstStages_fine : ∀ s ∈ firstStages, s.Fine := by
  intro s hs
  simp only [firstStages, List.mem_cons, List.not_mem_nil, or_false] at hs
  rcases hs with rfl | rfl | rfl
  · exact ⟨isHeading_of _ (by decide), ⟨_, _, rfl, by decide, by decide⟩, by decide +kernel⟩
  · exact ⟨isHeading_of _ (by decide), ⟨_, _, rfl, by decide, by decide⟩, by decide +kernel⟩
  · exact ⟨isHeading_of _ (by decide), ⟨_, _, rfl, by decide, by decide⟩, by decide +kernel⟩

theorem secondStages_fine : ∀ s ∈ secondStages, s.Fine := by
  intro s hs
  simp only [secondStages, List.mem_cons, List.not_mem_nil, or_false] at hs
  rcases hs with rfl | rfl
  · exact ⟨isHeading_of _ (by decide), ⟨_, _, rfl, by decide, by decide⟩, by decide +kernel⟩
  · exact ⟨isHeading_of _ (by decide), ⟨_, _, rfl, by decide, by decide⟩, by decide +kernel⟩

/-- **C112** Placing a new project under version control: if its root, an absolute path, is a directory, then `git init -b trunk`, `git add .` and `git commit -m "First commit"`, and later `git add .` and `git commit -m "Add sequoia dependency" --quiet`, are run there, with exactly these words, each only if all before have succeeded. -/
theorem C112_git (sys : Sys) (w : World) (root' file : Text) (hr : Plain ('/' :: root')) (hf : Usable sys { w with cwd := '/' :: root' } file) :
    execute sys w (firstCommit ('/' :: root') file) =
      some (if sys.isDir ('/' :: root') then runStages sys file { w with cwd := '/' :: root' } firstStages else (w, false)) ∧
    execute sys w (secondCommit ('/' :: root') file) =
      some (if sys.isDir ('/' :: root') then runStages sys file { w with cwd := '/' :: root' } secondStages else (w, false)) := by
  have hf' : file = [] ∨ Plain file := hf.imp id And.left
  have u1 := understood_stages file hf' firstStages firstStages_fine
  have u2 := understood_stages file hf' secondStages secondStages_fine
  have uc := understood_cd _ hr
  have cd : ∀ w : World, execute sys w (cdCmd ('/' :: root')) = some (if sys.isDir ('/' :: root') then ({ w with cwd := '/' :: root' }, true) else (w, false)) :=
    fun w => execute_cd sys w _ hr
  constructor
  · have e : firstCommit ('/' :: root') file = Shell.and (cdCmd ('/' :: root')) (Shell.and (cdCmd ('/' :: root')) (stagesText file firstStages)) := by
      unfold firstCommit gitFirstCmd
      rw [and_assoc', and_assoc']
      simp only [stagesText, firstStages, List.map_cons, List.map_nil, List.foldr_cons, List.foldr_nil]
      rw [show ∀ a, Shell.and a [] = a by intro a; simp [Shell.and]]
      rfl
    rw [e, C112_chain sys w _ _ uc (understood_and uc u1), cd]
    cases hd : sys.isDir ('/' :: root') with
    | false => rfl
    | true =>
      simp only [if_true]
      rw [C112_chain sys _ _ _ uc u1, cd, hd]
      simp only [if_true]
      exact C112_stages sys file firstStages _ firstStages_fine hf
  · have e : secondCommit ('/' :: root') file = Shell.and (cdCmd ('/' :: root')) (stagesText file secondStages) := by
      unfold secondCommit
      rw [and_assoc']
      simp only [stagesText, secondStages, List.map_cons, List.map_nil, List.foldr_cons, List.foldr_nil]
      rw [show ∀ a, Shell.and a [] = a by intro a; simp [Shell.and]]
      rfl
    rw [e, C112_chain sys w _ _ uc u2, cd]
    cases hd : sys.isDir ('/' :: root') with
    | false => rfl
    | true =>
      simp only [if_true]
      exact C112_stages sys file secondStages _ secondStages_fine hf

/-- A system on which everything succeeds; programs write their names and arguments, to the second output. -/
def easySys : Sys := ⟨fun _ => true, fun _ => true, fun _ _ ws => ([(.err, line ws)], true)⟩
/-- Nothing has happened yet. -/
def emptyWorld : World := ⟨"/".toList, fun _ => none, [], []⟩

/-- The conditions of the theorems are met. -/
example : Plain "/p/TestAll".toList ∧ Plain "gcc13".toList ∧ Usable easySys { emptyWorld with cwd := resolve emptyWorld.cwd "/p/TestAll".toList } "out.txt".toList ∧
    Plain "/p".toList ∧ IsHeading ["Running".toList, "CMake...".toList] ∧ commands "sleep 1".toList = some [⟨["sleep".toList, "1".toList], []⟩] ∧
    Understood "make> log 2>&1".toList :=
  ⟨⟨by decide, by decide⟩, ⟨by decide, by decide⟩, .inr ⟨⟨by decide, by decide⟩, rfl⟩, ⟨by decide, by decide⟩, isHeading_of _ (by decide), by decide +kernel,
    .inr ⟨⟨["make".toList], [.file .out false "log".toList, .same .err .out]⟩, [], by decide +kernel⟩⟩

/-- **C112 (violated)** The output of a project which is created is not kept: all goes to a file of the same name, and although everything succeeds and CMake has written something, the file has the output of the build only.  The same is true of the two commits: what is left is the output of the last command. -/
theorem C112_lost_violated :
    (∃ text w', configureAndBuild "/p/TestAll".toList ["/p".toList, "gcc13".toList] "out".toList = .ok text ∧ execute easySys emptyWorld text = some (w', true) ∧
      w'.ran = [("/p/TestAll".toList, cmakeWords "gcc13".toList), ("/p/TestAll".toList, buildWords "gcc13".toList)] ∧
      w'.files "/p/TestAll/out".toList = some "\nBuilding...\n\ncmake --build --preset gcc13".toList) ∧
    (∃ w1 w2, execute easySys emptyWorld (firstCommit "/p".toList "out".toList) = some (w1, true) ∧ execute easySys w1 (secondCommit "/p".toList "out".toList) = some (w2, true) ∧
      w1.files "/p/out".toList = some "\nPlacing under version control...\n\ngit init -b trunkgit add .git commit -m First commit".toList ∧
      w2.files "/p/out".toList = some "\ngit: committing...\n\ngit commit -m Add sequoia dependency --quiet".toList) := by
  have plainP : Plain "/p".toList := ⟨by decide, by decide⟩
  have out : Plain "out".toList := ⟨by decide, by decide⟩
  refine ⟨?_, ?_⟩
  · obtain ⟨text, h1, h2⟩ := C112_build easySys emptyWorld "/p/TestAll".toList "out".toList "gcc13".toList ["/p".toList] ⟨by decide, by decide⟩ ⟨by decide, by decide⟩ (.inr ⟨out, rfl⟩)
    refine ⟨text, _, h1, h2, rfl, ?_⟩
    decide +kernel
  · have h1 := (C112_git easySys emptyWorld "p".toList "out".toList plainP (.inr ⟨out, rfl⟩)).1
    refine ⟨_, _, h1, (C112_git easySys _ "p".toList "out".toList plainP (.inr ⟨out, rfl⟩)).2, ?_, ?_⟩
    · decide +kernel
    · decide +kernel

/-- **C112 (violated)** If the name of the file is relative, then it refers to different files for the commits and for the build, as the commands are run in different directories. -/
theorem C112_relative_violated (root mainDir file : Text) (h : ∀ s, file ≠ '/' :: s) (hne : root ≠ mainDir) : resolve root file ≠ resolve mainDir file := by
  have : ∀ cwd, resolve cwd file = cwd ++ '/' :: file := by
    intro cwd
    unfold resolve
    split
    · exact absurd rfl (h _)
    · rfl
  rw [this, this]
  intro e
  exact hne (List.append_cancel_right e)

/-- **C112 (violated)** Arguments for CMake are not separated from the preset, so that another preset is used; and `-D` is not seen: for all presets and arguments. -/
theorem C112_arguments_violated (sys : Sys) (w : World) (file preset arg : Text) (dirs : List Text) (hp : Plain preset) (ha : Plain arg) (hf : Usable sys w file) :
    ∃ text, cmakeCmd (dirs ++ [preset]) file (some arg) = .ok text ∧
      execute sys w text = some (ranProgram sys w cmakeHead ["cmake".toList, "--preset".toList, preset ++ "-D".toList, "EXEC_ARGS".toList, arg] file false) := by
  have hb : back (dirs ++ [preset]) = .ok preset := by simp [back]
  have hh1 : IsHeading cmakeHead := isHeading_of _ (by decide)
  have hpd : Plain (preset ++ "-D".toList) := by
    refine ⟨by simp [hp.1], fun c hc => ?_⟩
    rcases List.mem_append.mp hc with h | h
    · exact hp.2 c h
    · exact (plain_words ["-D".toList] (by decide) _ (List.mem_singleton.mpr rfl)).2 c h
  have hc := commands_words "cmake".toList ["--preset".toList, preset ++ "-D".toList, "EXEC_ARGS".toList, arg] (by
    intro v hv
    have hp' := plain_words ["cmake".toList, "--preset".toList, "EXEC_ARGS".toList] (by decide)
    simp only [List.mem_cons, List.not_mem_nil, or_false] at hv
    rcases hv with rfl | rfl | rfl | rfl | rfl
    · exact hp' _ (by simp)
    · exact hp' _ (by simp)
    · exact hpd
    · exact hp' _ (by simp)
    · exact ha)
  have e : unwords ["cmake".toList, "--preset".toList, preset ++ "-D".toList, "EXEC_ARGS".toList, arg] = "cmake --preset ".toList ++ preset ++ "-D EXEC_ARGS ".toList ++ arg := by
    simp [unwords]
  rw [e] at hc
  refine ⟨_, by simp only [cmakeCmd, hb, Res.bind]; rfl, ?_⟩
  exact C112_stage sys w cmakeHead _ _ file false hh1 ⟨_, _, rfl, by decide, by decide⟩ hc hf

/-- **C112 (violated)** Blanks in the names of files: the second part is taken for an argument of the program, and the output goes to a file with the name of the first part. -/
theorem C112_blanks_violated : commands (redirected "make".toList "my log".toList false) =
    some [⟨["make".toList, "log".toList], [.file .out false "my".toList, .same .err .out]⟩] := by decide +kernel

/-- What a program writes to one of its outputs. -/
def writtenTo (o : Stream) (cs : List (Stream × Text)) : Text := written (cs.filter fun c => c.1 = o)

theorem emitAll_apart (p : Text) : ∀ (cs : List (Stream × Text)) (w : World) (t : Text), w.files p = some t →
    emitAll (.file p, .terminal) w cs = { w with files := fun q => if q = p then some (t ++ writtenTo .out cs) else w.files q, shown := w.shown ++ writtenTo .err cs }
  | [], w, t, h => by
    have : (fun q => if q = p then some t else w.files q) = w.files := by
      funext q; split
      · next e => rw [e, h]
      · rfl
    simp [emitAll, writtenTo, written, this]
  | (.out, u) :: cs, w, t, h => by
    have e : emitAll (.file p, .terminal) w ((.out, u) :: cs) = emitAll (.file p, .terminal) (emit w (.file p) u) cs := rfl
    rw [e, emitAll_apart p cs (emit w (.file p) u) (t ++ u) (by simp [emit, contents, h])]
    simp only [emit, writtenTo, written]
    congr 1
    · funext q; split <;> simp_all
  | (.err, u) :: cs, w, t, h => by
    have e : emitAll (.file p, .terminal) w ((.err, u) :: cs) = emitAll (.file p, .terminal) (emit w .terminal u) cs := rfl
    rw [e, emitAll_apart p cs (emit w .terminal u) t (by simp [emit, h])]
    simp [emit, writtenTo, written]

/-- **C112** Errors arrive in the file because `2>&1` is appended: with the file alone, what the program writes to its output is there, and what it writes as errors is on the terminal. -/
theorem C112_errors (sys : Sys) (w : World) (h : sys.writable (resolve w.cwd "log".toList) = true) :
    execute sys w "make> log".toList = some (
      { cwd := w.cwd,
        files := fun q => if q = resolve w.cwd "log".toList then some (writtenTo .out (sys.program w.ran w.cwd ["make".toList]).1) else w.files q,
        shown := w.shown ++ writtenTo .err (sys.program w.ran w.cwd ["make".toList]).1,
        ran := w.ran ++ [(w.cwd, ["make".toList])] }, (sys.program w.ran w.cwd ["make".toList]).2) ∧
    execute sys w (redirected "make".toList "log".toList false) = some (ranProgram sys w [] ["make".toList] "log".toList false) := by
  constructor
  · have hc : commands "make> log".toList = some [⟨["make".toList], [.file .out false "log".toList]⟩] := by decide +kernel
    unfold execute
    rw [hc]
    simp only [runAll, runSimple, redirectAll, h, if_true, show "make".toList ≠ cdWord by decide, show "make".toList ≠ echoWord by decide, if_false]
    rw [emitAll_apart (resolve w.cwd "log".toList) _ _ [] (by simp)]
    cases (sys.program w.ran w.cwd ["make".toList]).2 <;> simp only [List.nil_append, Option.some.injEq, Prod.mk.injEq, and_true] <;>
      (congr 1; funext q; split <;> simp_all)
  · have := C112_stage sys w [] ["make".toList] "make".toList "log".toList false (isHeading_of _ (by decide)) ⟨_, _, rfl, by decide, by decide⟩ (by decide +kernel)
      (.inr ⟨⟨by decide, by decide⟩, h⟩)
    rwa [show withPreamble (line []) "make".toList "log".toList false = redirected "make".toList "log".toList false by decide +kernel] at this

end Verif.Props
