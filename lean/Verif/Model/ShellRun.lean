import Verif.Model.Basic
import Verif.Model.Shell
import Verif.Model.RunnerArgs
/-
Model of the commands of /repo/Source/sequoia/TestFramework/Commands.cpp, ProjectCreator.cpp and TestCreator.cpp, and of what a shell does with them.
The shell is that of POSIX, as far as it is needed: words, double quotes, `&&` and the redirection of outputs.  Texts with anything else are not understood (`none`).
What programs do is a parameter; they neither change the directory of the shell nor the files to which the shell redirects outputs.
-/
namespace Verif.ShellRun
open Verif.Shell
open Verif.RunnerArgs (plainChar)

/-- Text. -/
abbrev Text := List Char

/-! ### How a shell reads a command -/

/-- The two outputs of a program. -/
inductive Stream
  | out
  | err
  deriving DecidableEq, Repr

/-- Tokens; a number directly before an operator of redirection belongs to it. -/
inductive Tok
  | word (w : Text)
  | and
  | redirect (fd : Option Text) (append : Bool)
  | duplicate (fd : Option Text)
  deriving DecidableEq, Repr

/-- The word which is being read, if any; the flag says that no part of it is in quotes. -/
abbrev Current := Option (Bool × Text)

/-- The end of a word. -/
def flush : Current → List Tok
  | none => []
  | some (_, w) => [.word w]

/-- The word so far. -/
def soFar : Current → Text
  | none => []
  | some (_, w) => w

/-- No part of the word is in quotes. -/
def bare : Current → Bool
  | none => true
  | some (b, _) => b

/-- What is directly before an operator of redirection: a number belongs to the operator, any other word ends. -/
def beforeRedirect : Current → List Tok × Option Text
  | none => ([], none)
  | some (b, w) => if b && w.all isDigit && !w.isEmpty then ([], some w) else ([.word w], none)

/-- Characters which may be within double quotes without having a special meaning. -/
def quotable (c : Char) : Bool := plainChar c || c = ' '

/-- What is going on: nothing special, a quotation is open, one `&` has been read, one `>` has been read. -/
inductive Mode
  | normal
  | quoted
  | ampersand
  | greater (fd : Option Text)
  deriving DecidableEq, Repr

/-- The next character, if nothing special is going on. -/
def stepNormal (cur : Current) (c : Char) : Option (List Tok × Current × Mode) :=
  if c = '"' then some ([], some (false, soFar cur), .quoted)
  else if c = ' ' then some (flush cur, none, .normal)
  else if c = '&' then some (flush cur, none, .ampersand)
  else if c = '>' then some ((beforeRedirect cur).1, none, .greater (beforeRedirect cur).2)
  else if plainChar c then some ([], some (bare cur, soFar cur ++ [c]), .normal)
  else none

/-- The next character: the tokens which it completes, and what comes then. -/
def step : Current × Mode → Char → Option (List Tok × Current × Mode)
  | (cur, .normal), c => stepNormal cur c
  | (cur, .quoted), c =>
    if c = '"' then some ([], some (false, soFar cur), .normal)
    else if quotable c then some ([], some (false, soFar cur ++ [c]), .quoted)
    else none
  | (_, .ampersand), c => if c = '&' then some ([.and], none, .normal) else none
  | (_, .greater fd), c =>
    if c = '>' then some ([.redirect fd true], none, .normal)
    else if c = '&' then some ([.duplicate fd], none, .normal)
    else (stepNormal none c).map fun r => (.redirect fd false :: r.1, r.2)

/-- The end of a text. -/
def finish : Current × Mode → Option (List Tok)
  | (cur, .normal) => some (flush cur)
  | (_, .greater fd) => some [.redirect fd false]
  | _ => none

/-- The tokens of a text, POSIX 2.3. -/
def lex : Current × Mode → Text → Option (List Tok)
  | st, [] => finish st
  | st, c :: s =>
    match step st c with
    | some (ts, st') => (lex st' s).map (ts ++ ·)
    | none => none

/-- A redirection: to a file, or to where another output goes. -/
inductive Redirection
  | file (what : Stream) (append : Bool) (name : Text)
  | same (what as : Stream)
  deriving DecidableEq, Repr

/-- A command: the words, and the redirections in their order. -/
structure Simple where
  words : List Text
  redirections : List Redirection
  deriving DecidableEq, Repr

/-- The output with a number; without a number it is the first. -/
def stream : Option Text → Option Stream
  | none => some .out
  | some ['1'] => some .out
  | some ['2'] => some .err
  | _ => none

/-- The commands of a list separated by `&&`, POSIX 2.9.3. -/
def parse : Simple → List Tok → Option (List Simple)
  | c, [] => if c.words.isEmpty && c.redirections.isEmpty then none else some [c]
  | c, .and :: ts => if c.words.isEmpty && c.redirections.isEmpty then none else (parse ⟨[], []⟩ ts).map (c :: ·)
  | c, .word w :: ts => parse { c with words := c.words ++ [w] } ts
  | c, .redirect fd app :: .word w :: ts =>
    match stream fd with
    | some s => parse { c with redirections := c.redirections ++ [.file s app w] } ts
    | none => none
  | c, .duplicate fd :: .word w :: ts =>
    match stream fd, stream (some w) with
    | some s, some t => parse { c with redirections := c.redirections ++ [.same s t] } ts
    | _, _ => none
  | _, _ => none

/-- The commands which are given by a text. -/
def commands (s : Text) : Option (List Simple) :=
  match lex (none, .normal) s with
  | none => none
  | some [] => some []
  | some ts => parse ⟨[], []⟩ ts

/-! ### What a shell does -/

/-- The directory of the shell, the contents of files, what has been shown, and the programs which have been run, each with the directory. -/
structure World where
  cwd : Text
  files : Text → Option Text
  shown : Text
  ran : List (Text × List Text)

/-- Directories; files which can be written; what a program, started in a directory after others have been run, writes to its outputs, and whether it succeeds. -/
structure Sys where
  isDir : Text → Bool
  writable : Text → Bool
  program : List (Text × List Text) → Text → List Text → List (Stream × Text) × Bool

/-- The path to which a name refers. -/
def resolve (cwd name : Text) : Text :=
  match name with
  | '/' :: _ => name
  | _ => cwd ++ '/' :: name

/-- Where an output goes. -/
inductive Dest
  | terminal
  | file (path : Text)
  deriving DecidableEq, Repr

/-- The contents of a file, nothing if there is none. -/
def contents (files : Text → Option Text) (p : Text) : Text :=
  match files p with
  | some t => t
  | none => []

/-- Writing. -/
def emit (w : World) (d : Dest) (t : Text) : World :=
  match d with
  | .terminal => { w with shown := w.shown ++ t }
  | .file p => { w with files := fun q => if q = p then some (contents w.files p ++ t) else w.files q }

/-- The redirections are done from left to right, POSIX 2.7; files are truncated unless text is to be appended. -/
def redirectAll (sys : Sys) : World → Dest × Dest → List Redirection → World × Option (Dest × Dest)
  | w, ds, [] => (w, some ds)
  | w, ds, .file s app name :: rs =>
    let p := resolve w.cwd name
    if sys.writable p then
      let w' := { w with files := fun q => if q = p then some (if app then contents w.files p else []) else w.files q }
      redirectAll sys w' (match s with | .out => (.file p, ds.2) | .err => (ds.1, .file p)) rs
    else (w, none)
  | w, ds, .same s t :: rs =>
    let d := match t with | .out => ds.1 | .err => ds.2
    redirectAll sys w (match s with | .out => (d, ds.2) | .err => (ds.1, d)) rs

/-- Words, separated by blanks. -/
def unwords : List Text → Text
  | [] => []
  | [w] => w
  | w :: ws => w ++ ' ' :: unwords ws

/-- What a program writes goes where its outputs have been directed to. -/
def emitAll (ds : Dest × Dest) : World → List (Stream × Text) → World
  | w, [] => w
  | w, (s, t) :: cs => emitAll ds (emit w (match s with | .out => ds.1 | .err => ds.2) t) cs

/-- The words of the commands which the shell does itself. -/
def cdWord : Text := "cd".toList
/-- See `cdWord`. -/
def echoWord : Text := "echo".toList

/-- One command: `cd`, `echo` or a program; `none` for what is not modelled: `cd` without directory, options of `echo`. -/
def runSimple (sys : Sys) (w : World) (c : Simple) : Option (World × Bool) :=
  match redirectAll sys w (.terminal, .terminal) c.redirections with
  | (w', none) => some (w', false)
  | (w', some ds) =>
    match c.words with
    | [] => some (w', true)
    | name :: args =>
      if name = cdWord then
        match args with
        | [dir] => if sys.isDir (resolve w'.cwd dir) then some ({ w' with cwd := resolve w'.cwd dir }, true) else some (w', false)
        | _ => none
      else if name = echoWord then
        match args with
        | ('-' :: _) :: _ => none
        | _ => some (emit w' ds.1 (unwords args ++ ['\n']), true)
      else
        let r := sys.program w'.ran w'.cwd (name :: args)
        some ({ emitAll ds w' r.1 with ran := w'.ran ++ [(w'.cwd, name :: args)] }, r.2)

/-- A list of commands: what follows a command which fails is not run. -/
def runAll (sys : Sys) : World → List Simple → Option (World × Bool)
  | w, [] => some (w, true)
  | w, c :: cs =>
    match runSimple sys w c with
    | some (w', true) => runAll sys w' cs
    | r => r

/-- `invoke`, ShellCommands.cpp:54-58: `std::system`. -/
def execute (sys : Sys) (w : World) (s : Text) : Option (World × Bool) :=
  match commands s with
  | some cs => runAll sys w cs
  | none => none

/-! ### The commands of the library -/

/-- `cd_cmd`, ShellCommands.cpp:60-64. -/
def cdCmd (dir : Text) : Command := "cd ".toList ++ dir

/-- `back`, FileSystem.hpp:46-53; a path is given by its elements. -/
def back (p : List Text) : Res Text :=
  match p.getLast? with
  | some x => .ok x
  | none => .throws

/-- `cmake_cmd`, Commands.cpp:30-43. -/
def cmakeCmd (cache : List Text) (output : Text) (args : Option Text) : Res Command :=
  (back cache).bind fun preset =>
    let cmd := "cmake --preset ".toList ++ preset
    let cmd := match args with
      | some a => cmd ++ "-D EXEC_ARGS ".toList ++ a
      | none => cmd
    .ok (withPreamble "Running CMake...".toList cmd output false)

/-- `build_cmd`, Commands.cpp:45-51. -/
def buildCmd (cache : List Text) (output : Text) : Res Command :=
  (back cache).bind fun preset => .ok (withPreamble "Building...".toList ("cmake --build --preset ".toList ++ preset) output false)

/-- `build_and_run_cmd`, Commands.cpp:53-59. -/
def buildAndRunCmd (exe : List Text) (output : Text) : Res Command :=
  (back exe).bind fun preset => .ok (withPreamble "Building...".toList ("cmake --build --preset ".toList ++ preset ++ " --target run".toList) output false)

/-- `git_first_cmd`, ProjectCreator.cpp:246-259; the change of `.gitignore` is left out. -/
def gitFirstCmd (root output : Text) : Command :=
  Shell.and (Shell.and (Shell.and (cdCmd root)
    (withPreamble "Placing under version control...".toList "git init -b trunk".toList output false))
    (withPreamble [] "git add . ".toList output true))
    (withPreamble [] "git commit -m \"First commit\"".toList output true)

/-- The first command of `init_projects`, ProjectCreator.cpp:219-220. -/
def firstCommit (root output : Text) : Command := Shell.and (cdCmd root) (gitFirstCmd root output)

/-- The second command of `init_projects`, ProjectCreator.cpp:225-230. -/
def secondCommit (root output : Text) : Command :=
  Shell.and (Shell.and (cdCmd root)
    (withPreamble "git: adding sequoia dependency...".toList "git add .".toList output false))
    (withPreamble "git: committing...".toList "git commit -m \"Add sequoia dependency\" --quiet".toList output false)

/-- The third command of `init_projects`, ProjectCreator.cpp:232-242, for compilers other than that of Microsoft, where no development environment is launched (ProjectCreator.cpp:261-290). -/
def configureAndBuild (mainDir : Text) (cache : List Text) (output : Text) : Res Command :=
  (cmakeCmd cache output none).bind fun cmake => (buildCmd cache output).bind fun build => .ok (Shell.and (Shell.and (cdCmd mainDir) cmake) build)

/-- The command of `cmake_nascent_tests`, TestCreator.cpp:223-240, if the directories exist. -/
def configure (mainDir : Text) (cache : List Text) (output : Text) : Res Command :=
  (cmakeCmd cache output none).bind fun cmake => .ok (Shell.and (cdCmd mainDir) cmake)

end Verif.ShellRun
