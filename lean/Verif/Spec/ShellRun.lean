import Verif.Model.ShellRun
/-
Specification for C112: what is meant to happen if a command with a heading, and with a file for its output, is run.
-/
namespace Verif.Spec.ShellRun
open Verif.ShellRun

/-- A word without any character which means something to a shell. -/
def Plain (w : Text) : Prop := w ≠ [] ∧ ∀ c ∈ w, Verif.RunnerArgs.plainChar c = true

/-- Words, separated by blanks. -/
def line (ws : List Text) : Text := List.intercalate [' '] ws

/-- The heading of a command: an empty line, the words and another empty line; nothing if there are no words. -/
def heading (ws : List Text) : Text := if ws = [] then [] else '\n' :: line ws ++ ['\n', '\n']

/-- All a program writes, to whichever output, in order. -/
def written (cs : List (Stream × Text)) : Text := (cs.map Prod.snd).flatten

/-- A text has arrived: in the file if there is one, after what has been there if it is to be appended, and otherwise on the terminal.  Nothing else changes. -/
def received (w : World) (file : Text) (append : Bool) (t : Text) : World :=
  if file = [] then { w with shown := w.shown ++ t }
  else { w with files := fun q => if q = resolve w.cwd file then some ((if append then contents w.files q else []) ++ t) else w.files q }

/-- A program has been run: its output has arrived below the heading, and it is on the record. -/
def ranProgram (sys : Sys) (w : World) (head ws : List Text) (file : Text) (append : Bool) : World × Bool :=
  let r := sys.program w.ran w.cwd ws
  ({ received w file append (heading head ++ written r.1) with ran := w.ran ++ [(w.cwd, ws)] }, r.2)

/-- Words which are neither `cd` nor `echo`, but a program with its arguments. -/
def IsProgram (ws : List Text) : Prop := ∃ name args, ws = name :: args ∧ name ≠ "cd".toList ∧ name ≠ "echo".toList

/-- A heading: plain words, the first of which does not look like an option. -/
def IsHeading (ws : List Text) : Prop := (∀ w ∈ ws, Plain w) ∧ ∀ s, ws.head? ≠ some ('-' :: s)

/-- A file for the output: none, or a plain name of a file which can be written. -/
def Usable (sys : Sys) (w : World) (file : Text) : Prop := file = [] ∨ Plain file ∧ sys.writable (resolve w.cwd file) = true

/-- A text which means something to a shell, or none at all. -/
def Understood (a : Text) : Prop := a = [] ∨ ∃ c cs, commands a = some (c :: cs)

/-- A command with a heading: the text of the command, the words of which it consists, and whether to append its output to the file. -/
structure Stage where
  head : List Text
  text : Text
  words : List Text
  append : Bool

/-- A stage which is in order: the shell takes the text for the words. -/
def Stage.Fine (s : Stage) : Prop := IsHeading s.head ∧ IsProgram s.words ∧ commands s.text = some [⟨s.words, []⟩]

/-- Stages are run one after the other until one fails. -/
def runStages (sys : Sys) (file : Text) : World → List Stage → World × Bool
  | w, [] => (w, true)
  | w, s :: ss =>
    let r := ranProgram sys w s.head s.words file s.append
    if r.2 then runStages sys file r.1 ss else r

/-- All that is written in a run of stages, if none of them fails. -/
def story (sys : Sys) (cwd : Text) : List (Text × List Text) → List Stage → Text
  | _, [] => []
  | ran, s :: ss => heading s.head ++ written (sys.program ran cwd s.words).1 ++ story sys cwd (ran ++ [(cwd, s.words)]) ss

end Verif.Spec.ShellRun
