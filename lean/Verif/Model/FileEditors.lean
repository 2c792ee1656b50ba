import Verif.Model.Basic
import Verif.Model.Text

/-
Model of /repo/Source/sequoia/TestFramework/FileEditors.cpp: how new tests are added to existing files.

The functions are modelled on the text of the files: `read_modify_write` (Streaming.hpp:34-46) reads the text, modifies it and writes it; what
it does if a file cannot be opened is not modelled.  Strings are lists of characters, `npos` is `none`; characters are ordered by their code, as
bytes of UTF-8 are.  `std::ranges::sort` is a parameter.  It is undefined if the comparison is not a strict weak order of the elements.
-/
namespace Verif.FileEditors
open Text

/-- The last position of `p` in the text, as `std::string::rfind(p)` gives it. -/
def rsearch (p : Str) : Str → Option Nat
  | [] => if p.isPrefixOf [] then some 0 else none
  | c :: t =>
    match rsearch p t with
    | some i => some (i + 1)
    | none => if p.isPrefixOf (c :: t) then some 0 else none

/-- `std::string::rfind(p, pos)`: the last position which is not after `pos`. -/
def rfind (text p : Str) (pos : Nat) : Option Nat := rsearch p (text.take (pos + p.length))

/-- `std::string::substr(pos, n)` for `pos` within the text. -/
def substr (text : Str) (pos n : Nat) : Str := (text.drop pos).take n

/-- Whether a comparison is a strict weak order of the elements of a list. -/
def strictWeakOn (lt : Str → Str → Bool) (l : List Str) : Bool :=
  (l.all fun a => !lt a a) &&
  l.all fun a => l.all fun b => l.all fun c => (!(lt a b && lt b c) || lt a c) && (!(!lt a b && !lt b a && !lt b c && !lt c b) || (!lt a c && !lt c a))

/-- `std::ranges::sort` with a comparison. -/
def sortBy (stdSort : (Str → Str → Bool) → List Str → List Str) (lt : Str → Str → Bool) (l : List Str) : Res (List Str) :=
  if strictWeakOn lt l then .ok (stdSort lt l) else .ub

/-! ### Includes -/

/-- FileEditors.cpp:29. -/
def directive : Str := ['#', 'i', 'n', 'c', 'l', 'u', 'd', 'e']

/-- FileEditors.cpp:30. -/
def newInclude (path : Str) : Str := directive ++ [' ', '"'] ++ path ++ ['"', '\n']

/-- The loop collecting directives, FileEditors.cpp:38-46; `e` is `end`. -/
def collect (text : Str) (endBlock : Nat) : Nat → Nat → List Str
  | 0, _ => []
  | f + 1, e =>
    match find text directive e with
    | none => []
    | some s =>
      if s < endBlock then
        match find text ['\n'] s with
        -- `end` is `npos`, whence nothing is found the next time
        | none => []
        | some e' => if e' ≤ endBlock then substr text s (e' + 1 - s) :: collect text endBlock f e' else collect text endBlock f e'
      else []

/-- The comparison of directives, FileEditors.cpp:49-55. -/
def includeLess (l r : Str) : Bool :=
  if l.contains '<' && !r.contains '>' then false
  else if !l.contains '<' && r.contains '>' then true
  else decide (l < r)

/-- The modification made by `add_include`, FileEditors.cpp:24-77. -/
def addInclude (stdSort : (Str → Str → Bool) → List Str → List Str) (path text : Str) : Res Str :=
  let last := rsearch directive text
  let endBlock := match last with | none => text.length | some p => (find text ['\n'] p).elim text.length fun e => min e text.length
  let entries := newInclude path :: (if last = none then [] else collect text endBlock (text.length + 1) 0)
  (sortBy stdSort includeLess entries).bind fun sorted =>
    match find text directive 0 with
    | some first => .ok (splice text first (endBlock + 1 - first) sorted.flatten)
    | none => .ok (splice text endBlock 0 sorted.flatten)

/-! ### Test suites -/

/-- FileEditors.cpp:96. -/
def suitePattern (suite : Str) : Str := ['"'] ++ suite ++ ['"', ',']

/-- FileEditors.cpp:101. -/
def preamble : Str := ['a', 'd', 'd', '_', 't', 'e', 's', 't', '_', 's', 'u', 'i', 't', 'e', '(']

/-- FileEditors.cpp:122. -/
def execution : Str := ['r', 'u', 'n', 'n', 'e', 'r', '.', 'e', 'x', 'e', 'c', 'u', 't', 'e']

/-- One iteration of the loop adding tests to a suite, FileEditors.cpp:107-115; `endpos` is not changed by insertions. -/
def addTest (indent : Str) (pos nextLine : Nat) (endpos : Option Nat) (text t : Str) : Str :=
  let sub := match endpos with | some e => substr text pos (e - pos) | none => text.drop pos
  if search t sub = none then splice text (nextLine + 1) 0 (indent ++ indent ++ indent ++ t ++ [',', '\n']) else text

/-- Appending all tests but the last one, FileEditors.cpp:134-139. -/
def appendTests (indent : Str) : List Str → Str → Str
  | [], s => s
  | [t], s => appendIndented s t indent
  | t :: ts, s => appendTests indent ts (appendIndented s (t ++ [',']) indent)

/-- The text for a new suite, FileEditors.cpp:126-144. -/
def newSuite (indent suite : Str) (tests : List Str) : Str :=
  let indent0 := indent ++ indent
  let s := ['\n'] ++ indent0 ++ ['r', 'u', 'n', 'n', 'e', 'r', '.'] ++ preamble
  let indent1 := indent0 ++ indent
  let s := appendIndented s (['"'] ++ suite ++ ['"', ',']) indent1
  appendIndented (appendTests indent1 tests s) [')', ';', '\n'] indent0

/-- The new contents determined by `add_to_suite`, FileEditors.cpp:79-161.  The call of `replace` with an empty pattern has no effect.  If no place is found the text is
empty, and an exception is thrown; with an exception nothing is written. -/
def addToSuite (suite indent : Str) (tests : List Str) (text : Str) : Res Str :=
  if tests = [] then .throws
  else
    match find text (suitePattern suite) 0 with
    | some pos =>
      match rfind text ['\n'] pos with
      | some linePos =>
        if preamble.length < linePos ∧ find text preamble (linePos - preamble.length) ≠ none then
          match find text ['\n'] pos with
          | some nextLine => .ok (tests.foldl (addTest indent pos nextLine (find text [')', ';'] pos)) text)
          | none => .throws
        else .throws
      | none => .throws
    | none =>
      match find text execution 0 with
      | some pos =>
        match rfind text ['\n'] pos with
        | some linePos => .ok (splice text linePos 0 (newSuite indent suite tests))
        | none => .throws
      | none => .throws

/-! ### CMake -/

/-- The loop collecting entries, FileEditors.cpp:179-186; an exception is thrown if there are only spaces until the end of the text. -/
def entriesFrom (text : Str) (endPos : Nat) : Nat → Nat → Res (List Str)
  | 0, _ => .ok []
  | f + 1, next =>
    match find text ['\n'] next with
    | none => .ok []
    | some nl =>
      if nl < endPos then
        let next' := (find text ['\n'] (nl + 1)).elim endPos fun e => min e endPos
        let start := nl + 1 + ((text.drop (nl + 1)).takeWhile (· = ' ')).length
        if start < text.length then
          let entry := if start ≤ next' then substr text start (next' - start) else text.drop start
          (entriesFrom text endPos f next').bind fun es => .ok (entry :: es)
        else .throws
      else .ok []

/-- The number of spaces in front of an entry, FileEditors.cpp:188-195. -/
def numSpaces (patternOpen : Str) : Nat := (search ['('] patternOpen).elim patternOpen.length (· + 1)

/-- The modification made by `add_to_cmake`, FileEditors.cpp:163-214; `file` is the path relative to the host directory. -/
def addToCmake (stdSort : (Str → Str → Bool) → List Str → List Str) (file patternOpen patternClose entryPrefix text : Str) : Res Str :=
  match find text patternOpen 0 with
  | none => .throws
  | some startPos =>
    match find text patternClose (startPos + patternOpen.length) with
    | none => .throws
    | some endPos =>
      (entriesFrom text endPos (text.length + 1) (startPos + patternOpen.length)).bind fun es =>
        (sortBy stdSort (fun a b => decide (a < b)) ((entryPrefix ++ file) :: es)).bind fun sorted =>
          let section_ := (find text ['\n'] (startPos + patternOpen.length)).elim endPos fun e => min e endPos
          .ok (splice text section_ (endPos - section_) (sorted.flatMap fun e => '\n' :: (List.replicate (numSpaces patternOpen) ' ' ++ e)))

end Verif.FileEditors
