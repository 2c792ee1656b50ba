/-
Model of the search for included files, /repo/Source/sequoia/TestFramework/DependencyAnalyzer.cpp: `from_stream` and `get_includes`.

What is still to be read from the file is a list of characters; reading at the end of it gives nothing.  Paths are sequences of characters, with '/' between their parts.
-/
namespace Verif.Includes

/-- `from_stream`, DependencyAnalyzer.cpp:91-107: what comes before the first delimiter, and what remains, the delimiter having been read too. -/
def fromStream (delimiters : List Char) (s : List Char) : List Char × List Char :=
  (s.takeWhile fun c => !delimiters.contains c, (s.dropWhile fun c => !delimiters.contains c).drop 1)

/-- `ifile.ignore(max, c)`: up to and including the first `c`. -/
def ignoreTo (c : Char) (s : List Char) : List Char := (s.dropWhile (· ≠ c)).drop 1

/-- The loop over a comment, DependencyAnalyzer.cpp:140-148: each time a '*' has been read, the comment is left if a '/' follows. -/
def skipBlock : List Char → List Char
  | [] => []
  | c :: s =>
    if c = '*' then
      match s with
      | '/' :: t => t
      | s => skipBlock s
    else skipBlock s

/-- `std::isspace`, in the "C" locale. -/
def isSpace (c : Char) : Bool := c = ' ' || c = '\t' || c = '\n' || c = '\x0b' || c = '\x0c' || c = '\r'

/-- `path::filename`: what follows the last '/'. -/
def filename (p : List Char) : List Char := (p.reverse.takeWhile (· ≠ '/')).reverse

/-- `path::has_extension`: the file name has a '.', not only at its start, and is not "..". -/
def hasExtension (p : List Char) : Bool := filename p ≠ ['.', '.'] && ((filename p).drop 1).contains '.'

/-- `operator/` for a relative path on the right hand side. -/
def append (dir p : List Char) : List Char :=
  match dir.getLast? with
  | none => p
  | some c => if c = '/' then dir ++ p else dir ++ '/' :: p

/-- What is pushed for an included file, DependencyAnalyzer.cpp:177-186; `dir` is `file.parent_path()`, and a path has no parent path if there is no '/' in it. -/
def pushed (dir p : List Char) : List (List Char) :=
  if hasExtension p then [if p.contains '/' then p else append dir p] else []

/-- The path which follows `#include`, DependencyAnalyzer.cpp:157-176, and what remains; nothing if the end is reached. -/
def included (s : List Char) : Option (List Char) × List Char :=
  match s.dropWhile isSpace with
  | [] => (none, [])
  | c :: t =>
    if c = '"' then (some (fromStream ['"'] t).1, (fromStream ['"'] t).2)
    else if c = '<' then (some (fromStream ['>'] t).1, (fromStream ['>'] t).2)
    else (some [], t)

/-- `pattern.find(cutoff) != npos`. -/
def occursIn (cutoff : List Char) : List Char → Bool
  | [] => cutoff.isEmpty
  | c :: s => cutoff.isPrefixOf (c :: s) || occursIn cutoff s

/-- The loop of `get_includes`, DependencyAnalyzer.cpp:129-203; each step reads at least one character, and the fuel bounds the number of steps. -/
def scan (dir cutoff : List Char) : Nat → List Char → List (List Char)
  | 0, _ => []
  | _ + 1, [] => []
  | fuel + 1, c :: s =>
    if c = '/' then
      match s with
      | '/' :: _ => scan dir cutoff fuel (ignoreTo '\n' s)
      | '*' :: t => scan dir cutoff fuel (skipBlock t)
      | s => scan dir cutoff fuel s
    else if c = '#' then
      let (follows, rest) := fromStream [' ', '\n'] s
      if follows = ['i', 'n', 'c', 'l', 'u', 'd', 'e'] then
        match included rest with
        | (some p, rest) => pushed dir p ++ scan dir cutoff fuel rest
        | (none, rest) => scan dir cutoff fuel rest
      else scan dir cutoff fuel rest
    else if cutoff.head? = some c then
      let (pattern, rest) := fromStream ['\n'] (c :: s)
      if occursIn cutoff pattern then [] else scan dir cutoff fuel rest
    else scan dir cutoff fuel s

/-- `get_includes(file, cutoff)`, DependencyAnalyzer.cpp:118-204, for a file in `dir` with the given content. -/
def getIncludes (dir cutoff content : List Char) : List (List Char) := scan dir cutoff content.length content

end Verif.Includes
