/-
Model of /repo/Source/sequoia/TextProcessing: Substitutions.hpp and .cpp, Indent.cpp, Patterns.cpp.

Strings are lists of characters, positions are numbers; `npos` is `none`.  The classification of characters is that of the "C" locale.
(`std::isupper` and `std::isalpha` are called with a `char` which has not been converted to `unsigned char`, which is undefined if it is
negative; the model is about texts without such characters.)  Loops which need not terminate have fuel: the result is `none` if there is not
enough of it.
-/
namespace Verif.Text

abbrev Str := List Char

/-- The first position of `p` in the text. -/
def search (p : Str) : Str → Option Nat
  | [] => if p.isPrefixOf [] then some 0 else none
  | c :: t => if p.isPrefixOf (c :: t) then some 0 else (search p t).map (· + 1)

/-- `std::string::find(p, pos)`. -/
def find (text p : Str) (pos : Nat) : Option Nat := if pos ≤ text.length then (search p (text.drop pos)).map (pos + ·) else none

/-- `std::string::replace(pos, n, to)`. -/
def splice (text : Str) (pos n : Nat) (to : Str) : Str := text.take pos ++ to ++ text.drop (pos + n)

/-- `replace`, Substitutions.cpp:104-111. -/
def replace (text p to : Str) : Str :=
  match find text p 0 with
  | some pos => splice text pos p.length to
  | none => text

/-- The loop of `replace_all`, Substitutions.cpp:120-130. -/
def replaceAllFrom (p to : Str) : Nat → Str → Nat → Option Str
  | 0, _, _ => none
  | f + 1, text, pos =>
    match find text p pos with
    | none => some text
    | some q => replaceAllFrom p to f (splice text q p.length to) (q + to.length)

/-- `replace_all`, Substitutions.cpp:120-130. -/
def replaceAll (fuel : Nat) (text p to : Str) : Option Str := replaceAllFrom p to fuel text 0

/-- `replace_all` with several replacements, Substitutions.hpp:100-107. -/
def replaceAlls (fuel : Nat) (text : Str) : List (Str × Str) → Option Str
  | [] => some text
  | r :: rs => (replaceAll fuel text r.1 r.2).bind fun t => replaceAlls fuel t rs

/-- The loop of `replace_all_recursive`, Substitutions.cpp:139-149. -/
def replaceRecFrom (p to : Str) : Nat → Str → Nat → Option Str
  | 0, _, _ => none
  | f + 1, text, pos =>
    match find text p pos with
    | none => some text
    | some q => replaceRecFrom p to f (splice text q p.length to) (q + 1)

/-- `replace_all_recursive`, Substitutions.cpp:139-149. -/
def replaceRec (fuel : Nat) (text p to : Str) : Option Str := replaceRecFrom p to fuel text 0

/-- The character left of a position, or zero at the beginning, Substitutions.hpp:130. -/
def leftOf (text : Str) (pos : Nat) : Char := (text.take pos).getLast?.elim '\x00' id

/-- The character right of an occurrence, or zero at the end, Substitutions.hpp:131-132. -/
def rightOf (text : Str) (pos len : Nat) : Char := (text.drop (pos + len)).head?.elim '\x00' id

/-- The loop of `replace_all` with predicates, Substitutions.hpp:122-145. -/
def replaceIfFrom (l r : Char → Bool) (p to : Str) : Nat → Str → Nat → Option Str
  | 0, _, _ => none
  | f + 1, text, pos =>
    match find text p pos with
    | none => some text
    | some q =>
      if l (leftOf text q) && r (rightOf text q p.length) then
        replaceIfFrom l r p to f (splice text q p.length to) (q + (to.length + 1))
      else replaceIfFrom l r p to f text (q + (p.length + 1))

/-- `replace_all` with predicates, Substitutions.hpp:122-145. -/
def replaceIf (fuel : Nat) (text : Str) (l : Char → Bool) (p : Str) (r : Char → Bool) (to : Str) : Option Str :=
  replaceIfFrom l r p to fuel text 0

/-- `replace_all` with delimiters, Substitutions.cpp:158-167. -/
def replaceDelim (fuel : Nat) (text anyOfLeft p anyOfRight to : Str) : Option Str :=
  replaceIf fuel text (fun c => anyOfLeft.isEmpty || anyOfLeft.contains c) p (fun c => anyOfRight.isEmpty || anyOfRight.contains c) to

/-- `std::toupper` and `std::tolower`. -/
def upper (c : Char) : Char := c.toUpper
def lower (c : Char) : Char := c.toLower

/-- Change the first character if it is a letter, Substitutions.cpp:26-29. -/
def upperFront : Str → Str
  | [] => []
  | c :: t => (if c.isAlpha then upper c else c) :: t

/-- The loop of `to_camel_case`, Substitutions.cpp:33-44. -/
def camelFrom (sep : Str) : Nat → Str → Nat → Option Str
  | 0, _, _ => none
  | f + 1, text, pos =>
    match find text ['_'] pos with
    | none => some text
    | some q =>
      let t := splice text q 1 sep
      let next := q + sep.length
      let t' := if next < t.length then t.modify next fun c => if c.isAlpha then upper c else c else t
      camelFrom sep f t' (q + (sep.length + 1))

/-- `to_camel_case`, Substitutions.cpp:16-47. -/
def toCamel (fuel : Nat) (text sep : Str) : Option Str := if text = [] then some [] else camelFrom sep fuel (upperFront text) 0

/-- The loop of `camel_to_words`, Substitutions.hpp:29-50, on the characters which have not been visited; `first` says whether the
iterator is at the beginning. -/
def wordsFrom (sep : Str) (onUpper : Char → Char) (first : Bool) : Str → Str
  | [] => []
  | c :: t => if c.isUpper then (if first then [] else sep) ++ onUpper c :: wordsFrom sep onUpper false t else c :: wordsFrom sep onUpper false t

/-- `camel_to_words`, Substitutions.hpp:29-50. -/
def camelToWords (text sep : Str) (onUpper : Char → Char) : Str := wordsFrom sep onUpper true text

/-- `to_snake_case`, Substitutions.cpp:56-59. -/
def toSnake (text : Str) : Str := camelToWords text ['_'] lower

/-- `capitalize`, Substitutions.cpp:68-77. -/
def capitalize : Str → Str
  | [] => []
  | c :: t => upper c :: t

/-- `uncapitalize`, Substitutions.cpp:86-95. -/
def uncapitalize : Str → Str
  | [] => []
  | c :: t => lower c :: t

/-- The loop of `indent`, Indent.cpp:26-39, on the text from `current` on. -/
def indentFrom (ind : Str) : Nat → Str → Str
  | 0, _ => []
  | _ + 1, [] => []
  | f + 1, c :: t =>
    let line := match search ['\n'] (c :: t) with | some d => (c :: t).take (d + 1) | none => c :: t
    (if line.any (· ≠ '\n') then ind else []) ++ line ++
      (match search ['\n'] (c :: t) with | some d => indentFrom ind f ((c :: t).drop (d + 1)) | none => [])

/-- `indent`, Indent.cpp:16-42. -/
def indent (s ind : Str) : Str := if s = [] then [] else if ind = [] then s else indentFrom ind (s.length + 1) s

/-- `append_indented`, Indent.cpp:44-59. -/
def appendIndented (s₁ s₂ ind : Str) : Str := if s₂ = [] then s₁ else if s₁ = [] then s₂ else s₁ ++ ['\n'] ++ indent s₂ ind

/-- `tabs_to_spacing`, Indent.cpp:68-82; the loop is that of `replace_all`. -/
def tabsToSpacing (fuel : Nat) (text spacing : Str) : Option Str := if spacing = ['\t'] then some text else replaceAll fuel text ['\t'] spacing

/-- The loop of `find_matched_delimiters`, Patterns.cpp:27-35; the result is the position past the closing delimiter. -/
def matchLoop (o c : Char) : Nat → Int → Str → Option Nat
  | _, _, [] => none
  | pos, n, x :: t =>
    let n' := if x = o then n + 1 else if x = c then n - 1 else n
    if n' = 0 then some (pos + 1) else matchLoop o c (pos + 1) n' t

/-- `find_matched_delimiters`, Patterns.cpp:17-41; `none` stands for `{npos, npos}`. -/
def findMatched (text : Str) (o c : Char) (pos : Nat) : Option (Nat × Nat) :=
  match find text [o] pos with
  | none => none
  | some q =>
    match matchLoop o c (q + 1) 1 (text.drop (q + 1)) with
    | some e => some (q, e)
    | none => some (q, q)

/-- `find_sandwiched_text`, Patterns.cpp:43-53; `none` stands for `npos`. -/
def findSandwiched (text l r : Str) (pos : Nat) : Option Nat × Option Nat :=
  match find text l pos with
  | none => (none, none)
  | some q => (some (q + l.length), find text r (q + l.length))

end Verif.Text
