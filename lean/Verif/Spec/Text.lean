/-
Specifications for the text processing functions: plain descriptions of replacement, camel case, indentation and balanced delimiters
on lists of characters.  Nothing here mentions positions, fuel or `find`.
-/
import Verif.Model.Text

namespace Verif.Spec.Text

open Verif.Text (Str)

/-- A loop returns `r`: it does so with enough fuel. -/
def Returns (f : Nat → Option Str) (r : Str) : Prop := ∃ fuel, f fuel = some r

/-- A loop never returns. -/
def Diverges (f : Nat → Option Str) : Prop := ∀ fuel, f fuel = none

/-- The first occurrence of `p` in `a ++ p ++ b` is the one after `a`. -/
def First (p a b : Str) : Prop := ∀ a' b', a' ++ p ++ b' = a ++ p ++ b → a.length ≤ a'.length

/-- Scanning from left to right, each occurrence of `p` is replaced by `to`, and the scan goes on after that occurrence. -/
inductive Replaced (p to : Str) : Str → Str → Prop
  | none {s} : ¬ p <:+: s → Replaced p to s s
  | step {a b r} : First p a b → Replaced p to b r → Replaced p to (a ++ p ++ b) (a ++ to ++ r)

/-- One replacement after the other. -/
inductive ReplacedList : List (Str × Str) → Str → Str → Prop
  | nil {s} : ReplacedList [] s s
  | cons {p to rs s t u} : Replaced p to s t → ReplacedList rs t u → ReplacedList ((p, to) :: rs) s u

/-- The first character of what follows, zero at the end. -/
def next : Str → Char
  | [] => '\x00'
  | c :: _ => c

/-- The last character of what precedes, `z` if there is nothing. -/
def final (z : Char) : Str → Char
  | [] => z
  | c :: t => final c t

/-- `p` stands at the beginning of `s`, after the character `prev`, and its neighbours are as required. -/
def Qualifies (l r : Char → Bool) (p : Str) (prev : Char) (s : Str) : Prop := l prev = true ∧ ∃ b, s = p ++ b ∧ r (next b) = true

/-- Scanning from left to right, exactly the qualifying occurrences are replaced. -/
inductive ReplacedIf (l r : Char → Bool) (p to : Str) : Char → Str → Str → Prop
  | nil {prev} : ReplacedIf l r p to prev [] []
  | hit {prev b u} : Qualifies l r p prev (p ++ b) → ReplacedIf l r p to (final prev p) b u → ReplacedIf l r p to prev (p ++ b) (to ++ u)
  | skip {prev c t u} : ¬ Qualifies l r p prev (c :: t) → ReplacedIf l r p to c t u → ReplacedIf l r p to prev (c :: t) (c :: u)

/-- No occurrence of `p` can arise at or before the beginning of a replacement of `p` by `to`: if a non-empty end `y` of `p` can match the
beginning of `to`, then it does not consist of the whole of `p` and is a beginning of `p`, too, so that the occurrence was there before. -/
def Safe (p to : Str) : Prop := ∀ x y, p = x ++ y → y ≠ [] → (y <+: to ∨ to <+: y) → x ≠ [] ∧ y <+: p

/-- A letter is turned into upper case. -/
def up (c : Char) : Char := if c.isAlpha then c.toUpper else c

/-- Each underscore is replaced by the separator and the character after it, whatever it is, is turned into upper case. -/
def camelTail (sep : Str) : Str → Str
  | [] => []
  | [c] => if c = '_' then sep else [c]
  | c :: d :: t => if c = '_' then sep ++ up d :: camelTail sep t else c :: camelTail sep (d :: t)

/-- Camel case: as `camelTail`, and the first character, too, is turned into upper case. -/
def camel (sep : Str) : Str → Str
  | [] => []
  | c :: t => camelTail sep (up c :: t)

/-- Words: a separator before each upper case letter which is not the first character; the letter itself is changed by `f`. -/
def wordsTail (sep : Str) (f : Char → Char) (t : Str) : Str := t.flatMap fun c => if c.isUpper then sep ++ [f c] else [c]

def words (sep : Str) (f : Char → Char) : Str → Str
  | [] => []
  | c :: t => (if c.isUpper then f c else c) :: wordsTail sep f t

/-- A camel case name: no underscore, and it does not begin with a lower case letter. -/
def CamelName (s : Str) : Prop := '_' ∉ s ∧ ∀ c ∈ s.head?, ¬ c.isLower

/-- A snake case name: no upper case letters, no underscore at the beginning and a lower case letter after each underscore. -/
inductive SnakeRest : Str → Prop
  | nil : SnakeRest []
  | char {c t} : c ≠ '_' → ¬ c.isUpper → SnakeRest t → SnakeRest (c :: t)
  | under {c t} : c.isLower → SnakeRest t → SnakeRest ('_' :: c :: t)

def SnakeName (s : Str) : Prop := SnakeRest s ∧ s.head? ≠ some '_'

/-- The lines of a text. -/
def lines : Str → List Str
  | [] => [[]]
  | c :: t => if c = '\n' then [] :: lines t else match lines t with | [] => [[c]] | l :: ls => (c :: l) :: ls

/-- Lines are put together with a newline between any two of them. -/
def unlines : List Str → Str
  | [] => []
  | [l] => l
  | l :: ls => l ++ '\n' :: unlines ls

/-- A line which is not empty is indented. -/
def indentLine (ind l : Str) : Str := if l = [] then [] else ind ++ l

/-- The number of opening delimiters less the number of closing ones. -/
def excess (o c : Char) (s : Str) : Int := s.count o - s.count c

/-- `s` begins with an opening delimiter and ends with the closing one that matches it. -/
def Matched (o c : Char) (s : Str) : Prop := (∃ t, s = o :: t) ∧ excess o c s = 0 ∧ ∀ t, t <+: s → t ≠ [] → t ≠ s → 0 < excess o c t

end Verif.Spec.Text
