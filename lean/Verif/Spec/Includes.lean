/-
What the includes of a file are.  A file is described as a sequence of items, of which it is the concatenation.
-/
namespace Verif.Spec.Includes

inductive Item where
  /-- The end of a line. -/
  | newline
  /-- A space or tab. -/
  | blank (c : Char)
  /-- Any other character of the code. -/
  | code (c : Char)
  /-- A string literal. -/
  | literal (s : List Char)
  /-- `//` and what follows on the line. -/
  | lineComment (s : List Char)
  /-- `/*`, what is between, and `*/`. -/
  | blockComment (s : List Char)
  /-- `#`, blanks and the name of a directive other than `include`; what else belongs to the directive are items of their own. -/
  | directive (gap word : List Char)
  /-- `#`, blanks, `include`, blanks and the name of a file in quotes or angle brackets. -/
  | inclusion (gap gap' : List Char) (angled : Bool) (name : List Char)
  /-- The whole rest of the file, starting with the cut-off. -/
  | rest (s : List Char)
  deriving DecidableEq, Repr

def includeWord : List Char := ['i', 'n', 'c', 'l', 'u', 'd', 'e']

def Item.text : Item → List Char
  | .newline => ['\n']
  | .blank c => [c]
  | .code c => [c]
  | .literal s => '"' :: (s ++ ['"'])
  | .lineComment s => '/' :: '/' :: s
  | .blockComment s => '/' :: '*' :: (s ++ ['*', '/'])
  | .directive gap word => '#' :: (gap ++ word)
  | .inclusion gap gap' angled name => '#' :: (gap ++ (includeWord ++ (gap' ++ (if angled then '<' else '"') :: (name ++ [if angled then '>' else '"']))))
  | .rest s => s

def text : List Item → List Char
  | [] => []
  | i :: l => i.text ++ text l

/-- The names in the include directives. -/
def names : List Item → List (List Char)
  | [] => []
  | .inclusion _ _ _ name :: l => name :: names l
  | _ :: l => names l

/-- White space. -/
def whiteSpace : List Char := [' ', '\t', '\n', '\x0b', '\x0c', '\r']

abbrev isBlank (c : Char) : Prop := c = ' ' ∨ c = '\t'
abbrev isWord (c : Char) : Prop := c.isAlphanum = true ∨ c = '_'

/-- The line with which a text starts. -/
def firstLine (s : List Char) : List Char := s.takeWhile (· ≠ '\n')

/-- The items are what C++ takes them to be.  The flag tells whether there have been only blanks and comments on the line so far, so that `#` starts a directive.
(Lines which are continued, escapes in literals and raw literals are left out.) -/
def WellFormed (cutoff : List Char) : Bool → List Item → Prop
  | _, [] => True
  | _, .newline :: l => WellFormed cutoff true l
  | start, .blank c :: l => isBlank c ∧ WellFormed cutoff start l
  | start, .code c :: l =>
    c ≠ '\n' ∧ ¬ isBlank c ∧ c ≠ '"' ∧ c ≠ '\\' ∧ (c = '#' → start = false) ∧ (c = '/' → ∀ d ∈ (text l).head?, d ≠ '/' ∧ d ≠ '*') ∧
      WellFormed cutoff false l
  | _, .literal s :: l => (∀ c ∈ s, c ≠ '"' ∧ c ≠ '\\' ∧ c ≠ '\n') ∧ WellFormed cutoff false l
  | start, .lineComment s :: l => (∀ c ∈ s, c ≠ '\n' ∧ c ≠ '\\') ∧ (∀ d ∈ (text l).head?, d = '\n') ∧ WellFormed cutoff start l
  | start, .blockComment s :: l => ¬ ['*', '/'] <:+: s ++ ['*'] ∧ WellFormed cutoff start l
  | start, .directive gap word :: l =>
    start = true ∧ (∀ c ∈ gap, isBlank c) ∧ (∀ c ∈ word, isWord c) ∧ word ≠ includeWord ∧ (∀ d ∈ (text l).head?, ¬ isWord d) ∧ WellFormed cutoff false l
  | start, .inclusion gap gap' angled name :: l =>
    start = true ∧ (∀ c ∈ gap, isBlank c) ∧ (∀ c ∈ gap', isBlank c) ∧ (∀ c ∈ name, c ≠ '\n' ∧ c ≠ (if angled then '>' else '"')) ∧ WellFormed cutoff false l
  | _, .rest s :: l => l = [] ∧ cutoff ≠ [] ∧ cutoff <+: s

/-- The files for which the search works.
* The name of a directive follows `#` at once, and is itself followed by a space or the end of the line; this applies to `include`, too.
* There is no other `#`; and neither `#` nor `/` nor the first character of the cut-off are in literals.
* If the first character of the cut-off is met in the code then the cut-off is not on the rest of the line, and neither a comment of the form `/* */` nor a directive. -/
def Tame (cutoff : List Char) : Bool → List Item → Prop
  | _, [] => True
  | _, .newline :: l => Tame cutoff false l
  | met, .blank _ :: l => Tame cutoff met l
  | true, .code _ :: l => Tame cutoff true l
  | false, .code c :: l => c ≠ '#' ∧ if cutoff.head? = some c ∧ c ≠ '/' then ¬ cutoff <:+: firstLine (c :: text l) ∧ Tame cutoff true l else Tame cutoff false l
  | true, .literal _ :: l => Tame cutoff true l
  | false, .literal s :: l => (∀ c ∈ s, c ≠ '/' ∧ c ≠ '#' ∧ cutoff.head? ≠ some c) ∧ Tame cutoff false l
  | _, .lineComment _ :: l => Tame cutoff true l
  | met, .blockComment _ :: l => met = false ∧ Tame cutoff false l
  | met, .directive gap _ :: l => met = false ∧ gap = [] ∧ (∀ d ∈ (text l).head?, d = ' ' ∨ d = '\n') ∧ Tame cutoff false l
  | met, .inclusion gap gap' _ _ :: l => met = false ∧ gap = [] ∧ gap'.head? = some ' ' ∧ Tame cutoff false l
  | met, .rest _ :: _ => met = false

instance (cutoff : List Char) : ∀ start items, Decidable (WellFormed cutoff start items)
  | _, [] => .isTrue trivial
  | start, i :: l => by
    have ih : ∀ start, Decidable (WellFormed cutoff start l) := fun start => instDecidableWellFormed cutoff start l
    cases i <;> unfold WellFormed <;> infer_instance

instance (cutoff : List Char) : ∀ met items, Decidable (Tame cutoff met items)
  | _, [] => .isTrue (by unfold Tame; trivial)
  | met, i :: l => by
    have ih : ∀ met, Decidable (Tame cutoff met l) := fun met => instDecidableTame cutoff met l
    cases met <;> cases i <;> unfold Tame <;> infer_instance

end Verif.Spec.Includes
