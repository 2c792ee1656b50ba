/-
What reports on strings which differ should show.
-/
namespace Verif.Spec.StringReports

/-- The strings agree up to `p`, and not further. -/
def FirstDifference (s t : List Char) (p : Nat) : Prop := p ≤ s.length ∧ p ≤ t.length ∧ s.take p = t.take p ∧ s[p]? ≠ t[p]?

/-- Dots which stand for what is left out at the beginning, if anything is. -/
def dotsBefore (start : Nat) : List Char := if start = 0 then [] else ['.', '.', '.']

/-- Dots which stand for what is left out at the end, if anything is. -/
def dotsAfter (stop length : Nat) : List Char := if stop < length then ['.', '.', '.'] else []

/-- A line break at the beginning is made visible. -/
def visible : List Char → List Char
  | '\n' :: s => '\\' :: 'n' :: s
  | s => s

/-- The part of a string between two positions. -/
def part (s : List Char) (start stop : Nat) : List Char := (s.drop start).take (stop - start)

/-- The text does not go beyond a line. -/
def SingleLine (s : List Char) : Prop := '\n' ∉ s

end Verif.Spec.StringReports
