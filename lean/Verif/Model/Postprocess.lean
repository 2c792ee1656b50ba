import Verif.Model.Basic
/-
Model of `postprocess`, /repo/Source/sequoia/TestFramework/PerformanceTestCore.cpp:17-71, which decides whether the output of a performance test is replaced by the reference
output.  Texts are lists of characters.
-/
namespace Verif.Postprocess

/-- `"Task duration:"`, PerformanceTestCore.cpp:25. -/
def taskDuration : List Char := ['T', 'a', 's', 'k', ' ', 'd', 'u', 'r', 'a', 't', 'i', 'o', 'n', ':']

/-- `std::ranges::mismatch`, PerformanceTestCore.cpp:20, as the distance from the beginning. -/
def mismatch : List Char → List Char → Nat
  | a :: as, b :: bs => if a = b then mismatch as bs + 1 else 0
  | _, _ => 0

/-- `find` of a character from the beginning of a view. -/
def find (c : Char) : List Char → Option Nat
  | [] => none
  | a :: as => if a = c then some 0 else (find c as).map (· + 1)

/-- `find(c, pos)`, PerformanceTestCore.cpp:27-28. -/
def findFrom (c : Char) (l : List Char) (pos : Nat) : Option Nat := (find c (l.drop pos)).map (· + pos)

/-- Whether `rfind(pattern, pos)` finds something, PerformanceTestCore.cpp:25: an occurrence which begins at `pos` or before. -/
def rfinds (pattern l : List Char) : Nat → Bool
  | 0 => pattern.isPrefixOf l
  | pos + 1 => pattern.isPrefixOf (l.drop (pos + 1)) || rfinds pattern l pos

/-- The lambda `acceptable`, PerformanceTestCore.cpp:35-52: what is from the first `opening` to the first `closing`, if there is such a thing in both lines, must be the same. -/
def acceptable (opening closing : Char) (line refLine : List Char) : Bool :=
  match find opening line, find closing line, find opening refLine, find closing refLine with
  | some o, some c, some ro, some rc =>
    if o < c ∧ ro < rc then decide ((line.drop o).take (c - o) = (refLine.drop ro).take (rc - ro)) else true
  | _, _, _, _ => true

/-- `acceptable_mismatch`, PerformanceTestCore.cpp:17-64; `none` if the recursion is deeper than the fuel allows for. -/
def acceptableMismatch : Nat → List Char → List Char → Option Bool
  | 0, _, _ => none
  | fuel + 1, test, ref =>
    let pos := mismatch test ref
    let final := decide (pos = test.length ∧ pos = ref.length)
    if pos ≠ test.length ∧ pos ≠ ref.length then
      if rfinds taskDuration test pos then
        match findFrom '\n' test pos, findFrom '\n' ref pos with
        | some endLine, some refEndLine =>
          let line := (test.drop pos).take (endLine - pos)
          let refLine := (ref.drop pos).take (refEndLine - pos)
          if !acceptable '-' '*' line refLine || !acceptable '(' ')' line refLine then some false
          else acceptableMismatch fuel (test.drop endLine) (ref.drop refEndLine)
        | _, _ => some final
      else some final
    else some final

/-- `postprocess`, PerformanceTestCore.cpp:67-71. -/
def postprocess (test ref : List Char) : Option (List Char) :=
  (acceptableMismatch (test.length + 2) test ref).map fun b => if b then ref else test

end Verif.Postprocess
