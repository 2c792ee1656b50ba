import Verif.Model.Postprocess
import Mathlib.Data.List.Forall2
/-
What is expected of the output of performance tests.
-/
namespace Verif.Spec.Postprocess

/-- The lines of a text: there is one more than there are newlines. -/
def lines : List Char → List (List Char)
  | [] => [[]]
  | c :: l =>
    if c = '\n' then [] :: lines l
    else match lines l with
      | [] => [[c]]
      | a :: as => (c :: a) :: as

/-- The text from the first `opening` to the first `closing`, if they are in this order. -/
inductive Between (opening closing : Char) : List Char → List Char → Prop
  | mk {before between after} : opening ∉ before → closing ∉ before → opening ≠ closing → closing ∉ between →
      Between opening closing (before ++ opening :: (between ++ closing :: after)) (opening :: between)

/-- Two lines have the same parameters: the number of standard deviations and the range of speed-ups are the same, where both lines state them. -/
def SameParameters (line refLine : List Char) : Prop :=
  (∀ x y, Between '-' '*' line x → Between '-' '*' refLine y → x = y) ∧
  (∀ x y, Between '(' ')' line x → Between '(' ')' refLine y → x = y)

/-- The words "Task duration:" are in `line`. -/
def Mentions (line : List Char) : Prop := ∃ before after, line = before ++ "Task duration:".toList ++ after

/-- Two lines are the same up to timings: `x` and `y` are what is left of them from the place where they differ, the words "Task duration:" begin before or at this place, and
the parameters are the same. -/
def UpToTimings (line refLine : List Char) : Prop :=
  line = refLine ∨ ∃ common x y, line = common ++ x ∧ refLine = common ++ y ∧ x.head? ≠ y.head? ∧
    (∃ u v, line = u ++ "Task duration:".toList ++ v ∧ u.length ≤ common.length) ∧ SameParameters x y

/-- Two texts are the same up to timings. -/
def SameUpToTimings (test ref : List Char) : Prop := List.Forall₂ UpToTimings (lines test) (lines ref)

/-- Which differences are accepted, line by line.  The last lines must be the same.  If other lines are different, then they have the same parameters after
the place where they differ, and the words "Task duration:" begin in the line of the test before or at this place — or are in one of the preceding lines, but
after the last line which is different. -/
def Accepted (seen : Prop) : List (List Char) → List (List Char) → Prop
  | [a], [b] => a = b
  | a :: a' :: as, b :: b' :: bs =>
    (a = b ∧ Accepted (seen ∨ Mentions a) (a' :: as) (b' :: bs)) ∨
    (∃ common x y, a = common ++ x ∧ b = common ++ y ∧ x.head? ≠ y.head? ∧
      (seen ∨ ∃ u v, a = u ++ "Task duration:".toList ++ v ∧ u.length ≤ common.length) ∧
      SameParameters x y ∧ Accepted False (a' :: as) (b' :: bs))
  | _, _ => False

/-- A character of a number without a negative exponent. -/
def Numeral (c : Char) : Prop := c.isDigit = true ∨ c = '.' ∨ c = 'e' ∨ c = '+'

/-- What is written about the timings of the fast task. -/
def fastLine (mean sds sig : List Char) : List Char :=
  "Fast Task duration: ".toList ++ mean ++ "s +- ".toList ++ sds ++ " * ".toList ++ sig ++ "s".toList

/-- What is written about the timings of the slow task. -/
def slowLine (mean sds sig ratio min max : List Char) : List Char :=
  "Slow Task duration: ".toList ++ mean ++ "s +- ".toList ++ sds ++ " * ".toList ++ sig ++ "s [".toList ++ ratio ++ "; (".toList ++ min ++ ", ".toList ++ max ++ ")]".toList

/-- The same check, but possibly with other timings. -/
inductive OtherTimings : List Char → List Char → Prop
  | ordinary (l : List Char) : OtherTimings l l
  | fast {indent mean sds sig mean' sig' : List Char} : (∀ l ∈ [mean, sds, sig, mean', sig'], ∀ c ∈ l, Numeral c) → '\n' ∉ indent →
      OtherTimings (indent ++ fastLine mean sds sig) (indent ++ fastLine mean' sds sig')
  | slow {indent mean sds sig ratio min max mean' sig' ratio' : List Char} :
      (∀ l ∈ [mean, sds, sig, ratio, min, max, mean', sig', ratio'], ∀ c ∈ l, Numeral c) → '\n' ∉ indent →
      OtherTimings (indent ++ slowLine mean sds sig ratio min max) (indent ++ slowLine mean' sds sig' ratio' min max)

end Verif.Spec.Postprocess
