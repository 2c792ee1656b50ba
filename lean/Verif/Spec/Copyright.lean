import Verif.Spec.Text
/- What a notice of copyright at the top of a file is. -/
namespace Verif.Spec.Copyright
open Verif.Text Verif.Spec.Text

/-- The word which is looked for. -/
def word : Str := ['C', 'o', 'p', 'y', 'r', 'i', 'g', 'h', 't']

/-- What is to the left and to the right of a notice. -/
def bar : Str := ['/', '/']

/-- The notice. -/
def notice (owner year : Str) : Str := word ++ [' '] ++ owner ++ [' '] ++ year ++ ['.']

/-- The text is `before // left Copyright right // after`; this is the first time the word occurs, and the bars are those next to it. -/
structure Framed (text before left right after : Str) : Prop where
  text : text = before ++ bar ++ left ++ word ++ right ++ bar ++ after
  first : First word (before ++ bar ++ left) (right ++ bar ++ after)
  near_left : ¬ bar <:+: left ∧ left.head? ≠ some '/'
  near_right : First bar (word ++ right) after

/-- There is no word, or no bar on one side of the first one. -/
def Unframed (text : Str) : Prop :=
  ¬ word <:+: text ∨ ∃ a b, text = a ++ word ++ b ∧ First word a b ∧ (¬ bar <:+: a ∨ ¬ bar <:+: b)

end Verif.Spec.Copyright
