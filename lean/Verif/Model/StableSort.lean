/-
Model of `stable_sort` in /repo/Source/sequoia/Algorithms/Algorithms.hpp.
-/
namespace Verif.StableSort

/-- `std::ranges::merge` (used at Algorithms.hpp:112) by its documented effect: repeatedly output the head of the
second range if it compares less than the head of the first, and the head of the first otherwise. -/
def merge {α : Type} (lt : α → α → Bool) : List α → List α → List α
  | [], ys => ys
  | x :: xs, [] => x :: xs
  | x :: xs, y :: ys => if lt y x then y :: merge lt (x :: xs) ys else x :: merge lt xs (y :: ys)
termination_by xs ys => xs.length + ys.length

/-- `stable_sort(first, last, out, ...)`, Algorithms.hpp:104-114.  Sorting the two halves in place, merging them into
the buffer and copying the buffer back is the list function below.  Simplification: the final contents of the scratch
buffer, which no caller can observe, are not part of the model.  The projection is folded into `lt`. -/
def stableSort {α : Type} (lt : α → α → Bool) (l : List α) : List α :=
  if l.length < 2 then l
  else merge lt (stableSort lt (l.take (l.length / 2))) (stableSort lt (l.drop (l.length / 2)))
termination_by l.length
decreasing_by
  · simp only [List.length_take]; omega
  · simp only [List.length_drop]; omega

end Verif.StableSort
