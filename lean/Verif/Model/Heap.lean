/-
Model of the heap algorithms in /repo/Source/sequoia/Algorithms/Algorithms.hpp.

The range `[begin, begin + n)` is a `Vector α n`; an iterator is its distance from `begin`.  Every access carries a
proof that it is in range, so an out-of-range access (undefined behaviour) cannot be written down in this file.

The comparator `comp` receives the *current contents* and two positions.  The ordinary use is
`fun v i j => lt v[i] v[j]`; `graph_primitive::sort_nodes` really does compare positions (see `Verif.Model.SortNodes`).
The projection `proj` of the C++ code is folded into `comp`.
-/
namespace Verif.Heap

/-- A comparison of the elements at two positions of the current contents. -/
abbrev PosComp (α : Type) (n : Nat) := Vector α n → Fin n → Fin n → Bool

/-- The comparator obtained from a comparison of values: `comp(proj(*i), proj(*j))`. -/
def valComp {α : Type} {n : Nat} (lt : α → α → Bool) : PosComp α n := fun v i j => lt v[i] v[j]

/-- `bubble_up`, Algorithms.hpp:23-34. -/
def bubbleUp {α : Type} {n : Nat} (comp : PosComp α n) (v : Vector α n) (cur : Nat) (h : cur < n) : Vector α n :=
  if hz : cur = 0 then v
  else
    if comp v ⟨(cur - 1) / 2, by omega⟩ ⟨cur, h⟩ then
      bubbleUp comp (v.swap ((cur - 1) / 2) cur (by omega) h) ((cur - 1) / 2) (by omega)
    else v
termination_by cur
decreasing_by omega

/-- The dominant child, Algorithms.hpp:43-46, of a position which has two children. -/
def domChild {α : Type} {n : Nat} (comp : PosComp α n) (v : Vector α n) (cur : Nat) (h : 2 * (cur + 1) < n) : Fin n :=
  if comp v ⟨2 * (cur + 1), h⟩ ⟨2 * (cur + 1) - 1, by omega⟩ then ⟨2 * (cur + 1) - 1, by omega⟩
  else ⟨2 * (cur + 1), h⟩

theorem domChild_cases {α : Type} {n : Nat} (comp : PosComp α n) (v : Vector α n) (cur : Nat) (h : 2 * (cur + 1) < n) :
    (domChild comp v cur h : Nat) = 2 * cur + 1 ∨ (domChild comp v cur h : Nat) = 2 * cur + 2 := by
  unfold domChild; split
  · left; simp; omega
  · right; simp; omega

/-- `bubble_down`, Algorithms.hpp:36-58, on `[begin, begin + e)` starting from position `cur`. -/
def bubbleDown {α : Type} {n : Nat} (comp : PosComp α n) (v : Vector α n) (cur e : Nat) (he : e ≤ n) : Vector α n :=
  if e ≤ 1 then v
  else if h2 : 2 * (cur + 1) < e then
    if comp v ⟨cur, by omega⟩ (domChild comp v cur (by omega)) then
      bubbleDown comp (v.swap (domChild comp v cur (by omega)) cur (Fin.isLt _) (by omega))
        (domChild comp v cur (by omega)) e he
    else v
  else if h1 : 2 * cur + 1 < e then
    if comp v ⟨cur, by omega⟩ ⟨2 * cur + 1, by omega⟩ then v.swap (2 * cur + 1) cur (by omega) (by omega) else v
  else v
termination_by e - cur
decreasing_by
  have := domChild_cases comp v cur (by omega)
  omega

/-- The loop of `make_heap`, Algorithms.hpp:65-70: `current` runs up to `end`. -/
def makeHeapLoop {α : Type} {n : Nat} (comp : PosComp α n) (v : Vector α n) (cur e : Nat) (he : e ≤ n) : Vector α n :=
  if h : cur < e then makeHeapLoop comp (bubbleUp comp v cur (by omega)) (cur + 1) e he else v
termination_by e - cur

/-- `make_heap`, Algorithms.hpp:60-71, on `[begin, begin + e)`. -/
def makeHeap {α : Type} {n : Nat} (comp : PosComp α n) (v : Vector α n) (e : Nat) (he : e ≤ n) : Vector α n :=
  if e ≤ 1 then v else makeHeapLoop comp v 1 e he

/-- The extraction loop of `sort`, Algorithms.hpp:85-90. -/
def sortLoop {α : Type} {n : Nat} (comp : PosComp α n) (v : Vector α n) : (e : Nat) → e ≤ n → Vector α n
  | 0, _ => v
  | e + 1, h => sortLoop comp (bubbleDown comp (v.swap 0 e (by omega) (by omega)) 0 e (by omega)) e (by omega)

/-- `sort`, Algorithms.hpp:79-91. -/
def sort {α : Type} {n : Nat} (comp : PosComp α n) (v : Vector α n) : Vector α n :=
  if n ≤ 1 then v else sortLoop comp (makeHeap comp v n (Nat.le_refl n)) n (Nat.le_refl n)

/-- `sequoia::sort` applied to a sequence of values with comparator `lt`. -/
def sortList {α : Type} (lt : α → α → Bool) (l : List α) : List α :=
  (sort (valComp lt) (⟨l.toArray, by simp⟩ : Vector α l.length)).toList

end Verif.Heap
