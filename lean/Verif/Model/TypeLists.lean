import Verif.Model.Basic
/-
Model of the algorithms on lists of types and on index sequences, which the compiler executes:
/repo/Source/sequoia/Core/Meta/Sequences.hpp, TypeAlgorithms.hpp and TypeList.hpp.

Types are elements of some `τ`, lists of types and index sequences are lists; `Option` is used where an instantiation may be ill-formed.  A class template with several
specializations is modelled by a match; that the most specialized or most constrained one is selected has been taken into account by the order of the cases.  Lists of types
are taken to be instances of one class template, `TT` in the code.
-/
namespace Verif.TypeLists

/-! ### Index sequences -/

/-- `concat_sequences`, Sequences.hpp:28-45; there is no specialization for no sequence at all. -/
def concatSequences : List (List Nat) → Option (List Nat)
  | [] => none
  | [is] => some is
  | is :: js :: rest => concatSequences ((is ++ js) :: rest)
termination_by l => l.length

section
variable {τ ε : Type} [DecidableEq τ] [DecidableEq ε]

/-- `aggregate`, Sequences.hpp:50-69; `typeToType` stands for `TypeToType<T>::type`. -/
def aggregate (total : Nat) (excluded : ε) (typeToType : τ → ε) : List Nat → List τ → List Nat
  | m, [] => m
  | m, t :: ts => aggregate total excluded typeToType (m ++ if excluded = typeToType t then [] else [total - ts.length - 1]) ts

/-- `filtered_sequence`, Sequences.hpp:76-83. -/
def filteredSequence (excluded : ε) (typeToType : τ → ε) (ts : List τ) : List Nat := aggregate ts.length excluded typeToType [] ts

/-- `rotate_sequence`, Sequences.hpp:87-102. -/
def rotateSequence : List Nat → List Nat
  | [] => []
  | i :: is => is ++ [i]

/-- `reverse_sequence`, Sequences.hpp:107-128. -/
def reverseSequence : List Nat → List Nat
  | [] => []
  | [i] => [i]
  | i :: j :: is => reverseSequence (j :: is) ++ [i]

/-- `shift_sequence`, Sequences.hpp:132-142. -/
def shiftSequence (is : List Nat) (n : Nat) : List Nat := is.map (n + ·)

/-- `impl::sequence_partial_sum`, Sequences.hpp:148-164: the sums so far are held in reverse. -/
def partialSumImpl : List Nat → List Nat → Option (List Nat)
  | [], _ => none
  | i :: is, [] => some (i :: is)
  | i :: is, next :: remaining => partialSumImpl ((i + next) :: i :: is) remaining
termination_by _ l => l.length

/-- `sequence_partial_sum`, Sequences.hpp:167-183. -/
def sequencePartialSum : List Nat → Option (List Nat)
  | [] => some []
  | i :: is => (partialSumImpl [i] is).map reverseSequence

/-! ### Algorithms on lists of types -/

/-- `lower_bound::get`, TypeAlgorithms.hpp:84-97; the first argument bounds the number of instantiations. -/
def lowerBoundGet (lt : τ → τ → Bool) (ts : List τ) (u : τ) : Nat → Nat → Nat → Option Nat
  | 0, _, _ => none
  | fuel + 1, lower, upper =>
    if lower = upper then some lower
    else
      match ts[(lower + upper) / 2]? with
      | none => none
      | some t => if lt t u then lowerBoundGet lt ts u fuel ((lower + upper) / 2 + 1) upper else lowerBoundGet lt ts u fuel lower ((lower + upper) / 2)

/-- `lower_bound`, TypeAlgorithms.hpp:73-100. -/
def lowerBound (lt : τ → τ → Bool) (ts : List τ) (u : τ) : Option Nat := lowerBoundGet lt ts u (ts.length + 1) 0 ts.length

/-- `filter`, TypeAlgorithms.hpp:104-115. -/
def filter (ts : List τ) (is : List Nat) : Option (List τ) := is.mapM (ts[·]?)

/-- `filter_by_trait`, TypeAlgorithms.hpp:117-127. -/
def filterByTrait (trait : τ → Bool) (ts : List τ) : Option (List τ) := filter ts (filteredSequence false trait ts)

/-- `drop`, TypeAlgorithms.hpp:131-148. -/
def drop (ts : List τ) (n : Nat) : Option (List τ) := if ts.length ≤ n then some [] else filter ts (shiftSequence (List.range (ts.length - n)) n)

/-- `keep`, TypeAlgorithms.hpp:152-169. -/
def keep (ts : List τ) (n : Nat) : Option (List τ) := if ts.length ≤ n then some ts else filter ts (List.range n)

/-- `insert`, TypeAlgorithms.hpp:173-208. -/
def insert (us : List τ) (t : τ) (i : Nat) : Option (List τ) :=
  if i ≤ us.length then (filter us (List.range i)).bind fun a => (filter us (shiftSequence (List.range (us.length - i)) i)).map fun b => a ++ t :: b else none

/-- `erase`, TypeAlgorithms.hpp:212-229.  For an index which is out of range the length of an index sequence would be negative. -/
def erase (ts : List τ) (i : Nat) : Option (List τ) :=
  match ts, i with
  | _ :: ts, 0 => some ts
  | ts, i =>
    if ts.length ≤ i then none
    else (concatSequences [List.range i, shiftSequence (List.range (ts.length - i - 1)) (i + 1)]).bind (filter ts)

/-- `merge_from_position` for a single type, TypeAlgorithms.hpp:279-285: its position and the resulting list. -/
def mergeSingle (lt : τ → τ → Bool) (t : τ) (us : List τ) (i : Nat) : Option (Nat × List τ) :=
  (drop us i).bind fun rest => (lowerBound lt rest t).bind fun p => (insert us t (i + p)).map fun l => (i + p, l)

/-- `merge_from_position`, TypeAlgorithms.hpp:267-292.  Of several types the first is merged from position zero, whatever the position given. -/
def mergeFromPosition (lt : τ → τ → Bool) : List τ → List τ → Nat → Option (List τ)
  | [], us, _ => some us
  | [t], us, i => (mergeSingle lt t us i).map (·.2)
  | t :: t' :: ts, us, _ => (mergeSingle lt t us 0).bind fun r => mergeFromPosition lt (t' :: ts) r.2 (r.1 + 1)

/-- `merge`, TypeAlgorithms.hpp:233-298. -/
def merge (lt : τ → τ → Bool) : List τ → List τ → Option (List τ)
  | ts, [] => some ts
  | [], us => some us
  | [t], [u] => if lt t u then some [t, u] else some [u, t]
  | ts, us => mergeFromPosition lt ts us 0

/-- `stable_sort`, TypeAlgorithms.hpp:302-327; the first argument bounds the depth of the instantiations. -/
def stableSort (lt : τ → τ → Bool) : Nat → List τ → Option (List τ)
  | 0, _ => none
  | _ + 1, [] => some []
  | _ + 1, [t] => some [t]
  | fuel + 1, ts =>
    (keep ts (ts.length / 2)).bind fun a => (drop ts (ts.length / 2)).bind fun b =>
      (stableSort lt fuel a).bind fun a => (stableSort lt fuel b).bind fun b => merge lt a b

/-- `stable_sort_t`, TypeAlgorithms.hpp:305-306. -/
def stableSortT (lt : τ → τ → Bool) (ts : List τ) : Option (List τ) := stableSort lt (ts.length + 1) ts

/-- `find`, TypeAlgorithms.hpp:331-347. -/
def find (u : τ) : List τ → Nat
  | [] => 0
  | t :: ts => if t = u then 0 else 1 + find u ts

/-- `find_if`, TypeAlgorithms.hpp:351-367. -/
def findIf (p : τ → Bool) : List τ → Nat
  | [] => 0
  | t :: ts => if p t then 0 else 1 + findIf p ts

/-- `contains`, TypeAlgorithms.hpp:371-380: a fold over `||`. -/
def contains (ts : List τ) (u : τ) : Bool := ts.foldr (fun t b => decide (u = t) || b) false

/-- `concat`, TypeAlgorithms.hpp:408-418. -/
def concat (ts us : List τ) : List τ := ts ++ us

/-- `reverse`, TypeAlgorithms.hpp:422-443. -/
def reverse : List τ → List τ
  | [] => []
  | [t] => [t]
  | t :: t' :: ts => concat (reverse (t' :: ts)) [t]

/-! ### Type lists without repetitions -/

/-- `build_faithful_type_list<type_list<Ts...>, Us...>`, TypeList.hpp:68-85. -/
def faithfulFrom : List τ → List τ → List τ
  | ts, [] => ts
  | ts, u :: us => faithfulFrom (if u ∈ ts then ts else ts ++ [u]) us

/-- `faithful_type_list`, TypeList.hpp:50-91, of types which are not themselves type lists. -/
def faithful : List τ → List τ
  | [] => []
  | t :: ts => faithfulFrom [t] ts

/-- `type_list_union`, TypeList.hpp:100-123, of lists of types which are not themselves type lists. -/
def union : List (List τ) → Option (List τ)
  | [] => none
  | [ts] => some ts
  | ts :: us :: vs => union (faithful (ts ++ us) :: vs)
termination_by l => l.length

end

/-! ### Nested lists -/

/-- A type is an instance of the class template `TT`, or something else. -/
inductive Ty (α : Type) where
  | other (a : α)
  | tt (ts : List (Ty α))

/-- `flatten<TT<Ts...>>`, TypeAlgorithms.hpp:384-404; the first argument bounds the depth of the instantiations. -/
def flatten {α : Type} : Nat → List (Ty α) → Option (List (Ty α))
  | 0, _ => none
  | fuel + 1, [.tt ts] => flatten fuel ts
  | fuel + 1, .tt ts :: .tt us :: vs => flatten fuel (.tt (ts ++ us) :: vs)
  | _ + 1, ts => some ts

end Verif.TypeLists
