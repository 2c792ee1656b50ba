import Verif.Model.Partitioned
/- What the operations on a partitioned sequence mean for a list of lists. -/
namespace Verif.Spec
open Verif.Partitioned

/-- Change one of the lists. -/
def atList {α : Type} (s : List (List α)) (i : Nat) (f : List α → List α) : List (List α) :=
  s.mapIdx fun k l => if k = i then f l else l

/-- Exchange two of the lists. -/
def exchange {α : Type} (s : List (List α)) (i j : Nat) : List (List α) :=
  s.mapIdx fun k l => if k = i then s.getD j l else if k = j then s.getD i l else l

/-- The specification.  Inserting beyond the end of a partition inserts at its end; erasing beyond the end, or in a
partition which does not exist, does nothing; asking for a partition which does not exist is outside the contract. -/
def lolStep {α : Type} (s : List (List α)) : Op α → Outcome (List (List α)) (Val α)
  | .addSlot => .ret (s ++ [[]]) .unit
  | .insertSlot pos => .ret (s.take pos ++ [] :: s.drop pos) .unit
  | .eraseSlot n => .ret (s.take n ++ s.drop (n + 1)) .unit
  | .swapPartitions i j => .ret (if i < s.length ∧ j < s.length then exchange s i j else s) .unit
  | .pushBack i a => if i < s.length then .ret (atList s i (· ++ [a])) .unit else .threw s
  | .insert i pos a =>
    match s[i]? with
    | some l => .ret (atList s i fun l => l.take pos ++ a :: l.drop pos) (.iter i (min pos l.length))
    | none => .threw s
  | .erase i pos =>
    match s[i]? with
    | some l => .ret (atList s i fun l => l.take pos ++ l.drop (pos + 1)) (.iter i (min pos l.length))
    | none => .ret s .npos
  | .eraseRange i p j q =>
    match s[i]?, s[j]? with
    | some l, some m =>
      if p ≤ l.length ∧ q ≤ m.length then
        if i = j then .ret (if p < q then atList s i fun l => l.take p ++ l.drop q else s) (.iter i p) else .threw s
      else .ub
    | _, _ => .ub
  | .clear => .ret [] .unit
  | .partition i =>
    match s[i]? with
    | some l => .ret s (.list l)
    | none => .ub
  | .numPartitions => .ret s (.num s.length)
  | .size => .ret s (.num s.flatten.length)

/-- The calls on which the two storages disagree: inserting strictly beyond the end of a partition, erasing when there
are no partitions at all, asking for a partition which does not exist. -/
def Differs {α : Type} (s : List (List α)) : Op α → Prop
  | .insert i pos _ => ∃ l, s[i]? = some l ∧ l.length < pos
  | .erase _ _ => s = []
  | .partition i => s.length ≤ i
  | _ => False

/-- No call of the history is one on which the storages disagree. -/
def Agreed {α : Type} : List (List α) → List (Op α) → Prop
  | _, [] => True
  | s, o :: os => ¬ Differs s o ∧ match lolStep s o with
    | .ret s' _ => Agreed s' os
    | .threw s' => Agreed s' os
    | .ub => True

end Verif.Spec
