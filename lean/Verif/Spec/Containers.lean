import Verif.Model.StaticContainers
/- What bounded stacks and queues are, in terms of lists. -/
namespace Verif.Spec
open Verif.Static

/-- A bounded stack: the last element of the list is the top. -/
def stackStep {α : Type} (N : Nat) (l : List α) : StackOp α → Outcome (List α) (Val α)
  | .push a => if l.length = N then .threw l else .ret (l ++ [a]) .unit
  | .pop => if l = [] then .ub else .ret l.dropLast .unit
  | .top => match l.getLast? with | some a => .ret l (.elem a) | none => .ub
  | .size => .ret l (.num l.length)
  | .empty => .ret l (.bool l.isEmpty)

/-- A bounded queue: the head of the list is the oldest element. -/
def queueStep {α : Type} (N : Nat) (l : List α) : QueueOp α → Outcome (List α) (Val α)
  | .push a => if l.length = N then .threw l else .ret (l ++ [a]) .unit
  | .pop => .ret l.tail .unit
  | .front => match l.head? with | some a => .ret l (.elem a) | none => .ub
  | .back => match l.getLast? with | some a => .ret l (.elem a) | none => .ub
  | .size => .ret l (.num l.length)
  | .empty => .ret l (.bool l.isEmpty)

end Verif.Spec
