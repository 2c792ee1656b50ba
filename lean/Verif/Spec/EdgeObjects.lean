import Verif.Model.EdgeObjects
/-
What is expected of edges as objects: no pointers, but each edge has a target, meta data and a weight, and a relation says which edges have their weight in common.
-/
namespace Verif.Spec.EdgeObjects
open Verif.EdgeObjects (Op Val)

/-- An edge as seen by a user; there is no weight once it has been moved from. -/
structure View (W M : Type) where
  target : Nat
  md : M
  weight : Option W

/-- The edges, in the order in which they have been made, and which of them have their weight in common. -/
structure State (W M : Type) where
  edges : List (View W M)
  together : Nat → Nat → Bool

section
variable {W M : Type}

/-- Edge `n` becomes (or is now) on its own. -/
def alone (r : Nat → Nat → Bool) (n : Nat) : Nat → Nat → Bool := fun a b => if a = n ∨ b = n then a == b else r a b

/-- Edge `n` joins those which have their weight in common with `i`. -/
def joins (r : Nat → Nat → Bool) (n i : Nat) : Nat → Nat → Bool := fun a b => r (if a = n then i else a) (if b = n then i else b)

/-- Every edge which has its weight in common with `i` gets the weight `w`. -/
def assignAll (s : State W M) (i : Nat) (w : W) : State W M :=
  ⟨s.edges.mapIdx fun k e => if s.together i k then { e with weight := some w } else e, s.together⟩

variable [DecidableEq W] [DecidableEq M] (sharing : Bool) (gone : M → M)

/-- What is expected.  `sharing` says whether edges may have a weight in common at all.  Whoever uses the weight of an edge which has been moved from is on his own. -/
def step (s : State W M) : Op W M → Outcome (State W M) (Val W M)
  | .create t m w => .ret ⟨s.edges ++ [⟨t, m, some w⟩], alone s.together s.edges.length⟩ .unit
  | .copy i =>
    match s.edges[i]? with
    | some ⟨t, m, some w⟩ => .ret ⟨s.edges ++ [⟨t, m, some w⟩], alone s.together s.edges.length⟩ .unit
    | _ => .ub
  | .share t m i =>
    match s.edges[i]? with
    | some ⟨_, _, some w⟩ => .ret ⟨s.edges ++ [⟨t, m, some w⟩], if sharing then joins s.together s.edges.length i else alone s.together s.edges.length⟩ .unit
    | _ => .ub
  | .move i =>
    match s.edges[i]? with
    | some e => .ret ⟨s.edges.set i { e with weight := none, md := gone e.md } ++ [e], alone (joins s.together s.edges.length i) i⟩ .unit
    | none => .ub
  | .copyAssign i j =>
    match s.edges[i]?, s.edges[j]? with
    | some _, some e =>
      if i = j then .ret s .unit
      else if e.weight.isSome then .ret ⟨s.edges.set i e, alone s.together i⟩ .unit
      else .ub
    | _, _ => .ub
  | .moveAssign i j =>
    match s.edges[i]?, s.edges[j]? with
    | some _, some e =>
      if i = j then .ret s .unit
      else .ret ⟨(s.edges.set i e).set j { e with weight := none, md := gone e.md }, alone (joins s.together i j) j⟩ .unit
    | _, _ => .ub
  | .setWeight i w =>
    match s.edges[i]? with
    | some ⟨_, _, some _⟩ => .ret (assignAll s i w) .unit
    | _ => .ub
  | .mutateWeight i f =>
    match s.edges[i]? with
    | some ⟨_, _, some w⟩ => .ret (assignAll s i (f w)) .unit
    | _ => .ub
  | .weight i =>
    match s.edges[i]? with
    | some ⟨_, _, some w⟩ => .ret s (.weight w)
    | _ => .ub
  | .setTarget i t =>
    match s.edges[i]? with
    | some e => .ret ⟨s.edges.set i { e with target := t }, s.together⟩ .unit
    | none => .ub
  | .target i =>
    match s.edges[i]? with
    | some e => .ret s (.index e.target)
    | none => .ub
  | .setMeta i m =>
    match s.edges[i]? with
    | some e => .ret ⟨s.edges.set i { e with md := m }, s.together⟩ .unit
    | none => .ub
  | .metaData i =>
    match s.edges[i]? with
    | some e => .ret s (.md e.md)
    | none => .ub
  | .equal i j =>
    match s.edges[i]?, s.edges[j]? with
    | some ⟨t, m, some v⟩, some ⟨u, n, some w⟩ => .ret s (.bool (decide ((t, m, v) = (u, n, w))))
    | _, _ => .ub

end
end Verif.Spec.EdgeObjects
