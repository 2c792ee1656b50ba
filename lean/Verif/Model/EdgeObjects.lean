import Verif.Model.Basic
import Verif.Model.SharedWeights
/-
Model of edges as objects: `weighting`, `partial_edge_base`, `decorated_partial_edge_base` and `partial_edge` of /repo/Source/sequoia/Maths/Graph/Edge.hpp:45-315, with the handlers `shared` and
`by_value` of Core/Object/Handlers.hpp:20-86.

A program has edges which are numbered in the order in which they are made.  Edges which do not exist cannot be named in C++; in the model this is undefined.  Edges are not destroyed.  The
index which an embedded edge has in addition to its target (Edge.hpp:318-375) is handled exactly as the target is and is left out.
-/
namespace Verif.EdgeObjects
open Verif.Graph (Mem)

/-- What a program may do with edges. -/
inductive Op (W M : Type) where
  /-- Construction from a target, meta data and a weight, Edge.hpp:160-163, 235-239; also the conversion of an edge with another handler, 247-252. -/
  | create (t : Nat) (m : M) (w : W)
  /-- Copy construction, Edge.hpp:95-97, 170, 254. -/
  | copy (i : Nat)
  /-- Construction from a target, meta data and another edge, whose weight is to be used, Edge.hpp:165-168, 241-244, 99-102. -/
  | share (t : Nat) (m : M) (i : Nat)
  /-- Move construction, Edge.hpp:104, 171, 281. -/
  | move (i : Nat)
  /-- `i = j`, Edge.hpp:106-110, 183, 255. -/
  | copyAssign (i j : Nat)
  /-- `i = std::move(j)`, Edge.hpp:112, 184, 282. -/
  | moveAssign (i j : Nat)
  /-- `weight(w)`, Edge.hpp:62-72. -/
  | setWeight (i : Nat) (w : W)
  /-- `mutate_weight`, Edge.hpp:74-78, with a function which returns nothing. -/
  | mutateWeight (i : Nat) (f : W → W)
  /-- `weight()`, Edge.hpp:56-60. -/
  | weight (i : Nat)
  /-- `target_node(t)`, Edge.hpp:176. -/
  | setTarget (i t : Nat)
  /-- `target_node()`, Edge.hpp:174. -/
  | target (i : Nat)
  /-- `meta_data(m)`, Edge.hpp:261-268. -/
  | setMeta (i : Nat) (m : M)
  /-- `meta_data()`, Edge.hpp:259. -/
  | metaData (i : Nat)
  /-- `i == j`, Edge.hpp:81-85, 179, 277, 314. -/
  | equal (i j : Nat)

/-- What a call returns. -/
inductive Val (W M : Type) where
  | unit
  | weight (w : W)
  | index (n : Nat)
  | md (m : M)
  | bool (b : Bool)
  deriving DecidableEq, Repr

section shared
variable {W M : Type}

/-- An edge whose weight is held by a `std::shared_ptr`, Edge.hpp:114, 186, 284; the pointer is null once the edge has been moved from. -/
structure Obj (M : Type) where
  target : Nat
  md : M
  ptr : Option Nat

/-- The edges of a program and the weights they point to. -/
structure World (W M : Type) where
  mem : Mem W
  objs : List (Obj M)

/-- No edges, hence no weights; `w` is what is in memory before. -/
def World.init (w : W) : World W M := ⟨⟨fun _ => w, 0⟩, []⟩

variable [DecidableEq W] [DecidableEq M] (gone : M → M)

/-- The members of edges with `shared`, Handlers.hpp:32-63; `make_shared_braced` (20-29) allocates, `get` dereferences the pointer.  `gone` is what is left of meta data which have been moved.
Assigning `std::shared_ptr` from itself as an rvalue changes nothing; meta data are taken to be unchanged, too.  The defaulted comparison begins with the base class, hence with the weights. -/
def sharedStep (s : World W M) : Op W M → Outcome (World W M) (Val W M)
  | .create t m w => .ret ⟨s.mem.alloc w, s.objs ++ [⟨t, m, some s.mem.next⟩]⟩ .unit
  | .copy i =>
    match s.objs[i]? with
    | some ⟨t, m, some a⟩ => .ret ⟨s.mem.alloc (s.mem.cell a), s.objs ++ [⟨t, m, some s.mem.next⟩]⟩ .unit
    | _ => .ub
  | .share t m i =>
    match s.objs[i]? with
    | some o => .ret ⟨s.mem, s.objs ++ [⟨t, m, o.ptr⟩]⟩ .unit
    | none => .ub
  | .move i =>
    match s.objs[i]? with
    | some o => .ret ⟨s.mem, s.objs.set i { o with ptr := none, md := gone o.md } ++ [o]⟩ .unit
    | none => .ub
  | .copyAssign i j =>
    match s.objs[i]?, s.objs[j]? with
    | some _, some p =>
      if i = j then .ret s .unit
      else match p.ptr with
        | some a => .ret ⟨s.mem.alloc (s.mem.cell a), s.objs.set i ⟨p.target, p.md, some s.mem.next⟩⟩ .unit
        | none => .ub
    | _, _ => .ub
  | .moveAssign i j =>
    match s.objs[i]?, s.objs[j]? with
    | some _, some p =>
      if i = j then .ret s .unit
      else .ret ⟨s.mem, (s.objs.set j { p with ptr := none, md := gone p.md }).set i p⟩ .unit
    | _, _ => .ub
  | .setWeight i w =>
    match s.objs[i]? with
    | some ⟨_, _, some a⟩ => .ret ⟨s.mem.write a w, s.objs⟩ .unit
    | _ => .ub
  | .mutateWeight i f =>
    match s.objs[i]? with
    | some ⟨_, _, some a⟩ => .ret ⟨s.mem.write a (f (s.mem.cell a)), s.objs⟩ .unit
    | _ => .ub
  | .weight i =>
    match s.objs[i]? with
    | some ⟨_, _, some a⟩ => .ret s (.weight (s.mem.cell a))
    | _ => .ub
  | .setTarget i t =>
    match s.objs[i]? with
    | some o => .ret ⟨s.mem, s.objs.set i { o with target := t }⟩ .unit
    | none => .ub
  | .target i =>
    match s.objs[i]? with
    | some o => .ret s (.index o.target)
    | none => .ub
  | .setMeta i m =>
    match s.objs[i]? with
    | some o => .ret ⟨s.mem, s.objs.set i { o with md := m }⟩ .unit
    | none => .ub
  | .metaData i =>
    match s.objs[i]? with
    | some o => .ret s (.md o.md)
    | none => .ub
  | .equal i j =>
    match s.objs[i]?, s.objs[j]? with
    | some ⟨t, m, some a⟩, some ⟨u, n, some b⟩ =>
      .ret s (.bool (decide (s.mem.cell a = s.mem.cell b) && decide (t = u) && decide (m = n)))
    | _, _ => .ub

end shared

section byValue
variable {W M : Type}

/-- An edge whose weight is a member, Edge.hpp:114 with `by_value`, Handlers.hpp:66-86. -/
structure VObj (W M : Type) where
  target : Nat
  md : M
  weight : W

variable [DecidableEq W] [DecidableEq M] (gone : M → M) (goneW : W → W)

/-- The members of edges with `by_value`.  `m_Weight{other.m_Weight}` (Edge.hpp:101) copies the weight here.  `goneW` is what is left of a weight which has been moved. -/
def valueStep (s : List (VObj W M)) : Op W M → Outcome (List (VObj W M)) (Val W M)
  | .create t m w => .ret (s ++ [⟨t, m, w⟩]) .unit
  | .copy i =>
    match s[i]? with
    | some o => .ret (s ++ [o]) .unit
    | none => .ub
  | .share t m i =>
    match s[i]? with
    | some o => .ret (s ++ [⟨t, m, o.weight⟩]) .unit
    | none => .ub
  | .move i =>
    match s[i]? with
    | some o => .ret (s.set i { o with weight := goneW o.weight, md := gone o.md } ++ [o]) .unit
    | none => .ub
  | .copyAssign i j =>
    match s[i]?, s[j]? with
    | some _, some p => .ret (if i = j then s else s.set i p) .unit
    | _, _ => .ub
  | .moveAssign i j =>
    match s[i]?, s[j]? with
    | some _, some p => .ret (if i = j then s else (s.set j { p with weight := goneW p.weight, md := gone p.md }).set i p) .unit
    | _, _ => .ub
  | .setWeight i w =>
    match s[i]? with
    | some o => .ret (s.set i { o with weight := w }) .unit
    | none => .ub
  | .mutateWeight i f =>
    match s[i]? with
    | some o => .ret (s.set i { o with weight := f o.weight }) .unit
    | none => .ub
  | .weight i =>
    match s[i]? with
    | some o => .ret s (.weight o.weight)
    | none => .ub
  | .setTarget i t =>
    match s[i]? with
    | some o => .ret (s.set i { o with target := t }) .unit
    | none => .ub
  | .target i =>
    match s[i]? with
    | some o => .ret s (.index o.target)
    | none => .ub
  | .setMeta i m =>
    match s[i]? with
    | some o => .ret (s.set i { o with md := m }) .unit
    | none => .ub
  | .metaData i =>
    match s[i]? with
    | some o => .ret s (.md o.md)
    | none => .ub
  | .equal i j =>
    match s[i]?, s[j]? with
    | some o, some p => .ret s (.bool (decide (o.weight = p.weight) && decide (o.target = p.target) && decide (o.md = p.md)))
    | _, _ => .ub

end byValue
end Verif.EdgeObjects
