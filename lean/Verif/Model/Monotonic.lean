import Verif.Model.Basic
/-
Model of monotonic_sequence and static_monotonic_sequence,
/repo/Source/sequoia/Maths/Sequences/MonotonicSequence.hpp.

The underlying sequence is a list, iterators are positions.  `cmp` is `Compare{}`.
-/
namespace Verif.Monotonic

/-- The checked mutating operations.  The operation passed to `mutate` may itself throw. -/
inductive Op (α : Type) where
  | pushBack (v : α)
  | insert (pos : Nat) (v : α)
  | erase (pos : Nat)
  | eraseRange (first last : Nat)
  | clear
  | mutate (first last : Nat) (op : α → Res α)

/-- `check`, MonotonicSequence.hpp:232-242: is there an adjacent pair with `cmp`? -/
def check {α : Type} (cmp : α → α → Bool) : List α → Bool
  | a :: b :: t => if cmp a b then true else check cmp (b :: t)
  | _ => false

/-- Construction from an initializer list, MonotonicSequence.hpp:130-135, 221-230 (dynamic storage). -/
def construct {α : Type} (cmp : α → α → Bool) (l : List α) : Res (List α) :=
  if check cmp l then .throws else .ok l

/-- Construction of the static sequence of length `N`, MonotonicSequence.hpp:226-230 with `to_array`
(ArrayUtilities.hpp:27-63): too long a list throws, a short one is padded with default values, then `check`. -/
def constructStatic {α : Type} (cmp : α → α → Bool) (dflt : α) (N : Nat) (l : List α) : Res (List α) :=
  if N < l.length then .throws else construct cmp (l ++ List.replicate (N - l.length) dflt)

/-- The loop applying `op`, MonotonicSequence.hpp:95-98, on the elements of `[f, l)`. -/
def mapOp {α : Type} (op : α → Res α) : List α → Res (List α)
  | [] => .ok []
  | a :: t => do let b ← op a; let u ← mapOp op t; pure (b :: u)

/-- The checking loop of `mutate`, MonotonicSequence.hpp:103-109: `true` if a violation is found. -/
def scan {α : Type} (cmp : α → α → Bool) (tmp : List α) (f l : Nat) : Res Bool :=
  if hf : f ≠ l ∧ f + 1 ≠ tmp.length then
    if h : f + 1 < tmp.length then
      if cmp tmp[f] tmp[f + 1] then .ok true else scan cmp tmp (f + 1) l
    else .ub
  else .ok false
termination_by tmp.length - f

/-- `mutate(first, last, op)`, MonotonicSequence.hpp:86-113. -/
def mutate {α : Type} (cmp : α → α → Bool) (s : List α) (first last : Nat) (op : α → Res α) : Outcome (List α) Unit :=
  if first ≤ last ∧ last ≤ s.length then
    if first = last then .ret s ()
    else
      match mapOp op ((s.drop first).take (last - first)) with
      | .throws => .threw s
      | .ub => .ub
      | .ok mid =>
        let tmp := s.take first ++ mid ++ s.drop last
        let f := if first ≠ 0 then first - 1 else first
        let l := if last ≠ tmp.length then last + 1 else last
        match scan cmp tmp f l with
        | .ok true => .threw s
        | .ok false => .ret tmp ()
        | _ => .ub
  else .ub

/-- `insert`, MonotonicSequence.hpp:176-184. -/
def insert {α : Type} (cmp : α → α → Bool) (s : List α) (pos : Nat) (v : α) : Outcome (List α) Unit :=
  if hp : pos ≤ s.length then
    if (if h : pos ≠ s.length then cmp v (s[pos]'(by omega)) else false) ||
       (if h : pos ≠ 0 then cmp (s[pos - 1]'(by omega)) v else false)
    then .threw s
    else .ret (s.insertIdx pos v) ()
  else .ub

/-- The mutating members, MonotonicSequence.hpp:86-113 and 168-214. -/
def step {α : Type} (cmp : α → α → Bool) (s : List α) : Op α → Outcome (List α) Unit
  | .pushBack v =>
    match s.getLast? with
    | some b => if cmp b v then .threw s else .ret (s ++ [v]) ()
    | none => .ret (s ++ [v]) ()
  | .insert pos v => insert cmp s pos v
  | .erase pos => if pos < s.length then .ret (s.eraseIdx pos) () else .ub
  | .eraseRange first last =>
    if first ≤ last ∧ last ≤ s.length then .ret (s.take first ++ s.drop last) () else .ub
  | .clear => .ret [] ()
  | .mutate first last op => mutate cmp s first last op

end Verif.Monotonic
