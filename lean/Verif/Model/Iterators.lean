import Verif.Model.Partitioned
/-
The iterators of partitioned sequences: /repo/Source/sequoia/Core/ContainerUtilities/Iterator.hpp and the members of
/repo/Source/sequoia/Core/DataStructures/PartitionedData.hpp which hand them out and take them.

Not modelled: the constraints (`dereference_policy_for`, `has_sensible_semantics`), `operator->`, which differs from
`operator*` by an address only, iterators left over from before a change of the sequence, and index types which are too
narrow for the number of elements.
-/
namespace Verif.Iterators
open Verif.Partitioned

/-! ### the underlying iterators -/

/-- An iterator of a `std::vector`, or a `std::reverse_iterator` of one.  `block` says which vector, `pos` is the
position of the iterator, or of `base()` if it is reversed. -/
structure Base where
  block : Nat
  pos : Nat
  rev : Bool
  deriving DecidableEq, Repr

/-- The number of elements of the vector iterated over. -/
def sizeAt {α : Type} (mem : List (List α)) (b : Base) : Nat :=
  match mem[b.block]? with
  | some l => l.length
  | none => 0

/-- `b += n` of the standard library; leaving the vector is undefined. -/
def Base.add {α : Type} (mem : List (List α)) (b : Base) (n : Int) : Res Base :=
  let p : Int := if b.rev then (b.pos : Int) - n else (b.pos : Int) + n
  if 0 ≤ p ∧ p ≤ (sizeAt mem b : Int) then .ok { b with pos := p.toNat } else .ub

/-- `*b` of the standard library; a reversed iterator refers to the element before its base. -/
def Base.deref {α : Type} (mem : List (List α)) (b : Base) : Res α :=
  match mem[b.block]? with
  | some l =>
    if b.rev ∧ b.pos = 0 then .ub
    else match l[if b.rev then b.pos - 1 else b.pos]? with
      | some a => .ok a
      | none => .ub
  | none => .ub

/-- `b - c` of the standard library; undefined for iterators of different vectors. -/
def Base.sub (b c : Base) : Res Int :=
  if b.block = c.block ∧ b.rev = c.rev then .ok (if b.rev then (c.pos : Int) - b.pos else (b.pos : Int) - c.pos)
  else .ub

/-! ### the wrapper -/

/-- `iterator<Iterator, DereferencePolicy>`, Iterator.hpp:232-378: the data of the policy and `m_BaseIterator`. -/
structure Iter (A : Type) where
  aux : A
  base : Base
  deriving DecidableEq, Repr

variable {α A ρ : Type}

/-- `operator*`, Iterator.hpp:273-276; `get` is the dereference policy. -/
def Iter.star (get : Base → Res ρ) (it : Iter A) : Res ρ := get it.base

/-- `operator[]`, Iterator.hpp:279-283. -/
def Iter.index (mem : List (List α)) (get : Base → Res ρ) (it : Iter A) (n : Int) : Res ρ :=
  (it.base.add mem n).bind get

/-- `operator+=`, Iterator.hpp:306-311. -/
def Iter.addAssign (mem : List (List α)) (it : Iter A) (n : Int) : Res (Iter A) :=
  (it.base.add mem n).bind fun b => .ok { it with base := b }

/-- `it + n`, Iterator.hpp:314-319. -/
def Iter.plus (mem : List (List α)) (it : Iter A) (n : Int) : Res (Iter A) :=
  let tmp := it
  tmp.addAssign mem n

/-- `n + it`, Iterator.hpp:322-326. -/
def Iter.plus' (mem : List (List α)) (n : Int) (it : Iter A) : Res (Iter A) := it.plus mem n

/-- `++it`, Iterator.hpp:291-296; `++b` is `b += 1`. -/
def Iter.inc (mem : List (List α)) (it : Iter A) : Res (Iter A) :=
  (it.base.add mem 1).bind fun b => .ok { it with base := b }

/-- `it++`, Iterator.hpp:298-304: the value, and the iterator afterwards. -/
def Iter.postInc (mem : List (List α)) (it : Iter A) : Res (Iter A × Iter A) :=
  let tmp := it
  (it.inc mem).bind fun it' => .ok (tmp, it')

/-- `--it`, Iterator.hpp:328-332; `--b` is `b -= 1`. -/
def Iter.dec (mem : List (List α)) (it : Iter A) : Res (Iter A) :=
  (it.base.add mem (-1)).bind fun b => .ok { it with base := b }

/-- `it--`, Iterator.hpp:334-340. -/
def Iter.postDec (mem : List (List α)) (it : Iter A) : Res (Iter A × Iter A) :=
  let tmp := it
  (it.dec mem).bind fun it' => .ok (tmp, it')

/-- `operator-=`, Iterator.hpp:342-347; `b -= n` is `b += -n`. -/
def Iter.subAssign (mem : List (List α)) (it : Iter A) (n : Int) : Res (Iter A) :=
  (it.base.add mem (-n)).bind fun b => .ok { it with base := b }

/-- `it - n`, Iterator.hpp:350-355. -/
def Iter.minus (mem : List (List α)) (it : Iter A) (n : Int) : Res (Iter A) :=
  let tmp := it
  tmp.subAssign mem n

/-- `lhs - rhs`, Iterator.hpp:358-362. -/
def Iter.diff (lhs rhs : Iter A) : Res Int := lhs.base.sub rhs.base

/-- `lhs == rhs`, Iterator.hpp:365-368: the underlying iterators only.  They are equal if their distance vanishes, and
not to be compared if they have none. -/
def Iter.eq (lhs rhs : Iter A) : Res Bool := (lhs.base.sub rhs.base).bind fun d => .ok (decide (d = 0))

/-- `lhs <=> rhs`, Iterator.hpp:371-374: the underlying iterators only. -/
def Iter.cmp (lhs rhs : Iter A) : Res Ordering :=
  (lhs.base.sub rhs.base).bind fun d => .ok (if d < 0 then .lt else if d = 0 then .eq else .gt)

/-! ### partition iterators -/

/-- `partition_iterator` and its reversed form: `identity_dereference_policy` with `partition_index_policy`,
PartitionedData.hpp:31-58, PartitionedDataDetails.hpp:18-48; `none` is `npos`. -/
abbrev PIter := Iter (Option Nat)

/-- Either of the storages: `partitioned_sequence` or `bucketed_sequence`. -/
inductive Storage (α : Type) where
  | contig (c : Contig α)
  | bucket (s : List (List α))
  deriving DecidableEq, Repr

/-- The vectors of a storage. -/
def Storage.mem : Storage α → List (List α)
  | .contig c => [c.data]
  | .bucket s => s

/-- `num_partitions`, PartitionedData.hpp:517-521 and 169-170. -/
def Storage.numPartitions : Storage α → Nat
  | .contig c => c.bounds.length
  | .bucket s => s.length

/-- `identity_dereference_policy::get`, Iterator.hpp:198. -/
def Storage.get (st : Storage α) (b : Base) : Res α := b.deref st.mem

/-- `edge_weight_dereference_policy::get`, Connectivity.hpp:1628-1631, over the partition iterators of a storage. -/
def Storage.getWeight {W : Type} (weight : α → W) (st : Storage α) (b : Base) : Res W :=
  (b.deref st.mem).bind fun e => .ok (weight e)

/-- `get_begin_iterator`, PartitionedData.hpp:953-960.  Forwards it is given `m_Data.begin()`, reversed `m_Data.rend()`:
in both cases the position is 0. -/
def contigBegin (c : Contig α) (rev : Bool) (i : Nat) : Res PIter :=
  let index := if c.bounds.length ≤ i then none else some i
  let iter : PIter := ⟨index, ⟨0, 0, rev⟩⟩
  if rev then iter.minus [c.data] (c.beginOff i) else iter.plus [c.data] (c.beginOff i)

/-- `get_end_iterator`, PartitionedData.hpp:962-984. -/
def contigEnd (c : Contig α) (rev : Bool) (i : Nat) : Res PIter :=
  let index := if i < c.bounds.length then some i else if rev then some 0 else none
  let iter : PIter := ⟨index, ⟨0, 0, rev⟩⟩
  if rev then iter.minus [c.data] (c.endOff i) else iter.plus [c.data] (c.endOff i)

/-- The position `m_Buckets.back().end()`. -/
def backEnd (s : List (List α)) : Res Base :=
  match s.getLast? with
  | some l => .ok ⟨s.length - 1, l.length, false⟩
  | none => .ub

/-- The member handing out the first iterator of a partition.  Contiguous: `begin_partition`, `rbegin_partition`,
PartitionedData.hpp:524-563.  Bucketed: PartitionedData.hpp:327-331 and 355-359. -/
def Storage.first (st : Storage α) (rev : Bool) (i : Nat) : Res PIter :=
  match st with
  | .contig c => if rev then contigEnd c true i else contigBegin c false i
  | .bucket s =>
    if s.isEmpty then .throws
    else match s[i]? with
      | some l => .ok ⟨some i, if rev then ⟨i, l.length, true⟩ else ⟨i, 0, false⟩⟩
      | none => if rev then .ok ⟨none, ⟨0, 0, true⟩⟩ else (backEnd s).bind fun b => .ok ⟨none, b⟩

/-- The member handing out the last iterator of a partition.  Contiguous: `end_partition`, `rend_partition`,
PartitionedData.hpp:530-569.  Bucketed: PartitionedData.hpp:334-338 and 362-366. -/
def Storage.last (st : Storage α) (rev : Bool) (i : Nat) : Res PIter :=
  match st with
  | .contig c => if rev then contigBegin c true i else contigEnd c false i
  | .bucket s =>
    if s.isEmpty then .throws
    else match s[i]? with
      | some l => .ok ⟨some i, if rev then ⟨i, 0, true⟩ else ⟨i, l.length, false⟩⟩
      | none => if rev then .ok ⟨none, ⟨0, 0, true⟩⟩ else (backEnd s).bind fun b => .ok ⟨none, b⟩

/-! ### changing a sequence through iterators -/

/-- Emplacing into one of the vectors; the position must be one of that vector. -/
def emplace (l : List α) (pos : Nat) (a : α) : Res (List α) := if pos ≤ l.length then .ok (l.insertIdx pos a) else .ub

/-- Erasing from one of the vectors; there must be something at the position. -/
def eraseAt (l : List α) (pos : Nat) : Res (List α) := if pos < l.length then .ok (l.eraseIdx pos) else .ub

/-- An exception leaves the sequence as it was. -/
def lift {σ β γ : Type} (s : σ) (r : Res γ) (f : γ → Outcome σ β) : Outcome σ β :=
  match r with
  | .ok x => f x
  | .throws => .threw s
  | .ub => .ub

/-- `insert_to_partition(pos, ...)`, PartitionedData.hpp:814-824 and 264-273. -/
def Storage.insertAt (st : Storage α) (it : PIter) (a : α) : Outcome (Storage α) PIter :=
  match st with
  | .contig c =>
    match it.aux with
    | some source =>
      if source < c.bounds.length then
        if it.base.block = 0 ∧ it.base.rev = false then
          lift st (emplace c.data it.base.pos a) fun d =>
            .ret (.contig ⟨mutateU c.bounds source c.bounds.length (· + 1), d⟩) ⟨some source, it.base⟩
        else .ub
      else .threw st
    | none => .threw st
  | .bucket s =>
    match it.aux with
    | some source =>
      match s[source]? with
      | some l =>
        if it.base.block = source ∧ it.base.rev = false then
          lift st (emplace l it.base.pos a) fun d => .ret (.bucket (s.set source d)) ⟨some source, it.base⟩
        else .ub
      | none => .threw st
    | none => .threw st

/-- `erase_from_partition(iter)`, PartitionedData.hpp:832-848 and 282-296. -/
def Storage.eraseAt (st : Storage α) (it : PIter) : Outcome (Storage α) PIter :=
  match it.aux with
  | some p =>
    if st.numPartitions ≤ p then lift st (st.last false st.numPartitions) fun e => .ret st e
    else
      lift st (st.last false p) fun e =>
        lift st (it.eq e) fun atEnd =>
          if atEnd then .ret st e
          else match st with
            | .contig c =>
              lift st (Iterators.eraseAt c.data it.base.pos) fun d =>
                .ret (.contig ⟨mutateU c.bounds p c.bounds.length (· - 1), d⟩) ⟨some p, it.base⟩
            | .bucket s =>
              match s[p]? with
              | some l => lift st (Iterators.eraseAt l it.base.pos) fun d => .ret (.bucket (s.set p d)) ⟨some p, it.base⟩
              | none => .ub
  | none => lift st (st.last false st.numPartitions) fun e => .ret st e

/-! ### programs which use iterators -/

/-- What a user does with an iterator. -/
inductive Move where
  | inc | dec | postInc | postDec
  | addAssign (n : Int) | subAssign (n : Int)
  /-- `it = it + n`, `it = n + it`, `it = it - n` -/
  | plus (n : Int) | plus' (n : Int) | minus (n : Int)
  deriving DecidableEq, Repr

/-- One step of such a program. -/
def Iter.move (mem : List (List α)) (it : Iter A) : Move → Res (Iter A)
  | .inc => it.inc mem
  | .dec => it.dec mem
  | .postInc => (it.postInc mem).bind fun r => .ok r.2
  | .postDec => (it.postDec mem).bind fun r => .ok r.2
  | .addAssign n => it.addAssign mem n
  | .subAssign n => it.subAssign mem n
  | .plus n => it.plus mem n
  | .plus' n => Iter.plus' mem n it
  | .minus n => it.minus mem n

/-- Such a program. -/
def Iter.walk (mem : List (List α)) (it : Iter A) : List Move → Res (Iter A)
  | [] => .ok it
  | m :: ms => (it.move mem m).bind fun it' => it'.walk mem ms

/-- `for(; it != last; ++it) out.push_back(*it);`, with `none` if `fuel` rounds are not enough. -/
def Iter.loop (mem : List (List α)) (get : Base → Res ρ) (last : Iter A) : Nat → Iter A → Res (Option (List ρ))
  | 0, _ => .ok none
  | fuel + 1, it =>
    (it.eq last).bind fun done =>
      if done then .ok (some [])
      else (it.star get).bind fun x =>
        (it.inc mem).bind fun it' =>
          (Iter.loop mem get last fuel it').bind fun r => .ok (r.map (x :: ·))

end Verif.Iterators
