/-
Model of `cluster` in /repo/Source/sequoia/Algorithms/Algorithms.hpp:139-165.

As in `Verif.Model.Heap`, a range of `n` elements is a `Vector α n`, iterators are positions and every access carries a
proof that it is in range.  The projection is folded into `eq`.
-/
namespace Verif.Cluster

/-- First loop, Algorithms.hpp:148-149: advance `current` while it matches `*begin`. -/
def skip {α : Type} {n : Nat} (eq : α → α → Bool) (v : Vector α n) (b : Nat) (hb : b < n) (cur : Nat) : Nat :=
  if h : cur < n then (if eq v[cur] v[b] then skip eq v b hb (cur + 1) else cur) else cur
termination_by n - cur

/-- Second loop, Algorithms.hpp:153-162.  `eoc` is `endOfCluster`.  The guard `eoc ≤ cur` always holds when the loop is
entered from `cluster`; it makes the access at `eoc` visibly in range. -/
def gather {α : Type} {n : Nat} (eq : α → α → Bool) (v : Vector α n) (b : Nat) (hb : b < n) (eoc cur : Nat)
    (hec : eoc ≤ cur) : Vector α n × Nat :=
  if h : cur < n then
    if eq v[cur] v[b] then gather eq (v.swap eoc cur (by omega) h) b hb (eoc + 1) (cur + 1) (by omega)
    else gather eq v b hb eoc (cur + 1) (by omega)
  else (v, eoc)
termination_by n - cur

theorem skip_ge {α : Type} {n : Nat} (eq : α → α → Bool) (v : Vector α n) (b : Nat) (hb : b < n) (cur : Nat) :
    cur ≤ skip eq v b hb cur := by
  induction hd : n - cur generalizing cur with
  | zero => unfold skip; rw [dif_neg (by omega)]; exact Nat.le_refl _
  | succ d ih =>
    unfold skip; rw [dif_pos (by omega)]
    split
    · have := ih (cur + 1) (by omega); omega
    · exact Nat.le_refl _

/-- `cluster(begin, end, ...)`, Algorithms.hpp:142-165, from position `b`.  The recursion of line 164 consumes fuel:
`none` means that the fuel ran out. -/
def cluster {α : Type} {n : Nat} (eq : α → α → Bool) : Nat → Vector α n → Nat → Option (Vector α n)
  | 0, _, _ => none
  | fuel + 1, v, b =>
    if h : b < n then
      let r := gather eq v b h (skip eq v b h b) (skip eq v b h b) (Nat.le_refl _)
      cluster eq fuel r.1 r.2
    else some v

end Verif.Cluster
