import Verif.Model.Iterators
import Verif.Spec.Partitioned
/- What iterators over partitions should do. -/
namespace Verif.Spec.Iterators
open Verif.Partitioned Verif.Iterators Verif.Spec

/-- The sequences a program can come across: contiguous storage after construction from some lists and any history of
calls within the contract, in which case the partitions are those of the list of lists to which the same was done;
bucketed storage with any buckets, which can be filled one by one. -/
def Reached {α : Type} (st : Storage α) (s : List (List α)) : Prop :=
  match st with
  | .contig c => ∃ ls ops outs c₀, Contig.init ls = .ret c₀ .unit ∧ run Contig.step c₀ ops = some (c, outs) ∧
      run lolStep ls ops = some (s, outs)
  | .bucket b => b = s

/-- How far a move goes. -/
def Move.by : Move → Int
  | .inc | .postInc => 1
  | .dec | .postDec => -1
  | .addAssign n | .plus n | .plus' n => n
  | .subAssign n | .minus n => -n

/-- Where moves lead in a sequence of `n` elements, provided that they never leave it. -/
def travel (n : Nat) : Int → List Move → Option Int
  | k, [] => some k
  | k, m :: ms => if 0 ≤ k + Move.by m ∧ k + Move.by m ≤ n then travel n (k + Move.by m) ms else none

/-- The elements in the order in which they are visited. -/
def visited {α : Type} (rev : Bool) (l : List α) : List α := if rev then l.reverse else l

end Verif.Spec.Iterators
