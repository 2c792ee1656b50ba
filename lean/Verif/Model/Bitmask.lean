/-
Model of /repo/Source/sequoia/Core/Logic/Bitmask.hpp.

An enumeration with a fixed underlying type of `w` bits; its values are all values of that type.  (Without a fixed underlying type, the values are those of the
smallest sufficient bit-field, and a conversion from any other value is undefined; such enumerations are not modelled.)  Operands narrower than `int` are promoted
to `int` before the operation, which is what `static_cast` undoes.
-/
namespace Verif.Bitmask

/-- The type in which the operation takes place: `int` has 32 bits. -/
def promotedWidth (w : Nat) : Nat := max w 32

/-- Integral promotion, by sign extension if the underlying type is signed. -/
def promote (signed : Bool) {w : Nat} (x : BitVec w) : BitVec (promotedWidth w) :=
  if signed then x.signExtend _ else x.zeroExtend _

/-- `static_cast<T>`, which drops the upper bits. -/
def convert {v : Nat} (w : Nat) (x : BitVec v) : BitVec w := x.truncate w

/-- `operator|`, Bitmask.hpp:67-74. -/
def or (signed : Bool) {w : Nat} (lhs rhs : BitVec w) : BitVec w := convert w (promote signed lhs ||| promote signed rhs)

/-- `operator&`, Bitmask.hpp:84-91. -/
def and (signed : Bool) {w : Nat} (lhs rhs : BitVec w) : BitVec w := convert w (promote signed lhs &&& promote signed rhs)

/-- `operator^`, Bitmask.hpp:101-108. -/
def xor (signed : Bool) {w : Nat} (lhs rhs : BitVec w) : BitVec w := convert w (promote signed lhs ^^^ promote signed rhs)

/-- `operator~`, Bitmask.hpp:118-125. -/
def not (signed : Bool) {w : Nat} (x : BitVec w) : BitVec w := convert w (~~~ (promote signed x))

/-- `operator|=` and its kin, Bitmask.hpp:76-82, 93-99 and 110-116: the new value of the left operand, which is also returned. -/
def orAssign (signed : Bool) {w : Nat} (lhs rhs : BitVec w) : BitVec w := or signed lhs rhs
def andAssign (signed : Bool) {w : Nat} (lhs rhs : BitVec w) : BitVec w := and signed lhs rhs
def xorAssign (signed : Bool) {w : Nat} (lhs rhs : BitVec w) : BitVec w := xor signed lhs rhs

end Verif.Bitmask
