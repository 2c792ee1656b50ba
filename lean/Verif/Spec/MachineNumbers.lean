import Verif.Model.Basic
/- Commutative rings and fields whose operations may be undefined for some operands. -/
namespace Verif.Spec.MachineNumbers

variable {α : Type} (mem : α → Prop) (zero one : α) (add sub mul : α → α → Res α)

/-- An operation gives a member for any two members, without fail. -/
def Closed (op : α → α → Res α) : Prop := ∀ a b, mem a → mem b → ∃ c, mem c ∧ op a b = .ok c

/-- The members form a commutative group under `add`, and `sub` inverts it. -/
structure AdditiveGroup : Prop where
  add_closed : Closed mem add
  sub_closed : Closed mem sub
  zero_mem : mem zero
  add_comm : ∀ a b, mem a → mem b → add a b = add b a
  add_assoc : ∀ a b c, mem a → mem b → mem c → ((add a b).bind fun x => add x c) = (add b c).bind fun x => add a x
  add_zero : ∀ a, mem a → add a zero = .ok a
  add_sub : ∀ a b, mem a → mem b → ((add a b).bind fun x => sub x b) = .ok a
  sub_add : ∀ a b, mem a → mem b → ((sub a b).bind fun x => add x b) = .ok a

/-- The members form a commutative ring. -/
structure CommutativeRing : Prop extends AdditiveGroup mem zero add sub where
  mul_closed : Closed mem mul
  one_mem : mem one
  mul_comm : ∀ a b, mem a → mem b → mul a b = mul b a
  mul_assoc : ∀ a b c, mem a → mem b → mem c → ((mul a b).bind fun x => mul x c) = (mul b c).bind fun x => mul a x
  mul_one : ∀ a, mem a → mul a one = .ok a
  distrib : ∀ a b c, mem a → mem b → mem c →
    ((add a b).bind fun x => mul x c) = (mul a c).bind fun x => (mul b c).bind fun y => add x y

/-- All members but zero have an inverse. -/
def Invertible : Prop := zero ≠ one ∧ ∀ a, mem a → a ≠ zero → ∃ b, mem b ∧ mul a b = .ok one

end Verif.Spec.MachineNumbers
