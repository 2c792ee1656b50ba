import Verif.Model.Bitmask
/-
C57: the operators of bit masks.
-/
namespace Verif.Props
open Verif.Bitmask

theorem promote_bit (signed : Bool) {w : Nat} (x : BitVec w) (i : Nat) (hi : i < w) : (promote signed x).getLsbD i = x.getLsbD i := by
  have hw : i < promotedWidth w := Nat.lt_of_lt_of_le hi (Nat.le_max_left _ _)
  cases signed
  · show (BitVec.setWidth (promotedWidth w) x).getLsbD i = _
    rw [BitVec.getLsbD_setWidth, decide_eq_true hw, Bool.true_and]
  · show (BitVec.signExtend (promotedWidth w) x).getLsbD i = _
    rw [BitVec.getLsbD_signExtend, decide_eq_true hw, Bool.true_and, if_pos hi]

/-- C57: whatever the width and the signedness of the underlying type, each bit of the result is that of the operation on the bits of the operands. -/
theorem C57_bits (signed : Bool) {w : Nat} (x y : BitVec w) (i : Nat) (hi : i < w) :
    (Bitmask.or signed x y).getLsbD i = (x.getLsbD i || y.getLsbD i) ∧ (Bitmask.and signed x y).getLsbD i = (x.getLsbD i && y.getLsbD i) ∧
      (Bitmask.xor signed x y).getLsbD i = (x.getLsbD i ^^ y.getLsbD i) ∧ (Bitmask.not signed x).getLsbD i = !x.getLsbD i := by
  have hw : i < promotedWidth w := Nat.lt_of_lt_of_le hi (Nat.le_max_left _ _)
  have hx := promote_bit signed x i hi
  have hy := promote_bit signed y i hi
  have hc : ∀ v : BitVec (promotedWidth w), (convert w v).getLsbD i = v.getLsbD i := fun v => by
    show (BitVec.setWidth w v).getLsbD i = _
    rw [BitVec.getLsbD_setWidth, decide_eq_true hi, Bool.true_and]
  refine ⟨?_, ?_, ?_, ?_⟩
  · rw [Bitmask.or, hc, BitVec.getLsbD_or, hx, hy]
  · rw [Bitmask.and, hc, BitVec.getLsbD_and, hx, hy]
  · rw [Bitmask.xor, hc, BitVec.getLsbD_xor, hx, hy]
  · rw [Bitmask.not, hc, BitVec.getLsbD_not, decide_eq_true hw, Bool.true_and, hx]

/-- The laws of a Boolean algebra, for operations on a type. -/
structure BooleanLaws {α : Type} (or and xor : α → α → α) (not : α → α) (none all : α) : Prop where
  orComm : ∀ a b, or a b = or b a
  andComm : ∀ a b, and a b = and b a
  orAssoc : ∀ a b c, or (or a b) c = or a (or b c)
  andAssoc : ∀ a b c, and (and a b) c = and a (and b c)
  orAbsorb : ∀ a b, or a (and a b) = a
  andAbsorb : ∀ a b, and a (or a b) = a
  distrib : ∀ a b c, and a (or b c) = or (and a b) (and a c)
  orNot : ∀ a, or a (not a) = all
  andNot : ∀ a, and a (not a) = none
  orNone : ∀ a, or a none = a
  andAll : ∀ a, and a all = a
  xorEq : ∀ a b, xor a b = or (and a (not b)) (and b (not a))

/-- C57: the operators satisfy the laws of a Boolean algebra, in which `^` is the symmetric difference, whatever the width and the signedness of the underlying type. -/
theorem C57_boolean_algebra (signed : Bool) (w : Nat) :
    BooleanLaws (α := BitVec w) (Bitmask.or signed) (Bitmask.and signed) (Bitmask.xor signed) (Bitmask.not signed) (0#w) (BitVec.allOnes w) := by
  have hor : ∀ (x y : BitVec w) i, i < w → (Bitmask.or signed x y).getLsbD i = (x.getLsbD i || y.getLsbD i) := fun x y i hi => (C57_bits signed x y i hi).1
  have hand : ∀ (x y : BitVec w) i, i < w → (Bitmask.and signed x y).getLsbD i = (x.getLsbD i && y.getLsbD i) := fun x y i hi => (C57_bits signed x y i hi).2.1
  have hxor : ∀ (x y : BitVec w) i, i < w → (Bitmask.xor signed x y).getLsbD i = (x.getLsbD i ^^ y.getLsbD i) := fun x y i hi => (C57_bits signed x y i hi).2.2.1
  have hnot : ∀ (x : BitVec w) i, i < w → (Bitmask.not signed x).getLsbD i = !x.getLsbD i := fun x i hi => (C57_bits signed x x i hi).2.2.2
  have h0 : ∀ i, (0#w).getLsbD i = false := fun i => BitVec.getLsbD_zero
  have h1 : ∀ i, i < w → (BitVec.allOnes w).getLsbD i = true := fun i hi => by rw [BitVec.getLsbD_allOnes, decide_eq_true hi]
  constructor <;> intros <;> refine BitVec.eq_of_getLsbD_eq fun i hi => ?_ <;> simp only [hor _ _ i hi, hand _ _ i hi, hxor _ _ i hi, hnot _ i hi, h0, h1 i hi]
  case orComm a b => cases a.getLsbD i <;> cases b.getLsbD i <;> rfl
  case andComm a b => cases a.getLsbD i <;> cases b.getLsbD i <;> rfl
  case orAssoc a b c => cases a.getLsbD i <;> cases b.getLsbD i <;> cases c.getLsbD i <;> rfl
  case andAssoc a b c => cases a.getLsbD i <;> cases b.getLsbD i <;> cases c.getLsbD i <;> rfl
  case orAbsorb a b => cases a.getLsbD i <;> cases b.getLsbD i <;> rfl
  case andAbsorb a b => cases a.getLsbD i <;> cases b.getLsbD i <;> rfl
  case distrib a b c => cases a.getLsbD i <;> cases b.getLsbD i <;> cases c.getLsbD i <;> rfl
  case orNot a => cases a.getLsbD i <;> rfl
  case andNot a => cases a.getLsbD i <;> rfl
  case orNone a => cases a.getLsbD i <;> rfl
  case andAll a => cases a.getLsbD i <;> rfl
  case xorEq a b => cases a.getLsbD i <;> cases b.getLsbD i <;> rfl

/-- C57: the assignments give the left operand the value of the operation, and setting, testing and clearing a flag work as expected. -/
theorem C57_flags (signed : Bool) {w : Nat} (mode flag : BitVec w) :
    orAssign signed mode flag = Bitmask.or signed mode flag ∧ andAssign signed mode flag = Bitmask.and signed mode flag ∧
      xorAssign signed mode flag = Bitmask.xor signed mode flag ∧
      Bitmask.and signed (orAssign signed mode flag) flag = flag ∧ Bitmask.and signed (andAssign signed mode (Bitmask.not signed flag)) flag = 0#w ∧
      xorAssign signed (xorAssign signed mode flag) flag = mode := by
  refine ⟨rfl, rfl, rfl, ?_, ?_, ?_⟩
  · have h := C57_boolean_algebra signed w
    rw [orAssign, h.andComm, h.orComm, h.andAbsorb]
  · have h := C57_boolean_algebra signed w
    rw [andAssign, h.andAssoc, h.andComm (Bitmask.not signed flag), h.andNot]
    refine BitVec.eq_of_getLsbD_eq fun i hi => ?_
    rw [(C57_bits signed mode (0#w) i hi).2.1, BitVec.getLsbD_zero, Bool.and_false]
  · refine BitVec.eq_of_getLsbD_eq fun i hi => ?_
    rw [xorAssign, (C57_bits signed _ flag i hi).2.2.1, xorAssign, (C57_bits signed mode flag i hi).2.2.1]
    cases mode.getLsbD i <;> cases flag.getLsbD i <;> rfl

/-- Masks of eight bits: promotion of a signed operand sets upper bits, which are dropped again. -/
example : (promote true (0x80#8)).toNat = 0xFFFFFF80 ∧ Bitmask.not true (0x80#8) = 0x7F#8 ∧ Bitmask.or true (0x80#8) (0x01#8) = 0x81#8 := by decide +kernel

end Verif.Props
