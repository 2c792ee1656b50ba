import Verif.Model.Checkers
import Verif.Spec.Logger
import Mathlib.Data.List.Forall2
/-
Vocabulary for C66: what it means for two values to be the same, or alike.
-/
namespace Verif.CheckersSpec
open Verif.Logger Verif.LoggerSpec Verif.Checkers

variable {C : Nat → Type}

/-- Both are null or neither is, and then the contents are related. -/
def Both {α : Type} (R : α → α → Prop) : Option α → Option α → Prop
  | none, none => True
  | some x, some y => R x y
  | _, _ => False

/-- Two pointers agree about whether they are null, and what they point to, if anything, is related. -/
def Pointees {α : Type} (R : α → α → Prop) : Option (Nat × α) → Option (Nat × α) → Prop := Both fun p q => R p.2 q.2

/-- Two pointers hold the same address, or both are null. -/
def SameAddress {α : Type} : Option (Nat × α) → Option (Nat × α) → Prop := Both fun p q => p.1 = q.1

/-- The same alternative of a variant, with related contents. -/
def Alternatives {n : Nat} {A : Fin n → Type} (R : (i : Fin n) → A i → A i → Prop) (x y : (i : Fin n) × A i) : Prop :=
  ∃ (i : Fin n) (a b : A i), x = ⟨i, a⟩ ∧ y = ⟨i, b⟩ ∧ R i a b

/-- Functions both of which are empty, or neither. -/
def BothEmpty (x y : Option Nat) : Prop := x = none ↔ y = none

/-- Values which are the same, pointers being regarded as addresses. -/
def Same : (T : Ty) → T.Val C → T.Val C → Prop
  | .cls _ => fun x y => x = y
  | .str => fun (x y : List Nat) => x = y
  | .range _ e => fun (x y : List (e.Val C)) => List.Forall₂ (Same e) x y
  | .pair s t => fun (x y : s.Val C × t.Val C) => Same s x.1 y.1 ∧ Same t x.2 y.2
  | .tup n ts => fun (x y : (i : Fin n) → (ts i).Val C) => ∀ i, Same (ts i) (x i) (y i)
  | .var n ts => fun (x y : (i : Fin n) × (ts i).Val C) => Alternatives (fun i => Same (ts i)) x y
  | .opt t => fun (x y : Option (t.Val C)) => Both (Same t) x y
  | .ptr t => fun (x y : Option (Nat × t.Val C)) => SameAddress x y
  | .smart t => fun (x y : Option (Nat × t.Val C)) => SameAddress x y
  | .weak t => fun (x y : Option (Nat × t.Val C)) => SameAddress x y
  | .fn => fun (x y : Option Nat) => x = y
  | .time _ _ => fun (x y : Int) => x = y

/-- The type has an `operator==`, and so have the types it is made of. -/
def HasEq (E : Env C) : Ty → Prop
  | .cls n => E.comparable n = true
  | .str => True
  | .range n e => E.rangeComparable n = true ∧ HasEq E e
  | .pair s t => HasEq E s ∧ HasEq E t
  | .tup _ ts => ∀ i, HasEq E (ts i)
  | .var _ ts => ∀ i, HasEq E (ts i)
  | .opt t => HasEq E t
  | .ptr _ => True
  | .smart _ => True
  | .weak _ => False
  | .fn => False
  | .time _ _ => True

/-- What the best available check looks at: what ordinary pointers point to, but the addresses held by smart pointers; and for a pair, tuple, variant or optional also whether
its `operator==`, if there is one, says that the values are the same.  Of functions nothing but whether they are empty is looked at. -/
def Best (E : Env C) : (T : Ty) → T.Val C → T.Val C → Prop
  | .cls _ => fun x y => x = y
  | .str => fun (x y : List Nat) => x = y
  | .range _ e => fun (x y : List (e.Val C)) => List.Forall₂ (Best E e) x y
  | .pair s t => fun (x y : s.Val C × t.Val C) => (HasEq E (.pair s t) → Same (.pair s t) x y) ∧ Best E s x.1 y.1 ∧ Best E t x.2 y.2
  | .tup n ts => fun (x y : (i : Fin n) → (ts i).Val C) => (HasEq E (.tup n ts) → Same (.tup n ts) x y) ∧ ∀ i, Best E (ts i) (x i) (y i)
  | .var n ts => fun (x y : (i : Fin n) × (ts i).Val C) => (HasEq E (.var n ts) → Same (.var n ts) x y) ∧ Alternatives (fun i => Best E (ts i)) x y
  | .opt t => fun (x y : Option (t.Val C)) => (HasEq E (.opt t) → Same (.opt t) x y) ∧ Both (Best E t) x y
  | .ptr t => fun (x y : Option (Nat × t.Val C)) => Pointees (Best E t) x y
  | .smart t => fun (x y : Option (Nat × t.Val C)) => SameAddress x y
  | .weak t => fun (x y : Option (Nat × t.Val C)) => SameAddress x y
  | .fn => BothEmpty
  | .time _ _ => fun (x y : Int) => x = y

/-- Values which are equivalent: what pointers point to is compared, as well as possible. -/
def Alike (E : Env C) : (T : Ty) → T.Val C → T.Val C → Prop
  | .cls _ => fun x y => x = y
  | .str => fun (x y : List Nat) => x = y
  | .range _ e => fun (x y : List (e.Val C)) => List.Forall₂ (Alike E e) x y
  | .pair s t => fun (x y : s.Val C × t.Val C) => Alike E s x.1 y.1 ∧ Alike E t x.2 y.2
  | .tup n ts => fun (x y : (i : Fin n) → (ts i).Val C) => ∀ i, Alike E (ts i) (x i) (y i)
  | .var n ts => fun (x y : (i : Fin n) × (ts i).Val C) => Alternatives (fun i => Alike E (ts i)) x y
  | .opt t => fun (x y : Option (t.Val C)) => Both (Alike E t) x y
  | .ptr t => fun (x y : Option (Nat × t.Val C)) => Pointees (Best E t) x y
  | .smart t => fun (x y : Option (Nat × t.Val C)) => Pointees (Best E t) x y
  | .weak t => fun (x y : Option (Nat × t.Val C)) => Pointees (Best E t) x y
  | .fn => BothEmpty
  | .time _ _ => fun (x y : Int) => x = y

/-- What a check of the given kind is to establish. -/
def Means (E : Env C) : Flavour → (T : Ty) → T.Val C → T.Val C → Prop
  | .equality => Same
  | .simple => Same
  | .equivalence => Alike E
  | .weak => Alike E
  | .best => Best E
  | .minimal => Best E

/-- No pointers and no functions are involved. -/
def PointerFree : Ty → Prop
  | .cls _ => True
  | .str => True
  | .range _ e => PointerFree e
  | .pair s t => PointerFree s ∧ PointerFree t
  | .tup _ ts => ∀ i, PointerFree (ts i)
  | .var _ ts => ∀ i, PointerFree (ts i)
  | .opt t => PointerFree t
  | .ptr _ => False
  | .smart _ => False
  | .weak _ => False
  | .fn => False
  | .time _ _ => True

/-- No ordinary pointers and no functions are involved. -/
def NoRawPointers : Ty → Prop
  | .cls _ => True
  | .str => True
  | .range _ e => NoRawPointers e
  | .pair s t => NoRawPointers s ∧ NoRawPointers t
  | .tup _ ts => ∀ i, NoRawPointers (ts i)
  | .var _ ts => ∀ i, NoRawPointers (ts i)
  | .opt t => NoRawPointers t
  | .ptr _ => False
  | .smart _ => True
  | .weak _ => True
  | .fn => False
  | .time _ _ => True

/-- Ranges, nested to any depth, of strings or of objects of a class. -/
def Ranges : Ty → Prop
  | .cls _ => True
  | .str => True
  | .range _ e => Ranges e
  | _ => False

/-- Ranges, nested to any depth, of objects of the class `n`. -/
def RangesOf (n : Nat) : Ty → Prop
  | .cls m => m = n
  | .range _ e => RangesOf n e
  | _ => False

/-- Within two values, pointers with the same address point to the same thing. -/
def Coherent : (T : Ty) → T.Val C → T.Val C → Prop
  | .cls _ => fun _ _ => True
  | .str => fun _ _ => True
  | .range _ e => fun (x y : List (e.Val C)) => ∀ p ∈ x.zip y, Coherent e p.1 p.2
  | .pair s t => fun (x y : s.Val C × t.Val C) => Coherent s x.1 y.1 ∧ Coherent t x.2 y.2
  | .tup n ts => fun (x y : (i : Fin n) → (ts i).Val C) => ∀ i, Coherent (ts i) (x i) (y i)
  | .var n ts => fun (x y : (i : Fin n) × (ts i).Val C) => ∀ (i : Fin n) (a b : (ts i).Val C), x = ⟨i, a⟩ → y = ⟨i, b⟩ → Coherent (ts i) a b
  | .opt t => fun (x y : Option (t.Val C)) => ∀ a b, x = some a → y = some b → Coherent t a b
  | .ptr t => fun (x y : Option (Nat × t.Val C)) => ∀ p q, x = some p → y = some q → p.1 = q.1 → p.2 = q.2
  | .smart t => fun (x y : Option (Nat × t.Val C)) => ∀ p q, x = some p → y = some q → p.1 = q.1 → p.2 = q.2
  | .weak t => fun (x y : Option (Nat × t.Val C)) => ∀ p q, x = some p → y = some q → p.1 = q.1 → p.2 = q.2
  | .fn => fun _ _ => True
  | .time _ _ => fun _ _ => True

/-- Whatever the testers of users do, the sentinels within them are properly nested. -/
def Nested (E : Env C) : Prop := ∀ n φ t, E.tester n φ = some t → ∀ x y, Balanced (t x y)

/-- The operators and testers of classes tell the truth. -/
structure HonestClasses (E : Env C) : Prop where
  eq : ∀ n, E.comparable n = true → ∀ x y, E.eq n x y = true ↔ x = y
  tester : ∀ n φ t, E.tester n φ = some t → ∀ x y, ¬ SomethingFailed (t x y) ↔ x = y

/-- The operators and testers of classes and ranges tell the truth. -/
structure Honest (E : Env C) : Prop extends HonestClasses E where
  range : ∀ n e, E.rangeComparable n = true → HasEq E e → ∀ x y, E.rangeEq n e x y = true ↔ List.Forall₂ (Same e) x y

/-- Values made of classes in nested ranges, which are related by `R` throughout. -/
def Throughout (n : Nat) (R : C n → C n → Prop) : (T : Ty) → T.Val C → T.Val C → Prop
  | .cls m => fun x y => ∃ h : m = n, R (h ▸ x) (h ▸ y)
  | .range _ e => fun (x y : List (e.Val C)) => List.Forall₂ (Throughout n R e) x y
  | _ => fun _ _ => False

end Verif.CheckersSpec
