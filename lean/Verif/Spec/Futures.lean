import Verif.Model.Futures
/-! Specification for C110: what a client of a pool is entitled to, given what the functions do. -/
namespace Verif.Futures

/-- The client asks each function for its answer at most once, and only after it has been pushed; `n` functions have been pushed, the answers in `asked` have been asked for. -/
def Usable : Nat → List Nat → List Op → Prop
  | _, _, [] => True
  | n, asked, .push :: ops => Usable (n + 1) asked ops
  | n, asked, .get i :: ops => i < n ∧ i ∉ asked ∧ Usable n (i :: asked) ops

/-- The answers, up to the first one which is an exception, and this exception. -/
def answers {R E : Type} (result : Nat → Except E R) : List Op → List R × Option E
  | [] => ([], none)
  | .push :: ops => answers result ops
  | .get i :: ops =>
    match result i with
    | .ok r => (r :: (answers result ops).1, (answers result ops).2)
    | .error e => ([], some e)

/-- The number of functions which are pushed until then. -/
def pushes {R E : Type} (result : Nat → Except E R) : List Op → Nat
  | [] => 0
  | .push :: ops => pushes result ops + 1
  | .get i :: ops =>
    match result i with
    | .ok _ => pushes result ops
    | .error _ => 0

/-- The functions whose answers are asked for until then. -/
def asked {R E : Type} (result : Nat → Except E R) : List Op → List Nat
  | [] => []
  | .push :: ops => asked result ops
  | .get i :: ops =>
    match result i with
    | .ok _ => i :: asked result ops
    | .error _ => [i]

/-- The exception of the first item, in the order of the items, which leads to one. -/
def firstThrown {W E : Type} (fn : W → W × Except E Unit) : List W → Option E
  | [] => none
  | w :: ws => match (fn w).2 with | .ok _ => firstThrown fn ws | .error e => some e

end Verif.Futures
