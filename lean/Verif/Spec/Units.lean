import Verif.Model.Units
/-
What is meant by the exponents of a unit.
-/
namespace Verif.Spec
open Verif.Units

/-- Units made by multiplication and division, together with the exponents of the base units: `Built e u f` if `u` is what an expression gives in which the exponents of the base
units add up to `f`. -/
inductive Built {N : Type} [DecidableEq N] (e : Env N) : Unit N → (N → Int) → Prop
  | none : Built e (.single ⟨e.noUnit, false⟩) (fun _ => 0)
  | base {n : N} : n ≠ e.noUnit → Built e (.single ⟨n, false⟩) (fun m => if m = n then 1 else 0)
  | mul {u v w : Unit N} {f g : N → Int} : Built e u f → Built e v g → mul e u v = some w → Built e w (fun m => f m + g m)
  | div {u v w : Unit N} {f g : N → Int} : Built e u f → Built e v g → div e u v = some w → Built e w (fun m => f m - g m)

/-- The names of types are totally ordered, so that different types have different names. -/
structure UnitNames {N : Type} (lt : Ty N → Ty N → Bool) : Prop where
  irrefl : ∀ t, lt t t = false
  trans : ∀ t u v, lt t u = true → lt u v = true → lt t v = true
  total : ∀ t u, t ≠ u → lt t u = true ∨ lt u t = true

/-- The usual situation: names are totally ordered, only `no_unit_t` derives from `no_unit_t`, and validators are the identity or those for the half line. -/
structure Usual {N : Type} (e : Env N) : Prop where
  names : UnitNames e.lt
  derived : ∀ n, e.derived n = true ↔ n = e.noUnit
  validators : ∀ n, e.validator n = .identity ∨ e.validator n = .halfLine

end Verif.Spec
