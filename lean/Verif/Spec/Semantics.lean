import Verif.Model.Semantics
/-
What a check of the semantics of a type demands, and types which are well behaved.
-/
namespace Verif.Spec.Semantics
open Verif.Semantics

section
variable {W U : Type}

/-- A check passes: no failure is logged. -/
def Passes {α : Type} (c : M W α) (w : W) : Prop := ∀ b ∈ (c w).2.1, b = true

/-- A step of an experiment: something is done, or something is expected. -/
inductive Step (W : Type) where
  | do' (f : W → W)
  | expect (b : W → Bool)

/-- All expectations are met. -/
def Meets : List (Step W) → W → Prop
  | [], _ => True
  | .do' f :: s, w => Meets s (f w)
  | .expect b :: s, w => b w = true ∧ Meets s w

open Step

variable (t : Ops W U)

/-- An object compares equal to itself. -/
def reflexive (a : Var) : List (Step W) := [expect (t.eq · a a), expect fun w => !t.ne w a a]

/-- An object is neither less nor greater than itself. -/
def reflexiveOrder (a : Var) : List (Step W) :=
  [expect fun w => !t.lt w a a, expect (t.le · a a), expect fun w => !t.gt w a a, expect (t.ge · a a)] ++
    match t.threeway with
    | none => []
    | some c => [expect fun w => c w a a == .eq]

/-- All operators other than `operator<` agree that the first object is less than the second. -/
def less (w : W) (a b : Var) : Bool := t.gt w b a && t.le w a b && t.ge w b a &&
  match t.threeway with
  | none => true
  | some c => c w a b == .lt

/-- What is demanded of the order of the objects given by the user.  If `x` is said to be greater than `y`, then it is not demanded that `operator<` says that `y` is less than `x`. -/
def ordered : Option Ordering → List (Step W)
  | none => []
  | some .lt => reflexiveOrder t .x ++ reflexiveOrder t .y ++ [expect (t.lt · .x .y), expect (less t · .x .y)]
  | some .gt => reflexiveOrder t .x ++ reflexiveOrder t .y ++ [expect (t.gt · .x .y), expect fun w => if t.lt w .x .y then less t w .x .y else less t w .y .x]
  | some .eq => [expect fun _ => false]

/-- An object which has been moved from is as predicted, if there is a prediction. -/
def moved (a : Var) : Option U → List (Step W)
  | none => []
  | some p => [expect (t.against · a p)]

/-- Mutation of a copy, and of what has been assigned, changes the copy but not that from which it was made. -/
def mutation : Option (Var → W → W) → List (Step W)
  | none => []
  | some mutate =>
    [do' (t.copyConstruct .y .v), do' (mutate .v), expect (t.ne · .v .y), do' (t.copyAssign .y .v), expect (t.eq · .v .y), do' (mutate .v), expect (t.ne · .v .y), do' (t.destroy .v)]

/-- What is serialized and then deserialized stays the same. -/
def serialization : Option (Var → Var → W → W) → List (Step W)
  | none => []
  | some stream => [do' (t.copyConstruct .x .u), do' (stream .y .u), expect (t.eq · .u .y), do' (t.destroy .u)]

/-- The experiment for regular types. -/
def regularExperiment (order : Option Ordering) (movedConstruction movedAssignment : Option U) (mutator : Option (Var → W → W)) : List (Step W) :=
  reflexive t .x ++ reflexive t .y ++ [expect (t.ne · .x .y)] ++ ordered t order ++
    [do' (t.copyConstruct .x .z), expect (t.eq · .z .x)] ++
    [do' (t.copyAssign .y .z), expect (t.eq · .z .y)] ++
    [do' (t.copyAssign .z .z), expect (t.eq · .z .y)] ++
    [do' (t.moveConstruct .z .m), expect (t.eq · .m .y)] ++ moved t .z movedConstruction ++ [do' (t.moveConstruct .m .opt), do' (t.destroy .m), do' (t.destroy .opt)] ++
    [do' (t.copyConstruct .x .w), do' (t.copyConstruct .y .ty), do' (t.moveAssign .ty .w), expect (t.eq · .w .y)] ++ moved t .ty movedAssignment ++ [do' (t.destroy .ty)] ++
    [do' (t.copyConstruct .x .sx), do' (t.copyConstruct .y .sy), do' (t.swap .sx .sy), expect (t.eq · .sy .x), expect (t.eq · .sx .y)] ++
    [do' (t.swap .sy .sy), expect (t.eq · .sy .x), do' (t.destroy .sy), do' (t.destroy .sx)] ++
    mutation t mutator ++ serialization t t.stream

/-- What is deserialized is what has been serialized. -/
def serializationFrom (ye : U) : Option (U → Var → W → W) → List (Step W)
  | none => []
  | some stream => [do' (stream ye .x), expect (t.against · .x ye)]

/-- The experiment for types which can only be moved. -/
def moveOnlyExperiment (xe ye : U) (order : Option Ordering) (movedConstruction movedAssignment : Option U) : List (Step W) :=
  reflexive t .x ++ reflexive t .y ++ [expect (t.ne · .x .y), expect (t.against · .x xe), expect (t.against · .y ye)] ++ ordered t order ++
    [do' (t.moveConstruct .x .m), expect (t.against · .m xe)] ++ moved t .x movedConstruction ++ [do' (t.moveConstruct .m .opt), do' (t.destroy .m)] ++
    [do' (t.swap .opt .y), expect (t.against · .y xe), expect (t.against · .opt ye)] ++
    [do' (t.swap .y .y), expect (t.against · .y xe)] ++
    [do' (t.moveAssign .opt .y), expect (t.against · .y ye)] ++ moved t .opt movedAssignment ++
    serializationFrom t ye t.streamFrom

/-- Each object has a value, on which comparisons depend as they should. -/
structure Truthful {V : Type} (val : W → Var → V) : Prop where
  eq : ∀ w a b, t.eq w a b = true ↔ val w a = val w b
  ne : ∀ w a b, t.ne w a b = true ↔ val w a ≠ val w b

/-- To move an object transfers its value, to swap objects exchanges their values, and apart from this these operations have no effect on the value of an object. -/
structure Moves {V : Type} (val : W → Var → V) : Prop extends Truthful t val where
  moveConstruct : ∀ w a b, a ≠ b → val (t.moveConstruct a b w) b = val w a
  moveConstruct_other : ∀ w a b c, c ≠ a → c ≠ b → val (t.moveConstruct a b w) c = val w c
  moveAssign : ∀ w a b, a ≠ b → val (t.moveAssign a b w) b = val w a
  moveAssign_other : ∀ w a b c, c ≠ a → c ≠ b → val (t.moveAssign a b w) c = val w c
  swap_left : ∀ w a b, val (t.swap a b w) a = val w b
  swap_right : ∀ w a b, val (t.swap a b w) b = val w a
  swap_other : ∀ w a b c, c ≠ a → c ≠ b → val (t.swap a b w) c = val w c
  destroy_other : ∀ w a c, c ≠ a → val (t.destroy a w) c = val w c

/-- Besides, copies have the value of the original, what is deserialized has the value of what has been serialized, and these operations have no effect on the value of other objects. -/
structure WellBehaved {V : Type} (val : W → Var → V) : Prop extends Moves t val where
  copyConstruct : ∀ w a b, a ≠ b → val (t.copyConstruct a b w) b = val w a
  copyConstruct_other : ∀ w a b c, c ≠ b → val (t.copyConstruct a b w) c = val w c
  copyAssign : ∀ w a b, val (t.copyAssign a b w) b = val w a
  copyAssign_other : ∀ w a b c, c ≠ b → val (t.copyAssign a b w) c = val w c
  stream : ∀ f, t.stream = some f → ∀ w a b, a ≠ b → val (f a b w) b = val w a
  stream_other : ∀ f, t.stream = some f → ∀ w a b c, c ≠ b → val (f a b w) c = val w c

/-- All operators agree with a relation between values which is irreflexive and transitive. -/
structure WellOrdered {V : Type} (val : W → Var → V) (lt : V → V → Prop) : Prop where
  irrefl : ∀ a, ¬ lt a a
  trans : ∀ a b c, lt a b → lt b c → lt a c
  less : ∀ w a b, t.lt w a b = true ↔ lt (val w a) (val w b)
  greater : ∀ w a b, t.gt w a b = true ↔ lt (val w b) (val w a)
  lessEqual : ∀ w a b, t.le w a b = true ↔ lt (val w a) (val w b) ∨ val w a = val w b
  greaterEqual : ∀ w a b, t.ge w a b = true ↔ lt (val w b) (val w a) ∨ val w a = val w b
  threeway_eq : ∀ c, t.threeway = some c → ∀ w a, c w a a = .eq
  threeway_lt : ∀ c, t.threeway = some c → ∀ w a b, lt (val w a) (val w b) → c w a b = .lt

/-- The order claimed by the user is that of the values. -/
def Claimed {V : Type} (lt : V → V → Prop) (a b : V) : Option Ordering → Prop
  | none => True
  | some .lt => lt a b
  | some .gt => lt b a
  | some .eq => False

/-- A mutator changes objects with the given value, and no others. -/
structure Mutates {V : Type} (val : W → Var → V) (v : V) (mutate : Var → W → W) : Prop where
  changes : ∀ w a, val w a = v → val (mutate a w) a ≠ v
  other : ∀ w a c, c ≠ a → val (mutate a w) c = val w c

/-- Copies have the value of the original, and to copy an object has no effect on other ones. -/
structure Copies {V : Type} (val : W → Var → V) : Prop where
  copy : ∀ w a b, a ≠ b → val (t.copyConstruct a b w) b = val w a
  other : ∀ w a b c, c ≠ b → val (t.copyConstruct a b w) c = val w c

/-- Ways in which a type may be defective. -/
inductive Defective {V : Type} (val : W → Var → V) : Option (Var → W → W) → Prop where
  /-- copies are not equal to the original -/
  | copy {k} : (∀ w a b, a ≠ b → val (t.copyConstruct a b w) b ≠ val (t.copyConstruct a b w) a) → Defective val k
  /-- what has been assigned to is not equal to what has been assigned -/
  | assign {k} : (∀ w a b, a ≠ b → val (t.copyAssign a b w) b ≠ val (t.copyAssign a b w) a) → Defective val k
  /-- to assign an object to itself changes its value -/
  | selfAssign {k} : (∀ w a c, a ≠ c → val w a = val w c → val (t.copyAssign a a w) a ≠ val (t.copyAssign a a w) c) → Defective val k
  /-- what has been constructed from a moved object has another value -/
  | moveConstruct {k} : (∀ w a b c, a ≠ c → b ≠ c → val w a = val w c → val (t.moveConstruct a b w) b ≠ val (t.moveConstruct a b w) c) → Defective val k
  /-- what a moved object has been assigned to has another value -/
  | moveAssign {k} : Copies t val → (∀ w a b c, a ≠ c → b ≠ c → val w a = val w c → val (t.moveAssign a b w) b ≠ val (t.moveAssign a b w) c) → Defective val k
  /-- swapped objects do not have each other's value -/
  | swap {k} : Copies t val → (∀ w a b c d, a ≠ b → c ≠ a → c ≠ b → d ≠ a → d ≠ b → val w a = val w c → val w b = val w d →
      val (t.swap a b w) b ≠ val (t.swap a b w) c ∨ val (t.swap a b w) a ≠ val (t.swap a b w) d) → Defective val k
  /-- to swap an object with itself changes its value -/
  | selfSwap {k} : (∀ w a c, a ≠ c → val w a = val w c → val (t.swap a a w) a ≠ val (t.swap a a w) c) → Defective val k
  /-- a copy shares its value with the original, so that to mutate it is to mutate both -/
  | shallowCopy {mutate} : (∀ w a b, val (mutate b (t.copyConstruct a b w)) b = val (mutate b (t.copyConstruct a b w)) a) → Defective val (some mutate)
  /-- the same, for what has been assigned to -/
  | shallowAssign {mutate} : (∀ w a b, val (mutate b (t.copyAssign a b w)) b = val (mutate b (t.copyAssign a b w)) a) → Defective val (some mutate)
  /-- what has been serialized and then deserialized is not the same -/
  | stream {k f} : t.stream = some f → (∀ w a b, a ≠ b → val (f a b w) b ≠ val (f a b w) a) → Defective val k

end

end Verif.Spec.Semantics
