import Verif.Model.Dependency
/- What is expected of the selection of stale tests. -/
namespace Verif.Spec.Stale

open Verif.Dependency

section
variable {K : Type}

/-- A file includes another one. -/
def Includes (fs : List (File K)) (x y : Nat) : Prop := ∃ f, fs[x]? = some f ∧ y ∈ f.includes

/-- The file `y` is the source file which goes with the header `x`: it has the same name and includes the header. -/
def SourceOf (fs : List (File K)) (x y : Nat) : Prop :=
  ∃ f g, fs[x]? = some f ∧ fs[y]? = some g ∧ f.cpp = false ∧ g.cpp = true ∧ f.stem = g.stem ∧ x ∈ g.includes

/-- The files on which a file depends: itself, and with each file the ones it includes and, in the case of a header, the corresponding source file. -/
inductive DependsOn (fs : List (File K)) (x : Nat) : Nat → Prop
  | self : DependsOn fs x x
  | includes {y z : Nat} : DependsOn fs x y → Includes fs y z → DependsOn fs x z
  | source {y z : Nat} : DependsOn fs x y → SourceOf fs y z → DependsOn fs x z

/-- Only files which are there are included; a file of the same name which a source file includes is the header immediately after it, and a file of the same name
immediately after it is a header and included. -/
structure Tidy (fs : List (File K)) : Prop where
  inRange : ∀ x y, Includes fs x y → y < fs.length
  own : ∀ x f y g, fs[x]? = some f → f.cpp = true → y ∈ f.includes → fs[y]? = some g → g.stem = f.stem → y = x + 1 ∧ g.cpp = false
  next : ∀ x f g, fs[x]? = some f → f.cpp = true → fs[x + 1]? = some g → g.stem = f.stem → x + 1 ∈ f.includes

/-- The files can be put into layers such that each file includes only files from lower layers, and so does, apart from the header, the source file which
goes with a header. -/
def Layered (fs : List (File K)) (layer : Nat → Nat) : Prop :=
  (∀ x y, Includes fs x y → layer y < layer x) ∧ (∀ x s y, SourceOf fs x s → Includes fs s y → y ≠ x → layer y < layer x)

/-- The file was changed after the given time. -/
def ChangedAfter (fs : List (File K)) (t x : Nat) : Prop := ∃ f, fs[x]? = some f ∧ t < f.time

/-- The test, or something it depends on, or any of its materials, was changed after the given time; the folder with the materials only counts if `folder` says
so. -/
def TestChangedAfter (fs : List (File K)) (folder : Bool) (t x : Nat) : Prop :=
  (∃ y, DependsOn fs x y ∧ ChangedAfter fs t y) ∨
  (∃ f m, fs[x]? = some f ∧ f.materials = some m ∧ ((folder = true ∧ t < m.1) ∨ ∃ s ∈ m.2, t < s))

/-- The tests whose changes count: those recorded as passing need to have been changed since then as well. -/
def NeedsToRun (fs : List (File K)) (prune : Nat) (passes : Option (List K × Nat)) (x : Nat) (k : K) : Prop :=
  (∀ ps stamp, passes = some (ps, stamp) → k ∈ ps → TestChangedAfter fs true prune x ∧ TestChangedAfter fs true stamp x) ∧
  ((∀ ps stamp, passes = some (ps, stamp) → k ∉ ps) → TestChangedAfter fs false prune x)

end

end Verif.Spec.Stale
