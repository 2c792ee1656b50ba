import Verif.Model.SoftUpdate
/-
What an update of a directory is to achieve.
-/
namespace Verif.Spec.SoftUpdate
open Verif.SoftUpdate

section
variable {N C S : Type}

/-- The names in a directory. -/
def keys (l : Entries N C S) : List N := l.map (·.1)

/-- The names of the files of the destination which are copied back into the source: files with patterns for which there is something in the source with the same stem which
is not a file with patterns, and the files which keep directories. -/
def Special (nm : Naming N) (frm to : N → Option (C ⊕ S)) (n : N) : Prop :=
  (∃ c, to n = some (.inl c)) ∧
    ((nm.isPattern n = true ∧ ∃ w, frm w ≠ none ∧ nm.stem w = nm.stem n ∧ nm.isPattern w = false) ∨ (nm.isPattern n = false ∧ nm.isKeep n = true))

/-- `g` is the source once these files have been copied. -/
def Restored (nm : Naming N) (frm to g : N → Option (C ⊕ S)) : Prop := ∀ n, (Special nm frm to n → g n = to n) ∧ (¬ Special nm frm to n → g n = frm n)

/-- No file with patterns has the stem of a file which keeps a directory. -/
def NoPatternForKeep (nm : Naming N) (to : Entries N C S) : Prop := ∀ e ∈ to, nm.isPattern e.1 = true → ∀ k, nm.isKeep k = true → nm.stem k ≠ nm.stem e.1

end

section
variable {N C S : Type} [LinearOrder N] (nm : Naming N) (reduce : C → C → C)

/-- The file with patterns which applies to the file `n` of the destination: in its new state if its name comes before `n`, in its old one otherwise. -/
def patterns (old new : N → Option (C ⊕ S)) (n : N) : Option (C ⊕ S) :=
  if nm.isPattern n then none else if nm.patternOf n < n then new (nm.patternOf n) else old (nm.patternOf n)

/-- The contents are the same, apart from what the patterns match. -/
def Same (old new : N → Option (C ⊕ S)) (n : N) (c c' : C) : Prop :=
  match patterns nm old new n with
  | none => c = c'
  | some (.inl p) => reduce p c = reduce p c'
  | some (.inr _) => False

/-- What becomes of the name `n`: `frm` and `old` are the directories before the update and `frm'` and `new` those after it.  The destination has what the source has, except that
a file is left as it is if its content is the same apart from what patterns match. -/
def UpdatedAt (Sub : S → S → S → S → Prop) (frm old frm' new : N → Option (C ⊕ S)) (n : N) : Prop :=
  match frm n, old n with
  | none, _ => frm' n = none ∧ new n = none
  | some (.inl c), none => frm' n = some (.inl c) ∧ new n = some (.inl c)
  | some (.inl c), some (.inl c') =>
    frm' n = some (.inl c) ∧ (Same nm reduce old new n c c' → new n = some (.inl c')) ∧ (¬ Same nm reduce old new n c c' → new n = some (.inl c))
  | some (.inl _), some (.inr _) => False
  | some (.inr d), some (.inr d') => ∃ e e', frm' n = some (.inr e) ∧ new n = some (.inr e') ∧ Sub d d' e e'
  | some (.inr d), _ => frm' n = some (.inr d) ∧ new n = some (.inr d)

end

section
variable {N C : Type} [LinearOrder N] (nm : Naming N) (reduce : C → C → C)

/-- The names in each directory are distinct. -/
def WellFormed : (depth : Nat) → Dir N C depth → Prop
  | 0, _ => True
  | depth + 1, l => (keys (S := Dir N C depth) l).Nodup ∧ NoPatternForKeep (S := Dir N C depth) nm l ∧ ∀ n d, (n, Sum.inr d) ∈ (show Entries N C (Dir N C depth) from l) → WellFormed depth d

/-- The directory `frm` is left as `frm'`, and the directory `old` as `new`, at every level. -/
def Updated : (depth : Nat) → Dir N C depth → Dir N C depth → Dir N C depth → Dir N C depth → Prop
  | 0, _, _, _, _ => True
  | depth + 1, frm, old, frm', new =>
    (keys (S := Dir N C depth) frm').Nodup ∧ (keys (S := Dir N C depth) new).Nodup ∧
      ∃ g, Restored nm (fun n => lookup (S := Dir N C depth) n frm) (fun n => lookup (S := Dir N C depth) n old) g ∧
        ∀ n, UpdatedAt nm reduce (Updated depth) g (fun n => lookup (S := Dir N C depth) n old) (fun n => lookup (S := Dir N C depth) n frm') (fun n => lookup (S := Dir N C depth) n new) n

/-- There are no files with patterns, nor any which keep directories. -/
def Plain : (depth : Nat) → Dir N C depth → Prop
  | 0, _ => True
  | depth + 1, l =>
    ∀ e ∈ (show Entries N C (Dir N C depth) from l), nm.isPattern e.1 = false ∧ nm.isKeep e.1 = false ∧ ∀ d, e.2 = Sum.inr d → Plain depth d

/-- What there is at a path: nothing, a directory (`some none`) or a file. -/
def content : (depth : Nat) → Dir N C depth → List N → Option (Option C)
  | 0, _, _ => none
  | _ + 1, _, [] => some none
  | depth + 1, l, n :: p =>
    match lookup (S := Dir N C depth) n l with
    | none => none
    | some (.inl c) => if p = [] then some (some c) else none
    | some (.inr d) => content depth d p

/-- Either both are files or both are directories. -/
def SameKind {S : Type} : Option (C ⊕ S) → Option (C ⊕ S) → Prop
  | some (.inl _), some (.inl _) => True
  | some (.inr _), some (.inr _) => True
  | _, _ => False

/-- On every level: directories are not named like files with patterns or those which keep directories; no file of the source has the name of a directory of the
destination; and the entry of the source whose name is last is matched by the destination, or nothing in the destination comes after it. -/
def Completable : (depth : Nat) → Dir N C depth → Dir N C depth → Prop
  | 0, _, _ => True
  | depth + 1, frm, to =>
    (∀ n d, lookup (S := Dir N C depth) n frm = some (.inr d) → nm.isPattern n = false ∧ nm.isKeep n = false) ∧
    (∀ n d, lookup (S := Dir N C depth) n to = some (.inr d) → nm.isPattern n = false) ∧
    (∀ n c d, lookup (S := Dir N C depth) n frm = some (.inl c) → lookup (S := Dir N C depth) n to ≠ some (.inr d)) ∧
    (∀ g, Restored nm (fun n => lookup (S := Dir N C depth) n frm) (fun n => lookup (S := Dir N C depth) n to) g →
      (∀ n, g n = none) ∨
      ∃ x, g x ≠ none ∧ (∀ z, g z ≠ none → z ≤ x) ∧ ((∀ y, lookup (S := Dir N C depth) y to ≠ none → y ≤ x) ∨ SameKind (g x) (lookup (S := Dir N C depth) x to))) ∧
    (∀ n d d', lookup (S := Dir N C depth) n frm = some (.inr d) → lookup (S := Dir N C depth) n to = some (.inr d') → Completable depth d d')

end

end Verif.Spec.SoftUpdate
