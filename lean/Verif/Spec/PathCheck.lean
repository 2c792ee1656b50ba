import Verif.Model.PathCheck
/-
When a path is equivalent to its prediction.
-/
namespace Verif.Spec.PathCheck
open Verif.SoftUpdate Verif.PathCheck

/-- A check passes: it completes, and no failure is logged. -/
def Passes (r : Res Log) : Prop := ∃ log, r = .ok log ∧ ∀ b ∈ log, b = true

/-- A check reports a failure. -/
def Fails (r : Res Log) : Prop := ∃ log, r = .ok log ∧ false ∈ log

/-- Entries which play no role. -/
def Ignored {N : Type} (nm : Names N) (n : N) : Prop := nm.isStore n = true ∨ nm.isKeep n = true ∨ nm.isPattern n = true

section
variable {N C S : Type} [LinearOrder N]

/-- The contents are the same, apart from what is matched by the patterns, which are those in the file beside the prediction, if there is one. -/
def SameContent (nm : Names N) (reduce : C → C → C) (n n' : N) (c c' : C) (dir : Entries N C S) : Prop :=
  if nm.isPattern n = true then c = c'
  else
    match lookup (nm.patternOf n') dir with
    | none => c = c'
    | some (.inl p) => reduce p c = reduce p c'
    | some (.inr _) => False

end

section
variable {N C : Type} [LinearOrder N]

/-- When two files agree: their names, their contents and the directory of the second. -/
abbrev Agreement (N C : Type) := (S : Type) → N → N → C → C → Entries N C S → Prop

/-- Agreement of contents, apart from what is matched by patterns. -/
def same (nm : Names N) (reduce : C → C → C) : Agreement N C := fun _ n n' c c' dir => SameContent nm reduce n n' c c' dir

/-- Files agree if their comparison passes. -/
def passesFile (comparer : FileChecker N C) : Agreement N C := fun S n n' c c' dir => Passes (comparer S n n' c c' dir)

/-- Files agree if the comparer for the extension of the first one says so; for other extensions, if the default one does. -/
def chosen {E : Type} (extension : N → E) (dflt : E × FileChecker N C) (others : List (E × FileChecker N C)) : Agreement N C := fun S n n' c c' dir =>
  (∀ p ∈ dflt :: others, p.1 = extension n → Passes (p.2 S n n' c c' dir)) ∧ ((∀ p ∈ dflt :: others, p.1 ≠ extension n) → Passes (dflt.2 S n n' c c' dir))

/-- Two directories agree: apart from what is ignored, each name is that of files which agree, of directories which agree, or of nothing. -/
def Agree (nm : Names N) (File : Agreement N C) : (depth : Nat) → Dir N C depth → Dir N C depth → Prop
  | 0, _, _ => True
  | depth + 1, d, d' => ∀ n, ¬ Ignored nm n →
    match lookup (S := Dir N C depth) n d, lookup (S := Dir N C depth) n d' with
    | none, none => True
    | some (.inl c), some (.inl c') => File (Dir N C depth) n n c c' d'
    | some (.inr e), some (.inr e') => Agree nm File depth e e'
    | _, _ => False

/-- Two things agree. -/
def AgreeItems (nm : Names N) (File : Agreement N C) (depth : Nat) (n n' : N) (dir' : Entries N C (Dir N C depth)) : C ⊕ Dir N C depth → C ⊕ Dir N C depth → Prop
  | .inl c, .inl c' => File (Dir N C depth) n n' c c' dir'
  | .inr d, .inr d' => Agree nm File depth d d'
  | _, _ => False

/-- The names in each directory are distinct. -/
def Distinct : (depth : Nat) → Dir N C depth → Prop
  | 0, _ => True
  | depth + 1, l => ((show Entries N C (Dir N C depth) from l).map (·.1)).Nodup ∧ ∀ n d, (n, Sum.inr d) ∈ (show Entries N C (Dir N C depth) from l) → Distinct depth d

/-- No directory has a name like that of a file with patterns. -/
def NoPatternDirectory (nm : Names N) : (depth : Nat) → Dir N C depth → Prop
  | 0, _ => True
  | depth + 1, l => ∀ n d, (n, Sum.inr d) ∈ (show Entries N C (Dir N C depth) from l) → nm.isPattern n = false ∧ NoPatternDirectory nm depth d

/-- There are no files with patterns. -/
def NoPatterns (nm : Names N) : (depth : Nat) → Dir N C depth → Prop
  | 0, _ => True
  | depth + 1, l => ∀ e ∈ (show Entries N C (Dir N C depth) from l), nm.isPattern e.1 = false ∧ ∀ d, e.2 = Sum.inr d → NoPatterns nm depth d

/-- Names behave like those of files: to replace the extension leaves the stem as it is and leads to a name with this extension. -/
structure Lawful (nm : Names N) : Prop where
  pattern : ∀ n, nm.isPattern (nm.patternOf n) = true
  stem : ∀ n, nm.stem (nm.patternOf n) = nm.stem n

end

end Verif.Spec.PathCheck
