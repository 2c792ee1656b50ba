/-
What a path given by the user, or recorded by the compiler, stands for.  A path is a list of names, the first of which is "/" if it is absolute.
-/
namespace Verif.Spec.PathEquivalence

/-- An absolute path in normal form. -/
def Absolute (p : List String) : Prop := ∃ l, p = "/" :: l ∧ "/" ∉ l ∧ ".." ∉ l ∧ "" ∉ l

/-- A relative path in normal form, without any `..`. -/
def Relative (p : List String) : Prop := p ≠ [] ∧ "/" ∉ p ∧ ".." ∉ p ∧ "" ∉ p

/-- What follows the leading `..`. -/
def Ups (p q : List String) : Prop := ∃ k, p = List.replicate k ".." ++ q

/-- Seen from a suitable place, the path is that of the file: an absolute path stands for itself, otherwise what follows any leading `..` is the end of the path of the file. -/
def Denotes (p file : List String) : Prop := p = file ∨ ∃ q, Ups p q ∧ Relative q ∧ q <:+ file

/-- The path is given in a form which makes clear that `r` is meant, within the directory: it is absolute; or, after any leading `..`, it consists of the end of the path of the directory, which begins with a
name that occurs only once in it, followed by `r`; or it consists, again after any leading `..`, of `r`, whose first name does not occur in the path of the directory. -/
inductive Clear (dir : List String) : List String → List String → Prop where
  | absolute (r : List String) : Clear dir (dir ++ r) r
  | overlap (k : Nat) (x : String) (t r : List String) : x :: t <:+ dir → x ∉ t → Relative (x :: t) → Clear dir (List.replicate k ".." ++ (x :: t) ++ r) r
  | within (k : Nat) (x : String) (t : List String) : x ∉ dir → Clear dir (List.replicate k ".." ++ x :: t) (x :: t)

end Verif.Spec.PathEquivalence
