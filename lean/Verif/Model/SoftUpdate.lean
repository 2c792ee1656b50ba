import Verif.Model.Basic
import Mathlib.Order.Defs.LinearOrder
/-
Model of the update of materials, /repo/Source/sequoia/TestFramework/MaterialsUpdater.cpp, with `get_reduced_file_content`
(/repo/Source/sequoia/TestFramework/FileEditors.cpp:217-260).

A directory is a list of entries, each with a name and what it is: a file with some content or a directory.  Other types of files, symbolic links and failures of the file
system, other than those which follow from the state of the directories, are not modelled.  Names have a linear order, that of `fs::path`.

What is done on one level is modelled first, for subdirectories of any type `S`; subdirectories are dealt with by a parameter, `sub`.
-/
namespace Verif.SoftUpdate

/-- What the code needs to know about names. -/
structure Naming (N : Type) where
  /-- `extension() == seqpat` -/
  isPattern : N → Bool
  /-- `filename() == ".keep"` -/
  isKeep : N → Bool
  /-- `stem()` -/
  stem : N → N
  /-- `replace_extension(seqpat)` -/
  patternOf : N → N

section
variable {N C S : Type} [LinearOrder N] (nm : Naming N) (reduce : C → C → C) [DecidableEq C]

abbrev Entries (N C S : Type) := List (N × (C ⊕ S))

def lookup (n : N) (l : Entries N C S) : Option (C ⊕ S) := (l.find? fun e => e.1 = n).map (·.2)

/-- `fs::copy(p, dir, overwrite_existing)` for a file: the file is replaced or added; it is an error if a directory has the name. -/
def copyInto (n : N) (c : C) (l : Entries N C S) : Res (Entries N C S) :=
  match lookup n l with
  | some (.inl _) => .ok (l.map fun e => if e.1 = n then (n, .inl c) else e)
  | some (.inr _) => .throws
  | none => .ok (l ++ [(n, .inl c)])

/-- `copy_special_files_back`, MaterialsUpdater.cpp:28-55, for the entries of `to`. -/
def copyBack : Entries N C S → Entries N C S → Res (Entries N C S)
  | [], frm => .ok frm
  | (n, .inl c) :: l, frm =>
    if nm.isPattern n then
      if frm.any fun w => nm.stem w.1 = nm.stem n && !nm.isPattern w.1 then (copyInto n c frm).bind (copyBack l) else copyBack l frm
    else if nm.isKeep n then (copyInto n c frm).bind (copyBack l)
    else copyBack l frm
  | (_, .inr _) :: l, frm => copyBack l frm

/-- Files come before directories. -/
def kind : C ⊕ S → Nat
  | .inl _ => 1
  | .inr _ => 2

/-- `compare`, MaterialsUpdater.cpp:62-73. -/
def less (x y : N × (C ⊕ S)) : Bool := if x.1 = y.1 then kind x.2 < kind y.2 else x.1 < y.1

/-- `equiv`, MaterialsUpdater.cpp:92-98. -/
def equiv (x y : N × (C ⊕ S)) : Bool := x.1 = y.1 && kind x.2 = kind y.2

/-- An entry is put in its place. -/
def insertEntry (x : N × (C ⊕ S)) : Entries N C S → Entries N C S
  | [] => [x]
  | y :: l => if less y x then y :: insertEntry x l else x :: y :: l

/-- `sort_dir_entries`, MaterialsUpdater.cpp:75-86.  The names of entries being distinct, all methods of sorting have the same result. -/
def sortEntries (l : Entries N C S) : Entries N C S := l.foldr insertEntry []

/-- `get_reduced_file_content`, FileEditors.cpp:217-260, `to` being the present state of the directory of the prediction.  What the patterns do is left open, `reduce`; if
what has the name of the file with patterns is a directory, it cannot be read. -/
def reduced (n : N) (c c' : C) (to : Entries N C S) : Res (C × C) :=
  if nm.isPattern n then .ok (c, c')
  else
    match lookup (nm.patternOf n) to with
    | none => .ok (c, c')
    | some (.inl p) => .ok (reduce p c, reduce p c')
    | some (.inr _) => .throws

/-- The two directories as far as they have been dealt with. -/
structure Done (N C S : Type) where
  frm : Entries N C S
  to : Entries N C S

variable (sub : S → S → Res (S × S))

/-- The treatment of a pair of equivalent entries, MaterialsUpdater.cpp:103-125; `rest` are the entries of `to` from the present one on. -/
def pair (n : N) (x y : C ⊕ S) (rest : Entries N C S) (s : Done N C S) : Res (Done N C S) :=
  match x, y with
  | .inl c, .inl c' =>
    (reduced nm reduce n c c' (s.to ++ rest)).bind fun (r, r') =>
      .ok ⟨s.frm ++ [(n, .inl c)], s.to ++ [(n, .inl (if r ≠ r' then c else c'))]⟩
  | .inr d, .inr d' => (sub d d').bind fun (e, e') => .ok ⟨s.frm ++ [(n, .inr e)], s.to ++ [(n, .inr e')]⟩
  | _, _ => .ub

/-- `mismatch` and the loop over what is before it, MaterialsUpdater.cpp:100-126. -/
def common : Entries N C S → Entries N C S → Done N C S → Res (Done N C S × Entries N C S × Entries N C S)
  | x :: frm, y :: to, s => if equiv x y then (pair nm reduce sub x.1 x.2 y.2 (y :: to) s).bind (common frm to) else .ok (s, x :: frm, y :: to)
  | frm, to, s => .ok (s, frm, to)

/-- The condition of that loop, MaterialsUpdater.cpp:130. -/
def goesFirst (x : N × (C ⊕ S)) : Entries N C S → Bool
  | [] => true
  | y :: _ => less x y

/-- The loop in which entries are copied, MaterialsUpdater.cpp:130-142.  It is an error if there is something with that name. -/
def copyLoop (to : Entries N C S) : Entries N C S → Done N C S → Res (Done N C S × Entries N C S)
  | [], s => .ok (s, [])
  | x :: frm, s =>
    if goesFirst x to then
      if (lookup x.1 (s.to ++ to)).isSome then .throws
      else copyLoop to frm ⟨s.frm ++ [x], s.to ++ [x]⟩
    else .ok (s, x :: frm)

/-- The loop in which entries are removed, MaterialsUpdater.cpp:146-150: what remains. -/
def removeLoop (x : N × (C ⊕ S)) (to : Entries N C S) : Entries N C S := to.dropWhile fun y => less y x

/-- `soft_update` for ranges of entries, MaterialsUpdater.cpp:90-162; the fuel bounds the depth of the recursion, and to run out of it counts as undefined.  After entries
have been copied, the next one is dereferenced, whether or not there is one. -/
def update : Nat → Entries N C S → Entries N C S → Done N C S → Res (Done N C S)
  | 0, _, _, _ => .ub
  | fuel + 1, frm, to, s =>
    (common nm reduce sub frm to s).bind fun (s, frm, to) =>
      match frm with
      | [] => .ok s
      | _ :: _ =>
        (copyLoop to frm s).bind fun (s, frm) =>
          match to with
          | [] => .ok s
          | _ :: _ =>
            match frm with
            | [] => .ub
            | x :: frm => update fuel (x :: frm) (removeLoop x to) s

/-- `soft_update(from, to)`, MaterialsUpdater.cpp:165-177, on one level. -/
def updateEntries (frm to : Entries N C S) : Res (Entries N C S × Entries N C S) :=
  (copyBack nm to frm).bind fun frm =>
    (update nm reduce sub (frm.length + to.length + 1) (sortEntries frm) (sortEntries to) ⟨[], []⟩).bind fun s => .ok (s.frm, s.to)

end

/-- Directories which are nested no more than the given number of levels; there are none for zero levels. -/
def Dir (N C : Type) : Nat → Type
  | 0 => Empty
  | depth + 1 => Entries N C (Dir N C depth)

/-- `soft_update(from, to)`: the states in which the two directories are left. -/
def softUpdate {N C : Type} [LinearOrder N] [DecidableEq C] (nm : Naming N) (reduce : C → C → C) : (depth : Nat) → Dir N C depth → Dir N C depth → Res (Dir N C depth × Dir N C depth)
  | 0, frm, _ => nomatch frm
  | depth + 1, frm, to => updateEntries nm reduce (softUpdate nm reduce depth) frm to

end Verif.SoftUpdate
