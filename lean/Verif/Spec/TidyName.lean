import Verif.Model.Basic
import Verif.Model.Text

/-
Types, and their names as given by different compilers.  That a compiler gives these names is an assumption: it is not part of the model.
-/
namespace Verif.Spec.TidyName
open Verif.Text (Str)

/-- MSVC puts a keyword in front of the names of types which are not fundamental. -/
inductive Kind where
  | struct_
  | class_
  | enum_
  deriving DecidableEq

/-- The parts of the name of a type. -/
inductive Word where
  /-- A type which is not in the standard library, with its namespaces. -/
  | user (k : Kind) (name : Str)
  /-- A type of the standard library; `abi` says that in the library of GCC it is in the inline namespace `__cxx11`. -/
  | std (k : Kind) (abi : Bool) (name : Str)
  /-- A fundamental type with the same name everywhere. -/
  | fundamental (name : Str)
  /-- The integers of 64 bits: `long`, or `long long` if `longer`. -/
  | int64 (unsigned longer : Bool)
  /-- Template arguments: an integer, with the suffix for its type, ... -/
  | integer (negative : Bool) (digits suffix : Str)
  /-- ... a boolean, ... -/
  | boolean (b : Bool)
  /-- ... or an enumerator, of which only the value is known. -/
  | enumerator (enum digits : Str)

mutual
/-- A type, or another template argument. -/
inductive Ty where
  | mk (w : Word) (args : Args)
inductive Args where
  | nil
  | cons (a : Ty) (as : Args)
end

/-- What differs from one compiler to the next. -/
structure Dialect where
  /-- The keyword in front of a name. -/
  keyword : Kind → Str
  /-- The namespace of the standard library. -/
  std : Bool → Str
  /-- The integers of 64 bits. -/
  int64 : Bool → Str
  /-- Whether integers have suffixes. -/
  suffixes : Bool
  yes : Str
  no : Str
  /-- Whether the enumeration is given with an enumerator. -/
  casts : Bool
  /-- What there is between two template arguments. -/
  comma : Str
  /-- Whether there is a blank between two closing brackets. -/
  spaced : Bool

def Word.show (d : Dialect) : Word → Str
  | .user k n => d.keyword k ++ n
  | .std k abi n => d.keyword k ++ (d.std abi ++ n)
  | .fundamental n => n
  | .int64 u l => (if u then "unsigned ".toList else []) ++ d.int64 l
  | .integer neg ds sfx => (if neg then ['-'] else []) ++ ds ++ (if d.suffixes then sfx else [])
  | .boolean b => if b then d.yes else d.no
  | .enumerator e ds => (if d.casts then '(' :: e ++ [')'] else []) ++ ds

/-- Does the text end with a bracket? -/
def Ty.nested : Ty → Bool
  | .mk _ .nil => false
  | .mk _ (.cons _ _) => true

mutual
def Ty.show (d : Dialect) : Ty → Str
  | .mk w args => w.show d ++ args.show d
/-- Template arguments, with the brackets around them. -/
def Args.show (d : Dialect) : Args → Str
  | .nil => []
  | .cons a as => '<' :: (a.show d ++ as.showRest d a.nested)
/-- What follows an argument. -/
def Args.showRest (d : Dialect) : Bool → Args → Str
  | b, .nil => if b && d.spaced then [' ', '>'] else ['>']
  | _, .cons a as => d.comma ++ (a.show d ++ as.showRest d a.nested)
end

/-- Names as Clang gives them, with libc++; earlier versions separate closing brackets. -/
def clang (spaced : Bool) : Dialect :=
  { keyword := fun _ => [], std := fun _ => "std::__1::".toList, int64 := fun l => if l then "long long".toList else "long".toList, suffixes := true, yes := "true".toList, no := "false".toList, casts := true,
    comma := [',', ' '], spaced := spaced }

/-- Names as GCC gives them. -/
def gcc (spaced : Bool) : Dialect :=
  { keyword := fun _ => [], std := fun abi => if abi then "std::__cxx11::".toList else "std::".toList, int64 := fun l => if l then "long long".toList else "long".toList, suffixes := true, yes := "true".toList,
    no := "false".toList, casts := true, comma := [',', ' '], spaced := spaced }

def Kind.text : Kind → Str
  | .struct_ => "struct ".toList
  | .class_ => "class ".toList
  | .enum_ => "enum ".toList

/-- Names as MSVC gives them. -/
def msvc : Dialect :=
  { keyword := Kind.text, std := fun _ => "std::".toList, int64 := fun _ => "__int64".toList, suffixes := false, yes := "1".toList, no := "0".toList, casts := false,
    comma := [','], spaced := true }

/-- Names which do not depend on the compiler. -/
def common : Dialect :=
  { keyword := fun _ => [], std := fun _ => "std::".toList, int64 := fun _ => "long long".toList, suffixes := false, yes := "1".toList, no := "0".toList, casts := false,
    comma := [',', ' '], spaced := true }

/-! ### The names to which the claim applies -/

/-- What must not be part of a name, since it is replaced. -/
def reserved : List Str :=
  ["long".toList, "__int64".toList, "__cdecl".toList, "__cxx11::".toList, "_V2::".toList, "::__1::".toList, "::__fs::".toList]

/-- Identifiers, possibly with namespaces. -/
structure Plain (n : Str) : Prop where
  nonempty : n ≠ []
  chars : ∀ c ∈ n, c.isAlphanum = true ∨ c = '_' ∨ c = ':'
  /-- No identifier begins with a digit. -/
  digits : (∀ c ∈ n.head?, c.isDigit = false) ∧ ∀ a c b, n = a ++ ':' :: c :: b → c.isDigit = false
  reserved : ∀ p ∈ reserved, ¬ p <:+: n
  notBool : n ≠ "true".toList ∧ n ≠ "false".toList
  /-- Spans, and iterators of arrays in the library of MSVC, are treated in a special way. -/
  notSpecial : ¬ "::span".toList <:+ n ∧ ¬ "std::_Array_const_iterator".toList <:+ n

def fundamentals : List Str :=
  ["bool", "char", "short", "int", "float", "double", "void", "unsigned int", "unsigned char", "unsigned short", "signed char"].map String.toList

def suffixes : List Str := ["", "u", "l", "ul", "ll", "ull"].map String.toList

def Word.Ok : Word → Prop
  | .user _ n => Plain n
  | .std _ _ n => Plain ("std::".toList ++ n)
  | .fundamental n => n ∈ fundamentals
  | .int64 _ _ => True
  | .integer _ ds sfx => ds ≠ [] ∧ (∀ c ∈ ds, c.isDigit = true) ∧ sfx ∈ suffixes
  | .boolean _ => True
  | .enumerator e ds => Plain e ∧ ds ≠ [] ∧ ∀ c ∈ ds, c.isDigit = true

/-- Class templates have arguments. -/
def Word.template : Word → Prop
  | .user _ _ => True
  | .std _ _ _ => True
  | _ => False

def Word.isType : Word → Prop
  | .integer _ _ _ => False
  | .boolean _ => False
  | .enumerator _ _ => False
  | _ => True

/-- There is no digit in the name of a class. -/
def Word.noDigits : Word → Prop
  | .user _ n => ∀ c ∈ n, c.isDigit = false
  | .std _ _ n => ∀ c ∈ n, c.isDigit = false
  | _ => True

def Word.enumerators : Word → Nat
  | .enumerator _ _ => 1
  | _ => 0

mutual
/-- Template arguments: if they have arguments then they are class templates without a digit in their names. -/
def Ty.OkArg : Ty → Prop
  | .mk w args => w.Ok ∧ (args ≠ .nil → w.template ∧ w.noDigits) ∧ args.Ok
def Args.Ok : Args → Prop
  | .nil => True
  | .cons a as => a.OkArg ∧ as.Ok
end

mutual
/-- The number of enumerators. -/
def Ty.enumerators : Ty → Nat
  | .mk w args => w.enumerators + args.enumerators
def Args.enumerators : Args → Nat
  | .nil => 0
  | .cons a as => a.enumerators + as.enumerators
end

/-- The types to which the claim applies. -/
def Ty.Ok : Ty → Prop
  | .mk w args => w.Ok ∧ w.isType ∧ (args ≠ .nil → w.template) ∧ args.Ok ∧ args.enumerators ≤ 2

/-- A loop ends with a result: it does so with enough fuel. -/
def Ends (f : Nat → Option (Res Str)) (r : Str) : Prop := ∃ n, ∀ m, n ≤ m → f m = some (.ok r)

/-- A loop runs into undefined behaviour. -/
def Undefined (f : Nat → Option (Res Str)) : Prop := ∃ n, ∀ m, n ≤ m → f m = some .ub

end Verif.Spec.TidyName
