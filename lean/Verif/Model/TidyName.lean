import Verif.Model.Basic
import Verif.Model.Text

/-
Model of the functions which make the names of types independent of the compiler, /repo/Source/sequoia/TestFramework/Output.cpp:33-234 and 374-452.

Strings are lists of characters, as in Model/Text, and `npos` is `none`.  Loops have fuel: the result is `none` if there is not enough of it.  Reading a string beyond the position
just past its end, where there is a zero, is undefined.  `std::isdigit` and `std::isalpha` are those of the "C" locale.  How numbers are read from hexadecimal digits, and how floating
point numbers are written, is a parameter.  What a compiler, or `abi::__cxa_demangle`, gives as the name of a type is the argument of these functions.
-/
namespace Verif.TidyName
open Text

/-- What the standard library does with floating point numbers. -/
structure Env where
  /-- `ss >> std::hex >> hexNum`, Output.cpp:95-97. -/
  readHex : Str → Option Int
  /-- `std::format("{:f}", std::bit_cast<float>(...))`, Output.cpp:63. -/
  float : Int → Str
  /-- `std::format("{:f}", std::bit_cast<double>(...))`, Output.cpp:63. -/
  double : Int → Str
  /-- `std::strtold`: how many characters it reads, and the number in the format `{:f}`, Output.cpp:122-127. -/
  longDouble : Str → Nat × Str

/-- How a loop ends: `none` if there is not enough fuel. -/
abbrev Out := Option (Res Str)

/-- One step after the other. -/
def Out.then : Out → (Str → Out) → Out
  | some (.ok s), f => f s
  | o, _ => o

/-- The loops of Model/Text have no undefined behaviour. -/
def lift (o : Option Str) : Out := o.map .ok

/-- `name[i]`, where `i` is at most the size of `name`. -/
def charAt (s : Str) (i : Nat) : Char := (s[i]?).getD '\x00'

/-- `std::string::find_first_of(cs, pos)`. -/
def findFirstOf (s cs : Str) (pos : Nat) : Option Nat := ((s.drop pos).findIdx? fun c => cs.contains c).map (pos + ·)

/-- `std::string::rfind(c, pos)`. -/
def rfind (s : Str) (c : Char) (pos : Nat) : Option Nat :=
  ((s.take (pos + 1)).reverse.findIdx? (· == c)).map fun i => (s.take (pos + 1)).length - 1 - i

/-- `remove_enum_spec`, Output.cpp:38-57.  Once the matched parentheses have been erased, the search goes on at the position where they ended before. -/
def removeEnumSpec : Nat → Str → Nat → Out
  | 0, _, _ => none
  | f + 1, s, pos =>
    match findMatched s '(' ')' pos with
    | none => some (.ok s)
    | some (o, c) => if o ≠ c ∧ c < s.length ∧ (charAt s c).isDigit then removeEnumSpec f (splice s o (c - o) []) c else some (.ok s)

/-- Floating point numbers as GCC represents them, Output.cpp:87-118: the name and the position afterwards. -/
def bracket (env : Env) (s : Str) (p : Nat) : Str × Nat :=
  match find s [']'] p with
  | none => (s, p)
  | some close =>
    match env.readHex ((s.drop p).take (close - p)) with
    | none => (s, p)
    | some n =>
      match rfind s '(' (p - 1) with
      | none => (s, p)
      | some q =>
        if charAt s (p - 2) = ')' then
          let type := (s.drop (q + 1)).take (p - 2 - q - 1)
          if type = "float".toList then (splice s q (close + 1 - q) (env.float n), q + (env.float n).length)
          else if type = "double".toList then (splice s q (close + 1 - q) (env.double n), q + (env.double n).length)
          else (s, close)
        else (s, p)

/-- Floating point numbers as Clang represents them, Output.cpp:120-131. -/
def hexLiteral (env : Env) (s : Str) (p : Nat) : Str × Nat :=
  let r := env.longDouble (s.drop p)
  if 0 < r.1 then (splice s p r.1 r.2, p + (r.2.length - 1)) else (s, p)

/-- The loop of Output.cpp:78: to the first digit, but not beyond the last character. -/
def toDigit (s : Str) (p : Nat) : Nat := p + ((s.dropLast.drop p).takeWhile fun c => !c.isDigit).length

/-- The loop of Output.cpp:133: past the digits, but not beyond the last character. -/
def pastDigits (s : Str) (p : Nat) : Nat :=
  if p + 1 < s.length then min (p + 1 + ((s.drop (p + 1)).takeWhile Char.isDigit).length) (s.length - 1) else p

/-- The body of the loop of `process_literals`, Output.cpp:73-145: the name and the position; there is none if the loop ends. -/
def literal (env : Env) (s : Str) (pos : Nat) : Res (Str × Option Nat) :=
  match findFirstOf s ['<', ' '] pos with
  | none => .ok (s, none)
  | some o =>
    let p := toDigit s (o + 1)
    if p + 1 < s.length then
      let c := charAt s (p - 1)
      if c = '_' ∨ c.isAlpha then .ok (s, findFirstOf s [',', '>'] p)
      else
        let b := if c = '[' then bracket env s p else (s, p)
        if b.1.length < b.2 + 1 then .ub
        else
          let h := if charAt b.1 (b.2 + 1) = 'x' then hexLiteral env b.1 b.2 else b
          let q := pastDigits h.1 h.2
          if q < h.1.length ∧ o < q - 1 ∧ (charAt h.1 q).isAlpha then
            match findFirstOf h.1 [',', '>'] q with
            | some close => .ok (splice h.1 q (close - q) [], some (q + 1))
            | none => .ok (h.1, some q)
          else .ok (h.1, some q)
    else .ok (s, some p)

/-- `process_literals`, Output.cpp:68-148. -/
def processLiterals (env : Env) : Nat → Str → Nat → Out
  | 0, _, _ => none
  | f + 1, s, pos =>
    if pos < s.length then
      match literal env s pos with
      | .ok (t, some p) => processLiterals env f t p
      | .ok (t, none) => some (.ok t)
      | .throws => some .throws
      | .ub => some .ub
    else some (.ok s)

/-- `std::from_chars` reads everything, and the result is the largest number of 64 bits, Output.cpp:160-163. -/
def isMax (t : Str) : Bool := !t.isEmpty && t.all Char.isDigit && Nat.ofDigitChars 10 t 0 == 2 ^ 64 - 1

/-- `process_spans`, Output.cpp:150-172.  If there is no closing bracket then a pointer beyond the end is formed. -/
def processSpans (s : Str) : Res Str :=
  match findSandwiched s "::span<".toList ['>'] 0 with
  | (none, _) => .ok s
  | (some start, e) =>
    if e = some start then .ok s
    else
      match find s [','] start with
      | none => .ok s
      | some q =>
        match e with
        | none => .ub
        | some e =>
          if q < e - 1 then
            let p := if charAt s (q + 1) = ' ' then q + 2 else q + 1
            if isMax ((s.drop p).take (e - p)) then .ok (splice s p (e - p) "-1".toList) else .ok s
          else .ok s

/-- `process_array_iterators`, Output.cpp:174-194.  If the closing text is missing then what is replaced extends to the end of the name, unless the addition at line 184 overflows. -/
def arrayIterators : Nat → Str → Nat → Out
  | 0, _, _ => none
  | f + 1, s, pos =>
    match findSandwiched s "std::_Array_const_iterator<".toList ", 1>".toList pos with
    | (none, _) => some (.ok s)
    | (some start, none) => some (.ok (splice s (start - 27) (if start ≤ 30 then 30 - start else s.length) (s.drop start ++ " const*".toList)))
    | (some start, some e) =>
      if start = e then some (.ok s)
      else
        let t := splice s (start - 27) (27 + (e - start) + 4) ((s.drop start).take (e - start) ++ " const*".toList)
        let p := start - 27 + (e - start) + 7
        if p < t.length ∧ charAt t p = ' ' then arrayIterators f (splice t p 1 []) p else arrayIterators f t p

/-- The loop of Output.cpp:213-231, once a parenthesis has been found. -/
def casts : Nat → Str → Nat → Nat → Int → Out
  | 0, _, _, _, _ => none
  | f + 1, s, o, pos, n =>
    if s.length < pos then some .ub
    else
      let n' := if charAt s pos = '(' then n + 1 else if charAt s pos = ')' then n - 1 else n
      if n' = 0 then
        let t := if pos + 1 < s.length ∧ (charAt s (pos + 1)).isDigit then splice s o (pos + 1 - o) [] else s
        match find t ['('] (pos + 1) with
        | none => some (.ok t)
        | some q => casts f t q q 0
      else casts f s o (pos + 1) n'

/-- Output.cpp:213-231. -/
def removeCasts (f : Nat) (s : Str) : Out :=
  match find s ['('] 0 with
  | none => some (.ok s)
  | some q => casts f s q q 0

/-- `tidy_name` for GCC and Clang, Output.cpp:196-234; `lp64` says whether `long` and `long long` are of the same size. -/
def tidy (lp64 : Bool) (f : Nat) (s : Str) : Out :=
  Out.then (if lp64 then (lift (replaceAll f s "long long".toList "long".toList)).then fun s => lift (replaceAll f s "long".toList "long long".toList) else some (.ok s)) fun s =>
  (lift (replaceDelim f s " <".toList "true".toList ",>".toList "1".toList)).then fun s =>
  (lift (replaceDelim f s " <".toList "false".toList ",>".toList "0".toList)).then fun s =>
  (removeEnumSpec f s 0).then fun s => removeCasts f s

/-- `tidy_name(std::string, clang_type)`, Output.cpp:374-384. -/
def tidyClang (env : Env) (lp64 : Bool) (f : Nat) (s : Str) : Out :=
  (lift (replaceAll f s "::__1::".toList "::".toList)).then fun s =>
  (lift (replaceAll f s "::__fs::".toList "::".toList)).then fun s =>
  (lift (replaceRec f s ">>".toList "> >".toList)).then fun s =>
  (processLiterals env f s 0).then fun s =>
  Out.then (some (processSpans s)) fun s => tidy lp64 f s

/-- `tidy_name(std::string, gcc_type)`, Output.cpp:386-396. -/
def tidyGcc (env : Env) (lp64 : Bool) (f : Nat) (s : Str) : Out :=
  (lift (replaceAll f s "__cxx11::".toList [])).then fun s =>
  (lift (replaceAll f s "_V2::".toList [])).then fun s =>
  (lift (replaceRec f s ">>".toList "> >".toList)).then fun s =>
  (processLiterals env f s 0).then fun s =>
  Out.then (some (processSpans s)) fun s => tidy lp64 f s

/-- `peel`, Output.cpp:401-411. -/
def peel (s prefix' : Str) : Str := if prefix'.isPrefixOf s then s.drop prefix'.length else s

/-- `tidy_name(std::string, msvc_type)`, Output.cpp:398-446; `int64` is what `__int64` is replaced by, if anything. -/
def tidyMsvc (int64 : Option Str) (f : Nat) (s : Str) : Out :=
  let s := peel (peel (peel s "struct ".toList) "class ".toList) "enum ".toList
  (lift (replaceDelim f s "<,".toList "struct ".toList [] [])).then fun s =>
  (lift (replaceDelim f s "<,".toList "class ".toList [] [])).then fun s =>
  (lift (replaceDelim f s "<,".toList "enum ".toList [] [])).then fun s =>
  (lift (replaceAll f s ",".toList ", ".toList)).then fun s =>
  (lift (replaceAll f s " ,".toList ",".toList)).then fun s =>
  (lift (replaceAll f s " & __ptr64".toList "&".toList)).then fun s =>
  (lift (replaceAll f s " * __ptr64".toList "*".toList)).then fun s =>
  (lift (replaceAll f s "`anonymous namespace'".toList "(anonymous namespace)".toList)).then fun s =>
  Out.then (match int64 with | some t => lift (replaceAll f s "__int64".toList t) | none => some (.ok s)) fun s =>
  (lift (replaceAll f s "__cdecl(void)".toList "()".toList)).then fun s =>
  (lift (replaceAll f s "__cdecl".toList [])).then fun s => arrayIterators f s 0

end Verif.TidyName
