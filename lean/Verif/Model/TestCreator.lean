import Verif.Model.FileEditors

/-
Model of /repo/Source/sequoia/TestFramework/TestCreator.cpp: how the names and types given for a new test are taken apart, and how the text of its files is made from them.

Strings are lists of characters, `npos` is `none`.  A view of a negative length is undefined behaviour.
-/
namespace Verif.TestCreator
open Text FileEditors

/-- The last position of a character which satisfies `p`, as `find_last_not_of` gives it. -/
def lastWhere (p : Char → Bool) : Str → Option Nat
  | [] => none
  | c :: t =>
    match lastWhere p t with
    | some i => some (i + 1)
    | none => if p c then some 0 else none

/-! ### Parameters of templates -/

/-- `template_spec`, TestCreator.hpp:28-34. -/
structure TemplateSpec where
  species : Str
  symbol : Str
  deriving DecidableEq

/-- The lambda finding where the species starts, TestCreator.cpp:172-180. -/
def firstOfSpecies (str : Str) (last : Nat) : Option Nat :=
  match rsearch [' '] (str.take last) with
  | none => none
  | some pos => if str[pos + 1]? = some '.' then rsearch [' '] (str.take pos) else some pos

/-- `generate_template_spec`, TestCreator.cpp:151-185. -/
def templateSpec (str : Str) : Res TemplateSpec :=
  match lastWhere (fun c => c != ' ' && c != '.') str with
  | none => .ok ⟨[], []⟩
  | some endOfLastToken =>
    match rsearch [' '] (str.take endOfLastToken) with
    | none => .throws
    | some beforeLastToken =>
      let lastTokenSize := endOfLastToken - beforeLastToken
      match lastWhere (fun c => c != ' ') (str.take (endOfLastToken + 1 - lastTokenSize)) with
      | none => .throws
      | some last =>
        let pos := (firstOfSpecies str last).elim 0 (· + 1)
        .ok ⟨substr str pos (last + 1 - pos), substr str (beforeLastToken + 1) lastTokenSize⟩

/-- The loop splitting parameters, TestCreator.cpp:199-211. -/
def splitParams (str : Str) (closePos : Nat) : Nat → Nat → Res (List TemplateSpec)
  | 0, _ => .ok []
  | f + 1, start =>
    match find str [','] start with
    | some next =>
      (templateSpec (substr str start (next - start))).bind fun s => (splitParams str closePos f (next + 1)).bind fun l => .ok (s :: l)
    | none => if start ≤ closePos then (templateSpec (substr str start (closePos - start))).bind fun s => .ok [s] else .ub

/-- `generate_template_data`, TestCreator.cpp:187-220. -/
def templateData (str : Str) : Res (List TemplateSpec) :=
  match find str ['<'] 0 with
  | none => .ok []
  | some openPos =>
    match rsearch ['>'] str with
    | none => .throws
    | some closePos => if closePos < openPos then .throws else splitParams str closePos (str.length + 1) (openPos + 1)

/-- `to_string`, TestCreator.cpp:136-149. -/
def dataText (data : List TemplateSpec) : Str :=
  if data = [] then []
  else
    let str := data.foldl (fun s d => s ++ d.species ++ [' '] ++ d.symbol ++ [',', ' ']) ['<']
    splice str (str.length - 2) 2 ['>']

/-- The names determined by `nascent_semantics_test::finalize`. -/
structure Names where
  nameSpace : Str
  forename : Str
  qualified : Str
  params : List TemplateSpec
  deriving DecidableEq

/-- The arguments of a template, TestCreator.cpp:483-497. -/
def argsText (data : List TemplateSpec) : Str :=
  let args := data.foldl (fun s d => s ++ d.symbol ++ (if d.species.getLast? = some '.' then ['.', '.', '.'] else []) ++ [',', ' ']) ['<']
  (args.dropLast).dropLast ++ ['>']

/-- Splitting the name at the last colons in front of the parameters, TestCreator.cpp:453-470: `start`, the namespace and the forename; `forename` is what was set before. -/
def splitQualified (forename qualified : Str) : Option Nat × Str × Str :=
  match (match find qualified ['<'] 0 with | some t => rfind qualified [':', ':'] t | none => rsearch [':', ':'] qualified) with
  | some pos => if pos < qualified.length - 2 then (some (pos + 2), qualified.take pos, qualified.drop (pos + 2)) else (none, [], forename)
  | none => (some 0, [], qualified)

/-- The first part of `nascent_semantics_test::finalize`, TestCreator.cpp:451-500. -/
def semanticNames (forename qualified : Str) : Res Names :=
  let split := splitQualified forename qualified
  (templateData split.2.2).bind fun data =>
    if data = [] then .ok ⟨split.2.1, split.2.2, qualified, data⟩
    else
      match find split.2.2 ['<'] 0 with
      | none => .ok ⟨split.2.1, split.2.2, qualified, data⟩
      | some pos =>
        .ok ⟨split.2.1, split.2.2.take pos, match split.1 with | some start => qualified.take (start + pos) ++ argsText data | none => qualified, data⟩

/-! ### Equivalent types -/

/-- TestCreator.cpp:116. -/
def funTypes : List Str := ["int", "float", "double", "bool", "char", "short", "long", "signed", "unsigned"].map String.toList

/-- TestCreator.cpp:127. -/
def otherTypes : List Str := ["std::size_t", "size_t", "uint8_t", "uint16_t", "uint32_t", "uint64_t", "int8_t", "int16_t", "int32_t", "int64_t"].map String.toList

/-- The loop over fundamental types, TestCreator.cpp:117-125. -/
def fundamental (token : Str) : List Str → Option Bool
  | [] => none
  | t :: ts =>
    if search t token ≠ none then
      some (if token.length = t.length then false else decide (t.length < token.length) && decide (token[t.length]? ≠ some ' '))
    else fundamental token ts

/-- `handle_as_ref`, TestCreator.cpp:101-134. -/
def handleAsRef (type : Str) : Res Bool :=
  let rest := type.dropWhile (· = ' ')
  if rest = [] then .throws
  else if type.getLast? = some '*' ∨ type.getLast? = some '&' then .ok false
  else
    match fundamental (rest.takeWhile (· ≠ ' ')) funTypes with
    | some b => .ok b
    | none => .ok (!otherTypes.contains type)

/-- The lambda `prediction`, TestCreator.cpp:569-576. -/
def prediction (num i : Nat) (sep : Str) : Str :=
  "prediction".toList ++ (if 1 < num then ['_'] ++ Nat.toDigits 10 i else []) ++ (if i < num - 1 ∧ sep ≠ [] then sep ++ [' '] else [])

/-- The loop over equivalent types, TestCreator.cpp:578-597. -/
def equivalentArgs (num : Nat) : Nat → List Str → Res Str
  | _, [] => .ok []
  | i, type :: ts =>
    if type = [] then equivalentArgs num (i + 1) ts
    else
      (handleAsRef type).bind fun r => (equivalentArgs num (i + 1) ts).bind fun s =>
        .ok ((if type.take 6 = "const ".toList then [] else "const ".toList) ++ type ++ (if r then ['&'] else []) ++ [' '] ++ prediction num i [','] ++ s)

/-! ### Text of files -/

/-- The choice between kinds of semantics in `transform_file`, TestCreator.cpp:545-564. -/
def chooseKind (regular : Bool) (text : Str) : Str :=
  let reg := "$Regular".toList
  let mov := "$Move".toList
  let fin := "$\n".toList
  match find text reg 0 with
  | none => text
  | some start =>
    match find text mov (start + reg.length) with
    | none => text
    | some middle =>
      match find text fin (middle + mov.length) with
      | none => text
      | some last =>
        if regular then splice (splice text middle (last + fin.length - middle) []) start reg.length []
        else splice (splice text last fin.length []) start (middle + mov.length - start) []

/-- The loop removing tabs, TestCreator.cpp:40-47. -/
def removeTabs : Nat → Str → Nat → Option Str
  | 0, _, _ => none
  | f + 1, text, pos =>
    match find text ['\n'] pos with
    | none => some text
    | some e => removeTabs f (if e + 1 < text.length ∧ text[e + 1]? = some '\t' then splice text (e + 1) 1 [] else text) (e + 1)

/-- `process_namespace`, TestCreator.cpp:35-53. -/
def processNamespace (fuel : Nat) (text nameSpace : Str) : Option Str :=
  if nameSpace = [] then
    (replaceAlls fuel text [("namespace\n".toList, []), ("?{\n".toList, []), ("?}\n".toList, [])]).bind fun t => removeTabs fuel t 0
  else replaceAlls fuel text [("namespace".toList, "namespace ".toList ++ nameSpace), ("?{".toList, "{".toList), ("?}".toList, "}".toList)]

end Verif.TestCreator
