import Verif.Model.CommandLine

/-! Command lines: a grammar, and what a command line means. -/
namespace Verif.Spec
open Verif.Cmd

/-- A part of a command line: a word which names an option, followed by the arguments of the option and by parts which belong to options
below it; or a word which consists of one-letter aliases. -/
inductive Call where
  | one (word : Str) (option : OptTree) (args : List Str) (subs : List Call)
  | group (word : Str) (options : List OptTree)

/-- The option which a word names: the first one of which it is the name or an alias. -/
def Names (opts : List OptTree) (word : Str) (t : OptTree) : Prop :=
  opts.find? (fun t => t.opt.name = word ∨ word ∈ t.opt.aliases) = some t

/-- The word names no option. -/
def Unknown (opts : List OptTree) (word : Str) : Prop := ∀ t ∈ opts, t.opt.name ≠ word ∧ word ∉ t.opt.aliases

/-- A word which consists of a dash and letters, the first of which is neither a blank nor a dash. -/
def Dashed (word : Str) : Prop := ∃ b r, word = '-' :: b :: r ∧ b ≠ ' ' ∧ b ≠ '-'

/-- The letters of a word, without its first character and without dashes. -/
def letters (word : Str) : List Char := word.tail.filter (· ≠ '-')

/-- The first option with the one-letter alias `c`. -/
def letterOption (opts : List OptTree) (c : Char) : Option OptTree := opts.find? fun t => ['-', c] ∈ t.opt.aliases

/-- The word consists of one-letter aliases of options without parameters. -/
def Groups (opts : List OptTree) (word : Str) (ts : List OptTree) : Prop :=
  Dashed word ∧ letters word ≠ [] ∧ (letters word).map (letterOption opts) = ts.map some ∧ ∀ t ∈ ts, t.opt.params = []

/-- The words `rest` do not continue a command line for `opts`. -/
def Stops (opts : List OptTree) (rest : List Str) : Prop :=
  opts = [] ∨ rest = [] ∨ ∃ a r, rest = a :: r ∧ a ≠ [] ∧ Unknown opts a ∧ a ≠ "--help".toList ∧ ∀ ts, ¬ Groups opts a ts

/-- The grammar of command lines for a forest of options: `Line top opts words calls left` says that the calls are read from the beginning
of `words`, and that `left` is left over.  As many words as possible are read for the options below an option.  At the top
level each option must have a function object. -/
inductive Line : Bool → List OptTree → List Str → List Call → List Str → Prop where
  | stop {top : Bool} {opts : List OptTree} {left : List Str} (hs : Stops opts left) : Line top opts left [] left
  | blank {top : Bool} {opts : List OptTree} {words left : List Str} {cs : List Call} (hne : opts ≠ []) (h : Line top opts words cs left) :
      Line top opts ([] :: words) cs left
  | one {top : Bool} {opts : List OptTree} {word : Str} {t : OptTree} {args sub rest left : List Str} {subs cs : List Call}
      (hw : word ≠ []) (ht : Names opts word t) (hb : top = true → t.bound = true) (hargs : args.length = t.opt.params.length)
      (hsub : Line false t.children sub subs rest) (hrest : Line top opts rest cs left) :
      Line top opts (word :: (args ++ sub)) (.one word t args subs :: cs) left
  | group {top : Bool} {opts : List OptTree} {word : Str} {ts : List OptTree} {rest left : List Str} {cs : List Call}
      (hu : Unknown opts word) (hh : word ≠ "--help".toList) (hg : Groups opts word ts) (hb : top = true → ∀ t ∈ ts, t.bound = true)
      (hrest : Line top opts rest cs left) : Line top opts (word :: rest) (.group word ts :: cs) left

/-- An operation: the function objects to be invoked before and after the operations below it, and their arguments. -/
inductive OpTree where
  | node (early late : Option Nat) (args : List Str) (below : List OpTree)

mutual
  /-- The arguments which a call contributes to the operation above it: those of an option without function object, and those which are
  contributed to it. -/
  def Call.extra : Call → List Str
    | .one _ t args subs => if t.bound then [] else args ++ extraOf subs
    | .group _ _ => []
  def extraOf : List Call → List Str
    | [] => []
    | c :: cs => c.extra ++ extraOf cs
end

mutual
  /-- The operations which a call stands for: an option without function object only stands for the operations below it. -/
  def Call.ops : Call → List OpTree
    | .one _ t args subs => if t.bound then [.node t.opt.early t.opt.late (args ++ extraOf subs) (opsOf subs)] else opsOf subs
    | .group _ ts => (ts.filter OptTree.bound).map fun t => .node t.opt.early t.opt.late [] []
  /-- The operations which a command line stands for. -/
  def opsOf : List Call → List OpTree
    | [] => []
    | c :: cs => c.ops ++ opsOf cs
end

mutual
  /-- The words of a call. -/
  def Call.words : Call → List Str
    | .one w _ args subs => w :: (args ++ wordsOf subs)
    | .group w _ => [w]
  /-- The words of a list of calls. -/
  def wordsOf : List Call → List Str
    | [] => []
    | c :: cs => c.words ++ wordsOf cs
end

/-- The invocation of a function object, if there is one. -/
def invocation (f : Option Nat) (args : List Str) : List (Nat × List Str) :=
  match f with
  | some n => [(n, args)]
  | none => []

mutual
  /-- The invocations which an operation stands for. -/
  def OpTree.run : OpTree → List (Nat × List Str)
    | .node e l args below => invocation e args ++ runAll below ++ invocation l args
  def runAll : List OpTree → List (Nat × List Str)
    | [] => []
    | t :: ts => t.run ++ runAll ts
end

/-- The forests below the options of a forest. -/
inductive ForestBelow : List OptTree → List OptTree → Prop where
  | here {opts : List OptTree} {t : OptTree} (h : t ∈ opts) : ForestBelow opts t.children
  | deeper {opts F : List OptTree} {t : OptTree} (h : t ∈ opts) (hb : ForestBelow t.children F) : ForestBelow opts F

/-- A word which the parser considers as a group: it has at least two characters, and starts neither with two dashes nor with a
dash and a blank. -/
def Candidate (word : Str) : Prop := ∃ a b r, word = a :: b :: r ∧ ¬ (a = '-' ∧ (b = ' ' ∨ b = '-'))

/-- A word is clear for a forest if it names an option, or is not considered as a group, or is a group, or its first letter is not an alias. -/
def Clear (F : List OptTree) (word : Str) : Prop :=
  Unknown F word → Candidate word → (∃ ts, Groups F word ts) ∨ ∃ c r, letters word = c :: r ∧ letterOption F c = none

/-- Words are clear for the forests below the top level; and at the top level each word names an option, or is not considered as a
group, or is a group, or has a letter which is not an alias. -/
def Orderly (opts : List OptTree) (words : List Str) : Prop :=
  (∀ F, ForestBelow opts F → ∀ w ∈ words, Clear F w) ∧
  ∀ w ∈ words, Unknown opts w → Candidate w → (∃ ts, Groups opts w ts) ∨ ∃ c ∈ letters w, letterOption opts c = none

/-- ForestBelow the top level, options without function object have no parameters. -/
def BoundParams (opts : List OptTree) : Prop := ∀ F, ForestBelow opts F → ∀ t ∈ F, t.bound = false → t.opt.params = []

end Verif.Spec
