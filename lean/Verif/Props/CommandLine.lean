import Verif.Lemmas.CommandLineLine
import Verif.Lemmas.CommandLineVisit

/-! # C34: the command line

Spec/CommandLine defines the grammar of command lines for a forest of options, and what a command line means. -/
namespace Verif.Props
open Verif.Cmd Verif.Spec

section lemmas

theorem line_words {top : Bool} {opts : List OptTree} {ws left : List Str} {cs : List Call} (h : Line top opts ws cs left) :
    (wordsOf cs ++ left).Sublist ws ∧ (wordsOf cs ++ left).filter (· ≠ []) = ws.filter (· ≠ []) := by
  induction h with
  | stop => exact ⟨List.Sublist.refl _, rfl⟩
  | blank _ _ ih => exact ⟨ih.1.trans (List.sublist_cons_self _ _), by simpa using ih.2⟩
  | @one _ _ word _ args sub rest left subs cs _ _ _ _ _ _ ih1 ih2 =>
    simp only [wordsOf, Call.words]
    constructor
    · have h1 : (wordsOf subs ++ (wordsOf cs ++ left)).Sublist sub := ((List.Sublist.refl _).append ih2.1).trans ih1.1
      have := ((List.Sublist.refl args).append h1).cons₂ word
      simpa using this
    · have h1 : (wordsOf subs).filter (· ≠ []) ++ rest.filter (· ≠ []) = sub.filter (· ≠ []) := by
        rw [← ih1.2, List.filter_append]
      have h2 : (wordsOf cs).filter (· ≠ []) ++ left.filter (· ≠ []) = rest.filter (· ≠ []) := by
        rw [← ih2.2, List.filter_append]
      simp only [List.filter_append, List.filter_cons, List.cons_append, List.append_assoc, h2, h1]
  | @group _ _ word _ _ left cs _ _ _ _ _ ih =>
    simp only [wordsOf, Call.words]
    constructor
    · simpa using ih.1.cons₂ word
    · rw [List.append_assoc, List.singleton_append, List.filter_cons, ih.2, List.filter_cons]

theorem groups_unique {opts : List OptTree} {w : Str} {ts ts' : List OptTree} (h : Groups opts w ts) (h' : Groups opts w ts') : ts = ts' :=
  map_some_inj (h.2.2.1.symm.trans h'.2.2.1)

theorem names_unknown {opts : List OptTree} {w : Str} {t : OptTree} (h : Names opts w t) : ¬ Unknown opts w := by
  intro hu
  rw [← findOption_none, findOption_some.2 h] at hu
  cases hu

theorem stops_blank {opts : List OptTree} {ws : List Str} (hne : opts ≠ []) : ¬ Stops opts ([] :: ws) := by
  rintro (h | h | ⟨a, r, h, h1, _⟩)
  · exact hne h
  · cases h
  · cases h; exact h1 rfl

theorem names_ne {opts : List OptTree} {w : Str} {t : OptTree} (h : Names opts w t) : opts ≠ [] := by
  rintro rfl; simp [Names] at h

theorem groups_opts_ne {opts : List OptTree} {w : Str} {ts : List OptTree} (h : Groups opts w ts) : opts ≠ [] := by
  rintro rfl
  obtain ⟨_, h1, h2, _⟩ := h
  cases hl : letters w with
  | nil => exact h1 hl
  | cons c cs =>
    rw [hl] at h2
    cases ts <;> simp [letterOption] at h2

theorem stops_one {opts : List OptTree} {w : Str} {ws : List Str} {t : OptTree} (ht : Names opts w t) : ¬ Stops opts (w :: ws) := by
  rintro (h | h | ⟨a, r, h, _, hu, _⟩)
  · exact names_ne ht h
  · cases h
  · cases h; exact names_unknown ht hu

theorem stops_group {opts : List OptTree} {w : Str} {ws : List Str} {ts : List OptTree} (hg : Groups opts w ts) : ¬ Stops opts (w :: ws) := by
  rintro (h | h | ⟨a, r, h, _, _, _, hn⟩)
  · exact groups_opts_ne hg h
  · cases h
  · cases h; exact hn ts hg

end lemmas

/-- C34: parsing is always defined: the behaviour is never undefined. -/
theorem C34_defined (opts : List OptTree) (args : List Str) : parseInvoke opts args ≠ .ub := by
  unfold parseInvoke parse
  split
  · simp [Res.bind]
  · rcases top_defd args.length opts [] none args (Nat.le_refl _) with h | ⟨ops, h', rest, h, _⟩
    · rw [h]; simp [Res.bind]
    · rw [h]; simp only [Res.bind]; split <;> simp

/-- C34: a command line of the grammar is accepted, and the function objects of its options are invoked, with the arguments which
the command line gives them, in the order of the command line: `early` before and `late` after those of the options below. -/
theorem C34_accepts {opts : List OptTree} (hne : opts ≠ []) {args : List Str} (hord : Orderly opts args) {cs : List Call}
    (h : Line true opts args cs []) : parseInvoke opts args = .ok (none, runAll (opsOf cs)) := by
  unfold parseInvoke parse
  rw [if_neg (by simpa using hne), top_complete h rfl rfl args.length [] (Nat.le_refl _) hord]
  simp only [Res.bind, List.nil_append, Option.isSome_none, Bool.false_eq_true, if_false, flatMap_visit]

/-- C34: the calls of a command line contain its arguments exactly once and in order, except that empty words in the place of options are skipped. -/
theorem C34_consumed {opts : List OptTree} {args : List Str} {cs : List Call} (h : Line true opts args cs []) :
    (wordsOf cs).Sublist args ∧ (wordsOf cs).filter (· ≠ []) = args.filter (· ≠ []) := by
  simpa using line_words h

/-- C34: the grammar is unambiguous. -/
theorem C34_unambiguous {top : Bool} {opts : List OptTree} {args left left' : List Str} {cs cs' : List Call} (h : Line top opts args cs left)
    (h' : Line top opts args cs' left') : cs = cs' ∧ left = left' := by
  induction h generalizing cs' left' with
  | @stop top opts left hs =>
    cases h' with
    | stop => exact ⟨rfl, rfl⟩
    | blank hne _ => exact absurd hs (stops_blank hne)
    | one _ ht => exact absurd hs (stops_one ht)
    | group _ _ hg => exact absurd hs (stops_group hg)
  | blank hne h ih =>
    cases h' with
    | stop hs => exact absurd hs (stops_blank hne)
    | blank _ h' => exact ih h'
    | one hw => exact absurd rfl hw
    | group _ _ hg => exact absurd rfl (groups_ne hg)
  | @one top opts word t args sub rest left subs cs hw ht hb hargs hsub hrest ih1 ih2 =>
    generalize hws : word :: (args ++ sub) = ws at h'
    cases h' with
    | stop hs => subst hws; exact absurd hs (stops_one ht)
    | blank => cases hws; exact absurd rfl hw
    | @one _ _ word' t' args' sub' rest' left' subs' cs' hw' ht' hb' hargs' hsub' hrest' =>
      obtain ⟨rfl, hws'⟩ := List.cons.inj hws
      obtain rfl : t = t' := Option.some.inj (ht.symm.trans ht')
      obtain ⟨rfl, rfl⟩ := List.append_inj hws' (by omega)
      obtain ⟨rfl, rfl⟩ := ih1 hsub'
      obtain ⟨rfl, rfl⟩ := ih2 hrest'
      exact ⟨rfl, rfl⟩
    | group hu => cases hws; exact absurd hu (names_unknown ht)
  | group hu hh hg hb hrest ih =>
    cases h' with
    | stop hs => exact absurd hs (stops_group hg)
    | blank => exact absurd rfl (groups_ne hg)
    | one _ ht => exact absurd hu (names_unknown ht)
    | group _ _ hg' _ hrest' =>
      obtain rfl := groups_unique hg hg'
      obtain ⟨rfl, rfl⟩ := ih hrest'
      exact ⟨rfl, rfl⟩

/-- C34: what is accepted without a request for help is a command line of the grammar: anything else, an unknown word or a missing
argument, is rejected with an exception.  The full property has neither of the two conditions: see the violations below. -/
theorem C34_rejects_partial {opts : List OptTree} (hne : opts ≠ []) {args : List Str} (hord : Orderly opts args) (hbp : BoundParams opts)
    (hno : ∀ cs, ¬ Line true opts args cs []) (hhelp : "--help".toList ∉ args) : parseInvoke opts args = .throws := by
  unfold parseInvoke parse
  rw [if_neg (by simpa using hne)]
  rcases top_sound args.length opts [] args hne (Nat.le_refl _) hord hbp with h | ⟨h, _⟩ | ⟨cs, h, _⟩
  · rw [h]; rfl
  · exact absurd h hhelp
  · exact absurd h (hno cs)

/-- C34: help.  If there is a request for help among the arguments then the arguments are a command line nevertheless (the request being, for example,
the argument of an option), or there is an exception, or there is a help text, and nothing is invoked. -/
theorem C34_help {opts : List OptTree} (hne : opts ≠ []) {args : List Str} (hord : Orderly opts args) (hbp : BoundParams opts) :
    parseInvoke opts args = .throws ∨ (∃ F, parseInvoke opts args = .ok (some F, [])) ∨
    ∃ cs, Line true opts args cs [] ∧ parseInvoke opts args = .ok (none, runAll (opsOf cs)) := by
  rcases top_sound args.length opts [] args hne (Nat.le_refl _) hord hbp with h | ⟨_, ops, F, rest, h⟩ | ⟨cs, h, _⟩
  · left; unfold parseInvoke parse; rw [if_neg (by simpa using hne), h]; rfl
  · right; left; unfold parseInvoke parse; rw [if_neg (by simpa using hne), h]; exact ⟨F, by simp [Res.bind]⟩
  · exact .inr (.inr ⟨cs, h, C34_accepts hne hord h⟩)

/-- C34: a request for help in the place of the first option, if it is not itself an option, yields a help text for all options. -/
theorem C34_help_first {opts : List OptTree} (hne : opts ≠ []) (hu : Unknown opts "--help".toList) (args : List Str) :
    parseInvoke opts ("--help".toList :: args) = .ok (some opts, []) := by
  unfold parseInvoke parse
  rw [if_neg (by simpa using hne), List.length_cons, loop_help hu]
  simp [Res.bind]

/-! ### Violations -/

/-- An option. -/
def mkOpt (name : String) (aliases params : List String) (early : Option Nat) : Opt :=
  ⟨name.toList, aliases.map String.toList, params.map String.toList, early, none⟩

/-- C34 fails: an unknown word is accepted, because what follows its first character consists of one-letter aliases. -/
theorem C34_unknown_accepted_violated :
    parseInvoke [.node (mkOpt "open" ["-o"] [] (some 1)) []] ["foo".toList] = .ok (none, [(1, []), (1, [])]) := by rfl

/-- C34 fails: an unknown word without letters is accepted and ignored. -/
theorem C34_unknown_ignored_violated :
    parseInvoke [.node (mkOpt "open" ["-o"] [] (some 1)) []] ["x-".toList] = .ok (none, []) := by rfl

/-- C34 fails: a missing argument is not reported, for an option without function object below an option with an argument. -/
theorem C34_missing_argument_violated :
    parseInvoke [.node (mkOpt "run" [] ["file"] (some 1)) [.node (mkOpt "with" [] ["value"] none) []]] (["run", "f", "with"].map String.toList) =
      .ok (none, [(1, ["f".toList])]) := by rfl

/-- C34 fails: an argument is consumed twice, as a group of aliases of which the first is known, and as an option one level above. -/
theorem C34_twice_violated :
    parseInvoke [.node (mkOpt "run" [] [] (some 1)) [.node (mkOpt "fast" ["-f"] [] (some 2)) []], .node (mkOpt "-fg" [] [] (some 3)) []]
      (["run", "-fg"].map String.toList) = .ok (none, [(1, []), (2, []), (3, [])]) := by rfl

/-- C34 fails: an option is run without its arguments, as one of a group of aliases. -/
theorem C34_group_without_arguments_violated :
    parseInvoke [.node (mkOpt "test" ["-t"] ["name"] (some 1)) [], .node (mkOpt "verbose" ["-v"] [] (some 2)) []]
      (["-tv"].map String.toList) = .ok (none, [(1, []), (2, [])]) := by rfl

/-! Not vacuous: a forest in which options have options below them, parameters and aliases, and a command line. -/

/-- An example. -/
def exForest : List OptTree :=
  [.node ⟨"create".toList, ["c".toList], ["kind".toList], some 1, some 2⟩
    [.node (mkOpt "--suite" ["-s"] ["name"] (some 3)) [], .node (mkOpt "--fast" ["-f"] [] (some 4)) []],
   .node (mkOpt "--verbose" ["-v"] [] (some 5)) []]

/-- A command line for it. -/
def exLine : List Str := ["c", "regular", "-s", "Foo", "", "-f", "-v"].map String.toList

theorem exBelow {F : List OptTree} (h : ForestBelow exForest F) :
    F = [.node (mkOpt "--suite" ["-s"] ["name"] (some 3)) [], .node (mkOpt "--fast" ["-f"] [] (some 4)) []] ∨ F = [] := by
  generalize hf : exForest = o at h
  cases h with
  | here h => subst hf; simp [exForest] at h; rcases h with rfl | rfl <;> simp [OptTree.children]
  | deeper h hb =>
    subst hf
    simp [exForest] at h
    rcases h with rfl | rfl
    · simp only [OptTree.children] at hb
      generalize hf : [OptTree.node (mkOpt "--suite" ["-s"] ["name"] (some 3)) [], .node (mkOpt "--fast" ["-f"] [] (some 4)) []] = o at hb
      cases hb with
      | here h => subst hf; simp at h; rcases h with rfl | rfl <;> simp [OptTree.children]
      | deeper h hb =>
        subst hf; simp at h
        rcases h with rfl | rfl <;> simp only [OptTree.children] at hb <;> (generalize hf : ([] : List OptTree) = o at hb; cases hb <;> subst hf <;> contradiction)
    · simp only [OptTree.children] at hb
      generalize hf : ([] : List OptTree) = o at hb
      cases hb <;> subst hf <;> contradiction

theorem clear_short {F : List OptTree} {w : Str} (h : w.length < 2) : Clear F w := by
  rintro _ ⟨a, b, r, rfl, _⟩; simp at h; omega

theorem clear_named {F : List OptTree} {w : Str} (h : (findOption F w).isSome = true) : Clear F w := by
  intro hu; rw [findOption_none.2 hu] at h; cases h

theorem clear_first {F : List OptTree} {w : Str} {c : Char} {r : List Char} (h : letters w = c :: r) (h' : letterOption F c = none) : Clear F w :=
  fun _ _ => .inr ⟨c, r, h, h'⟩

theorem exOrderly : Orderly exForest exLine := by
  have key : ∀ F, F = exForest ∨ F = [.node (mkOpt "--suite" ["-s"] ["name"] (some 3)) [], .node (mkOpt "--fast" ["-f"] [] (some 4)) []] ∨ F = [] →
      ∀ w ∈ exLine, Clear F w := by
    intro F hF w hw
    have hw' : w = ['c'] ∨ w = ['r', 'e', 'g', 'u', 'l', 'a', 'r'] ∨ w = ['-', 's'] ∨ w = ['F', 'o', 'o'] ∨ w = [] ∨ w = ['-', 'f'] ∨ w = ['-', 'v'] := by
      have e : exLine = [['c'], ['r', 'e', 'g', 'u', 'l', 'a', 'r'], ['-', 's'], ['F', 'o', 'o'], [], ['-', 'f'], ['-', 'v']] := rfl
      rw [e] at hw
      simpa using hw
    rcases hF with rfl | rfl | rfl <;> rcases hw' with rfl | rfl | rfl | rfl | rfl | rfl | rfl <;>
      first
        | exact clear_short (by decide)
        | exact clear_named rfl
        | exact clear_first (c := 'e') rfl rfl
        | exact clear_first (c := 'o') rfl rfl
        | exact clear_first (c := 's') rfl rfl
        | exact clear_first (c := 'f') rfl rfl
        | exact clear_first (c := 'v') rfl rfl
  refine ⟨fun F hF w hw => key F (.inr (exBelow hF)) w hw, fun w hw hu hc => ?_⟩
  rcases key _ (.inl rfl) w hw hu hc with h | ⟨c, r, h1, h2⟩
  · exact .inl h
  · exact .inr ⟨c, by rw [h1]; simp, h2⟩

theorem exBound : BoundParams exForest := by
  intro F hF t ht hb
  rcases exBelow hF with rfl | rfl
  · simp at ht; rcases ht with rfl | rfl <;> cases hb
  · simp at ht

example : ∃ cs, Line true exForest exLine cs [] ∧
    runAll (opsOf cs) = [(1, ["regular".toList]), (3, ["Foo".toList]), (4, []), (2, ["regular".toList]), (5, [])] := by
  refine ⟨_, .one (args := ["regular".toList]) (by decide) rfl (fun _ => rfl) rfl
    (.one (args := ["Foo".toList]) (by decide) rfl (fun h => by cases h) rfl (.stop (.inl rfl))
      (.blank (by simp [OptTree.children]) (.one (args := []) (by decide) rfl (fun h => by cases h) rfl (.stop (.inl rfl)) (.stop ?_))))
    (.one (args := []) (by decide) rfl (fun _ => rfl) rfl (.stop (.inl rfl)) (.stop (.inr (.inl rfl)))), rfl⟩
  refine .inr (.inr ⟨_, _, rfl, by decide, findOption_none.1 rfl, by decide, fun ts h => ?_⟩)
  have h1 : [none] = ts.map some := h.2.2.1
  cases ts <;> simp at h1

example : parseInvoke exForest exLine =
    .ok (none, [(1, ["regular".toList]), (3, ["Foo".toList]), (4, []), (2, ["regular".toList]), (5, [])]) := by rfl

example : parseInvoke exForest (["c", "regular", "-s"].map String.toList) = .throws := by rfl

example : parseInvoke exForest (["c", "regular", "-x"].map String.toList) = .throws := by rfl

end Verif.Props
