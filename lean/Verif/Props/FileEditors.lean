import Verif.Lemmas.AddInclude
import Verif.Lemmas.AddToSuite
import Verif.Lemmas.AddToCmake
import Verif.Lemmas.InsertSort

/-! C77, C78 and C79: how new tests are added to existing files. -/
namespace Verif.Props
open Verif.FileEditors Verif.Text Verif.Spec.Text Verif.Spec.FileEditors

/-! ### C77: includes -/

/-- **C77 (part)** If the directives of a file form one block, to which other lines do not belong, and which is not at the very end of the file, then adding an include leaves all the other lines as they are, and the
block consists of the directives which were there and of the new one, each of them once; those with quotes come first, and each kind is sorted.  What is missing: nothing is to be lost if there is
something in between the directives, see `C77_between_violated`, or if the last line is a directive, see `C77_last_violated`. -/
theorem C77_include_partial {stdSort : (Str → Str → Bool) → List Str → List Str} (hs : Sorts stdSort) {path text : Str} {a block b : List Str} (ht : lines text = a ++ block ++ b)
    (hother : ∀ l ∈ a ++ b, Plain l) (hblock : ∀ l ∈ block, Directive l) (hne : block ≠ []) (hend : b ≠ []) (hpath : '<' ∈ path ↔ '>' ∈ path) :
    ∃ block', addInclude stdSort path text = .ok (unlines (a ++ block' ++ b)) ∧ block'.Perm (quoted path :: block) ∧ block'.Pairwise Ordered := by
  obtain ⟨incs, h1, h2, h3⟩ := addInclude_spec hs ht hother (fun l hl => .inr (hblock l hl))
    (by
      cases block with
      | nil => exact absurd rfl hne
      | cons l bl => exact ⟨l, rfl, (hblock l (by simp)).1⟩)
    (by
      obtain ⟨l, hl⟩ := Option.isSome_iff_exists.1 (by simpa using hne : block.getLast?.isSome = true)
      exact ⟨l, by simp [hl], (hblock l (List.mem_of_getLast? hl)).1⟩) hend hpath
  refine ⟨incs, h1, ?_, h3⟩
  have : directives block = block := by
    unfold directives
    rw [List.filter_eq_self]
    intro l hl
    exact decide_eq_true (hblock l hl).1
  rwa [this] at h2

/-- **C77 (part)** In a file without directives the new one is added at the end.  What is missing: this should be a line of its own, see `C77_glued_violated`. -/
theorem C77_none_partial {stdSort : (Str → Str → Bool) → List Str → List Str} (hs : Sorts stdSort) {path text : Str} (ht : ¬ inc <:+: text) (hpath : '<' ∈ path ↔ '>' ∈ path) :
    addInclude stdSort path text = .ok (text ++ quoted path ++ ['\n']) := addInclude_none hs ht hpath

/-- What happens to a block of directives with other lines in it: of these none is left. -/
theorem C77_block {stdSort : (Str → Str → Bool) → List Str → List Str} (hs : Sorts stdSort) {path text : Str} {a block b : List Str} (ht : lines text = a ++ block ++ b)
    (hother : ∀ l ∈ a ++ b, Plain l) (hblock : ∀ l ∈ block, Plain l ∨ Directive l) (hfirst : ∃ l ∈ block.head?, Directive l) (hlast : ∃ l ∈ block.getLast?, Directive l) (hend : b ≠ [])
    (hpath : '<' ∈ path ↔ '>' ∈ path) :
    ∃ block', addInclude stdSort path text = .ok (unlines (a ++ block' ++ b)) ∧ block'.Pairwise Ordered ∧
      (∀ l, block'.count l = [quoted path].count l + (block.filter fun l => inc.isPrefixOf l).count l) := by
  obtain ⟨incs, h1, h2, h3⟩ := addInclude_spec hs ht hother hblock (by obtain ⟨l, hl, h⟩ := hfirst; exact ⟨l, hl, h.1⟩) (by obtain ⟨l, hl, h⟩ := hlast; exact ⟨l, hl, h.1⟩) hend hpath
  refine ⟨incs, h1, h3, ?_⟩
  have : directives block = block.filter fun l => inc.isPrefixOf l := by
    unfold directives
    apply List.filter_congr
    intro l _
    rw [Bool.eq_iff_iff, decide_eq_true_eq, List.isPrefixOf_iff_prefix]
    rfl
  intro l
  rw [h2.count_eq, this, ← List.singleton_append, List.count_append]

/-- **C77 (violated)** What is between two directives is lost. -/
theorem C77_between_violated {stdSort : (Str → Str → Bool) → List Str → List Str} (hs : Sorts stdSort) :
    ∃ r, addInclude stdSort "c.h".toList "#include \"a.h\"\nint n{};\n#include \"b.h\"\n".toList = .ok r ∧ "int n{};".toList ∉ lines r := by
  obtain ⟨bl, h1, h2, h3⟩ := C77_block (path := "c.h".toList) hs (a := []) (block := ["#include \"a.h\"".toList, "int n{};".toList, "#include \"b.h\"".toList]) (b := [[]])
    (text := "#include \"a.h\"\nint n{};\n#include \"b.h\"\n".toList) (by decide +kernel) (by unfold Plain; decide +kernel) (by unfold Plain Directive; decide +kernel)
    ⟨"#include \"a.h\"".toList, rfl, by unfold Directive; decide +kernel⟩ ⟨"#include \"b.h\"".toList, rfl, by unfold Directive; decide +kernel⟩ (by simp) (by decide +kernel)
  refine ⟨_, h1, ?_⟩
  have h4 : ∀ l, l ∈ bl → l ∈ ["#include \"c.h\"".toList, "#include \"a.h\"".toList, "#include \"b.h\"".toList] := by
    intro l hl
    have := h3 l
    rw [show (["#include \"a.h\"".toList, "int n{};".toList, "#include \"b.h\"".toList].filter fun l => inc.isPrefixOf l) = ["#include \"a.h\"".toList, "#include \"b.h\"".toList] by decide +kernel,
      show quoted "c.h".toList = "#include \"c.h\"".toList by decide +kernel, ← List.count_append] at this
    have h5 : 0 < bl.count l := List.count_pos_iff.2 hl
    rw [this] at h5
    exact List.count_pos_iff.1 h5
  rw [List.nil_append, lines_unlines (by simp)]
  · intro hm
    rcases List.mem_append.1 hm with hm | hm
    · exact absurd (h4 _ hm) (by decide +kernel)
    · exact absurd hm (by decide +kernel)
  · intro l hl
    rcases List.mem_append.1 hl with hm | hm
    · exact (show ∀ l ∈ ["#include \"c.h\"".toList, "#include \"a.h\"".toList, "#include \"b.h\"".toList], '\n' ∉ l by decide +kernel) l (h4 l hm)
    · exact (show ∀ l ∈ [([] : Str)], '\n' ∉ l by decide) l hm

/-- **C77 (violated)** A directive which is the last line, with no newline after it, is lost. -/
theorem C77_last_violated {stdSort : (Str → Str → Bool) → List Str → List Str} (hs : Sorts stdSort) :
    addInclude stdSort "c.h".toList "int n{};\n#include \"a.h\"".toList = .ok "int n{};\n#include \"c.h\"\n".toList := by
  rw [addInclude_one hs (by decide +kernel)]
  decide +kernel

/-- **C77 (violated)** Without directives and without a newline at the end, the new directive becomes part of the last line. -/
theorem C77_glued_violated {stdSort : (Str → Str → Bool) → List Str → List Str} (hs : Sorts stdSort) :
    addInclude stdSort "c.h".toList "// Includes".toList = .ok "// Includes#include \"c.h\"\n".toList := by
  rw [addInclude_one hs (by decide +kernel)]
  decide +kernel

/-- **C77 (violated)** With an arrow in a comment the comparison is not an order, and sorting is undefined. -/
theorem C77_arrow_violated (stdSort : (Str → Str → Bool) → List Str → List Str) : addInclude stdSort "c.h".toList "#include \"a.h\" // a->b\nint n{};\n".toList = .ub := by
  rw [addInclude_ub (by decide +kernel)]

/-- Two directives, with other lines around them. -/
example : ∃ text path : Str, ∃ a block b : List Str, lines text = a ++ block ++ b ∧ (∀ l ∈ a ++ b, Plain l) ∧ (∀ l ∈ block, Directive l) ∧ block.length = 2 ∧ b ≠ [] ∧ ('<' ∈ path ↔ '>' ∈ path) ∧
    addInclude insertSort path text = .ok "// Tests\n#include \"B.hpp\"\n#include \"C.hpp\"\n#include <vector>\n\nint main();\n".toList :=
  ⟨"// Tests\n#include <vector>\n#include \"C.hpp\"\n\nint main();\n".toList, "B.hpp".toList, ["// Tests".toList], ["#include <vector>".toList, "#include \"C.hpp\"".toList], ["".toList, "int main();".toList, "".toList],
    by decide +kernel, by unfold Plain; decide +kernel, by unfold Directive; decide +kernel, rfl, by simp, by decide +kernel, by decide +kernel⟩

/-- There is a way of sorting. -/
example : Sorts insertSort := insertSort_sorts

/-! ### C78: suites -/

/-- **C78 (part)** Tests are added to the suite with the given name: those which are there already are not added again, the others are put in front of them, and nothing else changes, neither in other suites nor in the
rest of the program.  What is missing: this is to hold for all tests, in whatever order, see `C78_substring_violated`, `C78_again_violated` and `C78_other_violated`. -/
theorem C78_suite_partial {ind : Str} {p : Program} {before after : List Suite} {s : Suite} (h : Insertable ind p before s after) {old new : List Str} (hne : old ++ new ≠ [])
    (hold : ∀ t ∈ old, t ∈ s.tests) (hnew : ∀ t ∈ new, NewTest ind s t) (hpair : new.Pairwise fun t t' => ¬ t' <:+: ind ++ ind ++ ind ++ t ++ [',']) :
    addToSuite s.name ind (old ++ new) (p.text ind) = .ok (Program.text ind ⟨p.intro, before ++ ⟨s.name, new.reverse ++ s.tests⟩ :: after, p.outro⟩) :=
  addToSuite_spec ⟨h.blank, h.suites, h.name, h.intro, h.others, h.tests⟩ hne hold hnew hpair

/-- **C78 (part)** Adding tests a second time, in whatever order, changes nothing.  What is missing: as for `C78_suite_partial`. -/
theorem C78_twice_partial {ind : Str} {p : Program} {before after : List Suite} {s : Suite} (h : Insertable ind p before s after) {old new : List Str} (hne : old ++ new ≠ [])
    (hold : ∀ t ∈ old, t ∈ s.tests) (hnew : ∀ t ∈ new, NewTest ind s t ∧ ¬ ");".toList <:+: t) (hpair : new.Pairwise fun t t' => ¬ t' <:+: ind ++ ind ++ ind ++ t ++ [',']) {tests : List Str} (hp : tests.Perm (old ++ new)) :
    ∃ r, addToSuite s.name ind (old ++ new) (p.text ind) = .ok r ∧ addToSuite s.name ind tests r = .ok r := by
  refine ⟨_, C78_suite_partial h hne hold (fun t ht => (hnew t ht).1) hpair, ?_⟩
  have := C78_suite_partial (s := ⟨s.name, new.reverse ++ s.tests⟩) (p := ⟨p.intro, before ++ ⟨s.name, new.reverse ++ s.tests⟩ :: after, p.outro⟩) (before := before) (after := after) (old := tests) (new := [])
    ⟨h.blank, rfl, h.name, h.intro, h.others, by simp [h.tests.1], by
      intro t ht
      rcases List.mem_append.1 ht with ht | ht
      · exact (hnew t (by simpa using ht)).2
      · exact h.tests.2 t ht⟩ (by simpa using fun he => hne (by simpa [he] using hp)) (by
      intro t ht
      rcases List.mem_append.1 (hp.mem_iff.1 ht) with ht | ht
      · simp [hold t ht]
      · simp [ht]) (by simp) List.Pairwise.nil
  simpa using this

/-- **C78** If there is no suite with the given name, then one with the given tests is added behind all the others, and nothing else changes. -/
theorem C78_new {ind : Str} {p : Program} {name w rest : Str} {tests : List Str} (hname : ¬ naming name <:+: p.text ind)
    (hout : p.outro = w ++ "runner.execute".toList ++ rest) (hw : '\n' ∉ w ∧ 'r' ∉ w) (hex : ¬ "runner.execute".toList <:+: p.intro ++ p.suites.flatMap (Suite.text ind))
    (hn : '\n' ∉ name) (ht : tests ≠ []) (h : ∀ t ∈ tests, t ≠ [] ∧ '\n' ∉ t) :
    addToSuite name ind tests (p.text ind) = .ok (Program.text ind ⟨p.intro, p.suites ++ [⟨name, tests⟩], p.outro⟩) :=
  addToSuite_new hname hout hw hex hn ht h

/-- **C78** If there is nothing to be added, or if there is neither the suite nor the execution of the tests, then an exception is thrown, whence the program is left as it is. -/
theorem C78_throws {ind name text : Str} {tests : List Str} (h : tests = [] ∨ (¬ naming name <:+: text ∧ ¬ "runner.execute".toList <:+: text)) : addToSuite name ind tests text = .throws := by
  unfold addToSuite
  rcases h with rfl | ⟨h1, h2⟩
  · rfl
  · split
    · rfl
    · rw [show find text (suitePattern name) 0 = none from find_none.2 (.inr (by rw [List.drop_zero]; exact h1))]
      dsimp only
      rw [show find text execution 0 = none from find_none.2 (.inr (by rw [List.drop_zero]; exact h2))]

example : ¬ naming "U".toList <:+: "int main() {}\n".toList ∧ ¬ "runner.execute".toList <:+: "int main() {}\n".toList := by decide +kernel

/-- A program for the following examples. -/
def sampleProgram (suites : List (String × List String)) : Program :=
  ⟨"int main(int argc, char** argv)\n{\n  test_runner runner{argc, argv};\n".toList, suites.map fun s => ⟨s.1.toList, s.2.map String.toList⟩, "    runner.execute();\n}\n".toList⟩

/-- **C78 (violated)** A test is not added if its text is part of that of another one. -/
theorem C78_substring_violated : addToSuite "S".toList "  ".toList ["bar_test{\"Unit Test\"}".toList] ((sampleProgram [("S", ["foobar_test{\"Unit Test\"}"])]).text "  ".toList) =
    .ok ((sampleProgram [("S", ["foobar_test{\"Unit Test\"}"])]).text "  ".toList) := by decide +kernel

/-- **C78 (violated)** A test which is there already is added again if it is named after a new one. -/
theorem C78_again_violated : addToSuite "S".toList "  ".toList (["c_test{\"Unit Test\"}", "b_test{\"Unit Test\"}"].map String.toList) ((sampleProgram [("S", ["a_test{\"Unit Test\"}", "b_test{\"Unit Test\"}"])]).text "  ".toList) =
    .ok ((sampleProgram [("S", ["b_test{\"Unit Test\"}", "c_test{\"Unit Test\"}", "a_test{\"Unit Test\"}", "b_test{\"Unit Test\"}"])]).text "  ".toList) := by decide +kernel

/-- **C78 (violated)** A test is added to another suite, if a test of that suite has an argument which looks like the name of the suite. -/
theorem C78_other_violated : addToSuite "S".toList "  ".toList ["c_test{\"Unit Test\"}".toList] ((sampleProgram [("T", ["b_test{\"S\", 1}", "d_test{\"Unit Test\"}"]), ("S", ["a_test{\"Unit Test\"}"])]).text "  ".toList) =
    .ok ((sampleProgram [("T", ["b_test{\"S\", 1}", "c_test{\"Unit Test\"}", "d_test{\"Unit Test\"}"]), ("S", ["a_test{\"Unit Test\"}"])]).text "  ".toList) := by decide +kernel

/-- Two suites; one test which is there and one which is not. -/
example : ∃ before after s, Insertable "  ".toList (sampleProgram [("T", ["b_test{\"Unit Test\"}"]), ("S", ["a_test{\"Unit Test\"}"])]) before s after ∧ s.name = "S".toList ∧ "a_test{\"Unit Test\"}".toList ∈ s.tests ∧
    NewTest "  ".toList s "c_test{\"Unit Test\"}".toList :=
  ⟨[⟨"T".toList, ["b_test{\"Unit Test\"}".toList]⟩], [], ⟨"S".toList, ["a_test{\"Unit Test\"}".toList]⟩,
    ⟨by decide +kernel, rfl, by decide +kernel, by decide +kernel, by
      intro s' hs'
      simp only [List.mem_cons, List.not_mem_nil, or_false] at hs'
      subst hs'
      decide +kernel, by decide +kernel⟩, rfl, by decide +kernel, by unfold NewTest; decide +kernel⟩

/-- A new suite. -/
example : ¬ naming "U".toList <:+: (sampleProgram [("S", ["a_test{\"Unit Test\"}"])]).text "  ".toList ∧ (sampleProgram [("S", ["a_test{\"Unit Test\"}"])]).outro = "    ".toList ++ "runner.execute".toList ++ "();\n}\n".toList ∧
    ¬ "runner.execute".toList <:+: (sampleProgram [("S", ["a_test{\"Unit Test\"}"])]).intro ++ (sampleProgram [("S", ["a_test{\"Unit Test\"}"])]).suites.flatMap (Suite.text "  ".toList) := by decide +kernel

/-! ### C79: CMake -/

/-- **C79 (part)** If the entries of a list for CMake are on lines of their own, a file is added to the list, which is then sorted and aligned; every entry which was there is there once more, and nothing outside the list is
changed.  What is missing: a file which is there already should not be added again, see `C79_twice_violated`, and lists whose closing parenthesis is on a line of its own should be treated alike, see `C79_blank_violated`. -/
theorem C79_cmake_partial {stdSort : (Str → Str → Bool) → List Str → List Str} (hs : Sorts stdSort) {file po pre text a h b cl : Str} {c : Char} {es : List (Nat × Str)}
    (ht : text = a ++ po ++ (h ++ entryLines es ++ (c :: cl) ++ b)) (hopen : First po a (h ++ entryLines es ++ (c :: cl) ++ b)) (hclose : First (c :: cl) (h ++ entryLines es) b)
    (hc : c ≠ ' ') (hh : '\n' ∉ h) (he : ∀ e ∈ es, '\n' ∉ e.2 ∧ e.2.head? ≠ some ' ') :
    ∃ sorted : List Str, addToCmake stdSort file po (c :: cl) pre text = .ok (a ++ po ++ (h ++ entryLines (sorted.map fun e => (margin po, e)) ++ (c :: cl) ++ b)) ∧
      sorted.Perm ((pre ++ file) :: es.map (·.2)) ∧ sorted.Pairwise (· ≤ ·) := addToCmake_spec hs ht hopen hclose hc hh he

/-- **C79** If there is no list, or it does not end as it should, then an exception is thrown, whence the file is left as it is. -/
theorem C79_missing {stdSort : (Str → Str → Bool) → List Str → List Str} {file po pc pre text : Str} (h : (¬ po <:+: text) ∨ ∃ a b, text = a ++ po ++ b ∧ First po a b ∧ ¬ pc <:+: b) :
    addToCmake stdSort file po pc pre text = .throws := by
  unfold addToCmake
  rcases h with h | ⟨a, b, rfl, h1, h2⟩
  · rw [find_none.2 (.inr (by simpa using h))]
  · rw [show find (a ++ po ++ b) po 0 = some a.length by simpa using find_at (d := []) h1]
    dsimp only
    rw [← List.length_append, find_none.2 (.inr (by rwa [List.drop_left]))]

/-- **C79 (violated)** A file which is there already is added again. -/
theorem C79_twice_violated : ∃ t, addToCmake insertSort "B.cpp".toList "target_sources(".toList ")\n".toList [] "target_sources(Tests PRIVATE\n    A.cpp)\n".toList = .ok t ∧
    addToCmake insertSort "B.cpp".toList "target_sources(".toList ")\n".toList [] t =
      .ok "target_sources(Tests PRIVATE\n               A.cpp\n               B.cpp\n               B.cpp)\n".toList := ⟨_, rfl, by decide +kernel⟩

/-- **C79 (violated)** If the closing parenthesis is on a line of its own, then an empty entry arises, and the parenthesis moves. -/
theorem C79_blank_violated : addToCmake insertSort "B.cpp".toList "target_sources(".toList ")\n".toList [] "target_sources(Tests PRIVATE\n    A.cpp\n)\n".toList =
      .ok "target_sources(Tests PRIVATE\n               \n               A.cpp\n               B.cpp)\n".toList := by decide +kernel

/-- A list with two entries. -/
example : ∃ (text a po h b cl : Str) (c : Char) (es : List (Nat × Str)), text = "project(P)\ntarget_sources(Tests PRIVATE\n  C.cpp\n    A.cpp)\nadd(x)\n".toList ∧ text = a ++ po ++ (h ++ entryLines es ++ (c :: cl) ++ b) ∧
    First po a (h ++ entryLines es ++ (c :: cl) ++ b) ∧ First (c :: cl) (h ++ entryLines es) b ∧ c ≠ ' ' ∧ '\n' ∉ h ∧ (∀ e ∈ es, '\n' ∉ e.2 ∧ e.2.head? ≠ some ' ') ∧ es.length = 2 ∧ margin po = 15 :=
  ⟨_, "project(P)\n".toList, "target_sources(".toList, "Tests PRIVATE".toList, "add(x)\n".toList, "\n".toList, ')', [(2, "C.cpp".toList), (4, "A.cpp".toList)], rfl, by decide +kernel,
    search_first (by decide +kernel), search_first (by decide +kernel), by decide, by decide +kernel, by decide +kernel, rfl, by decide +kernel⟩

end Verif.Props
