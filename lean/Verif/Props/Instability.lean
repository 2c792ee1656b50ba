import Verif.Lemmas.Instability
/-
C87: tests whose repetitions have different failures are found.
-/
namespace Verif.Props
open Verif.Text Verif.FailureInfo Verif.Instability Verif.Spec.Instability

/-- **C87 (part)** Several tests are repeated, in any order and possibly interleaved, each repetition leaving its failures in a file; and the files are found in any
order.  The analysis is completed.  There is precisely one report for each test some of whose repetitions had different failures.  It names the source file of the test,
gives the frequencies of the different outcomes and shows failures which tell them apart.  In particular, nothing is reported precisely if no test is unstable.

What is missing: tests whose source files, in different directories, have the same names, see `C87_same_file_violated`; repetitions which do not end, see
`C87_crash_violated`; and messages in which a line consists of a dollar sign, see `C87_dollar_violated`. -/
theorem C87_instabilities_partial {trials : Nat} (ht : 1 < trials) {tests : List Test}
    (hf : ∀ t ∈ tests, ∀ i < trials, ∀ f ∈ t.failures i, f.checkIndex < 2 ^ 64 ∧ ¬ DollarLine f.message)
    (hs : ∀ t ∈ tests, ProperSource t.file) (hd : tests.Pairwise Distinct)
    {history : List (Test × Nat)} (hh : Complete trials tests history) {listing : List (Path × Str)} (hl : listing.Perm (execute history)) :
    ∃ reports, analyse trials listing = .ok reports ∧ (reports = [] ↔ ∀ t ∈ tests, ¬ Unstable trials t) ∧
      ∃ unstable : List Test, unstable.Subperm tests ∧ (∀ t, t ∈ unstable ↔ t ∈ tests ∧ Unstable trials t) ∧
        List.Forall₂ (fun t r => r.1 = t.file ∧ ReportOf keyMessage (runs trials t) r.2) unstable reports := by
  obtain ⟨rs, us, h1, h2, h3, h4⟩ := analysed ht (fun t h => ⟨hf t h, hs t h⟩) hd hh hl
  refine ⟨rs, h1, ?_, us, h2, h3, h4⟩
  constructor
  · rintro rfl t ht hu
    have := h4.length_eq
    have h5 : us = [] := List.length_eq_zero_iff.1 this
    exact absurd ((h3 t).2 ⟨ht, hu⟩) (by simp [h5])
  · intro h
    have h5 : us = [] := List.eq_nil_iff_forall_not_mem.2 fun t ht => h t ((h3 t).1 ht).1 ((h3 t).1 ht).2
    subst h5
    exact List.forall₂_nil_left_iff.1 h4

/-- **C87** What is shown of two repetitions is the same only if the failures were: the indentation of messages hides no difference. -/
theorem C87_shown {a b : Str} (h : tabbed true a = tabbed true b) : a = b := by
  rw [← untabbed_tabbed true a, h, untabbed_tabbed]

namespace InstabilityExample

/-- A test which passes in its first and third repetition. -/
def foo : Test := ⟨["A".toList], "Foo.cpp".toList, "Foo Test".toList, fun i => if i % 2 = 0 then [] else [⟨3, "x\n\ny".toList⟩]⟩

/-- A test which always fails in the same way. -/
def bar : Test := ⟨["A".toList], "Foo.cpp".toList, "Bar".toList, fun _ => [⟨1, "z".toList⟩]⟩

def history : List (Test × Nat) := [(foo, 1), (bar, 0), (foo, 0), (bar, 2), (bar, 1), (foo, 2)]

theorem history_complete : Complete 3 [bar, foo] history := by
  show [(foo, 1), (bar, 0), (foo, 0), (bar, 2), (bar, 1), (foo, 2)].Perm [(bar, 0), (bar, 1), (bar, 2), (foo, 0), (foo, 1), (foo, 2)]
  refine ((List.Perm.swap (bar, 0) (foo, 1) _)).trans (.cons _ ?_)
  refine (List.perm_append_comm (l₁ := [(foo, 1), (foo, 0), (bar, 2)]) (l₂ := [(bar, 1), (foo, 2)])).trans (.cons _ ?_)
  show [(foo, 2), (foo, 1), (foo, 0), (bar, 2)].Perm _
  exact List.reverse_perm [(bar, 2), (foo, 0), (foo, 1), (foo, 2)]

end InstabilityExample

open InstabilityExample in
/-- The hypotheses are met by two tests of one file, whose repetitions are interleaved; and this is the outcome. -/
example : (∀ t ∈ [bar, foo], ∀ i < 3, ∀ f ∈ t.failures i, f.checkIndex < 2 ^ 64 ∧ ¬ DollarLine f.message) ∧ (∀ t ∈ [bar, foo], ProperSource t.file) ∧
    [bar, foo].Pairwise Distinct ∧ Complete 3 [bar, foo] history ∧
    analyse 3 (execute history) = .ok [("Foo.cpp".toList, [2, 1], "--No failures--\n\nvs.\n\n\tx\n\n\ty".toList)] := by
  refine ⟨?_, ?_, ?_, history_complete, by decide +kernel⟩
  · have hz : ¬ DollarLine "z".toList := by
      rw [Failure.dollar_single (by decide)]
      decide
    have hx : ¬ DollarLine "x\n\ny".toList := by
      rw [show "x\n\ny".toList = ['x'] ++ '\n' :: ([] ++ '\n' :: ['y']) from rfl, Failure.dollar_cons (by decide), Failure.dollar_cons (by decide),
        Failure.dollar_single (by decide)]
      decide
    intro t ht i _ f hf
    simp only [List.mem_cons, List.not_mem_nil, or_false] at ht
    rcases ht with rfl | rfl
    · simp only [bar, List.mem_cons, List.not_mem_nil, or_false] at hf
      subst hf
      exact ⟨by decide, hz⟩
    · simp only [foo] at hf
      split at hf
      · simp at hf
      · simp only [List.mem_cons, List.not_mem_nil, or_false] at hf
        subst hf
        exact ⟨by decide, hx⟩
  · intro t ht
    simp only [List.mem_cons, List.not_mem_nil, or_false] at ht
    rcases ht with rfl | rfl <;> exact ⟨"Foo".toList, "cpp".toList, rfl, by decide, by decide, by decide, by decide⟩
  · simp only [List.pairwise_cons, List.mem_cons, List.not_mem_nil, or_false, forall_eq, false_imp_iff, implies_true, List.Pairwise.nil, and_true]
    intro _ h
    exact absurd h.length_eq (by decide)

/-- **C87 (violated)** Two source files in different directories have the same names, and so have the tests: of the first, which is unstable, nothing is reported,
as the second one replaces its files. -/
theorem C87_same_file_violated :
    ∃ (t u : Test) (history : List (Test × Nat)), t.directory ≠ u.directory ∧ Complete 2 [t, u] history ∧ Unstable 2 t ∧ analyse 2 (execute history) = .ok [] := by
  let t : Test := ⟨["A".toList], "Foo.cpp".toList, "Foo Test".toList, fun i => if i = 0 then [] else [⟨3, "x".toList⟩]⟩
  let u : Test := ⟨["B".toList], "Foo.cpp".toList, "Foo Test".toList, fun _ => []⟩
  refine ⟨t, u, [(t, 0), (u, 0), (t, 1), (u, 1)], by decide, ?_, ⟨0, by decide, 1, by decide, by decide⟩, by decide +kernel⟩
  show [(t, 0), (u, 0), (t, 1), (u, 1)].Perm [(t, 0), (t, 1), (u, 0), (u, 1)]
  exact .cons _ (.swap _ _ _)

/-- **C87 (violated)** In sandbox mode, one of two repetitions ends prematurely, before any test has left a file: the remaining two files, of different tests, are taken
for those of a single one, and nothing is reported.  If the tests differ, one is said to be unstable though both may not be. -/
theorem C87_crash_violated :
    ∃ t u v : Test, [t, u, v].Pairwise Distinct ∧ analyse 2 (execute [(t, 1), (u, 1)]) = .ok [] ∧
      (∀ i j, t.failures i = t.failures j ∧ v.failures i = v.failures j) ∧ ∃ report, analyse 2 (execute [(t, 1), (v, 1)]) = .ok [(t.file, report)] := by
  let t : Test := ⟨[], "Bar.cpp".toList, "Bar".toList, fun _ => []⟩
  let u : Test := ⟨[], "Foo.cpp".toList, "Foo".toList, fun _ => []⟩
  let v : Test := ⟨[], "Ziz.cpp".toList, "Ziz".toList, fun _ => [⟨3, "x".toList⟩]⟩
  refine ⟨t, u, v, ?_, by decide +kernel, fun _ _ => ⟨rfl, rfl⟩, ([1, 1], "--No failures--\n\nvs.\n\n\tx".toList), by decide +kernel⟩
  have h1 : t.file ≠ u.file := by decide
  have h2 : t.file ≠ v.file := by decide
  have h3 : u.file ≠ v.file := by decide
  simp only [List.pairwise_cons, List.mem_cons, List.not_mem_nil, or_false, forall_eq_or_imp, forall_eq, false_imp_iff, implies_true, List.Pairwise.nil, and_true]
  exact ⟨⟨fun h => absurd h h1, fun h => absurd h h2⟩, fun h => absurd h h3⟩

/-- **C87 (violated)** A test which is unstable has a message in which a line consists of a dollar sign: instead of a report there is an exception; or the outcomes of
different repetitions are taken to be the same. -/
theorem C87_dollar_violated :
    (∃ t : Test, Unstable 2 t ∧ ProperSource t.file ∧ analyse 2 (execute [(t, 0), (t, 1)]) = .throws) ∧
      ∃ t : Test, Unstable 2 t ∧ ProperSource t.file ∧ analyse 2 (execute [(t, 0), (t, 1)]) = .ok [] := by
  have hp : ProperSource "Foo.cpp".toList := ⟨"Foo".toList, "cpp".toList, rfl, by decide, by decide, by decide, by decide⟩
  refine ⟨⟨⟨[], "Foo.cpp".toList, "Foo".toList, fun i => if i = 0 then [] else [⟨3, "$".toList⟩]⟩, ⟨0, by decide, 1, by decide, by decide⟩, hp, by decide +kernel⟩,
    ⟨⟨[], "Foo.cpp".toList, "Foo".toList, fun i => if i = 0 then [⟨1, "a\n$\n$Check: 2\nb".toList⟩] else [⟨1, "a".toList⟩, ⟨2, "b".toList⟩]⟩,
      ⟨0, by decide, 1, by decide, by decide⟩, hp, by decide +kernel⟩⟩

end Verif.Props
