import Verif.Lemmas.AddInclude

/-
Lemmas about adding tests to suites.
-/
set_option linter.unusedSimpArgs false
set_option linter.unusedVariables false

namespace Verif.FileEditors
open Text Verif.Spec.Text Verif.Spec.FileEditors

theorem rfind_newline {A x B : Str} {c : Char} (hx : '\n' ∉ x) (hc : c ≠ '\n') : rfind (A ++ '\n' :: (x ++ c :: B)) ['\n'] (A.length + 1 + x.length) = some A.length := by
  have h1 : (A ++ '\n' :: (x ++ c :: B)).take (A.length + 1 + x.length + 1) = A ++ ['\n'] ++ (x ++ [c]) := by
    rw [show A ++ '\n' :: (x ++ c :: B) = (A ++ ['\n'] ++ (x ++ [c])) ++ B by simp, List.take_left']
    simp; omega
  unfold rfind
  rw [show A.length + 1 + x.length + ['\n'].length = A.length + 1 + x.length + 1 by rfl, h1]
  apply rsearch_eq
  intro u v he
  apply Classical.byContradiction
  intro hlt
  have h2 : (A ++ ['\n'] ++ (x ++ [c]))[u.length]? = some '\n' := by
    rw [← he, List.append_assoc, List.getElem?_append_right (Nat.le_refl _)]
    simp
  rw [List.getElem?_append_right (by simp; omega)] at h2
  have := List.mem_of_getElem? h2
  simp only [List.mem_append, List.mem_singleton] at this
  rcases this with h | h
  · exact hx h
  · exact hc h.symm

/-- An occurrence does not start in a part without its first character. -/
theorem infix_drop {c : Char} {p y : Str} : ∀ {x : Str}, c ∉ x → c :: p <:+: x ++ y → c :: p <:+: y
  | [], _, h => h
  | d :: x, hx, h => by
    simp only [List.mem_cons, not_or] at hx
    rw [List.cons_append, List.infix_cons_iff] at h
    rcases h with h | h
    · obtain ⟨r, hr⟩ := h
      simp at hr
      exact absurd hr.1 hx.1
    · exact infix_drop hx.2 h

/-- An occurrence does not end in a part without its last character. -/
theorem infix_take {c : Char} {p y x : Str} (hy : c ∉ y) (h : p ++ [c] <:+: x ++ y) : p ++ [c] <:+: x := by
  have h1 : (p ++ [c]).reverse <:+: (x ++ y).reverse := List.reverse_infix.2 h
  simp only [List.reverse_append, List.reverse_cons, List.reverse_nil, List.nil_append, List.singleton_append] at h1
  have h2 := infix_drop (by simpa using hy) h1
  have h3 : (p ++ [c]).reverse <:+: x.reverse := by simpa using h2
  exact List.reverse_infix.1 h3

/-! ### Suites as lines -/

/-- The lines of tests, without their ends. -/
def testsL (ind : Str) : List Str → List Str
  | [] => []
  | [t] => [ind ++ t]
  | t :: ts => (ind ++ t ++ [',']) :: testsL ind ts

theorem testLines_eq (ind : Str) : ∀ ts : List Str, testLines ind ts = ended (testsL ind ts)
  | [] => rfl
  | [t] => by simp [testLines, testsL, ended, line]
  | t :: t' :: ts => by
    rw [testLines, testsL, testLines_eq ind (t' :: ts)]
    · simp [ended, line]
    · simp
    · simp

theorem mem_testsL {ind : Str} : ∀ {ts : List Str} {l : Str}, l ∈ testsL ind ts → ∃ t ∈ ts, l = ind ++ t ∨ l = ind ++ t ++ [',']
  | [], l, h => by simp [testsL] at h
  | [t], l, h => by simp [testsL] at h; exact ⟨t, by simp, .inl h⟩
  | t :: t' :: ts, l, h => by
    rw [testsL] at h
    · rcases List.mem_cons.1 h with rfl | h
      · exact ⟨t, by simp, .inr rfl⟩
      · obtain ⟨u, hu, h⟩ := mem_testsL h
        exact ⟨u, List.mem_cons_of_mem _ hu, h⟩
    · simp

theorem testsL_mem {ind : Str} : ∀ {ts : List Str} {t : Str}, t ∈ ts → ∃ l ∈ testsL ind ts, t <:+: l
  | [], t, h => by simp at h
  | [u], t, h => by simp at h; subst h; exact ⟨ind ++ t, by simp [testsL], ⟨ind, [], by simp⟩⟩
  | u :: u' :: ts, t, h => by
    rw [testsL]
    · rcases List.mem_cons.1 h with rfl | h
      · exact ⟨ind ++ t ++ [','], by simp, ⟨ind, [','], by simp⟩⟩
      · obtain ⟨l, hl, h⟩ := testsL_mem (ind := ind) h
        exact ⟨l, List.mem_cons_of_mem _ hl, h⟩
    · simp

theorem testLines_cons (ind : Str) (new : List Str) {ts : List Str} (h : ts ≠ []) :
    testLines ind (new ++ ts) = ended (new.map fun t => ind ++ t ++ [',']) ++ testLines ind ts := by
  induction new with
  | nil => rfl
  | cons t new ih =>
    cases hn : new ++ ts with
    | nil => simp at hn; exact absurd hn.2 h
    | cons m ms =>
      rw [List.cons_append, hn, testLines, ← hn, ih]
      · simp [ended, line]
      · simp

/-- The line in front of the name. -/
def opening (ind : Str) : Str := ind ++ ind ++ (['r', 'u', 'n', 'n', 'e', 'r', '.'] ++ preamble)

theorem suite_text_eq (ind : Str) (s : Suite) : s.text ind = '\n' :: (opening ind ++ '\n' :: (ind ++ ind ++ ind ++ (suitePattern s.name ++ '\n' ::
    (ended (testsL (ind ++ ind ++ ind) s.tests) ++ (ind ++ ind ++ ([')', ';'] ++ ['\n'])))))) := by
  unfold Suite.text
  rw [testLines_eq]
  simp only [line, opening, suitePattern, preamble]
  have h1 : "runner.add_test_suite(".toList = ['r', 'u', 'n', 'n', 'e', 'r', '.', 'a', 'd', 'd', '_', 't', 'e', 's', 't', '_', 's', 'u', 'i', 't', 'e', '('] := rfl
  have h2 : "\"".toList = ['"'] := rfl
  have h3 : "\",".toList = ['"', ','] := rfl
  have h4 : ");".toList = [')', ';'] := rfl
  rw [h1, h2, h3, h4]
  simp

theorem suite_lines (ind : Str) (s : Suite) : s.text ind = '\n' :: ended (opening ind :: (ind ++ ind ++ ind ++ suitePattern s.name) :: (testsL (ind ++ ind ++ ind) s.tests ++ [ind ++ ind ++ [')', ';']])) := by
  rw [suite_text_eq]
  simp [ended]

/-- What is not in a line of any suite is not in their text. -/
theorem not_in_suites {p : Str} (hc : '\n' ∉ p) (hp : p ≠ []) {ind : Str} : ∀ {S : List Suite} {a : Str}, ¬ p <:+: a →
    (∀ s ∈ S, ∀ l ∈ opening ind :: (ind ++ ind ++ ind ++ suitePattern s.name) :: (testsL (ind ++ ind ++ ind) s.tests ++ [ind ++ ind ++ [')', ';']]), ¬ p <:+: l) →
    ¬ p <:+: a ++ S.flatMap (Suite.text ind)
  | [], a, ha, _ => by simpa using ha
  | s :: S, a, ha, hS => by
    rw [List.flatMap_cons, ← List.append_assoc]
    apply not_in_suites hc hp
    · rw [suite_lines]
      intro h
      rcases infix_split hc h with h | h
      · exact ha h
      · have h' := infix_lines (s := []) hc hp (by rw [List.append_nil]; exact h)
        rcases h' with ⟨l, hl, h⟩ | h
        · exact hS s (by simp) l hl h
        · simp at h; exact hp h
    · intro s' hs'
      exact hS s' (by simp [hs'])

/-! ### Adding to a suite -/

/-- Indentation consists of blanks. -/
def Blank (ind : Str) : Prop := ∀ c ∈ ind, c = ' ' ∨ c = '\t'

theorem Blank.not_mem {ind : Str} (h : Blank ind) {c : Char} (h1 : c ≠ ' ') (h2 : c ≠ '\t') : c ∉ ind := by
  intro hc
  rcases h c hc with h | h
  · exact h1 h
  · exact h2 h

theorem pattern_cons (n : Str) : suitePattern n = '"' :: (n ++ ['"', ',']) := rfl

theorem newline_pattern {n : Str} (h : '\n' ∉ n) : '\n' ∉ suitePattern n := by
  simp [suitePattern, h]

/-- Different names. -/
theorem pattern_other {n m : Str} (hn : '"' ∉ n) (hm : '"' ∉ m) (h : suitePattern n <:+: suitePattern m) : n = m := by
  obtain ⟨u, v, he⟩ := h
  have hlen := congrArg List.length he
  simp only [suitePattern, List.append_assoc, List.length_append, List.length_cons, List.length_nil] at hlen
  cases u with
  | nil =>
    simp only [suitePattern, List.nil_append, List.singleton_append, List.cons_append, List.append_assoc, List.cons.injEq, true_and] at he
    rcases List.append_eq_append_iff.1 he with ⟨z, h1, h2⟩ | ⟨z, h1, h2⟩
    · cases z with
      | nil => simpa using h1.symm
      | cons d z =>
        simp at h2
        exact absurd (by rw [h1]; simp [← h2.1]) hm
    · cases z with
      | nil => simpa using h1
      | cons d z =>
        simp at h2
        exact absurd (by rw [h1]; simp [← h2.1]) hn
  | cons d u =>
    exfalso
    simp only [suitePattern, List.singleton_append, List.cons_append, List.append_assoc, List.cons.injEq] at he
    obtain ⟨-, he⟩ := he
    -- two quotes after the first one
    have h1 := congrArg (List.count '"') he
    simp only [List.count_append, List.count_cons, List.count_nil, List.count_eq_zero_of_not_mem hn, List.count_eq_zero_of_not_mem hm] at h1
    simp at h1
    omega

theorem opening_quote {ind : Str} (h : Blank ind) : '"' ∉ opening ind := by
  have h1 := h.not_mem (c := '"') (by decide) (by decide)
  simp [opening, preamble, h1]

theorem opening_newline {ind : Str} (h : Blank ind) : '\n' ∉ opening ind := by
  have h1 := h.not_mem (c := '\n') (by decide) (by decide)
  simp [opening, preamble, h1]

/-- What a new test must not be: part of a line which is there. -/
def Fresh (ind : Str) (s : Suite) (t : Str) : Prop :=
  t ≠ [] ∧ '\n' ∉ t ∧ ¬ t <:+: suitePattern s.name ∧ ¬ t <:+: ind ++ ind ∧ ∀ u ∈ s.tests, ¬ t <:+: ind ++ ind ++ ind ++ u ++ [',']

theorem fold_new {ind A R : Str} {s : Suite} : ∀ (new done : List Str), (∀ t ∈ new, Fresh ind s t) →
    (done ++ new).Pairwise (fun t t' => ¬ t' <:+: ind ++ ind ++ ind ++ t ++ [',']) →
    new.foldl (addTest ind A.length (A.length + (suitePattern s.name).length) (some (A.length + (suitePattern s.name ++ '\n' :: (ended (testsL (ind ++ ind ++ ind) s.tests) ++ (ind ++ ind))).length)))
      (A ++ (suitePattern s.name ++ '\n' :: (ended (done.reverse.map fun t => ind ++ ind ++ ind ++ t ++ [',']) ++ (ended (testsL (ind ++ ind ++ ind) s.tests) ++ (ind ++ ind ++ R))))) =
    A ++ (suitePattern s.name ++ '\n' :: (ended ((done ++ new).reverse.map fun t => ind ++ ind ++ ind ++ t ++ [',']) ++ (ended (testsL (ind ++ ind ++ ind) s.tests) ++ (ind ++ ind ++ R))))
  | [], done, _, _ => by simp
  | t :: new, done, hf, hp => by
    obtain ⟨ht0, htn, ht1, ht2, ht3⟩ := hf t (by simp)
    rw [List.foldl_cons]
    have hstep : addTest ind A.length (A.length + (suitePattern s.name).length) (some (A.length + (suitePattern s.name ++ '\n' :: (ended (testsL (ind ++ ind ++ ind) s.tests) ++ (ind ++ ind))).length))
      (A ++ (suitePattern s.name ++ '\n' :: (ended (done.reverse.map fun t => ind ++ ind ++ ind ++ t ++ [',']) ++ (ended (testsL (ind ++ ind ++ ind) s.tests) ++ (ind ++ ind ++ R))))) t =
      A ++ (suitePattern s.name ++ '\n' :: (ended ((done ++ [t]).reverse.map fun t => ind ++ ind ++ ind ++ t ++ [',']) ++ (ended (testsL (ind ++ ind ++ ind) s.tests) ++ (ind ++ ind ++ R)))) := by
      unfold addTest
      dsimp only
      rw [if_pos]
      · unfold splice
        have h1 : A ++ (suitePattern s.name ++ '\n' :: (ended (done.reverse.map fun t => ind ++ ind ++ ind ++ t ++ [',']) ++ (ended (testsL (ind ++ ind ++ ind) s.tests) ++ (ind ++ ind ++ R)))) =
            (A ++ suitePattern s.name ++ ['\n']) ++ (ended (done.reverse.map fun t => ind ++ ind ++ ind ++ t ++ [',']) ++ (ended (testsL (ind ++ ind ++ ind) s.tests) ++ (ind ++ ind ++ R))) := by simp
        have h2 : A.length + (suitePattern s.name).length + 1 = (A ++ suitePattern s.name ++ ['\n']).length := by simp; omega
        rw [h1, h2, List.take_left, List.drop_left]
        simp [ended]
      · rw [search_none]
        intro hi
        unfold substr at hi
        rw [List.drop_left, Nat.add_sub_cancel_left] at hi
        -- the window is part of the suite
        have h1 : suitePattern s.name ++ '\n' :: (ended (done.reverse.map fun t => ind ++ ind ++ ind ++ t ++ [',']) ++ (ended (testsL (ind ++ ind ++ ind) s.tests) ++ (ind ++ ind ++ R))) =
            (suitePattern s.name ++ '\n' :: (ended (done.reverse.map fun t => ind ++ ind ++ ind ++ t ++ [',']) ++ (ended (testsL (ind ++ ind ++ ind) s.tests) ++ (ind ++ ind)))) ++ R := by simp
        rw [h1, List.take_append_of_le_length (by simp)] at hi
        have hi := hi.trans (List.take_prefix _ _).isInfix
        rcases infix_split htn hi with hi | hi
        · exact ht1 hi
        · rw [← List.append_assoc, ← ended_append] at hi
          rcases infix_lines htn ht0 hi with ⟨l, hl, hi⟩ | hi
          · rcases List.mem_append.1 hl with hl | hl
            · obtain ⟨u, hu, rfl⟩ := List.mem_map.1 hl
              rw [List.pairwise_append] at hp
              exact hp.2.2 u (by simpa using hu) t (by simp) hi
            · obtain ⟨u, hu, h⟩ := mem_testsL hl
              rcases h with rfl | rfl
              · exact ht3 u hu (hi.trans ⟨[], [','], by simp⟩)
              · exact ht3 u hu hi
          · exact ht2 hi
    rw [hstep]
    have ih := fold_new (A := A) (R := R) new (done ++ [t]) (fun u hu => hf u (by simp [hu])) (by simpa using hp)
    rw [ih]
    simp

theorem fold_old {ind A R : Str} {s : Suite} : ∀ (old : List Str), (∀ t ∈ old, t ∈ s.tests) →
    old.foldl (addTest ind A.length (A.length + (suitePattern s.name).length) (some (A.length + (suitePattern s.name ++ '\n' :: (ended (testsL (ind ++ ind ++ ind) s.tests) ++ (ind ++ ind))).length)))
      (A ++ (suitePattern s.name ++ '\n' :: (ended (testsL (ind ++ ind ++ ind) s.tests) ++ (ind ++ ind ++ R)))) =
    A ++ (suitePattern s.name ++ '\n' :: (ended (testsL (ind ++ ind ++ ind) s.tests) ++ (ind ++ ind ++ R)))
  | [], _ => rfl
  | t :: old, h => by
    rw [List.foldl_cons]
    have hstep : addTest ind A.length (A.length + (suitePattern s.name).length) (some (A.length + (suitePattern s.name ++ '\n' :: (ended (testsL (ind ++ ind ++ ind) s.tests) ++ (ind ++ ind))).length))
      (A ++ (suitePattern s.name ++ '\n' :: (ended (testsL (ind ++ ind ++ ind) s.tests) ++ (ind ++ ind ++ R)))) t =
      A ++ (suitePattern s.name ++ '\n' :: (ended (testsL (ind ++ ind ++ ind) s.tests) ++ (ind ++ ind ++ R))) := by
      unfold addTest
      dsimp only
      rw [if_neg]
      rw [search_none, Classical.not_not]
      unfold substr
      rw [List.drop_left, Nat.add_sub_cancel_left]
      have h1 : suitePattern s.name ++ '\n' :: (ended (testsL (ind ++ ind ++ ind) s.tests) ++ (ind ++ ind ++ R)) =
          (suitePattern s.name ++ '\n' :: (ended (testsL (ind ++ ind ++ ind) s.tests) ++ (ind ++ ind))) ++ R := by simp
      rw [h1, List.take_left]
      obtain ⟨l, hl, hi⟩ := testsL_mem (ind := ind ++ ind ++ ind) (h t (by simp))
      refine hi.trans ?_
      obtain ⟨x, y, hxy⟩ := List.append_of_mem hl
      rw [hxy, ended_append]
      exact ⟨suitePattern s.name ++ '\n' :: ended x, '\n' :: (ended y ++ (ind ++ ind)), by simp [ended]⟩
    rw [hstep]
    exact fold_old old fun u hu => h u (by simp [hu])

/-- What is required of a program to which tests are to be added. -/
structure Adding (ind : Str) (p : Program) (before : List Suite) (s : Suite) (after : List Suite) : Prop where
  blank : Blank ind
  suites : p.suites = before ++ s :: after
  name : '\n' ∉ s.name ∧ '"' ∉ s.name ∧ ¬ [')', ';'] <:+: s.name
  intro : ¬ suitePattern s.name <:+: p.intro
  others : ∀ s' ∈ before, '"' ∉ s'.name ∧ s'.name ≠ s.name ∧ ∀ t ∈ s'.tests, ¬ suitePattern s.name <:+: t ++ [',']
  tests : s.tests ≠ [] ∧ ∀ t ∈ s.tests, ¬ [')', ';'] <:+: t

theorem addToSuite_spec {ind : Str} {p : Program} {before after : List Suite} {s : Suite} (h : Adding ind p before s after) {old new : List Str} (hne : old ++ new ≠ [])
    (hold : ∀ t ∈ old, t ∈ s.tests) (hnew : ∀ t ∈ new, Fresh ind s t) (hpair : new.Pairwise fun t t' => ¬ t' <:+: ind ++ ind ++ ind ++ t ++ [',']) :
    addToSuite s.name ind (old ++ new) (p.text ind) = .ok (Program.text ind ⟨p.intro, before ++ s.add new :: after, p.outro⟩) := by
  obtain ⟨hb, hs, ⟨hn1, hn2, hn3⟩, hi, ho, ht1, ht2⟩ := h
  have hnl := newline_pattern hn1
  have hq := hb.not_mem (c := '"') (by decide) (by decide)
  have hnli := hb.not_mem (c := '\n') (by decide) (by decide)
  have hpar := hb.not_mem (c := ')') (by decide) (by decide)
  -- the text in front of the suite
  generalize hP : p.intro ++ before.flatMap (Suite.text ind) = P
  have hPn : ¬ suitePattern s.name <:+: P := by
    rw [← hP]
    refine not_in_suites hnl (by simp [suitePattern]) hi ?_
    intro s' hs' l hl
    obtain ⟨h1, h2, h3⟩ := ho s' hs'
    simp only [List.mem_cons, List.mem_append, List.not_mem_nil, or_false] at hl
    rcases hl with rfl | rfl | hl | rfl
    · intro hh
      exact opening_quote hb (hh.subset (by simp [suitePattern]))
    · intro hh
      rw [pattern_cons s.name] at hh
      have := infix_drop (by simp [hq]) hh
      rw [← pattern_cons] at this
      exact h2 (pattern_other hn2 h1 this).symm
    · obtain ⟨t, ht, hl⟩ := mem_testsL hl
      have hh : ∀ y, suitePattern s.name <:+: ind ++ ind ++ ind ++ y → suitePattern s.name <:+: y := by
        intro y hy
        rw [pattern_cons] at hy ⊢
        exact infix_drop (by simp [hq]) hy
      rcases hl with rfl | rfl
      · exact fun h4 => h3 t ht ((hh t h4).trans ⟨[], [','], by simp⟩)
      · intro h4
        rw [List.append_assoc] at h4
        exact h3 t ht (hh _ h4)
    · intro hh
      have : '"' ∈ ind ++ ind ++ [')', ';'] := hh.subset (by simp [suitePattern])
      simp [hq] at this
  generalize hR : [')', ';'] ++ ['\n'] ++ after.flatMap (Suite.text ind) ++ ['\n'] ++ p.outro = R
  have htext : p.text ind = P ++ '\n' :: (opening ind ++ '\n' :: (ind ++ ind ++ ind ++ (suitePattern s.name ++ '\n' :: (ended (testsL (ind ++ ind ++ ind) s.tests) ++ (ind ++ ind ++ R))))) := by
    unfold Program.text
    rw [hs, List.flatMap_append, List.flatMap_cons, suite_text_eq, ← hP, ← hR]
    simp
  have hres : Program.text ind ⟨p.intro, before ++ s.add new :: after, p.outro⟩ =
      P ++ '\n' :: (opening ind ++ '\n' :: (ind ++ ind ++ ind ++ (suitePattern s.name ++ '\n' :: (ended (new.reverse.map fun t => ind ++ ind ++ ind ++ t ++ [',']) ++
        (ended (testsL (ind ++ ind ++ ind) s.tests) ++ (ind ++ ind ++ R)))))) := by
    unfold Program.text
    dsimp only
    rw [List.flatMap_append, List.flatMap_cons, suite_text_eq, ← hP, ← hR]
    have : ended (testsL (ind ++ ind ++ ind) (s.add new).tests) = ended (new.reverse.map fun t => ind ++ ind ++ ind ++ t ++ [',']) ++ ended (testsL (ind ++ ind ++ ind) s.tests) := by
      rw [← testLines_eq, ← testLines_eq]
      exact testLines_cons _ _ ht1
    rw [this]
    simp [Suite.add]
  generalize hA : P ++ '\n' :: (opening ind ++ '\n' :: (ind ++ ind ++ ind)) = A
  have htextA : p.text ind = A ++ (suitePattern s.name ++ '\n' :: (ended (testsL (ind ++ ind ++ ind) s.tests) ++ (ind ++ ind ++ R))) := by
    rw [htext, ← hA]; simp
  -- where things are
  have hpos : find (p.text ind) (suitePattern s.name) 0 = some A.length := by
    have hfirst : First (suitePattern s.name) A ('\n' :: (ended (testsL (ind ++ ind ++ ind) s.tests) ++ (ind ++ ind ++ R))) := by
      rw [← hA, show P ++ '\n' :: (opening ind ++ '\n' :: (ind ++ ind ++ ind)) = (P ++ '\n' :: (opening ind ++ ['\n'])) ++ (ind ++ ind ++ ind) by simp]
      refine first_of (pattern_cons _) hnl ?_ (by simp [hq]) (.inr ⟨P ++ '\n' :: opening ind, by simp⟩)
      intro hh
      rcases infix_split hnl hh with hh | hh
      · exact hPn hh
      · have : '"' ∈ opening ind ++ ['\n'] := hh.subset (by simp [suitePattern])
        simp [opening_quote hb] at this
    have := find_at (d := []) hfirst
    rw [htextA]
    simpa using this
  have hline : rfind (p.text ind) ['\n'] A.length = some (P ++ '\n' :: opening ind).length := by
    have := rfind_newline (A := P ++ '\n' :: opening ind) (x := ind ++ ind ++ ind) (c := '"') (B := s.name ++ ['"', ','] ++ '\n' :: (ended (testsL (ind ++ ind ++ ind) s.tests) ++ (ind ++ ind ++ R)))
      (by simp [hnli]) (by decide)
    rw [htext, pattern_cons]
    rw [show A.length = (P ++ '\n' :: opening ind).length + 1 + (ind ++ ind ++ ind).length by rw [← hA]; simp; omega]
    rw [← this]
    simp
  have hpre : find (p.text ind) preamble ((P ++ '\n' :: opening ind).length - preamble.length) ≠ none := by
    rw [Ne, find_none, not_or, Classical.not_not]
    constructor
    · rw [htext]; simp; omega
    · have h1 : (P ++ '\n' :: opening ind).length - preamble.length = (P ++ '\n' :: (ind ++ ind ++ ['r', 'u', 'n', 'n', 'e', 'r', '.'])).length := by
        simp [opening]; omega
      rw [h1, htext]
      have h2 : P ++ '\n' :: (opening ind ++ '\n' :: (ind ++ ind ++ ind ++ (suitePattern s.name ++ '\n' :: (ended (testsL (ind ++ ind ++ ind) s.tests) ++ (ind ++ ind ++ R))))) =
          (P ++ '\n' :: (ind ++ ind ++ ['r', 'u', 'n', 'n', 'e', 'r', '.'])) ++ (preamble ++ '\n' :: (ind ++ ind ++ ind ++ (suitePattern s.name ++ '\n' :: (ended (testsL (ind ++ ind ++ ind) s.tests) ++ (ind ++ ind ++ R))))) := by
        simp [opening]
      rw [h2, List.drop_left]
      exact ⟨[], _, rfl⟩
  have hlen : preamble.length < (P ++ '\n' :: opening ind).length := by simp [opening]; omega
  have hnext : find (p.text ind) ['\n'] A.length = some (A.length + (suitePattern s.name).length) := by
    rw [htextA]
    exact find_newline hnl
  have hend : find (p.text ind) [')', ';'] A.length = some (A.length + (suitePattern s.name ++ '\n' :: (ended (testsL (ind ++ ind ++ ind) s.tests) ++ (ind ++ ind))).length) := by
    have hfirst : First [')', ';'] (suitePattern s.name ++ '\n' :: (ended (testsL (ind ++ ind ++ ind) s.tests) ++ (ind ++ ind))) (['\n'] ++ after.flatMap (Suite.text ind) ++ ['\n'] ++ p.outro) := by
      rw [show suitePattern s.name ++ '\n' :: (ended (testsL (ind ++ ind ++ ind) s.tests) ++ (ind ++ ind)) = (suitePattern s.name ++ '\n' :: ended (testsL (ind ++ ind ++ ind) s.tests)) ++ (ind ++ ind) by simp]
      refine first_of rfl (by decide) ?_ (by simp [hpar]) (.inr ?_)
      · intro hh
        rcases infix_split (by decide) hh with hh | hh
        · rw [pattern_cons] at hh
          rcases infix_split (x := []) (by decide) hh with hh | hh
          · simp at hh
          · rcases infix_split (by decide) hh with hh | hh
            · exact hn3 hh
            · revert hh; decide
        · rcases infix_lines (p := [')', ';']) (s := []) (by decide) (by decide) (by rw [List.append_nil]; exact hh) with ⟨l, hl, hh⟩ | hh
          · obtain ⟨t, ht, hl⟩ := mem_testsL hl
            rcases hl with rfl | rfl
            · exact ht2 t ht (infix_drop (by simp [hpar]) hh)
            · rcases infix_split (y := []) (by decide) hh with hh | hh
              · exact ht2 t ht (infix_drop (by simp [hpar]) hh)
              · revert hh; decide
          · revert hh; decide
      · rcases ended_end (testsL (ind ++ ind ++ ind) s.tests) with h | ⟨a', h⟩
        · exact ⟨suitePattern s.name, by rw [h]⟩
        · exact ⟨suitePattern s.name ++ '\n' :: a', by rw [h]; simp⟩
    have := find_at (d := A) hfirst
    rw [htextA, ← this, ← hR]
    simp
  unfold addToSuite
  rw [if_neg hne, hpos]
  dsimp only
  rw [hline]
  dsimp only
  rw [if_pos ⟨hlen, hpre⟩, hnext]
  dsimp only
  rw [hend, List.foldl_append, htextA, fold_old old hold]
  have := fold_new (A := A) (R := R) new [] hnew (by simpa using hpair)
  simp only [List.reverse_nil, List.map_nil, List.nil_append] at this
  rw [show ended [] = [] from rfl, List.nil_append] at this
  rw [this, hres, ← hA]
  simp

/-! ### New suites -/

theorem appendIndented_eq {s t ind : Str} (hs : s ≠ []) (ht : t ≠ []) (hn : '\n' ∉ t) : appendIndented s t ind = s ++ '\n' :: (ind ++ t) := by
  unfold appendIndented
  rw [if_neg ht, if_neg hs, indent_spec, lines_line hn]
  simp [indentLine, ht, unlines]

theorem appendTests_eq {ind : Str} : ∀ {ts : List Str} {s : Str}, s ≠ [] → ts ≠ [] → (∀ t ∈ ts, t ≠ [] ∧ '\n' ∉ t) → appendTests ind ts s ++ ['\n'] = s ++ '\n' :: ended (testsL ind ts)
  | [], s, _, h, _ => absurd rfl h
  | [t], s, hs, _, ht => by
    obtain ⟨h1, h2⟩ := ht t (by simp)
    rw [appendTests, appendIndented_eq hs h1 h2]
    simp [testsL, ended]
  | t :: t' :: ts, s, hs, _, ht => by
    obtain ⟨h1, h2⟩ := ht t (by simp)
    rw [appendTests, appendTests_eq (ts := t' :: ts) (by
      rw [appendIndented_eq hs (by simp) (by simp [h2])]; simp) (by simp) (fun u hu => ht u (List.mem_cons_of_mem _ hu)), appendIndented_eq hs (by simp) (by simp [h2])]
    · rw [show testsL ind (t :: t' :: ts) = (ind ++ t ++ [',']) :: testsL ind (t' :: ts) from rfl]
      simp only [ended, List.flatMap_cons]
      simp
    · simp

theorem newSuite_eq {ind : Str} {name : Str} {tests : List Str} (hn : '\n' ∉ name) (ht : tests ≠ []) (h : ∀ t ∈ tests, t ≠ [] ∧ '\n' ∉ t) :
    newSuite ind name tests = Suite.text ind ⟨name, tests⟩ := by
  have hp : suitePattern name ≠ [] := by simp [suitePattern]
  have h1 := appendTests_eq (ind := ind ++ ind ++ ind) (s := '\n' :: (opening ind ++ '\n' :: (ind ++ ind ++ ind ++ suitePattern name))) (by simp) ht h
  unfold newSuite
  dsimp only
  have h2 : appendIndented (['\n'] ++ (ind ++ ind) ++ ['r', 'u', 'n', 'n', 'e', 'r', '.'] ++ preamble) (['"'] ++ name ++ ['"', ',']) (ind ++ ind ++ ind) =
      '\n' :: (opening ind ++ '\n' :: (ind ++ ind ++ ind ++ suitePattern name)) := by
    rw [show ['"'] ++ name ++ ['"', ','] = suitePattern name from rfl, appendIndented_eq (by simp) hp (newline_pattern hn)]
    simp [opening]
  rw [h2, suite_text_eq]
  generalize hX : appendTests (ind ++ ind ++ ind) tests ('\n' :: (opening ind ++ '\n' :: (ind ++ ind ++ ind ++ suitePattern name))) = X at h1
  have hXne : X ≠ [] := by
    intro h3
    rw [h3] at h1
    have := congrArg List.length h1
    simp at this
  unfold appendIndented
  rw [if_neg (by simp), if_neg hXne, indent_spec]
  have h3 : lines [')', ';', '\n'] = [[')', ';'], []] := by decide
  rw [h3]
  simp only [List.map_cons, List.map_nil, indentLine, unlines, if_true]
  rw [if_neg (by simp), h1]
  simp

theorem execution_cons : execution = 'r' :: "unner.execute".toList := rfl

theorem addToSuite_new {ind : Str} {p : Program} {name w rest : Str} {tests : List Str} (hpat : ¬ suitePattern name <:+: p.text ind)
    (hout : p.outro = w ++ execution ++ rest) (hw : '\n' ∉ w ∧ 'r' ∉ w) (hex : ¬ execution <:+: p.intro ++ p.suites.flatMap (Suite.text ind))
    (hn : '\n' ∉ name) (ht : tests ≠ []) (h : ∀ t ∈ tests, t ≠ [] ∧ '\n' ∉ t) :
    addToSuite name ind tests (p.text ind) = .ok (Program.text ind ⟨p.intro, p.suites ++ [⟨name, tests⟩], p.outro⟩) := by
  generalize hA : p.intro ++ p.suites.flatMap (Suite.text ind) = A at hex
  have htext : p.text ind = A ++ '\n' :: (w ++ (execution ++ rest)) := by
    unfold Program.text
    rw [hout, hA]
    simp
  have hpos : find (p.text ind) execution 0 = some (A.length + 1 + w.length) := by
    have hfirst : First execution ((A ++ ['\n']) ++ w) rest := by
      refine first_of execution_cons (by decide) ?_ hw.2 (.inr ⟨A, rfl⟩)
      intro hh
      rcases infix_split (y := []) (by decide) hh with hh | hh
      · exact hex hh
      · revert hh; decide
    have := find_at (d := []) hfirst
    rw [htext]
    rw [show A.length + 1 + w.length = ([] : Str).length + (A ++ ['\n'] ++ w).length by simp; omega, ← this]
    simp
  have hline : rfind (p.text ind) ['\n'] (A.length + 1 + w.length) = some A.length := by
    rw [htext, execution_cons]
    exact rfind_newline hw.1 (by decide)
  unfold addToSuite
  rw [if_neg ht, find_none.2 (.inr (by simpa using hpat)), hpos]
  dsimp only
  rw [hline]
  dsimp only
  congr 1
  rw [newSuite_eq hn ht h, htext]
  unfold splice
  rw [List.take_left]
  simp only [Nat.add_zero]
  rw [List.drop_left]
  unfold Program.text
  rw [hout, List.flatMap_append, ← hA]
  simp

end Verif.FileEditors
