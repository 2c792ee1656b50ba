import Verif.Spec.Portable
import Verif.Lemmas.Text
import Verif.Lemmas.FileEditors
import Verif.Props.Messages
/-
C113: what is put under version control does not depend on where the project is.
-/
namespace Verif.Props
open Verif.Text Verif.Messages Verif.LoggerText Verif.Portable Verif.Spec.Text Verif.Spec.Messages Verif.Spec.Portable Verif.Spec.LoggerText

namespace Portable

theorem slashed_cons (a b : Str) (l : List Str) : slashed (a :: b :: l) = a ++ '/' :: slashed (b :: l) := by
  simp [slashed, List.intercalate, List.intersperse]

theorem slashed_one (a : Str) : slashed [a] = a := by simp [slashed, List.intercalate, List.intersperse]

theorem slashed_append {a b : List Str} (ha : a ≠ []) (hb : b ≠ []) : slashed (a ++ b) = slashed a ++ '/' :: slashed b := by
  induction a with
  | nil => exact absurd rfl ha
  | cons x xs ih =>
    cases xs with
    | nil =>
      cases b with
      | nil => exact absurd rfl hb
      | cons y ys => rw [slashed_one]; exact slashed_cons x y ys
    | cons y ys => rw [List.cons_append, List.cons_append, slashed_cons, slashed_cons, ← List.cons_append, ih (by simp)]; simp

theorem generic_within (d r : List Str) : generic (within d r) = '/' :: slashed (d ++ r) := by
  simp [generic, within, slashed]

theorem generic_names {r : List Str} (h : Names r) : generic r = slashed r := by
  cases r with
  | nil => rfl
  | cons e es =>
    have : e ≠ ['/'] := by rintro rfl; exact (h ['/'] (List.mem_cons_self)).2.1 (by decide)
    simp [generic, this, slashed]

theorem slashed_inj {a b : List Str} (ha : Names a) (hb : Names b) (h : slashed a = slashed b) : a = b := by
  induction a generalizing b with
  | nil =>
    cases b with
    | nil => rfl
    | cons y ys =>
      exfalso
      cases ys with
      | nil => rw [slashed_one] at h; exact (hb y (by simp)).1 h.symm
      | cons z zs => rw [slashed_cons] at h; simp [slashed] at h
  | cons x xs ih =>
    have cut : ∀ {s t u v : Str}, '/' ∉ s → '/' ∉ t → s ++ '/' :: u = t ++ '/' :: v → s = t ∧ u = v := by
      intro s
      induction s with
      | nil =>
        intro t u v _ ht he
        cases t with
        | nil => simpa using he
        | cons c t => simp at he; exact absurd (by rw [← he.1]; simp) ht
      | cons c s ihs =>
        intro t u v hs ht he
        cases t with
        | nil => simp at he; exact absurd (by simp [he.1]) hs
        | cons c' t =>
          simp only [List.cons_append, List.cons.injEq] at he
          have := ihs (fun hc => hs (by simp [hc])) (fun hc => ht (by simp [hc])) he.2
          exact ⟨by rw [he.1, this.1], this.2⟩
    have hx := ha x (by simp)
    cases b with
    | nil =>
      exfalso
      cases xs with
      | nil => rw [slashed_one] at h; exact hx.1 h
      | cons z zs => rw [slashed_cons] at h; simp [slashed] at h
    | cons y ys =>
      have hy := hb y (by simp)
      cases xs with
      | nil =>
        cases ys with
        | nil => rw [slashed_one, slashed_one] at h; rw [h]
        | cons z zs => rw [slashed_one, slashed_cons] at h; exact absurd (by rw [h]; simp) hx.2.1
      | cons w ws =>
        cases ys with
        | nil => rw [slashed_one, slashed_cons] at h; exact absurd (by rw [← h]; simp) hy.2.1
        | cons z zs =>
          rw [slashed_cons, slashed_cons] at h
          obtain ⟨h1, h2⟩ := cut hx.2.1 hy.2.1 h
          rw [h1, ih (fun e he => ha e (List.mem_cons_of_mem _ he)) (fun e he => hb e (List.mem_cons_of_mem _ he)) h2]

theorem first_of {p a b : Str} (h : ∀ x y, a ++ p = x ++ p ++ y → y = []) : First p a b := by
  intro a' b' he
  by_cases hl : a.length ≤ a'.length
  · exact hl
  exfalso
  have h1 : (a' ++ p ++ b').take (a ++ p).length = a ++ p := by rw [he, List.take_left]
  have h2 : (a' ++ p ++ b').take (a ++ p).length = a' ++ p ++ b'.take ((a ++ p).length - (a' ++ p).length) := by
    rw [List.take_append, List.take_of_length_le (by simp; omega)]
  have h3 := h a' _ (h1.symm.trans h2)
  have h4 : (a ++ p).length = (a' ++ p).length := by
    have := congrArg List.length (h1.symm.trans h2)
    rw [h3] at this
    simpa using this
  simp at h4
  omega

theorem postprocess_at {root : List Str} {a b : Str} (h : First (generic root) a b) : postprocess root (a ++ generic root ++ b) = a ++ b.drop 1 := by
  have hf : find (a ++ generic root ++ b) (generic root) 0 = some a.length := by
    have := Verif.FileEditors.find_at (d := []) h
    simpa using this
  unfold postprocess
  rw [hf]
  simp only [splice, List.append_nil]
  rw [List.append_assoc, List.take_left, show a.length + ((generic root).length + 1) = (a ++ generic root).length + 1 by simp; omega, ← List.append_assoc, ← List.drop_drop, List.drop_left]

theorem postprocess_none {root : List Str} {s : Str} (h : ¬ generic root <:+: s) : postprocess root s = s := by
  have : find s (generic root) 0 = none := by simp [find, search_none.2 h]
  unfold postprocess
  rw [this]

theorem no_slash {d : List Str} {b : Str} (h : '/' ∉ b) : ∀ x y, b ++ '/' :: slashed d = x ++ ('/' :: slashed d) ++ y → y = [] := by
  intro x y he
  by_cases hl : b.length ≤ x.length
  · have := congrArg List.length he
    simp at this
    exact List.length_eq_zero_iff.1 (by omega)
  · exfalso
    have h1 : (b ++ '/' :: slashed d)[x.length]? = b[x.length]? := List.getElem?_append_left (by omega)
    rw [he] at h1
    have h2 : (x ++ '/' :: slashed d ++ y)[x.length]? = some '/' := by simp
    rw [h2] at h1
    exact h (List.mem_of_getElem? h1.symm)

theorem appendLine_join (a b : Str) : appendLine a b = join a b := by
  unfold appendLine appendIndented join
  by_cases ha : a = [] <;> by_cases hb : b = [] <;> simp [ha, hb, Verif.LoggerText.indent_none]

end Portable
open Portable

/-- **C113** A message of an exception about a file of the project is seen with the path relative to the project, and other messages as they are. -/
theorem C113_message (d : List Str) (hd : Place d) (m : Message) (hm : m.Clear d) : postprocess (within d []) (m.at d) = m.seen := by
  have hg : generic (within d []) = '/' :: slashed d := by rw [generic_within, List.append_nil]
  cases m with
  | plain t => exact postprocess_none (by rw [hg]; exact hm)
  | about b f a =>
    obtain ⟨_, h2, h3⟩ := hm
    have := postprocess_at (root := within d []) (a := b) (b := '/' :: slashed f ++ a) (first_of (by rw [hg]; exact h3))
    rw [hg] at this
    show postprocess _ (b ++ '/' :: slashed (d ++ f) ++ a) = b ++ slashed f ++ a
    rw [slashed_append hd.2 h2]
    simpa using this

/-- A message is clear if there is no slash before the path. -/
example (d f : List Str) (b a : Str) (hf : Names f) (hn : f ≠ []) (hb : '/' ∉ b) : (Message.about b f a).Clear d := ⟨hf, hn, no_slash hb⟩

example : postprocess (within ["home".toList, "p".toList] []) "Unable to open /home/p/Tests/a.txt now".toList = "Unable to open Tests/a.txt now".toList := by decide

/-- **C113** Descriptions of checks do not depend on where the project is: the file is given below the directory of tests. -/
theorem C113_description (d : List Str) (hd : Place d) (m : Str) (l : Option (List Str × Nat)) (hl : ∀ x, l = some x → Names x.1) :
    report (within d []) m (located d l) = description m l := by
  cases l with
  | none => rfl
  | some x =>
    have hx := hl x rfl
    have habs : Absolute (within d [] ++ ["Tests".toList]) := by
      refine ⟨d ++ ["Tests".toList], by simp [within], fun e he => ?_⟩
      rcases List.mem_append.1 he with h | h
      · exact ⟨(hd.1 e h).1, (hd.1 e h).2.1⟩
      · rw [List.mem_singleton.1 h]; decide
    have hT : (within d [] ++ ["Tests".toList]).getLast? = some "Tests".toList := List.getLast?_concat
    obtain ⟨⟨b, hb, hp⟩, -⟩ := C93_path_within (within d [] ++ ["Tests".toList]) x.1 x.1 habs (by rw [hT]; decide) hx hx
    rw [hT] at hb
    cases hb
    have he : within d ("Tests".toList :: x.1) = within d [] ++ ["Tests".toList] ++ x.1 := by simp [within]
    have hn : Names ("Tests".toList :: x.1) := by
      intro e hm
      rcases List.mem_cons.1 hm with h | h
      · rw [h]; decide
      · exact hx e h
    show reportLine m (within d [] ++ ["Tests".toList]) (within d ("Tests".toList :: x.1)) x.2 = _
    rw [he]
    unfold reportLine description
    rw [hp, generic_names hn, appendLine_join]
    unfold join
    rw [if_neg (by simp)]
    split <;> simp_all

example : description "Wrong".toList (some (["Maths".toList, "GraphTest.cpp".toList], 12)) = "Tests/Maths/GraphTest.cpp, Line 12\nWrong\n".toList := by decide

/-- **C113 (part)** What a logger is told, and hence all outputs of a test, do not depend on where the project is.  What is missing: messages of exceptions in which a file of the project is mentioned after
another one (`C113_twice_violated`), exceptions of an unexpected type (`C113_unexpected_violated`), comparisons of files which fail (`C113_compared_violated`), and locations outside of the directory of tests (`C113_outside_violated`). -/
theorem C113_portable_partial (d d' : List Str) (hd : Place d) (hd' : Place d') (mode : Logger.Mode) (steps : List Step) (h : ∀ s ∈ steps, s.Clear d ∧ s.Clear d') :
    (∀ s ∈ steps, s.events d = s.seen) ∧ runT mode {} (steps.flatMap (Step.events d)) = runT mode {} (steps.flatMap (Step.events d')) := by
  have one : ∀ (d : List Str), Place d → ∀ s : Step, s.Clear d → s.events d = s.seen := by
    intro d hd s hs
    cases s with
    | check m l b =>
      show checkEvents (report (within d []) m (located d l)) b = checkEvents (description m l) b
      rw [C113_description d hd m l hs]
    | throwing m l t w =>
      simp only [Step.events, Step.seen, checkThrown]
      rw [C113_description d hd m l hs.1, appendLine_join, appendLine_join]
      cases w with
      | none => rfl
      | some x =>
        simp only [logged, C113_message d hd x (hs.2 x rfl)]
        rfl
  have h1 : ∀ s ∈ steps, s.events d = s.seen := fun s hs => one d hd s (h s hs).1
  have h2 : ∀ s ∈ steps, s.events d' = s.seen := fun s hs => one d' hd' s (h s hs).2
  refine ⟨h1, ?_⟩
  have : steps.flatMap (Step.events d) = steps.flatMap (Step.events d') := by
    clear h
    induction steps with
    | nil => rfl
    | cons s ss ih =>
      rw [List.flatMap_cons, List.flatMap_cons, h1 s (by simp), h2 s (by simp), ih (fun x hx => h1 x (List.mem_cons_of_mem _ hx)) (fun x hx => h2 x (List.mem_cons_of_mem _ hx))]
  rw [this]

/-- Such steps, at every two places. -/
example (d d' : List Str) : ∀ s ∈ [Step.throwing "Fails".toList (some (["X.cpp".toList], 3)) "E".toList (some (.about "No file ".toList ["a.txt".toList] [])), Step.check [] none .done],
    s.Clear d ∧ s.Clear d' := by
  intro s hs
  simp only [List.mem_cons, List.not_mem_nil, or_false] at hs
  have hn : Names ["X.cpp".toList] ∧ Names ["a.txt".toList] := by constructor <;> (intro e he; rw [List.mem_singleton.1 he]; decide)
  have ns : ∀ d, (Message.about "No file ".toList ["a.txt".toList] []).Clear d := fun d => ⟨hn.2, by simp, no_slash (by decide)⟩
  rcases hs with rfl | rfl
  · exact ⟨⟨fun x hx => by cases hx; exact hn.1, fun x hx => by cases hx; exact ns d⟩, ⟨fun x hx => by cases hx; exact hn.1, fun x hx => by cases hx; exact ns d'⟩⟩
  · constructor <;> (intro x hx; cases hx)

/-- **C113** An exception which is expected leaves, among what is under version control, its description and its message with the path relative to the project. -/
theorem C113_caught (d : List Str) (hd : Place d) (mode : Logger.Mode) (m : Str) (l : Option (List Str × Nat)) (type : Str) (x : Message) (h : (Step.throwing m l type (some x)).Clear d) :
    ∃ s', runT mode {} ((Step.throwing m l type (some x)).events d) = .ok s' ∧
      s'.caught = [⟨1, endBlock (join (join (description m l) "Expected Exception Type:".toList) type ++ ['\n'] ++ x.seen) 2 footer⟩] := by
  rw [(C113_portable_partial d d hd hd mode [Step.throwing m l type (some x)] (by intro s hs; rw [List.mem_singleton.1 hs]; exact ⟨h, h⟩)).1 _ (by simp)]
  cases mode <;> exact ⟨_, rfl, rfl⟩

/-- **C113** The messages of the library about a file of the project are seen the same wherever the project is, and show which file it is and what is wrong with it. -/
theorem C113_library (d f : List Str) (hd : Place d) (hf : Names f) (hn : f ≠ []) (message : Str) :
    postprocess (within d []) (failedRead (within d f)) = "Unable to open file ".toList ++ slashed f ++ "  for reading\n".toList ∧
    postprocess (within d []) (failedWrite (within d f)) = "Unable to open file ".toList ++ slashed f ++ "  for writing\n".toList ∧
    postprocess (within d []) (notFound (within d f) message) = slashed f ++ " ".toList ++ join "not found".toList message ∧
    postprocess (within d []) (notDirectory (within d f) message) = slashed f ++ " ".toList ++ join "is not a directory".toList message ∧
    postprocess (within d []) (notRegular (within d f) message) = slashed f ++ "  ".toList ++ join "is not a regular file".toList message := by
  have key : ∀ (b a : Str), '/' ∉ b → postprocess (within d []) (b ++ generic (within d f) ++ a) = b ++ slashed f ++ a := by
    intro b a hb
    rw [generic_within]
    exact C113_message d hd (.about b f a) ⟨hf, hn, no_slash hb⟩
  have hne : within d f ≠ [] := by simp [within]
  have u : '/' ∉ "Unable to open file ".toList := by decide
  refine ⟨?_, ?_, ?_, ?_, ?_⟩
  · unfold failedRead fileIssue
    rw [List.append_assoc, key _ _ u]
    rfl
  · unfold failedWrite fileIssue
    rw [List.append_assoc, key _ _ u]
    rfl
  · unfold notFound throwIf
    rw [if_neg hne, if_neg hne, appendLine_join]
    have := key [] (' ' :: join "not found".toList message) (by simp)
    simpa using this
  · unfold notDirectory throwIf
    rw [if_neg hne, if_neg hne, appendLine_join]
    have := key [] (' ' :: join "is not a directory".toList message) (by simp)
    simpa using this
  · unfold notRegular throwIf
    rw [if_neg hne, appendLine_join]
    have := key [] (' ' :: join " is not a regular file".toList message) (by simp)
    rw [List.nil_append, List.nil_append] at this
    rw [this]
    unfold join
    have e1 : " is not a regular file".toList ≠ [] := by decide
    have e2 : "is not a regular file".toList ≠ [] := by decide
    rw [if_neg e1, if_neg e2]
    split
    · rw [show " is not a regular file".toList = [' '] ++ "is not a regular file".toList from rfl]
      simp only [List.append_assoc]
      rfl
    · rw [show " is not a regular file".toList = [' '] ++ "is not a regular file".toList from rfl]
      simp only [List.append_assoc]
      rfl

/-- **C113** Different files are seen differently, and files of the same name in different projects at the same place within are not. -/
theorem C113_files (d d' f f' : List Str) (hd : Place d) (hd' : Place d') (hf : Names f) (hn : f ≠ []) (hf' : Names f') (hn' : f' ≠ []) :
    postprocess (within d []) (failedWrite (within d f)) = postprocess (within d' []) (failedWrite (within d' f')) ↔ f = f' := by
  rw [(C113_library d f hd hf hn []).2.1, (C113_library d' f' hd' hf' hn' []).2.1]
  constructor
  · intro h
    exact slashed_inj hf hf' (List.append_cancel_left (List.append_cancel_right h))
  · rintro rfl; rfl

/-- **C113 (violated)** If two files of the project are mentioned, then it can be seen where the project is. -/
theorem C113_twice_violated (d f g : List Str) (hd : Place d) (hf : Names f) (hn : f ≠ []) :
    postprocess (within d []) (generic (within d f) ++ " vs ".toList ++ generic (within d g)) = slashed f ++ " vs ".toList ++ generic (within d g) := by
  rw [generic_within d f, List.append_assoc]
  exact (C113_message d hd (.about [] f (" vs ".toList ++ generic (within d g))) ⟨hf, hn, no_slash (by simp)⟩).trans (by simp [Message.seen])

example : postprocess (within ["p".toList] []) "/p/a vs /p/b".toList = "a vs /p/b".toList ∧ postprocess (within ["q".toList] []) "/q/a vs /q/b".toList = "a vs /q/b".toList := by decide

/-- **C113 (violated)** What follows the place of the project is erased whatever it is: a directory next to the project, the name of which begins in the same way, is taken for the project, so that files in different
directories are no longer told apart; and if the project itself is mentioned within quotes, then one is lost. -/
theorem C113_neighbour_violated (d : List Str) (x : Str) (a b : Char) :
    postprocess (within d []) (generic (within d []) ++ a :: x) = postprocess (within d []) (generic (within d []) ++ b :: x) ∧
    postprocess (within d []) (generic (within d []) ++ a :: x) = x := by
  have key : ∀ c : Char, postprocess (within d []) (generic (within d []) ++ c :: x) = x := by
    intro c
    have := postprocess_at (root := within d []) (a := []) (b := c :: x) (by intro a' b' _; simp)
    simpa using this
  exact ⟨by rw [key a, key b], key a⟩

example : postprocess (within ["p".toList] []) "/p2/a".toList = "/a".toList ∧ postprocess (within ["p".toList] []) "'/p' is in use".toList = "' is in use".toList := by decide

/-- **C113 (violated)** The message of an exception of an unexpected type is not changed: if a failure is what a test is to give, then it is under version control, and says where the project is. -/
theorem C113_unexpected_violated : ∃ s s' : TState,
    runT .falseNegative {} (checkThrown (within ["p".toList] []) [] [] (.standard "/p/a".toList)) = .ok s ∧
    runT .falseNegative {} (checkThrown (within ["q".toList] []) [] [] (.standard "/q/a".toList)) = .ok s' ∧ s.diagnostics ≠ s'.diagnostics := by
  refine ⟨_, _, rfl, rfl, ?_⟩
  decide

/-- **C113 (violated)** A location outside of the project is reported by what its path does not share with that of the tests, below the directory of tests: this depends on where the project is, and may be the same as for a
file of the tests. -/
theorem C113_outside_violated :
    report (within ["p".toList] []) [] (some (within ["usr".toList, "x.hpp".toList] [], 1)) ≠ report (within ["usr".toList, "p".toList] []) [] (some (within ["usr".toList, "x.hpp".toList] [], 1)) ∧
    report (within ["p".toList] []) [] (some (within ["x.hpp".toList] [], 1)) = report (within ["p".toList] []) [] (some (within ["p".toList, "Tests".toList, "x.hpp".toList] [], 1)) := by
  decide

/-- **C113 (violated)** If files are compared which are not equal, then absolute paths are reported; if a failure is what a test is to give, then they are under version control. -/
theorem C113_compared_violated : ∃ s s' : TState,
    runT .falseNegative {} (checkEvents "Files".toList (.nested (pathPreamble "Contents of".toList (within ["p".toList, "a".toList] []) (within ["p".toList, "b".toList] [])) (.item .check (.item (.failure "x".toList) .done)) .done)) = .ok s ∧
    runT .falseNegative {} (checkEvents "Files".toList (.nested (pathPreamble "Contents of".toList (within ["q".toList, "a".toList] []) (within ["q".toList, "b".toList] [])) (.item .check (.item (.failure "x".toList) .done)) .done)) = .ok s' ∧
    s.diagnostics ≠ s'.diagnostics := by
  refine ⟨_, _, rfl, rfl, ?_⟩
  decide

end Verif.Props
