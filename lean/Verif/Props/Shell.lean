import Verif.Model.Shell
/-
C51: chaining of shell commands.
-/
namespace Verif.Props
open Verif.Shell

/-- C51: chaining is associative, and the empty command is its neutral element. -/
theorem C51_monoid (a b c : Command) : Shell.and (Shell.and a b) c = Shell.and a (Shell.and b c) ∧ Shell.and [] a = a ∧ Shell.and a [] = a := by
  refine ⟨?_, ?_, ?_⟩
  · cases a <;> cases b <;> cases c <;> simp [Shell.and]
  · cases a <;> simp [Shell.and]
  · simp [Shell.and]

/-- C51: chaining any number of commands separates those which are not empty by "&&", and does nothing else. -/
theorem C51_chain (cmds : List Command) : cmds.foldl Shell.and [] = List.intercalate "&&".toList (cmds.filter (!·.isEmpty)) := by
  have gen : ∀ (cmds : List Command) (acc : List Command), (∀ c ∈ acc, c ≠ []) →
      cmds.foldl Shell.and (List.intercalate "&&".toList acc) = List.intercalate "&&".toList (acc ++ cmds.filter (!·.isEmpty)) := by
    intro cmds
    induction cmds with
    | nil => intro acc _; simp
    | cons c cmds ih =>
      intro acc hacc
      rw [List.foldl_cons]
      by_cases hc : c = []
      · subst hc
        rw [show Shell.and (List.intercalate "&&".toList acc) [] = List.intercalate "&&".toList acc by simp [Shell.and], ih acc hacc]
        simp
      · have hstep : Shell.and (List.intercalate "&&".toList acc) c = List.intercalate "&&".toList (acc ++ [c]) := by
          have happ : ∀ (acc : List Command), acc ≠ [] → List.intercalate "&&".toList (acc ++ [c]) = List.intercalate "&&".toList acc ++ "&&".toList ++ c := by
            intro acc
            induction acc with
            | nil => intro h; exact absurd rfl h
            | cons x acc iha =>
              intro _
              cases acc with
              | nil => simp [List.intercalate, List.intersperse]
              | cons y acc =>
                have := iha (by simp)
                simp only [List.intercalate, List.cons_append, List.intersperse, List.flatten_cons] at this ⊢
                rw [this]
                simp
          rcases acc with _ | ⟨x, acc⟩
          · simp [Shell.and, List.intercalate, List.intersperse, hc]
          · rw [happ _ (by simp)]
            have hx : x ≠ [] := hacc x (by simp)
            have hne : List.intercalate "&&".toList (x :: acc) ≠ [] := by
              cases acc <;> simp [List.intercalate, List.intersperse, hx]
            rw [Shell.and, if_neg (by simpa using hc), if_neg (by simpa using hne)]
        rw [hstep, ih (acc ++ [c]) (by
          intro d hd
          rcases List.mem_append.mp hd with h | h
          · exact hacc d h
          · simp at h; subst h; exact hc)]
        simp [hc]
  have := gen cmds [] (by simp)
  simpa [List.intercalate, List.intersperse] using this

/-- C51: what redirection adds is an operator, the file and "2>&1"; the operator never follows a digit directly, which the shell would take for the number of a file.
In particular all of the output and of the errors goes to the file. -/
theorem C51_redirect (cmd output : List Char) (append : Bool) (h : output ≠ []) :
    ∃ gap, redirected cmd output append = cmd ++ gap ++ (if append then ">>".toList else ">".toList) ++ ' ' :: output ++ " 2>&1".toList ∧
      (gap = [] ∨ gap = [' ']) ∧ ∀ c, (cmd ++ gap).getLast? = some c → c ∉ ['0', '1', '2', '3', '4', '5', '6', '7', '8', '9'] := by
  have ho : output.isEmpty = false := by cases output <;> simp_all
  simp only [redirected, ho, Bool.false_eq_true, if_false]
  cases hl : cmd.getLast? with
  | none =>
    refine ⟨[], by cases append <;> simp, .inl rfl, fun c hc => ?_⟩
    rw [List.append_nil, hl] at hc
    exact absurd hc (by simp)
  | some d =>
    by_cases hd : isDigit d
    · refine ⟨[' '], by cases append <;> simp [hd], .inr rfl, fun c hc => ?_⟩
      rw [List.getLast?_concat] at hc
      cases hc
      decide
    · refine ⟨[], by cases append <;> simp [hd], .inl rfl, fun c hc => ?_⟩
      rw [List.append_nil, hl] at hc
      cases hc
      intro hm
      apply hd
      simp only [List.mem_cons, List.not_mem_nil, or_false] at hm
      rcases hm with rfl | rfl | rfl | rfl | rfl | rfl | rfl | rfl | rfl | rfl <;> decide

/-- C51: only the first of the commands which a preamble makes may overwrite the file; the command itself appends to it if there is a preamble. -/
theorem C51_preamble (preamble cmd output : List Char) (append : Bool) (h : preamble ≠ []) (ho : output ≠ []) :
    withPreamble preamble cmd output append =
      List.intercalate "&&".toList [redirected "echo".toList output append, redirected ("echo ".toList ++ preamble) output true,
        redirected "echo".toList output true, redirected cmd output true] := by
  have hp : preamble.isEmpty = false := by cases preamble <;> simp_all
  have hne : ∀ (c : List Char) (a : Bool), redirected c output a ≠ [] := by
    intro c a
    obtain ⟨gap, e, _⟩ := C51_redirect c output a ho
    rw [e]
    simp
  have hne' : ∀ (c : List Char) (a : Bool), (redirected c output a).isEmpty = false := fun c a => by
    cases hr : redirected c output a with
    | nil => exact absurd hr (hne c a)
    | cons => rfl
  simp only [withPreamble, preambleCmd, hp, Bool.false_eq_true, if_false, Shell.and, hne']
  simp [hne, List.intercalate, List.intersperse]

/-- Three commands, one of them empty; a command which ends with a digit. -/
example : ["cd x".toList, [], "make".toList].foldl Shell.and [] = "cd x&&make".toList ∧
    redirected "sleep 1".toList "out".toList false = "sleep 1 > out 2>&1".toList := by decide +kernel

example : withPreamble "hi".toList "ls".toList "o".toList false = "echo> o 2>&1&&echo hi>> o 2>&1&&echo>> o 2>&1&&ls>> o 2>&1".toList := by decide +kernel

end Verif.Props
