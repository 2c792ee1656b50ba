import Verif.Lemmas.Copyright
import Verif.Model.TestFiles
/-
C123. The notice of copyright at the top of a new file.
-/
namespace Verif.Props
open Verif.Text Verif.Spec.Text Verif.Spec.Copyright Verif.ProjectCreator

/-- **C123.** A notice which is framed by two bars is replaced by one for the given owner and year, and nothing outside of the frame changes.  If there is room then the width of the frame stays the same, and the notice is in its
middle, to the right of it by at most half a character; if there is not, then there is nothing but the notice, and the frame becomes wider. -/
theorem C123_replaced {text before left right after : Str} (h : Framed text before left right after) (year owner : Str) :
    ∃ m n, setTopCopyright year owner text = some (before ++ bar ++ (List.replicate m ' ' ++ notice owner year ++ List.replicate n ' ') ++ bar ++ after) ∧ n ≤ m ∧ m ≤ n + 1 ∧
      ((notice owner year).length ≤ (left ++ word ++ right).length → m + (notice owner year).length + n = (left ++ word ++ right).length) ∧
      ((left ++ word ++ right).length < (notice owner year).length → m = 0 ∧ n = 0) := by
  refine ⟨_, _, setTop_framed h year owner, ?_, ?_, ?_, ?_⟩ <;> omega

/-- **C123.** An exception is thrown exactly if the word does not occur, or if there is no bar before or after its first occurrence; in all other cases there is a frame. -/
theorem C123_refused (text year owner : Str) :
    (setTopCopyright year owner text = none ↔ Unframed text) ∧ (Unframed text ∨ ∃ before left right after, Framed text before left right after) := by
  refine ⟨⟨fun h => ?_, fun h => setTop_unframed h year owner⟩, framed_or text⟩
  rcases framed_or text with hu | ⟨before, left, right, after, hf⟩
  · exact hu
  · have := setTop_framed hf year owner
    simp only [h] at this
    cases this

/-- **C123.** In the files of a new test: if there is no frame then this is an exception, and never undefined. -/
theorem C123_test (r : Verif.TestFiles.Request) (text : Str) :
    (Verif.TestFiles.copyright r text = .throws ↔ Unframed text) ∧ (¬ Unframed text → ∃ t, Verif.TestFiles.copyright r text = .ok t ∧ setTopCopyright r.year r.owner text = some t) := by
  have h := (C123_refused text r.year r.owner).1
  unfold Verif.TestFiles.copyright
  cases hs : setTopCopyright r.year r.owner text with
  | none => exact ⟨⟨fun _ => h.1 hs, fun _ => rfl⟩, fun hn => absurd (h.1 hs) hn⟩
  | some t => exact ⟨⟨fun hc => by simp at hc, fun hu => by rw [h.2 hu] at hs; cases hs⟩, fun _ => ⟨t, rfl, rfl⟩⟩

example : Unframed "no notice".toList := .inl (by decide +kernel)

/-- **C123.** There is only one frame. -/
theorem C123_unique {text b l r a b' l' r' a' : Str} (h : Framed text b l r a) (h' : Framed text b' l' r' a') : b = b' ∧ l = l' ∧ r = r' ∧ a = a' := by
  have h1 : (b ++ bar ++ l).length = (b' ++ bar ++ l').length :=
    Nat.le_antisymm (h.first (b' ++ bar ++ l') (r' ++ bar ++ a') (by have := h.text.symm.trans h'.text; simp at this ⊢; exact this.symm))
      (h'.first (b ++ bar ++ l) (r ++ bar ++ a) (by have := h.text.symm.trans h'.text; simp at this ⊢; exact this))
  have h2 : b.length = b'.length := by
    have e1 := rfind_framed h
    have e2 := rfind_framed h'
    rw [h1, e2] at e1
    exact (Option.some.inj e1).symm
  have e := h.text.symm.trans h'.text
  simp only [List.append_assoc] at e
  obtain ⟨hb, e1⟩ := List.append_inj e h2
  have e2 : l ++ (word ++ (r ++ (bar ++ a))) = l' ++ (word ++ (r' ++ (bar ++ a'))) := List.append_cancel_left e1
  obtain ⟨hl, e3⟩ := List.append_inj e2 (by simp at h1; omega)
  have e4 : r ++ (bar ++ a) = r' ++ (bar ++ a') := List.append_cancel_left e3
  have e0 : word ++ r ++ bar ++ a = word ++ r' ++ bar ++ a' := by simp only [List.append_assoc]; rw [e4]
  have h3 : (word ++ r).length = (word ++ r').length := Nat.le_antisymm (h.near_right _ _ e0.symm) (h'.near_right _ _ e0)
  obtain ⟨hr, e5⟩ := List.append_inj e4 (by simp at h3; omega)
  exact ⟨hb, hl, hr, List.append_cancel_left e5⟩

/-- A template: `//  Copyright Someone 2020.  //`. -/
example : ∃ before left right after, Framed "////\n//   Copyright Someone 2020.   //\n////\n\nnamespace".toList before left right after ∧ left = "   ".toList ∧
    setTopCopyright "2024".toList "Me".toList "////\n//   Copyright Someone 2020.   //\n////\n\nnamespace".toList = some "////\n//      Copyright Me 2024.     //\n////\n\nnamespace".toList := by
  rcases framed_or "////\n//   Copyright Someone 2020.   //\n////\n\nnamespace".toList with h | ⟨b, l, r, a, h⟩
  · have := setTop_unframed h "2024".toList "Me".toList
    rw [show setTopCopyright "2024".toList "Me".toList "////\n//   Copyright Someone 2020.   //\n////\n\nnamespace".toList = some "////\n//      Copyright Me 2024.     //\n////\n\nnamespace".toList by decide +kernel] at this
    cases this
  · refine ⟨b, l, r, a, h, ?_, by decide +kernel⟩
    have e1 := rfind_framed h
    have e2 : Verif.Text.find "////\n//   Copyright Someone 2020.   //\n////\n\nnamespace".toList word 0 = some (b ++ bar ++ l).length := by
      have := Verif.FileEditors.find_at (d := []) h.first
      rw [h.text, show b ++ bar ++ l ++ word ++ r ++ bar ++ a = b ++ bar ++ l ++ word ++ (r ++ bar ++ a) by simp]
      simpa using this
    rw [show Verif.Text.find "////\n//   Copyright Someone 2020.   //\n////\n\nnamespace".toList word 0 = some 10 by decide +kernel] at e2
    have e3 := (Option.some.inj e2)
    rw [← e3, show Verif.FileEditors.rfind "////\n//   Copyright Someone 2020.   //\n////\n\nnamespace".toList bar 10 = some 5 by decide +kernel] at e1
    have e4 := Option.some.inj e1
    have ht := h.text
    have hl : l = ("////\n//   Copyright Someone 2020.   //\n////\n\nnamespace".toList.drop 7).take 3 := by
      rw [ht, show b ++ bar ++ l ++ word ++ r ++ bar ++ a = (b ++ bar) ++ (l ++ (word ++ r ++ bar ++ a)) by simp, List.drop_left' (by simp [bar, ← e4]), List.take_left']
      simp [bar] at e3; omega
    rw [hl]; decide +kernel

/-- **C123, violated.** A notice is looked for in the whole of a file, and a frame need not be on one line: in a file with no notice, in which the word occurs otherwise, code between two comments is replaced. -/
theorem C123_code_violated :
    ∃ s, setTopCopyright "2024".toList "Me".toList "// One\nint x{};\nCopyright c{};\n// Two".toList = some s ∧ ¬ "int x".toList <:+: s :=
  ⟨_, rfl, by decide +kernel⟩

/-- **C123, violated.** Replacing a notice again does not have the effect of replacing it once, if the name of the owner has slashes in it: what is after them stays. -/
theorem C123_again_violated : ∃ s t, setTopCopyright "2023".toList "http://me".toList "//                Copyright Someone 2020.                //".toList = some s ∧
    setTopCopyright "2024".toList "you".toList s = some t ∧ setTopCopyright "2024".toList "you".toList "//                Copyright Someone 2020.                //".toList ≠ some t ∧ "me 2023".toList <:+: t :=
  ⟨_, _, rfl, rfl, by decide +kernel, by decide +kernel⟩

end Verif.Props
