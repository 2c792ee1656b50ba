import Verif.Lemmas.AddInclude

/-
Lemmas about adding files to lists for CMake.
-/
set_option linter.unusedSimpArgs false
set_option linter.unusedVariables false

namespace Verif.FileEditors
open Text Verif.Spec.Text Verif.Spec.FileEditors

theorem margin_eq (o : Str) : numSpaces o = margin o := by
  unfold numSpaces margin
  cases h : search ['('] o with
  | none =>
    have := search_char_none h
    have h2 : o.takeWhile (· ≠ '(') = o := by
      have := List.takeWhile_append_of_pos (p := fun x : Char => decide (x ≠ '(')) (l₁ := o) (l₂ := []) (by
        intro x hx
        simp only [decide_eq_true_eq, ne_eq]
        rintro rfl
        exact this hx)
      simpa using this
    rw [h2]
    simp [this]
  | some i =>
    obtain ⟨a, b, rfl, rfl, hn⟩ := search_char h
    have : (a ++ '(' :: b).takeWhile (· ≠ '(') = a := by
      rw [List.takeWhile_append_of_pos]
      · simp
      · intro x hx
        simp only [decide_eq_true_eq, ne_eq]
        rintro rfl
        exact hn hx
    rw [this]
    simp

/-- The next newline, or the end of the list. -/
theorem next_newline {d j : Str} {es : List (Nat × Str)} {Z : Str} (hj : '\n' ∉ j) :
    ((find (d ++ (j ++ (entryLines es ++ Z))) ['\n'] d.length).elim (d ++ (j ++ entryLines es)).length fun e => min e (d ++ (j ++ entryLines es)).length) = (d ++ j).length := by
  cases es with
  | nil =>
    cases h : find (d ++ (j ++ (entryLines [] ++ Z))) ['\n'] d.length with
    | none => simp [entryLines]
    | some q =>
      obtain ⟨x, y, he, rfl, hle, hn⟩ := find_char.1 h
      have : (d ++ j).length ≤ x.length := by
        apply Classical.byContradiction
        intro hlt
        have h1 : (d ++ (j ++ (entryLines [] ++ Z)))[x.length]? = some '\n' := by rw [he]; simp
        simp only [List.length_append, Nat.not_le] at hlt
        rw [List.getElem?_append_right hle, List.getElem?_append_left (by omega)] at h1
        exact hj (List.mem_of_getElem? h1)
      simp [entryLines] at this ⊢
      omega
  | cons e es =>
    have : find (d ++ (j ++ (entryLines (e :: es) ++ Z))) ['\n'] d.length = some (d.length + j.length) := by
      rw [show entryLines (e :: es) ++ Z = '\n' :: (List.replicate e.1 ' ' ++ e.2 ++ (entryLines es ++ Z)) by simp [entryLines]]
      exact find_newline hj
    rw [this]
    simp [entryLines]

theorem entriesFrom_spec {c : Char} {cl B : Str} (hc : c ≠ ' ') : ∀ (es : List (Nat × Str)) (f : Nat) (d j : Str), es.length < f → '\n' ∉ j → (∀ e ∈ es, '\n' ∉ e.2 ∧ e.2.head? ≠ some ' ') →
    entriesFrom (d ++ (j ++ (entryLines es ++ (c :: cl ++ B)))) (d ++ (j ++ entryLines es)).length f d.length = .ok (es.map (·.2))
  | [], f, d, j, hf, hj, _ => by
    cases f with
    | zero => simp at hf
    | succ f =>
      rw [entriesFrom]
      have := next_newline (d := d) (es := []) (Z := c :: cl ++ B) hj
      cases h : find (d ++ (j ++ (entryLines [] ++ (c :: cl ++ B)))) ['\n'] d.length with
      | none => rfl
      | some q =>
        rw [h] at this
        simp only [Option.elim_some] at this
        dsimp only
        rw [if_neg]
        · rfl
        · simp [entryLines] at this ⊢; omega
  | e :: es, f, d, j, hf, hj, he => by
    cases f with
    | zero => simp at hf
    | succ f =>
      obtain ⟨h1, h2⟩ := he e (by simp)
      generalize hT : d ++ (j ++ (entryLines (e :: es) ++ (c :: cl ++ B))) = T
      have hfind : find T ['\n'] d.length = some (d.length + j.length) := by
        rw [← hT, show entryLines (e :: es) ++ (c :: cl ++ B) = '\n' :: (List.replicate e.1 ' ' ++ e.2 ++ (entryLines es ++ (c :: cl ++ B))) by simp [entryLines]]
        exact find_newline hj
      have hT2 : T = (d ++ j ++ ['\n']) ++ ((List.replicate e.1 ' ' ++ e.2) ++ (entryLines es ++ (c :: cl ++ B))) := by
        rw [← hT]; simp [entryLines]
      have hE : (d ++ (j ++ entryLines (e :: es))).length = ((d ++ j ++ ['\n']) ++ ((List.replicate e.1 ' ' ++ e.2) ++ entryLines es)).length := by
        simp [entryLines]
      have hnext := next_newline (d := d ++ j ++ ['\n']) (j := List.replicate e.1 ' ' ++ e.2) (es := es) (Z := c :: cl ++ B) (by simp [h1])
      rw [← hT2, ← hE] at hnext
      have hdl : d.length + j.length + 1 = (d ++ j ++ ['\n']).length := by simp; omega
      have hdrop : (T.drop (d.length + j.length + 1)).takeWhile (· = ' ') = List.replicate e.1 ' ' := by
        rw [hT2, hdl, List.drop_left, List.append_assoc, List.takeWhile_append_of_pos (by simp)]
        have : (e.2 ++ (entryLines es ++ (c :: cl ++ B))).takeWhile (fun x => decide (x = ' ')) = [] := by
          cases h3 : e.2 with
          | cons x y =>
            rw [h3] at h2
            simp at h2
            simp [h2]
          | nil =>
            cases es with
            | nil => simp [entryLines, hc]
            | cons g es => simp [entryLines]
        rw [this]
        simp
      rw [entriesFrom, hfind]
      dsimp only
      rw [if_pos (by rw [hE]; simp)]
      rw [hdl] at hdrop ⊢
      rw [hnext, hdrop, if_pos (by rw [hT2]; simp; omega), if_pos (by simp; omega)]
      have hsub : substr T ((d ++ j ++ ['\n']).length + (List.replicate e.1 ' ').length) ((d ++ j ++ ['\n'] ++ (List.replicate e.1 ' ' ++ e.2)).length - ((d ++ j ++ ['\n']).length + (List.replicate e.1 ' ').length)) = e.2 := by
        rw [substr, hT2, ← List.length_append, show (d ++ j ++ ['\n']) ++ ((List.replicate e.1 ' ' ++ e.2) ++ (entryLines es ++ (c :: cl ++ B))) =
          (d ++ j ++ ['\n'] ++ List.replicate e.1 ' ') ++ (e.2 ++ (entryLines es ++ (c :: cl ++ B))) by simp, List.drop_left]
        rw [List.take_left']
        simp; omega
      rw [hsub]
      have ih := entriesFrom_spec (cl := cl) (B := B) hc es f (d ++ j ++ ['\n'] ++ (List.replicate e.1 ' ' ++ e.2)) [] (by simp at hf; omega) (by simp) (fun g hg => he g (by simp [hg]))
      have e1 : d ++ j ++ ['\n'] ++ (List.replicate e.1 ' ' ++ e.2) ++ ([] ++ (entryLines es ++ (c :: cl ++ B))) = T := by rw [hT2]; simp
      have e2 : List.length (d ++ j ++ ['\n'] ++ (List.replicate e.1 ' ' ++ e.2) ++ ([] ++ entryLines es)) = List.length (d ++ (j ++ entryLines (e :: es))) := by simp [entryLines]
      rw [e1, e2] at ih
      rw [ih]
      rfl

theorem addToCmake_spec {stdSort : (Str → Str → Bool) → List Str → List Str} (hs : Sorts stdSort) {file po pre text a h b cl : Str} {c : Char} {es : List (Nat × Str)}
    (ht : text = a ++ po ++ (h ++ entryLines es ++ (c :: cl) ++ b)) (hopen : First po a (h ++ entryLines es ++ (c :: cl) ++ b)) (hclose : First (c :: cl) (h ++ entryLines es) b)
    (hc : c ≠ ' ') (hh : '\n' ∉ h) (he : ∀ e ∈ es, '\n' ∉ e.2 ∧ e.2.head? ≠ some ' ') :
    ∃ sorted : List Str, addToCmake stdSort file po (c :: cl) pre text = .ok (a ++ po ++ (h ++ entryLines (sorted.map fun e => (margin po, e)) ++ (c :: cl) ++ b)) ∧
      sorted.Perm ((pre ++ file) :: es.map (·.2)) ∧ sorted.Pairwise (· ≤ ·) := by
  have h1 : find text po 0 = some a.length := by
    have := find_at (d := []) hopen
    rw [ht]
    simpa using this
  have hT : text = (a ++ po) ++ (h ++ (entryLines es ++ (c :: cl ++ b))) := by rw [ht]; simp
  have h2 : find text (c :: cl) (a.length + po.length) = some (a ++ po ++ (h ++ entryLines es)).length := by
    have := find_at (d := a ++ po) hclose
    rw [hT, ← List.length_append, show h ++ (entryLines es ++ (c :: cl ++ b)) = h ++ entryLines es ++ c :: cl ++ b by simp, this]
    simp; omega
  have h3 := entriesFrom_spec (cl := cl) (B := b) hc es (text.length + 1) (a ++ po) h (by
      have : ∀ es : List (Nat × Str), es.length ≤ (entryLines es).length := by
        intro es
        induction es with
        | nil => simp
        | cons x bl ih => simp [entryLines] at ih ⊢; omega
      have := this es
      rw [hT]; simp; omega) hh he
  rw [← hT, List.length_append (as := a)] at h3
  obtain ⟨h4, h5⟩ := hs _ _ (strictWeak_text ((pre ++ file) :: es.map (·.2)))
  refine ⟨stdSort (fun a b => decide (a < b)) ((pre ++ file) :: es.map (·.2)), ?_, h4, h5.imp (by intro x y hxy; simpa [List.not_lt] using hxy)⟩
  unfold addToCmake
  rw [h1]
  dsimp only
  rw [h2]
  dsimp only
  rw [h3]
  simp only [Res.bind, sortBy, strictWeakOn_iff.2 (strictWeak_text ((pre ++ file) :: es.map (·.2))), if_true]
  have h6 := next_newline (d := a ++ po) (es := es) (Z := c :: cl ++ b) hh
  rw [← hT, List.length_append (as := a)] at h6
  rw [h6]
  congr 1
  unfold splice
  have h7 : (a ++ po ++ h).length + ((a ++ po ++ (h ++ entryLines es)).length - (a ++ po ++ h).length) = (a ++ po ++ h ++ entryLines es).length := by simp
  rw [h7, show text = (a ++ po ++ h ++ entryLines es) ++ (c :: cl ++ b) by rw [hT]; simp, List.drop_left, show (a ++ po ++ h ++ entryLines es) ++ (c :: cl ++ b) = (a ++ po ++ h) ++ (entryLines es ++ (c :: cl ++ b)) by simp,
    List.take_left, margin_eq]
  simp [entryLines, List.flatMap_map]

end Verif.FileEditors
