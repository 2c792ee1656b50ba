import Verif.Spec.Postprocess
/-
Lemmas on the output of performance tests.
-/
set_option linter.unusedSimpArgs false
set_option linter.unusedVariables false

namespace Verif.Postprocess
open Verif.Spec.Postprocess

/-! ### Searching -/

theorem rfinds_iff (p l : List Char) (pos : Nat) : rfinds p l pos = true ↔ ∃ i, i ≤ pos ∧ p <+: l.drop i := by
  induction pos with
  | zero =>
    rw [rfinds, List.isPrefixOf_iff_prefix]
    constructor
    · intro h; exact ⟨0, Nat.le_refl _, by simpa using h⟩
    · rintro ⟨i, h1, h2⟩
      obtain rfl : i = 0 := by omega
      simpa using h2
  | succ pos ih =>
    rw [rfinds, Bool.or_eq_true, ih, List.isPrefixOf_iff_prefix]
    constructor
    · rintro (h | ⟨i, h1, h2⟩)
      · exact ⟨_, Nat.le_refl _, h⟩
      · exact ⟨i, by omega, h2⟩
    · rintro ⟨i, h1, h2⟩
      by_cases h : i = pos + 1
      · subst h; exact .inl h2
      · exact .inr ⟨i, by omega, h2⟩

theorem find_append {c : Char} {u : List Char} (h : c ∉ u) (v : List Char) : find c (u ++ c :: v) = some u.length := by
  induction u with
  | nil => simp [find]
  | cons a u ih =>
    simp only [List.mem_cons, not_or] at h
    simp only [List.cons_append, find]
    rw [if_neg (fun e => h.1 e.symm), ih h.2]
    rfl

theorem find_none {c : Char} {u : List Char} (h : c ∉ u) : find c u = none := by
  induction u with
  | nil => rfl
  | cons a u ih =>
    simp only [List.mem_cons, not_or] at h
    simp only [find]
    rw [if_neg (fun e => h.1 e.symm), ih h.2]
    rfl

theorem exists_first {c : Char} {l : List Char} (h : c ∈ l) : ∃ u v, l = u ++ c :: v ∧ c ∉ u := by
  induction l with
  | nil => simp at h
  | cons a l ih =>
    by_cases e : a = c
    · subst e; exact ⟨[], l, rfl, by simp⟩
    · rcases List.mem_cons.1 h with h | h
      · exact absurd h.symm e
      · obtain ⟨u, v, h1, h2⟩ := ih h
        exact ⟨a :: u, v, by rw [h1]; rfl, by simp [h2, Ne.symm e]⟩

/-- What is compared. -/
def slice (o c : Char) (l : List Char) : Option (List Char) :=
  match find o l, find c l with
  | some i, some j => if i < j then some ((l.drop i).take (j - i)) else none
  | _, _ => none

theorem slice_between {o c : Char} {before between after : List Char} (h1 : o ∉ before) (h2 : c ∉ before) (h3 : o ≠ c) (h4 : c ∉ between) :
    slice o c (before ++ o :: (between ++ c :: after)) = some (o :: between) := by
  unfold slice
  rw [find_append h1]
  have e : before ++ o :: (between ++ c :: after) = (before ++ o :: between) ++ c :: after := by simp
  rw [e, find_append (by simp [h2, h4, Ne.symm h3])]
  simp only [List.length_append, List.length_cons]
  rw [if_pos (by omega)]
  simp [Nat.add_sub_cancel_left]

theorem slice_iff {o c : Char} (h : o ≠ c) (l x : List Char) : slice o c l = some x ↔ Between o c l x := by
  constructor
  · intro hs
    by_cases ho : o ∈ l
    · obtain ⟨u, v, rfl, hu⟩ := exists_first ho
      by_cases hc : c ∈ u
      · obtain ⟨u1, u2, rfl, hu1⟩ := exists_first hc
        unfold slice at hs
        rw [find_append hu, List.append_assoc, List.cons_append, find_append hu1] at hs
        simp only [List.length_append, List.length_cons] at hs
        rw [if_neg (by omega)] at hs
        exact absurd hs (by simp)
      · by_cases hv : c ∈ v
        · obtain ⟨v1, v2, rfl, hv1⟩ := exists_first hv
          rw [slice_between hu hc h hv1] at hs
          cases hs
          exact .mk hu hc h hv1
        · unfold slice at hs
          rw [find_append hu, find_none (c := c) (by simp [hc, hv, Ne.symm h])] at hs
          exact absurd hs (by simp)
    · unfold slice at hs
      rw [find_none ho] at hs
      exact absurd hs (by simp)
  · rintro ⟨h1, h2, h3, h4⟩
    exact slice_between h1 h2 h3 h4

theorem acceptable_eq (o c : Char) (l l' : List Char) :
    acceptable o c l l' = true ↔ ∀ x y, slice o c l = some x → slice o c l' = some y → x = y := by
  unfold acceptable slice
  cases find o l <;> cases find c l <;> cases find o l' <;> cases find c l' <;> simp only [reduceCtorEq, false_implies, implies_true, forall_const]
  rename_i a b c d
  by_cases h1 : a < b <;> by_cases h2 : c < d <;> simp only [h1, h2, if_true, if_false, and_true, and_false, true_and, false_and, decide_eq_true_eq, reduceCtorEq, false_implies, implies_true,
    Option.some.injEq]
  exact ⟨fun h x y h1 h2 => h1 ▸ h2 ▸ h, fun h => h _ _ rfl rfl⟩

theorem acceptable_iff (l l' : List Char) : (acceptable '-' '*' l l' = true ∧ acceptable '(' ')' l l' = true) ↔ SameParameters l l' := by
  unfold SameParameters
  simp only [acceptable_eq, slice_iff (show ('-' : Char) ≠ '*' by decide), slice_iff (show ('(' : Char) ≠ ')' by decide)]

theorem sameParameters_slice (l l' : List Char) : SameParameters l l' ↔
    (∀ x y, slice '-' '*' l = some x → slice '-' '*' l' = some y → x = y) ∧ (∀ x y, slice '(' ')' l = some x → slice '(' ')' l' = some y → x = y) := by
  rw [← acceptable_iff, acceptable_eq, acceptable_eq]

/-! ### One step -/

theorem mismatch_common (c : List Char) {x y : List Char} (h : x.head? ≠ y.head?) : mismatch (c ++ x) (c ++ y) = c.length := by
  induction c with
  | nil =>
    cases x with
    | nil => cases y <;> rfl
    | cons a x =>
      cases y with
      | nil => rfl
      | cons b y => simp [mismatch]; simpa using h
  | cons a c ih => simp [mismatch, ih]

theorem mismatch_self (c : List Char) : mismatch c c = c.length := by
  induction c with
  | nil => rfl
  | cons a c ih => simp [mismatch, ih]

theorem step_same (n : Nat) (c : List Char) : acceptableMismatch (n + 1) c c = some true := by
  unfold acceptableMismatch
  simp [mismatch_self]

theorem step_end (n : Nat) (c : List Char) {x y : List Char} (h : x.head? ≠ y.head?) (hn : '\n' ∉ x ∨ '\n' ∉ y) :
    acceptableMismatch (n + 1) (c ++ x) (c ++ y) = some false := by
  have hxy : ¬ (x = [] ∧ y = []) := by rintro ⟨rfl, rfl⟩; exact h rfl
  have hf : (decide (c.length = (c ++ x).length ∧ c.length = (c ++ y).length)) = false := by
    rw [decide_eq_false_iff_not]
    rintro ⟨h1, h2⟩
    simp at h1 h2
    exact hxy ⟨h1, h2⟩
  unfold acceptableMismatch
  simp only [mismatch_common c h, hf]
  split
  · split
    · rcases hn with hn | hn
      · have : findFrom '\n' (c ++ x) c.length = none := by
          unfold findFrom
          rw [List.drop_left, find_none hn]; rfl
        rw [this]
      · have : findFrom '\n' (c ++ y) c.length = none := by
          unfold findFrom
          rw [List.drop_left, find_none hn]; rfl
        rw [this]
        cases findFrom '\n' (c ++ x) c.length <;> rfl
    · rfl
  · rfl

theorem step_line (n : Nat) (c : List Char) {x y : List Char} (h : x.head? ≠ y.head?) (hx : '\n' ∉ x) (hy : '\n' ∉ y) (r r' : List Char) :
    acceptableMismatch (n + 1) (c ++ (x ++ '\n' :: r)) (c ++ (y ++ '\n' :: r')) =
      if rfinds taskDuration (c ++ (x ++ '\n' :: r)) c.length = true ∧ acceptable '-' '*' x y = true ∧ acceptable '(' ')' x y = true
      then acceptableMismatch n ('\n' :: r) ('\n' :: r') else some false := by
  have h' : (x ++ '\n' :: r).head? ≠ (y ++ '\n' :: r').head? := by
    cases x with
    | nil =>
      cases y with
      | nil => exact absurd rfl h
      | cons b y => simp at hy ⊢; exact hy.1
    | cons a x =>
      cases y with
      | nil => simp at hx ⊢; exact fun e => hx.1 e.symm
      | cons b y => simpa using h
  have f1 : findFrom '\n' (c ++ (x ++ '\n' :: r)) c.length = some (x.length + c.length) := by
    unfold findFrom
    rw [List.drop_left, find_append hx]; rfl
  have f2 : findFrom '\n' (c ++ (y ++ '\n' :: r')) c.length = some (y.length + c.length) := by
    unfold findFrom
    rw [List.drop_left, find_append hy]; rfl
  rw [acceptableMismatch]
  simp only [mismatch_common c h', f1, f2, Nat.add_sub_cancel, List.drop_left]
  rw [if_pos (by simp)]
  have d1 : (c ++ (x ++ '\n' :: r)).drop (x.length + c.length) = '\n' :: r := by
    rw [Nat.add_comm, ← List.drop_drop, List.drop_left, List.drop_left]
  have d2 : (c ++ (y ++ '\n' :: r')).drop (y.length + c.length) = '\n' :: r' := by
    rw [Nat.add_comm, ← List.drop_drop, List.drop_left, List.drop_left]
  rw [d1, d2, List.take_left, List.take_left]
  cases rfinds taskDuration (c ++ (x ++ '\n' :: r)) c.length <;> cases acceptable '-' '*' x y <;> cases acceptable '(' ')' x y <;> simp

/-! ### Lines -/

def joinL : List (List Char) → List Char
  | [] => []
  | [a] => a
  | a :: b :: as => a ++ '\n' :: joinL (b :: as)

def pre (ps : List (List Char)) : List Char := (ps.map (· ++ ['\n'])).flatten

theorem lines_ne_nil (l : List Char) : lines l ≠ [] := by
  cases l with
  | nil => simp [lines]
  | cons c l =>
    unfold lines
    split
    · simp
    · cases lines l <;> simp

theorem join_lines (l : List Char) : joinL (lines l) = l := by
  induction l with
  | nil => rfl
  | cons c l ih =>
    unfold lines
    cases h : lines l with
    | nil => exact absurd h (lines_ne_nil l)
    | cons a as =>
      rw [h] at ih
      split
      · rename_i e
        subst e
        simp only [joinL, List.nil_append, ih]
      · cases as with
        | nil => simpa [joinL] using ih
        | cons b as => simpa [joinL] using ih

theorem lines_no_newline (l : List Char) : ∀ a ∈ lines l, '\n' ∉ a := by
  induction l with
  | nil => simp [lines]
  | cons c l ih =>
    unfold lines
    cases h : lines l with
    | nil => exact absurd h (lines_ne_nil l)
    | cons a as =>
      rw [h] at ih
      split
      · intro x hx
        rcases List.mem_cons.1 hx with rfl | hx
        · simp
        · exact ih x hx
      · rename_i e
        intro x hx
        rcases List.mem_cons.1 hx with rfl | hx
        · have := ih a (by simp)
          simp [this, Ne.symm e]
        · exact ih x (by simp [hx])

theorem lines_length (l : List Char) : (lines l).length ≤ l.length + 1 := by
  induction l with
  | nil => simp [lines]
  | cons c l ih =>
    unfold lines
    cases h : lines l with
    | nil => exact absurd h (lines_ne_nil l)
    | cons a as =>
      rw [h] at ih
      split
      · simp at ih ⊢; omega
      · simp at ih ⊢; omega

/-! ### Occurrences -/

theorem taskDuration_eq : "Task duration:".toList = taskDuration := rfl

theorem mentions_iff (l : List Char) : Mentions l ↔ ∃ i, taskDuration <+: l.drop i := by
  unfold Mentions
  rw [taskDuration_eq]
  constructor
  · rintro ⟨u, v, rfl⟩
    exact ⟨u.length, v, by rw [List.append_assoc, List.drop_left]⟩
  · rintro ⟨i, v, h⟩
    exact ⟨l.take i, v, by rw [List.append_assoc, h, List.take_append_drop]⟩

theorem begins_iff (l : List Char) (n : Nat) (hn : n ≤ l.length) : (∃ i, i ≤ n ∧ taskDuration <+: l.drop i) ↔
    ∃ u v, l = u ++ "Task duration:".toList ++ v ∧ u.length ≤ n := by
  rw [taskDuration_eq]
  constructor
  · rintro ⟨i, hi, v, h⟩
    exact ⟨l.take i, v, by rw [List.append_assoc, h, List.take_append_drop], by rw [List.length_take]; omega⟩
  · rintro ⟨u, v, rfl, h⟩
    exact ⟨u.length, h, v, by rw [List.append_assoc, List.drop_left]⟩

theorem newline_not_mem : '\n' ∉ taskDuration := by decide

/-- An occurrence does not cross the end of a line. -/
theorem prefix_line {p u v : List Char} (hp : '\n' ∉ p) : p <+: u ++ '\n' :: v ↔ p <+: u := by
  constructor
  · rintro ⟨w, h⟩
    by_cases hl : p.length ≤ u.length
    · exact ⟨u.drop p.length, by
        have := congrArg (List.take p.length) h
        rw [List.take_left, List.take_append_of_le_length hl] at this
        have h2 := List.take_append_drop p.length u
        rwa [← this] at h2⟩
    · exfalso
      apply hp
      have h1 : (p ++ w)[u.length]? = some '\n' := by rw [h]; simp
      rw [List.getElem?_append_left (by omega)] at h1
      exact List.mem_of_getElem? h1
  · rintro ⟨w, rfl⟩
    exact ⟨w ++ '\n' :: v, by simp⟩

theorem occurs_line (u v : List Char) (n : Nat) : (∃ i, i ≤ u.length + 1 + n ∧ taskDuration <+: (u ++ '\n' :: v).drop i) ↔
    (∃ i, taskDuration <+: u.drop i) ∨ ∃ i, i ≤ n ∧ taskDuration <+: v.drop i := by
  constructor
  · rintro ⟨i, h1, h2⟩
    by_cases h : i ≤ u.length
    · rw [List.drop_append_of_le_length h] at h2
      exact .inl ⟨i, (prefix_line newline_not_mem).1 h2⟩
    · obtain ⟨k, rfl⟩ : ∃ k, i = u.length + (k + 1) := ⟨i - u.length - 1, by omega⟩
      rw [← List.drop_drop, List.drop_left, List.drop_succ_cons] at h2
      exact .inr ⟨k, by omega, h2⟩
  · rintro (⟨i, h⟩ | ⟨i, h1, h2⟩)
    · have hi : i ≤ u.length := by
        apply Classical.byContradiction
        intro hi
        rw [List.drop_eq_nil_of_le (by omega)] at h
        exact absurd (List.prefix_nil.1 h) (by decide)
      exact ⟨i, by omega, by rw [List.drop_append_of_le_length hi]; exact (prefix_line newline_not_mem).2 h⟩
    · exact ⟨u.length + (i + 1), by omega, by rw [← List.drop_drop, List.drop_left]; exact h2⟩

theorem occurs_pre (ps : List (List Char)) (v : List Char) (n : Nat) :
    (∃ i, i ≤ (pre ps).length + n ∧ taskDuration <+: (pre ps ++ v).drop i) ↔
      (∃ p ∈ ps, Mentions p) ∨ ∃ i, i ≤ n ∧ taskDuration <+: v.drop i := by
  induction ps with
  | nil => simp [pre]
  | cons p ps ih =>
    have e : pre (p :: ps) ++ v = p ++ '\n' :: (pre ps ++ v) := by simp [pre]
    have e2 : (pre (p :: ps)).length + n = p.length + 1 + ((pre ps).length + n) := by simp [pre]; omega
    rw [e, e2, occurs_line, ih, ← mentions_iff]
    simp only [List.mem_cons, exists_eq_or_imp, or_assoc]

/-! ### Refinement -/

theorem split_common (a b : List Char) : a = b ∨ ∃ c x y, a = c ++ x ∧ b = c ++ y ∧ x.head? ≠ y.head? := by
  induction a generalizing b with
  | nil =>
    cases b with
    | nil => exact .inl rfl
    | cons b bs => exact .inr ⟨[], [], b :: bs, rfl, rfl, by simp⟩
  | cons a as ih =>
    cases b with
    | nil => exact .inr ⟨[], a :: as, [], rfl, rfl, by simp⟩
    | cons b bs =>
      by_cases h : a = b
      · subst h
        rcases ih bs with rfl | ⟨c, x, y, h1, h2, h3⟩
        · exact .inl rfl
        · exact .inr ⟨a :: c, x, y, by rw [h1]; rfl, by rw [h2]; rfl, h3⟩
      · exact .inr ⟨[], a :: as, b :: bs, rfl, rfl, by simpa using h⟩

theorem split_unique {c c' x x' y y' : List Char} (h1 : c ++ x = c' ++ x') (h2 : c ++ y = c' ++ y') (h : x.head? ≠ y.head?) (h' : x'.head? ≠ y'.head?) :
    c = c' ∧ x = x' ∧ y = y' := by
  have e : c.length = c'.length := by rw [← mismatch_common c h, h1, h2, mismatch_common c' h']
  obtain ⟨a1, a2⟩ := List.append_inj h1 e
  exact ⟨a1, a2, (List.append_inj h2 e).2⟩

theorem refine (as : List (List Char)) : ∀ (bs ps : List (List Char)) (fuel : Nat), as ≠ [] → bs ≠ [] → (∀ a ∈ as, '\n' ∉ a) →
    (∀ b ∈ bs, '\n' ∉ b) → as.length ≤ fuel →
    ∃ v, acceptableMismatch fuel (pre ps ++ joinL as) (pre ps ++ joinL bs) = some v ∧ (v = true ↔ Accepted (∃ p ∈ ps, Mentions p) as bs) := by
  induction as with
  | nil => intro _ _ _ h; exact absurd rfl h
  | cons a as ih =>
    intro bs ps fuel _ hbs ha hb hfuel
    obtain ⟨fuel, rfl⟩ : ∃ n, fuel = n + 1 := ⟨fuel - 1, by simp at hfuel; omega⟩
    cases bs with
    | nil => exact absurd rfl hbs
    | cons b bs =>
      have ha' := ha a (by simp)
      have hb' := hb b (by simp)
      cases as with
      | nil =>
        cases bs with
        | nil =>
          simp only [joinL]
          rcases split_common a b with rfl | ⟨c, x, y, rfl, rfl, h⟩
          · exact ⟨true, step_same _ _, by simp [Accepted]⟩
          · refine ⟨false, ?_, ?_⟩
            · rw [← List.append_assoc, ← List.append_assoc]
              exact step_end _ _ h (.inl (by simp at ha'; exact ha'.2))
            · simp only [Bool.false_eq_true, Accepted, false_iff]
              intro e
              exact h (congrArg List.head? (List.append_cancel_left e))
        | cons b' bs =>
          refine ⟨false, ?_, by simp [Accepted]⟩
          simp only [joinL]
          rcases split_common a b with rfl | ⟨c, x, y, rfl, rfl, h⟩
          · have := step_end fuel (pre ps ++ a) (x := []) (y := '\n' :: joinL (b' :: bs)) (by simp) (.inl (by simp))
            simpa using this
          · have hx : '\n' ∉ x := by simp at ha'; exact ha'.2
            have := step_end fuel (pre ps ++ c) (x := x) (y := y ++ '\n' :: joinL (b' :: bs)) (by
              cases y with
              | nil =>
                cases x with
                | nil => simp at h
                | cons d x => simp at hx ⊢; exact fun e => hx.1 e.symm
              | cons d y => simpa using h) (.inl hx)
            simpa using this
      | cons a' as =>
        cases bs with
        | nil =>
          refine ⟨false, ?_, by simp [Accepted]⟩
          simp only [joinL]
          rcases split_common a b with rfl | ⟨c, x, y, rfl, rfl, h⟩
          · have := step_end fuel (pre ps ++ a) (x := '\n' :: joinL (a' :: as)) (y := []) (by simp) (.inr (by simp))
            simpa using this
          · have hy : '\n' ∉ y := by simp at hb'; exact hb'.2
            have := step_end fuel (pre ps ++ c) (x := x ++ '\n' :: joinL (a' :: as)) (y := y) (by
              cases x with
              | nil =>
                cases y with
                | nil => simp at h
                | cons d x => simp at hy ⊢; exact hy.1
              | cons d y => simpa using h) (.inr hy)
            simpa using this
        | cons b' bs =>
          rcases split_common a b with rfl | ⟨c, x, y, rfl, rfl, h⟩
          · obtain ⟨v, h1, h2⟩ := ih (b' :: bs) (ps ++ [a]) (fuel + 1) (by simp) (by simp) (fun z hz => ha z (by simp [hz]))
              (fun z hz => hb z (by simp [hz])) (by simp at hfuel ⊢; omega)
            refine ⟨v, ?_, ?_⟩
            · rw [← h1]
              simp [joinL, pre]
            · rw [h2]
              have e : (∃ p ∈ ps ++ [a], Mentions p) ↔ ((∃ p ∈ ps, Mentions p) ∨ Mentions a) := by
                simp only [List.mem_append, List.mem_singleton, or_and_right, exists_or, exists_eq_left]
              rw [propext e]
              simp only [Accepted, true_and]
              constructor
              · exact .inl
              · rintro (h3 | ⟨c, x, y, h3, h4, h5, _⟩)
                · exact h3
                · exact absurd (congrArg List.head? (List.append_cancel_left (h3.symm.trans h4))) h5
          · have hx : '\n' ∉ x := by simp at ha'; exact ha'.2
            have hy : '\n' ∉ y := by simp at hb'; exact hb'.2
            obtain ⟨v, h1, h2⟩ := ih (b' :: bs) [[]] fuel (by simp) (by simp) (fun z hz => ha z (by simp [hz]))
              (fun z hz => hb z (by simp [hz])) (by simp at hfuel ⊢; omega)
            have e := step_line fuel (pre ps ++ c) h hx hy (joinL (a' :: as)) (joinL (b' :: bs))
            simp only [joinL]
            have e1 : pre ps ++ ((c ++ x) ++ '\n' :: joinL (a' :: as)) = (pre ps ++ c) ++ (x ++ '\n' :: joinL (a' :: as)) := by simp
            have e2 : pre ps ++ ((c ++ y) ++ '\n' :: joinL (b' :: bs)) = (pre ps ++ c) ++ (y ++ '\n' :: joinL (b' :: bs)) := by simp
            rw [e1, e2, e]
            have occ : rfinds taskDuration (pre ps ++ c ++ (x ++ '\n' :: joinL (a' :: as))) (pre ps ++ c).length = true ↔
                ((∃ p ∈ ps, Mentions p) ∨ ∃ u v, c ++ x = u ++ "Task duration:".toList ++ v ∧ u.length ≤ c.length) := by
              rw [rfinds_iff, List.append_assoc, List.length_append, occurs_pre, ← begins_iff _ _ (by simp)]
              apply or_congr_right
              apply exists_congr
              intro i
              apply and_congr_right
              intro hi
              rw [← List.append_assoc, List.drop_append_of_le_length (by simp; omega)]
              exact prefix_line newline_not_mem
            have h3 : (∃ p ∈ [([] : List Char)], Mentions p) ↔ False := by
              simp only [List.mem_singleton, exists_eq_left, iff_false]
              rw [mentions_iff]
              rintro ⟨i, hi⟩
              rw [List.drop_nil] at hi
              exact absurd (List.prefix_nil.1 hi) (by decide)
            rw [propext h3] at h2
            by_cases hc : rfinds taskDuration (pre ps ++ c ++ (x ++ '\n' :: joinL (a' :: as))) (pre ps ++ c).length = true ∧
                acceptable '-' '*' x y = true ∧ acceptable '(' ')' x y = true
            · rw [if_pos hc]
              refine ⟨v, by simpa [pre] using h1, ?_⟩
              rw [h2]
              constructor
              · intro h4
                exact .inr ⟨c, x, y, rfl, rfl, h, occ.1 hc.1, (acceptable_iff x y).1 hc.2, h4⟩
              · rintro (⟨h4, _⟩ | ⟨_, _, _, _, _, _, _, _, h4⟩)
                · exact absurd (congrArg List.head? (List.append_cancel_left h4)) h
                · exact h4
            · rw [if_neg hc]
              refine ⟨false, rfl, ?_⟩
              simp only [Bool.false_eq_true, false_iff]
              rintro (⟨h4, _⟩ | ⟨c', x', y', g1, g2, g3, g4, g5, g6⟩)
              · exact absurd (congrArg List.head? (List.append_cancel_left h4)) h
              · obtain ⟨rfl, rfl, rfl⟩ := split_unique g1 g2 h g3
                exact hc ⟨occ.2 g4, (acceptable_iff _ _).2 g5⟩

theorem acceptableMismatch_spec (test ref : List Char) :
    ∃ v, acceptableMismatch (test.length + 2) test ref = some v ∧ (v = true ↔ Accepted False (lines test) (lines ref)) := by
  obtain ⟨v, h1, h2⟩ := refine (lines test) (lines ref) [] (test.length + 2) (lines_ne_nil _) (lines_ne_nil _) (lines_no_newline _)
    (lines_no_newline _) (by have := lines_length test; omega)
  refine ⟨v, by simpa [pre, join_lines] using h1, ?_⟩
  simpa using h2

/-! ### Other timings -/

theorem slice_none {o c : Char} {l : List Char} (h : c ∉ l) : slice o c l = none := by
  unfold slice
  rw [find_none h]
  cases find o l <;> rfl

theorem numeral_not {l : List Char} (h : ∀ c ∈ l, Numeral c) {d : Char} (hd : ¬ Numeral d) : d ∉ l := fun hm => hd (h d hm)

theorem not_numeral_minus : ¬ Numeral '-' := by unfold Numeral; decide
theorem not_numeral_star : ¬ Numeral '*' := by unfold Numeral; decide
theorem not_numeral_open : ¬ Numeral '(' := by unfold Numeral; decide
theorem not_numeral_close : ¬ Numeral ')' := by unfold Numeral; decide
theorem not_numeral_newline : ¬ Numeral '\n' := by unfold Numeral; decide
theorem not_numeral_s : ¬ Numeral 's' := by unfold Numeral; decide
theorem not_numeral_semicolon : ¬ Numeral ';' := by unfold Numeral; decide

/-- Two different numbers differ before or at their ends. -/
theorem numbers_differ {u v : List Char} (hu : ∀ c ∈ u, Numeral c) (hv : ∀ c ∈ v, Numeral c) (h : u ≠ v) {d : Char} (hd : ¬ Numeral d)
    (w z : List Char) : ∃ k u' v', u = k ++ u' ∧ v = k ++ v' ∧ (u' ++ d :: w).head? ≠ (v' ++ d :: z).head? ∧
      (∀ c ∈ u', Numeral c) ∧ ∀ c ∈ v', Numeral c := by
  rcases split_common u v with h' | ⟨k, u', v', rfl, rfl, h'⟩
  · exact absurd h' h
  · have hu' : ∀ c ∈ u', Numeral c := fun c hc => hu c (by simp [hc])
    have hv' : ∀ c ∈ v', Numeral c := fun c hc => hv c (by simp [hc])
    refine ⟨k, u', v', rfl, rfl, ?_, hu', hv'⟩
    cases u' with
    | nil =>
      cases v' with
      | nil => exact absurd rfl h'
      | cons b v' => simp; rintro rfl; exact hd (hv' _ (by simp))
    | cons a u' =>
      cases v' with
      | nil => simp; rintro rfl; exact hd (hu' _ (by simp))
      | cons b v' => simpa using h'

theorem sameParameters_of {l l' : List Char} (h1 : slice '-' '*' l = slice '-' '*' l') (h2 : slice '(' ')' l = slice '(' ')' l') : SameParameters l l' := by
  rw [sameParameters_slice]
  constructor
  · intro x y hx hy
    rw [← h1, hx] at hy
    exact Option.some.inj hy
  · intro x y hx hy
    rw [← h2, hx] at hy
    exact Option.some.inj hy

theorem fine_fast {indent mean sds sig mean' sig' : List Char} (h : ∀ l ∈ [mean, sds, sig, mean', sig'], ∀ c ∈ l, Numeral c) :
    UpToTimings (indent ++ fastLine mean sds sig) (indent ++ fastLine mean' sds sig') := by
  have h1 := h mean (by simp)
  have h2 := h sds (by simp)
  have h3 := h sig (by simp)
  have h4 := h mean' (by simp)
  have h5 := h sig' (by simp)
  have b2 := numeral_not h2 not_numeral_minus
  have c2 := numeral_not h2 not_numeral_star
  have d2 := numeral_not h2 not_numeral_close
  have d3 := numeral_not h3 not_numeral_close
  have d5 := numeral_not h5 not_numeral_close
  have e : ∀ m s : List Char, indent ++ fastLine m sds s = (indent ++ "Fast ".toList) ++ "Task duration:".toList ++
      (' ' :: (m ++ 's' :: ([' ', '+'] ++ '-' :: ((' ' :: (sds ++ [' '])) ++ '*' :: (' ' :: (s ++ ['s'])))))) := by
    intro m s
    have e1 : "Fast Task duration: ".toList = "Fast ".toList ++ "Task duration:".toList ++ [' '] := rfl
    have e2 : "s +- ".toList = ['s', ' ', '+', '-', ' '] := rfl
    have e3 : " * ".toList = [' ', '*', ' '] := rfl
    have e4 : "s".toList = ['s'] := rfl
    unfold fastLine
    rw [e1, e2, e3, e4]
    simp only [List.append_assoc, List.cons_append, List.nil_append]
  rw [e, e]
  by_cases hm : mean = mean'
  · subst hm
    by_cases hs : sig = sig'
    · subst hs; exact .inl rfl
    · obtain ⟨k, u, v, rfl, rfl, g1, g2, g3⟩ := numbers_differ h3 h5 hs not_numeral_s [] []
      refine .inr ⟨(indent ++ "Fast ".toList) ++ "Task duration:".toList ++
        (' ' :: (mean ++ 's' :: ([' ', '+'] ++ '-' :: ((' ' :: (sds ++ [' '])) ++ '*' :: (' ' :: k))))), u ++ ['s'], v ++ ['s'], ?_, ?_, g1,
        ⟨_, _, rfl, ?_⟩, ?_⟩
      · simp only [List.append_assoc, List.cons_append, List.nil_append]
      · simp only [List.append_assoc, List.cons_append, List.nil_append]
      · simp only [List.length_append]; omega
      · have a1 := numeral_not g2 not_numeral_star
        have a2 := numeral_not g3 not_numeral_star
        have a3 := numeral_not g2 not_numeral_close
        have a4 := numeral_not g3 not_numeral_close
        apply sameParameters_of
        · rw [slice_none (by simp [a1]), slice_none (by simp [a2])]
        · rw [slice_none (by simp [a3]), slice_none (by simp [a4])]
  · obtain ⟨k, u, v, rfl, rfl, g1, g2, g3⟩ := numbers_differ h1 h4 hm not_numeral_s
      ([' ', '+'] ++ '-' :: ((' ' :: (sds ++ [' '])) ++ '*' :: (' ' :: (sig ++ ['s']))))
      ([' ', '+'] ++ '-' :: ((' ' :: (sds ++ [' '])) ++ '*' :: (' ' :: (sig' ++ ['s']))))
    refine .inr ⟨(indent ++ "Fast ".toList) ++ "Task duration:".toList ++ (' ' :: k), _, _, ?_, ?_, g1, ⟨_, _, rfl, ?_⟩, ?_⟩
    · simp only [List.append_assoc, List.cons_append, List.nil_append]
    · simp only [List.append_assoc, List.cons_append, List.nil_append]
    · simp only [List.length_append]; omega
    · have a1 := numeral_not g2 not_numeral_star
      have a2 := numeral_not g3 not_numeral_star
      have a3 := numeral_not g2 not_numeral_close
      have a4 := numeral_not g3 not_numeral_close
      have a5 := numeral_not g2 not_numeral_minus
      have a6 := numeral_not g3 not_numeral_minus
      apply sameParameters_of
      · have key : ∀ u s : List Char, '-' ∉ u → '*' ∉ u →
            slice '-' '*' (u ++ 's' :: ([' ', '+'] ++ '-' :: ((' ' :: (sds ++ [' '])) ++ '*' :: (' ' :: (s ++ ['s']))))) = some ('-' :: (' ' :: (sds ++ [' ']))) := by
          intro u s q1 q2
          rw [show u ++ 's' :: ([' ', '+'] ++ '-' :: ((' ' :: (sds ++ [' '])) ++ '*' :: (' ' :: (s ++ ['s'])))) =
            (u ++ ['s', ' ', '+']) ++ '-' :: ((' ' :: (sds ++ [' '])) ++ '*' :: (' ' :: (s ++ ['s']))) by
              simp only [List.append_assoc, List.cons_append, List.nil_append]]
          exact slice_between (by simp [q1]) (by simp [q2]) (by decide) (by simp [c2])
        rw [key u sig a5 a1, key v sig' a6 a2]
      · rw [slice_none (by simp [a3, d2, d3]), slice_none (by simp [a4, d2, d5])]

theorem fine_slow {indent mean sds sig ratio min max mean' sig' ratio' : List Char}
    (h : ∀ l ∈ [mean, sds, sig, ratio, min, max, mean', sig', ratio'], ∀ c ∈ l, Numeral c) :
    UpToTimings (indent ++ slowLine mean sds sig ratio min max) (indent ++ slowLine mean' sds sig' ratio' min max) := by
  have h1 := h mean (by simp)
  have h2 := h sds (by simp)
  have h3 := h sig (by simp)
  have h4 := h ratio (by simp)
  have h5 := h min (by simp)
  have h6 := h max (by simp)
  have h7 := h mean' (by simp)
  have h8 := h sig' (by simp)
  have h9 := h ratio' (by simp)
  have n2 := numeral_not h2 not_numeral_star
  have n4 := numeral_not h4 not_numeral_star
  have n9 := numeral_not h9 not_numeral_star
  have n5 := numeral_not h5 not_numeral_star
  have n6 := numeral_not h6 not_numeral_star
  have o2 := numeral_not h2 not_numeral_open
  have o3 := numeral_not h3 not_numeral_open
  have o4 := numeral_not h4 not_numeral_open
  have o8 := numeral_not h8 not_numeral_open
  have o9 := numeral_not h9 not_numeral_open
  have d2 := numeral_not h2 not_numeral_close
  have d3 := numeral_not h3 not_numeral_close
  have d4 := numeral_not h4 not_numeral_close
  have d5 := numeral_not h5 not_numeral_close
  have d6 := numeral_not h6 not_numeral_close
  have d8 := numeral_not h8 not_numeral_close
  have d9 := numeral_not h9 not_numeral_close
  -- the parts of the line
  let R : List Char → List Char := fun r => r ++ ';' :: (' ' :: '(' :: ((min ++ [',', ' '] ++ max) ++ ')' :: [']']))
  let S : List Char → List Char → List Char := fun s r => s ++ 's' :: (' ' :: '[' :: R r)
  let M : List Char → List Char → List Char → List Char := fun m s r =>
    m ++ 's' :: ([' ', '+'] ++ '-' :: ((' ' :: (sds ++ [' '])) ++ '*' :: (' ' :: S s r)))
  have paren : ∀ u : List Char, '(' ∉ u → ')' ∉ u →
      slice '(' ')' (u ++ ' ' :: '(' :: ((min ++ [',', ' '] ++ max) ++ ')' :: [']'])) = some ('(' :: (min ++ [',', ' '] ++ max)) := by
    intro u q1 q2
    rw [show u ++ ' ' :: '(' :: ((min ++ [',', ' '] ++ max) ++ ')' :: [']']) = (u ++ [' ']) ++ '(' :: ((min ++ [',', ' '] ++ max) ++ ')' :: [']']) by
      simp only [List.append_assoc, List.cons_append, List.nil_append]]
    exact slice_between (by simp [q1]) (by simp [q2]) (by decide) (by simp [d5, d6])
  have parenR : ∀ u r : List Char, '(' ∉ u → ')' ∉ u → '(' ∉ r → ')' ∉ r → slice '(' ')' (u ++ R r) = some ('(' :: (min ++ [',', ' '] ++ max)) := by
    intro u r q1 q2 q3 q4
    rw [show u ++ R r = (u ++ r ++ [';']) ++ ' ' :: '(' :: ((min ++ [',', ' '] ++ max) ++ ')' :: [']']) by
      simp only [R, List.append_assoc, List.cons_append, List.nil_append]]
    exact paren _ (by simp [q1, q3]) (by simp [q2, q4])
  have e : ∀ m s r : List Char, indent ++ slowLine m sds s r min max = (indent ++ "Slow ".toList) ++ "Task duration:".toList ++ (' ' :: M m s r) := by
    intro m s r
    have e1 : "Slow Task duration: ".toList = "Slow ".toList ++ "Task duration:".toList ++ [' '] := rfl
    have e2 : "s +- ".toList = ['s', ' ', '+', '-', ' '] := rfl
    have e3 : " * ".toList = [' ', '*', ' '] := rfl
    have e4 : "s [".toList = ['s', ' ', '['] := rfl
    have e5 : "; (".toList = [';', ' ', '('] := rfl
    have e6 : ", ".toList = [',', ' '] := rfl
    have e7 : ")]".toList = [')', ']'] := rfl
    unfold slowLine
    rw [e1, e2, e3, e4, e5, e6, e7]
    simp only [M, S, R, List.append_assoc, List.cons_append, List.nil_append]
  rw [e, e]
  by_cases hm : mean = mean'
  · subst hm
    by_cases hs : sig = sig'
    · subst hs
      by_cases hr : ratio = ratio'
      · subst hr; exact .inl rfl
      · obtain ⟨k, u, v, rfl, rfl, g1, g2, g3⟩ := numbers_differ h4 h9 hr not_numeral_semicolon
          (' ' :: '(' :: ((min ++ [',', ' '] ++ max) ++ ')' :: [']'])) (' ' :: '(' :: ((min ++ [',', ' '] ++ max) ++ ')' :: [']']))
        refine .inr ⟨(indent ++ "Slow ".toList) ++ "Task duration:".toList ++
          (' ' :: (mean ++ 's' :: ([' ', '+'] ++ '-' :: ((' ' :: (sds ++ [' '])) ++ '*' :: (' ' :: (sig ++ 's' :: (' ' :: '[' :: k))))))), _, _, ?_, ?_, g1,
          ⟨_, _, rfl, ?_⟩, ?_⟩
        · simp only [M, S, R, List.append_assoc, List.cons_append, List.nil_append]
        · simp only [M, S, R, List.append_assoc, List.cons_append, List.nil_append]
        · simp only [List.length_append]; omega
        · have a1 := numeral_not g2 not_numeral_star
          have a2 := numeral_not g3 not_numeral_star
          have a3 := numeral_not g2 not_numeral_close
          have a4 := numeral_not g3 not_numeral_close
          have a5 := numeral_not g2 not_numeral_open
          have a6 := numeral_not g3 not_numeral_open
          apply sameParameters_of
          · rw [slice_none (by simp [a1, n5, n6]), slice_none (by simp [a2, n5, n6])]
          · have p1 := parenR [] u (by simp) (by simp) a5 a3
            have p2 := parenR [] v (by simp) (by simp) a6 a4
            simp only [R, List.nil_append] at p1 p2
            rw [p1, p2]
    · obtain ⟨k, u, v, rfl, rfl, g1, g2, g3⟩ := numbers_differ h3 h8 hs not_numeral_s (' ' :: '[' :: R ratio) (' ' :: '[' :: R ratio')
      refine .inr ⟨(indent ++ "Slow ".toList) ++ "Task duration:".toList ++
        (' ' :: (mean ++ 's' :: ([' ', '+'] ++ '-' :: ((' ' :: (sds ++ [' '])) ++ '*' :: (' ' :: k))))), _, _, ?_, ?_, g1, ⟨_, _, rfl, ?_⟩, ?_⟩
      · simp only [M, S, List.append_assoc, List.cons_append, List.nil_append]
      · simp only [M, S, List.append_assoc, List.cons_append, List.nil_append]
      · simp only [List.length_append]; omega
      · have a1 := numeral_not g2 not_numeral_star
        have a2 := numeral_not g3 not_numeral_star
        have a3 := numeral_not g2 not_numeral_close
        have a4 := numeral_not g3 not_numeral_close
        have a5 := numeral_not g2 not_numeral_open
        have a6 := numeral_not g3 not_numeral_open
        apply sameParameters_of
        · rw [slice_none (by simp [R, a1, n4, n5, n6]), slice_none (by simp [R, a2, n9, n5, n6])]
        · rw [show u ++ 's' :: ' ' :: '[' :: R ratio = (u ++ ['s', ' ', '[']) ++ R ratio by simp only [List.append_assoc, List.cons_append, List.nil_append],
            show v ++ 's' :: ' ' :: '[' :: R ratio' = (v ++ ['s', ' ', '[']) ++ R ratio' by simp only [List.append_assoc, List.cons_append, List.nil_append],
            parenR _ _ (by simp [a5]) (by simp [a3]) o4 d4, parenR _ _ (by simp [a6]) (by simp [a4]) o9 d9]
  · obtain ⟨k, u, v, rfl, rfl, g1, g2, g3⟩ := numbers_differ h1 h7 hm not_numeral_s
      ([' ', '+'] ++ '-' :: ((' ' :: (sds ++ [' '])) ++ '*' :: (' ' :: S sig ratio)))
      ([' ', '+'] ++ '-' :: ((' ' :: (sds ++ [' '])) ++ '*' :: (' ' :: S sig' ratio')))
    refine .inr ⟨(indent ++ "Slow ".toList) ++ "Task duration:".toList ++ (' ' :: k), _, _, ?_, ?_, g1, ⟨_, _, rfl, ?_⟩, ?_⟩
    · simp only [M, List.append_assoc, List.cons_append, List.nil_append]
    · simp only [M, List.append_assoc, List.cons_append, List.nil_append]
    · simp only [List.length_append]; omega
    · have a1 := numeral_not g2 not_numeral_star
      have a2 := numeral_not g3 not_numeral_star
      have a3 := numeral_not g2 not_numeral_close
      have a4 := numeral_not g3 not_numeral_close
      have a5 := numeral_not g2 not_numeral_minus
      have a6 := numeral_not g3 not_numeral_minus
      have a7 := numeral_not g2 not_numeral_open
      have a8 := numeral_not g3 not_numeral_open
      apply sameParameters_of
      · have key : ∀ u z : List Char, '-' ∉ u → '*' ∉ u →
            slice '-' '*' (u ++ 's' :: ([' ', '+'] ++ '-' :: ((' ' :: (sds ++ [' '])) ++ '*' :: (' ' :: z)))) = some ('-' :: (' ' :: (sds ++ [' ']))) := by
          intro u z q1 q2
          rw [show u ++ 's' :: ([' ', '+'] ++ '-' :: ((' ' :: (sds ++ [' '])) ++ '*' :: (' ' :: z))) =
            (u ++ ['s', ' ', '+']) ++ '-' :: ((' ' :: (sds ++ [' '])) ++ '*' :: (' ' :: z)) by
              simp only [List.append_assoc, List.cons_append, List.nil_append]]
          exact slice_between (by simp [q1]) (by simp [q2]) (by decide) (by simp [n2])
        rw [key u _ a5 a1, key v _ a6 a2]
      · have key : ∀ u s r : List Char, '(' ∉ u → ')' ∉ u → '(' ∉ s → ')' ∉ s → '(' ∉ r → ')' ∉ r →
            slice '(' ')' (u ++ 's' :: ([' ', '+'] ++ '-' :: ((' ' :: (sds ++ [' '])) ++ '*' :: (' ' :: S s r)))) = some ('(' :: (min ++ [',', ' '] ++ max)) := by
          intro u s r q1 q2 q3 q4 q5 q6
          rw [show u ++ 's' :: ([' ', '+'] ++ '-' :: ((' ' :: (sds ++ [' '])) ++ '*' :: (' ' :: S s r))) =
            (u ++ ['s', ' ', '+', '-', ' '] ++ sds ++ [' ', '*', ' '] ++ s ++ ['s', ' ', '[']) ++ R r by
              simp only [S, List.append_assoc, List.cons_append, List.nil_append]]
          exact parenR _ _ (by simp [q1, o2, q3]) (by simp [q2, d2, q4]) q5 q6
        rw [key u _ _ a7 a3 o3 d3 o4 d4, key v _ _ a8 a4 o8 d8 o9 d9]

theorem upToTimings_of {a b : List Char} (h : OtherTimings a b) : UpToTimings a b := by
  cases h with
  | ordinary => exact .inl rfl
  | fast h _ => exact fine_fast h
  | slow h _ => exact fine_slow h

theorem accepted_of_fine {as bs : List (List Char)} (h : List.Forall₂ UpToTimings as bs) (hn : as ≠ []) (hl : as.getLast? = bs.getLast?) (seen : Prop) :
    Accepted seen as bs := by
  induction h generalizing seen with
  | nil => exact absurd rfl hn
  | @cons a b as bs h1 h2 ih =>
    cases h2 with
    | nil => simpa [Accepted] using hl
    | @cons a' b' as bs h3 h4 =>
      have ih := fun s => ih (by simp) (by simpa using hl) s
      rcases h1 with h1 | ⟨c, x, y, g1, g2, g3, g4, g5⟩
      · exact .inl ⟨h1, ih _⟩
      · exact .inr ⟨c, x, y, g1, g2, g3, .inr g4, g5, ih _⟩

theorem accepted_length {seen : Prop} {as bs : List (List Char)} (h : Accepted seen as bs) : as.length = bs.length := by
  induction as generalizing bs seen with
  | nil => exact absurd h (by simp [Accepted])
  | cons a as ih =>
    cases bs with
    | nil => exact absurd h (by simp [Accepted])
    | cons b bs =>
      cases as with
      | nil =>
        cases bs with
        | nil => rfl
        | cons b' bs => exact absurd h (by simp [Accepted])
      | cons a' as =>
        cases bs with
        | nil => exact absurd h (by simp [Accepted])
        | cons b' bs =>
          rcases h with ⟨_, h⟩ | ⟨_, _, _, _, _, _, _, _, h⟩
          · have := ih h; simp at this ⊢; omega
          · have := ih h; simp at this ⊢; omega

theorem accepted_silent {seen : Prop} (hs : ¬ seen) {as bs : List (List Char)} (hm : ∀ a ∈ as, ¬ Mentions a) (h : Accepted seen as bs) : as = bs := by
  induction as generalizing bs seen with
  | nil => exact absurd h (by simp [Accepted])
  | cons a as ih =>
    cases bs with
    | nil => exact absurd h (by simp [Accepted])
    | cons b bs =>
      cases as with
      | nil =>
        cases bs with
        | nil => simpa [Accepted] using h
        | cons b' bs => exact absurd h (by simp [Accepted])
      | cons a' as =>
        cases bs with
        | nil => exact absurd h (by simp [Accepted])
        | cons b' bs =>
          rcases h with ⟨rfl, h⟩ | ⟨_, _, _, _, _, _, h1 | ⟨u, v, h1, _⟩, _⟩
          · rw [ih (fun h => h.elim hs (hm a (by simp))) (fun z hz => hm z (by simp [hz])) h]
          · exact absurd h1 hs
          · exact absurd ⟨u, v, h1⟩ (hm a (by simp))

/-- If no line which mentions durations is the same then the words are never found in an earlier line. -/
theorem accepted_strict {seen : Prop} (hs : ¬ seen) {as bs : List (List Char)} (hd : List.Forall₂ (fun a b => Mentions a → a ≠ b) as bs)
    (h : Accepted seen as bs) : List.Forall₂ UpToTimings as bs := by
  induction hd generalizing seen with
  | nil => exact .nil
  | @cons a b as bs h1 h2 ih =>
    cases h2 with
    | nil => exact .cons (.inl (by simpa [Accepted] using h)) .nil
    | @cons a' b' as bs h3 h4 =>
      rcases h with ⟨rfl, h⟩ | ⟨c, x, y, g1, g2, g3, g4, g5, h⟩
      · exact .cons (.inl rfl) (ih (fun h' => h'.elim hs fun h' => h1 h' rfl) h)
      · exact .cons (.inr ⟨c, x, y, g1, g2, g3, g4.resolve_left hs, g5⟩) (ih id h)

theorem lines_inj {l l' : List Char} (h : lines l = lines l') : l = l' := by
  rw [← join_lines l, h, join_lines]

theorem lines_getLast {l : List Char} (h : l.getLast? = some '\n') : (lines l).getLast? = some [] := by
  induction l with
  | nil => simp at h
  | cons c l ih =>
    unfold lines
    cases l with
    | nil =>
      simp at h
      subst h
      simp [lines]
    | cons d l =>
      have h' : (d :: l).getLast? = some '\n' := by simpa using h
      have := ih h'
      cases hl : lines (d :: l) with
      | nil => exact absurd hl (lines_ne_nil _)
      | cons a as =>
        rw [hl] at this
        split
        · simpa using this
        · cases as with
          | nil =>
            exfalso
            have hj := join_lines (d :: l)
            simp at this
            rw [hl, this] at hj
            simp [joinL] at hj
          | cons b as => simpa using this

theorem forall₂_getLast {R : List Char → List Char → Prop} {as bs : List (List Char)} (h : List.Forall₂ R as bs) (hR : ∀ b, R [] b → b = [])
    (ha : as.getLast? = some []) : bs.getLast? = some [] := by
  induction h with
  | nil => simp at ha
  | @cons a b as bs h1 h2 ih =>
    cases h2 with
    | nil =>
      simp at ha
      subst ha
      rw [hR _ h1]; rfl
    | cons h3 h4 => simpa using ih (by simpa using ha)

theorem fastLine_ne_nil (m s g : List Char) : fastLine m s g ≠ [] := by
  intro h
  unfold fastLine at h
  rw [show "Fast Task duration: ".toList = 'F' :: "ast Task duration: ".toList from rfl] at h
  simp only [List.cons_append] at h
  cases h

theorem slowLine_ne_nil (m s g r a b : List Char) : slowLine m s g r a b ≠ [] := by
  intro h
  unfold slowLine at h
  rw [show "Slow Task duration: ".toList = 'S' :: "low Task duration: ".toList from rfl] at h
  simp only [List.cons_append] at h
  cases h

theorem otherTimings_nil {a b : List Char} (h : OtherTimings a b) (ha : a = []) : b = [] := by
  cases h with
  | ordinary => exact ha
  | fast h _ => exact absurd (List.append_eq_nil_iff.1 ha).2 (fastLine_ne_nil _ _ _)
  | slow h _ => exact absurd (List.append_eq_nil_iff.1 ha).2 (slowLine_ne_nil _ _ _ _ _ _)

end Verif.Postprocess
