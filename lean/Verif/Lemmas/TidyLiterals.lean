import Verif.Lemmas.TidyName

/-
Lemmas about the removal of suffixes of integers: the loop does what an automaton does.
-/
set_option linter.unusedSimpArgs false
set_option linter.unusedVariables false

namespace Verif.TidyName
open Verif.Text Verif.Spec.Text Verif.Spec.TidyName

/-- Where the loop is: looking for a blank or a bracket, for a digit after the given character, in a number (at its first digit or not), in a suffix, or after a number which is part
of a name. -/
inductive St where
  | find
  | digit (prev : Char)
  | number (first : Bool)
  | suffix
  | skip

/-- The automaton; there is no result where the loop does something else. -/
def lit : St → Str → Option Str
  | .find, [] => some []
  | .find, c :: t => (lit (if c = '<' ∨ c = ' ' then .digit c else .find) t).map (c :: ·)
  | .digit _, [] => some []
  | .digit prev, c :: t =>
    if c.isDigit then
      if t = [] then none
      else if prev = '_' ∨ prev.isAlpha then (lit .skip t).map (c :: ·)
      else if prev = '[' then none
      else (lit (.number true) t).map (c :: ·)
    else (lit (.digit c) t).map (c :: ·)
  | .number _, [] => none
  | .number first, c :: t =>
    if c.isDigit then (lit (.number false) t).map (c :: ·)
    else if c.isAlpha then (if first ∧ c = 'x' then none else lit .suffix t)
    else (lit (if c = '<' ∨ c = ' ' then .digit c else .find) t).map (c :: ·)
  | .suffix, [] => none
  | .suffix, c :: t => if c = ',' ∨ c = '>' then (lit .find t).map (c :: ·) else lit .suffix t
  | .skip, [] => some []
  | .skip, c :: t => if c = ',' ∨ c = '>' then (lit .find t).map (c :: ·) else (lit .skip t).map (c :: ·)

theorem findFirstOf_append (d s cs : Str) : findFirstOf (d ++ s) cs d.length = (s.findIdx? fun c => cs.contains c).map (d.length + ·) := by
  simp [findFirstOf]

theorem findIdx_split {q : Char → Bool} : ∀ {s : Str} {i : Nat}, s.findIdx? q = some i → ∃ a c b, s = a ++ c :: b ∧ a.length = i ∧ (∀ x ∈ a, q x = false) ∧ q c = true
  | [], _, h => by simp at h
  | c :: s, i, h => by
    rw [List.findIdx?_cons] at h
    split at h
    · rename_i hc
      exact ⟨[], c, s, rfl, by simpa using h, by simp, hc⟩
    · rename_i hc
      cases hs : s.findIdx? q with
      | none => simp [hs] at h
      | some j =>
        obtain ⟨a, x, b, rfl, rfl, ha, hx⟩ := findIdx_split hs
        simp only [hs, Option.map_some, Option.some.injEq] at h
        exact ⟨c :: a, x, b, rfl, by simpa using h, by simpa [hc] using ha, hx⟩

theorem lit_find_none : ∀ {s : Str}, (∀ c ∈ s, c ≠ '<' ∧ c ≠ ' ') → lit .find s = some s
  | [], _ => rfl
  | c :: s, h => by
    have hc := h c (by simp)
    rw [lit, if_neg (by simp [hc.1, hc.2]), lit_find_none fun x hx => h x (by simp [hx])]; rfl

theorem lit_find_append : ∀ {a s : Str}, (∀ c ∈ a, c ≠ '<' ∧ c ≠ ' ') → lit .find (a ++ s) = (lit .find s).map (a ++ ·)
  | [], s, _ => by rw [List.nil_append]; cases lit .find s <;> rfl
  | c :: a, s, h => by
    have hc := h c (by simp)
    rw [List.cons_append, lit, if_neg (by simp [hc.1, hc.2]), lit_find_append fun x hx => h x (by simp [hx])]
    cases lit .find s <;> rfl

theorem lit_digit_append : ∀ {a s : Str} {prev : Char}, (∀ c ∈ a, c.isDigit = false) → lit (.digit prev) (a ++ s) = (lit (.digit (final prev a)) s).map (a ++ ·)
  | [], s, prev, _ => by simp only [final, List.nil_append]; cases lit (.digit prev) s <;> rfl
  | c :: a, s, prev, h => by
    rw [List.cons_append, lit, if_neg (by simp [h c (by simp)]), lit_digit_append fun x hx => h x (by simp [hx])]
    simp only [final]
    cases lit (.digit (final c a)) s <;> rfl

theorem lit_number_append : ∀ {a s : Str} {first : Bool}, (∀ c ∈ a, c.isDigit = true) → lit (.number first) (a ++ s) = (lit (.number (first && a.isEmpty)) s).map (a ++ ·)
  | [], s, first, _ => by simp only [List.isEmpty_nil, Bool.and_true, List.nil_append]; cases lit (.number first) s <;> rfl
  | c :: a, s, first, h => by
    rw [List.cons_append, lit, if_pos (h c (by simp)), lit_number_append fun x hx => h x (by simp [hx])]
    simp only [Bool.false_and, List.isEmpty_cons, Bool.and_false]
    cases lit (.number false) s <;> rfl

theorem lit_suffix_append : ∀ {a s : Str}, (∀ c ∈ a, ¬ (c = ',' ∨ c = '>')) → lit .suffix (a ++ s) = lit .suffix s
  | [], s, _ => rfl
  | c :: a, s, h => by
    rw [List.cons_append, lit, if_neg (h c (by simp)), lit_suffix_append fun x hx => h x (by simp [hx])]

theorem lit_skip_append : ∀ {a s : Str}, (∀ c ∈ a, ¬ (c = ',' ∨ c = '>')) → lit .skip (a ++ s) = (lit .skip s).map (a ++ ·)
  | [], s, _ => by rw [List.nil_append]; cases lit .skip s <;> rfl
  | c :: a, s, h => by
    rw [List.cons_append, lit, if_neg (h c (by simp)), lit_skip_append fun x hx => h x (by simp [hx])]
    cases lit .skip s <;> rfl

theorem lit_skip_none {a : Str} (h : ∀ c ∈ a, ¬ (c = ',' ∨ c = '>')) : lit .skip a = some a := by
  have := lit_skip_append (s := []) h
  simpa [lit] using this

theorem lit_suffix_none {a : Str} (h : ∀ c ∈ a, ¬ (c = ',' ∨ c = '>')) : lit .suffix a = none := by
  have := lit_suffix_append (s := []) h
  simpa [lit] using this

theorem charAt_append (a : Str) (c : Char) (b : Str) {n : Nat} (h : n = a.length) : charAt (a ++ c :: b) n = c := by
  subst h; simp [charAt]

theorem charAt_final (d : Str) (o : Char) : ∀ (n t : Str) {i : Nat}, i = d.length + n.length → charAt (d ++ o :: (n ++ t)) i = final o n := by
  intro n t i hi
  have : ∀ (n : Str) (o : Char) (d : Str), (d ++ o :: (n ++ t))[d.length + n.length]? = some (final o n) := by
    intro n
    induction n with
    | nil => intro o d; simp [final]
    | cons c n ih =>
      intro o d
      have := ih c (d ++ [o])
      simp only [List.append_assoc, List.cons_append, List.nil_append, List.length_append, List.length_cons, List.length_nil, final] at this ⊢
      rw [← this]; congr 1; omega
  rw [charAt, hi, this]; rfl

theorem takeWhile_prefix {q : Char → Bool} {a : Str} {c : Char} {b : Str} (ha : ∀ x ∈ a, q x = true) (hc : q c = false) : (a ++ c :: b).takeWhile q = a := by
  induction a with
  | nil => simp [hc]
  | cons x a ih => simp [ha x (by simp), ih fun y hy => ha y (by simp [hy])]

/-- Every text is a part without digits and, if this is not all of it, a digit and the rest. -/
theorem split_digit (s : Str) : (∀ c ∈ s, c.isDigit = false) ∨ ∃ n x t, s = n ++ x :: t ∧ (∀ c ∈ n, c.isDigit = false) ∧ x.isDigit = true := by
  induction s with
  | nil => exact .inl (by simp)
  | cons c s ih =>
    cases hc : c.isDigit with
    | true => exact .inr ⟨[], c, s, rfl, by simp, hc⟩
    | false =>
      rcases ih with h | ⟨n, x, t, rfl, hn, hx⟩
      · exact .inl (by simpa [hc] using h)
      · exact .inr ⟨c :: n, x, t, rfl, by simpa [hc] using hn, hx⟩

theorem split_number (s : Str) : (∀ c ∈ s, c.isDigit = true) ∨ ∃ n x t, s = n ++ x :: t ∧ (∀ c ∈ n, c.isDigit = true) ∧ x.isDigit = false := by
  induction s with
  | nil => exact .inl (by simp)
  | cons c s ih =>
    cases hc : c.isDigit with
    | false => exact .inr ⟨[], c, s, rfl, by simp, hc⟩
    | true =>
      rcases ih with h | ⟨n, x, t, rfl, hn, hx⟩
      · exact .inl (by simpa [hc] using h)
      · exact .inr ⟨c :: n, x, t, rfl, by simpa [hc] using hn, hx⟩

theorem split_stop (s : Str) : (∀ c ∈ s, ¬ (c = ',' ∨ c = '>')) ∨ ∃ n x t, s = n ++ x :: t ∧ (∀ c ∈ n, ¬ (c = ',' ∨ c = '>')) ∧ (x = ',' ∨ x = '>') := by
  induction s with
  | nil => exact .inl (by simp)
  | cons c s ih =>
    by_cases hc : c = ',' ∨ c = '>'
    · exact .inr ⟨[], c, s, rfl, by simp, hc⟩
    · rcases ih with h | ⟨n, x, t, rfl, hn, hx⟩
      · exact .inl (by intro y hy; rcases List.mem_cons.1 hy with e | hy; · exact e ▸ hc
                       · exact h y hy)
      · refine .inr ⟨c :: n, x, t, rfl, ?_, hx⟩
        intro y hy; rcases List.mem_cons.1 hy with rfl | hy
        · exact hc
        · exact hn y hy

theorem toDigit_none {e b : Str} {o : Char} (hb : ∀ c ∈ b, c.isDigit = false) : toDigit (e ++ o :: b) (e.length + 1) = e.length + 1 + (b.length - 1) := by
  have h1 : (e ++ o :: b).dropLast.drop (e.length + 1) = b.dropLast := by
    cases b with
    | nil => simp
    | cons x b =>
      rw [List.dropLast_append_of_ne_nil (by simp), List.dropLast_cons_of_ne_nil (by simp), show e ++ o :: (x :: b).dropLast = (e ++ [o]) ++ (x :: b).dropLast by simp,
        show e.length + 1 = (e ++ [o]).length by simp, List.drop_left]
  rw [toDigit, h1, List.takeWhile_eq_filter_of_all, List.length_dropLast]
where
  List.takeWhile_eq_filter_of_all : b.dropLast.takeWhile (fun c => !c.isDigit) = b.dropLast := by
    have : ∀ c ∈ b.dropLast, (!c.isDigit) = true := fun c hc => by simp [hb c (List.dropLast_subset _ hc)]
    generalize b.dropLast = l at this
    induction l with
    | nil => rfl
    | cons x l ih => rw [List.takeWhile_cons, if_pos (this x (by simp)), ih fun c hc => this c (by simp [hc])]

theorem toDigit_some {e n t : Str} {o x : Char} (hn : ∀ c ∈ n, c.isDigit = false) (hx : x.isDigit = true) (ht : t ≠ []) :
    toDigit (e ++ o :: (n ++ x :: t)) (e.length + 1) = e.length + 1 + n.length := by
  have h1 : (e ++ o :: (n ++ x :: t)).dropLast.drop (e.length + 1) = n ++ x :: t.dropLast := by
    rw [show e ++ o :: (n ++ x :: t) = (e ++ [o]) ++ (n ++ x :: t) by simp, List.dropLast_append_of_ne_nil (by simp), show e.length + 1 = (e ++ [o]).length by simp, List.drop_left,
      List.dropLast_append_of_ne_nil (by simp), List.dropLast_cons_of_ne_nil ht]
  rw [toDigit, h1, takeWhile_prefix (fun c hc => by simp [hn c hc]) (by simp [hx])]

theorem findFirstOf_stop {g u v : Str} {y : Char} (hu : ∀ c ∈ u, ¬ (c = ',' ∨ c = '>')) (hy : y = ',' ∨ y = '>') {i : Nat} (hi : i = g.length) :
    findFirstOf (g ++ (u ++ y :: v)) [',', '>'] i = some (i + u.length) := by
  subst hi
  rw [findFirstOf_append]
  have : (u ++ y :: v).findIdx? (fun c => [',', '>'].contains c) = some u.length := by
    induction u with
    | nil =>
      rw [List.nil_append, List.findIdx?_cons, if_pos (by rcases hy with rfl | rfl <;> decide)]; rfl
    | cons c u ih =>
      have hc := hu c (by simp)
      rw [List.cons_append, List.findIdx?_cons, if_neg (by simpa [not_or] using hc), ih fun x hx => hu x (by simp [hx])]; rfl
  rw [this]; rfl

theorem findFirstOf_noStop {g u : Str} (hu : ∀ c ∈ u, ¬ (c = ',' ∨ c = '>')) {i : Nat} (hi : i = g.length) : findFirstOf (g ++ u) [',', '>'] i = none := by
  subst hi
  rw [findFirstOf_append]
  have : u.findIdx? (fun c => [',', '>'].contains c) = none := by
    rw [List.findIdx?_eq_none_iff]
    intro c hc
    have := hu c hc
    simpa [not_or] using this
  rw [this]; rfl

theorem pastDigits_some {g m v : Str} {x y : Char} (hm : ∀ c ∈ m, c.isDigit = true) (hy : y.isDigit = false) {i : Nat} (hi : i = g.length) :
    pastDigits (g ++ x :: (m ++ y :: v)) i = i + 1 + m.length := by
  subst hi
  have h1 : (g ++ x :: (m ++ y :: v)).drop (g.length + 1) = m ++ y :: v := by
    rw [show g ++ x :: (m ++ y :: v) = (g ++ [x]) ++ (m ++ y :: v) by simp, show g.length + 1 = (g ++ [x]).length by simp, List.drop_left]
  rw [pastDigits, if_pos (by simp; omega), h1, takeWhile_prefix hm hy, Nat.min_eq_left (by simp; omega)]

theorem lit_number_nil {t : Str} (h : ∀ c ∈ t, c.isDigit = true) (first : Bool) : lit (.number first) t = none := by
  have := lit_number_append (s := []) (first := first) h
  simpa [lit] using this

theorem not_stop_of_alpha {c : Char} (h : c.isAlpha = true) : ¬ (c = ',' ∨ c = '>') := by
  rintro (rfl | rfl) <;> simp at h

theorem not_stop_of_digit {c : Char} (h : c.isDigit = true) : ¬ (c = ',' ∨ c = '>') := by
  rintro (rfl | rfl) <;> simp at h

theorem lit_stop {y : Char} (hy : y = ',' ∨ y = '>') (v : Str) : lit .find (y :: v) = (lit .find v).map (y :: ·) := by
  rw [lit, if_neg (by rcases hy with rfl | rfl <;> simp)]

/-- The loop does what the automaton does. -/
theorem processLiterals_lit (env : Env) : ∀ (f : Nat) (s d r : Str), lit .find s = some r → s.length < f → processLiterals env f (d ++ s) d.length = some (.ok (d ++ r))
  | 0, _, _, _, _, hf => by omega
  | f + 1, s, d, r, h, hf => by
    rw [processLiterals]
    by_cases hs : s = []
    · subst hs
      simp only [lit, Option.some.injEq] at h
      subst h
      rw [if_neg (by simp)]
    rw [if_pos (by simp; exact List.length_pos_iff.2 hs)]
    rw [literal, findFirstOf_append]
    cases hi : s.findIdx? (fun c => ['<', ' '].contains c) with
    | none =>
      rw [List.findIdx?_eq_none_iff] at hi
      have := lit_find_none (s := s) fun c hc => by have := hi c hc; simpa [not_or] using this
      rw [this] at h
      simp only [Option.some.injEq] at h
      subst h; rfl
    | some i =>
      obtain ⟨a, o, b, rfl, rfl, ha, ho⟩ := findIdx_split hi
      have ha' : ∀ c ∈ a, c ≠ '<' ∧ c ≠ ' ' := fun c hc => by have := ha c hc; simpa [not_or] using this
      have ho' : o = '<' ∨ o = ' ' := by simpa using ho
      rw [lit_find_append ha', lit, if_pos ho'] at h
      simp only [Option.map_some]
      rw [show d ++ (a ++ o :: b) = (d ++ a) ++ o :: b by simp, show d.length + a.length = (d ++ a).length by simp]
      have hr : ∃ r', lit (.digit o) b = some r' ∧ d ++ r = (d ++ a) ++ o :: r' := by
        cases hl : lit (.digit o) b with
        | none => simp [hl] at h
        | some r' =>
          simp only [hl, Option.map_some, Option.some.injEq] at h
          exact ⟨r', rfl, by rw [← h]; simp⟩
      obtain ⟨r', hr', hrr⟩ := hr
      rw [hrr]
      have hlen : b.length < f := by simp at hf; omega
      have hf0 : 0 < f := by omega
      have hb1 : b.length + 1 ≤ f := hlen
      clear hf ha ha' hi h hs hrr
      generalize d ++ a = e
      rcases split_digit b with hb | ⟨n, x, t, rfl, hn, hx⟩
      · -- no digits
        have h1 := lit_digit_append (s := []) (prev := o) hb
        simp only [List.append_nil, lit, Option.map_some] at h1
        rw [h1] at hr'
        simp only [Option.some.injEq] at hr'
        subst hr'
        simp only [toDigit_none hb]
        rw [if_neg (by simp; omega)]
        dsimp only
        cases hb' : b.reverse with
        | nil =>
          obtain rfl : b = [] := by simpa using hb'
          have := processLiterals_lit env f [] (e ++ [o]) [] rfl hf0
          simpa using this
        | cons c u =>
          obtain rfl : b = u.reverse ++ [c] := by rw [← List.reverse_reverse b, hb']; simp
          have hc : lit .find [c] = some [c] := by
            simp only [lit]; split <;> simp [lit]
          have := processLiterals_lit env f [c] (e ++ o :: u.reverse) [c] hc (by simp at hlen ⊢; omega)
          simp only [List.append_assoc, List.cons_append, List.length_append, List.length_cons, List.length_reverse, List.length_nil] at this ⊢
          rw [show e.length + 1 + (u.length + (0 + 1) - 1) = e.length + (u.length + 1) by omega]
          exact this
      · rw [lit_digit_append hn, lit, if_pos hx] at hr'
        by_cases ht : t = []
        · simp [ht] at hr'
        rw [if_neg ht] at hr'
        simp only [toDigit_some hn hx ht]
        rw [if_pos (by have := List.length_pos_iff.2 ht; simp; omega)]
        have hprev : charAt (e ++ o :: (n ++ x :: t)) (e.length + 1 + n.length - 1) = final o n := charAt_final e o n (x :: t) (by omega)
        rw [hprev]
        have hg : e ++ o :: (n ++ x :: t) = (e ++ o :: n) ++ (x :: t) := by simp
        have hgl : e.length + 1 + n.length = (e ++ o :: n).length := by simp; omega
        by_cases hp : final o n = '_' ∨ (final o n).isAlpha = true
        · rw [if_pos hp] at hr' ⊢
          rw [hg, hgl]
          rcases split_stop t with hst | ⟨u, y, v, rfl, hu, hy⟩
          · have hst' : ∀ c ∈ x :: t, ¬ (c = ',' ∨ c = '>') := by
              intro c hc
              rcases List.mem_cons.1 hc with rfl | hc
              · exact not_stop_of_digit hx
              · exact hst c hc
            rw [findFirstOf_noStop hst' rfl]
            rw [lit_skip_none hst] at hr'
            simp only [Option.map_some, Option.some.injEq] at hr'
            rw [← hr']; simp
          · have hu' : ∀ c ∈ x :: u, ¬ (c = ',' ∨ c = '>') := by
              intro c hc
              rcases List.mem_cons.1 hc with rfl | hc
              · exact not_stop_of_digit hx
              · exact hu c hc
            have := findFirstOf_stop (g := e ++ o :: n) (v := v) hu' hy rfl
            rw [List.cons_append] at this
            rw [this]
            rw [lit_skip_append hu, lit, if_pos hy, ← lit_stop hy] at hr'
            cases hl : lit .find (y :: v) with
            | none => simp [hl] at hr'
            | some r'' =>
              simp only [hl, Option.map_some, Option.some.injEq] at hr'
              have := processLiterals_lit env f (y :: v) (e ++ o :: n ++ x :: u) r'' hl (by simp at hlen ⊢; omega)
              simp only [List.append_assoc, List.cons_append, List.length_append, List.length_cons] at this ⊢
              rw [show e.length + (n.length + 1) + (u.length + 1) = e.length + (n.length + (u.length + 1) + 1) by omega, this, ← hr']
        · rw [if_neg hp] at hr' ⊢
          by_cases hbr : final o n = '['
          · simp [hbr] at hr'
          rw [if_neg hbr] at hr' ⊢
          dsimp only
          rw [if_neg (by simp; omega)]
          have hnx : ¬ charAt (e ++ o :: (n ++ x :: t)) (e.length + 1 + n.length + 1) = 'x' := by
            cases t with
            | nil => exact absurd rfl ht
            | cons y t =>
              rw [show e ++ o :: (n ++ x :: y :: t) = (e ++ o :: (n ++ [x])) ++ y :: t by simp, charAt_append _ _ _ (by simp; omega)]
              rintro rfl
              simp [lit] at hr'
          rw [if_neg hnx]
          dsimp only
          rcases split_number t with hm | ⟨m, y, v, rfl, hm, hy⟩
          · rw [lit_number_nil hm] at hr'; simp at hr'
          rw [hg, pastDigits_some hm hy hgl]
          have hlq : e.length + 1 + n.length + 1 + m.length = (e ++ o :: n ++ x :: m).length := by simp; omega
          rw [lit_number_append hm, lit, if_neg (by simp [hy])] at hr'
          have hq : charAt (e ++ o :: n ++ x :: (m ++ y :: v)) (e.length + 1 + n.length + 1 + m.length) = y := by
            rw [show e ++ o :: n ++ x :: (m ++ y :: v) = (e ++ o :: n ++ x :: m) ++ y :: v by simp, charAt_append _ _ _ hlq]
          rw [hq]
          by_cases hal : y.isAlpha = true
          · rw [if_pos hal] at hr'
            rw [if_pos ⟨by simp; omega, by omega, hal⟩]
            split at hr'
            · simp at hr'
            have hv : ∀ {u : Str}, (∀ c ∈ u, ¬ (c = ',' ∨ c = '>')) → ∀ c ∈ y :: u, ¬ (c = ',' ∨ c = '>') := by
              intro u hu c hc
              rcases List.mem_cons.1 hc with rfl | hc
              · exact not_stop_of_alpha hal
              · exact hu c hc
            rcases split_stop v with hst | ⟨u, z, w, rfl, hu, hz⟩
            · rw [lit_suffix_none hst] at hr'; simp at hr'
            · have hff := findFirstOf_stop (g := e ++ o :: n ++ x :: m) (v := w) (hv hu) hz hlq
              rw [show e ++ o :: n ++ x :: (m ++ y :: (u ++ z :: w)) = (e ++ o :: n ++ x :: m) ++ (y :: u ++ z :: w) by simp, hff]
              dsimp only
              rw [lit_suffix_append hu, lit, if_pos hz] at hr'
              rw [show splice ((e ++ o :: n ++ x :: m) ++ (y :: u ++ z :: w)) (e.length + 1 + n.length + 1 + m.length)
                (e.length + 1 + n.length + 1 + m.length + (y :: u).length - (e.length + 1 + n.length + 1 + m.length)) [] = (e ++ o :: n ++ x :: m ++ [z]) ++ w by
                rw [Nat.add_sub_cancel_left, splice, hlq, List.take_left, ← List.drop_drop, List.drop_left, List.drop_left]; simp]
              cases hl : lit .find w with
              | none => simp [hl] at hr'
              | some r'' =>
                simp only [hl, Option.map_some, Option.some.injEq] at hr'
                have := processLiterals_lit env f w (e ++ o :: n ++ x :: m ++ [z]) r'' hl (by simp at hlen ⊢; omega)
                rw [show e.length + 1 + n.length + 1 + m.length + 1 = (e ++ o :: n ++ x :: m ++ [z]).length by simp; omega, this, ← hr']
                simp
          · rw [if_neg hal] at hr'
            rw [if_neg (fun hh => hal hh.2.2)]
            dsimp only
            have hl' : lit .find (y :: v) = (lit (if y = '<' ∨ y = ' ' then .digit y else .find) v).map (y :: ·) := by rw [lit]
            rw [← hl'] at hr'
            cases hl : lit .find (y :: v) with
            | none => simp [hl] at hr'
            | some r'' =>
              simp only [hl, Option.map_some, Option.some.injEq] at hr'
              have := processLiterals_lit env f (y :: v) (e ++ o :: n ++ x :: m) r'' hl (by simp at hlen ⊢; omega)
              rw [hlq, show e ++ o :: n ++ x :: (m ++ y :: v) = (e ++ o :: n ++ x :: m) ++ y :: v by simp, this, ← hr']
              simp

/-! ### Names of types -/

theorem plain_split {n : Str} (h : Plain n) : (∀ c ∈ n, c.isDigit = false) ∨
    ∃ a x b, n = a ++ x :: b ∧ (∀ c ∈ a, c.isDigit = false) ∧ x.isDigit = true ∧ ∀ c, final c a = '_' ∨ (final c a).isAlpha = true := by
  rcases split_digit n with hd | ⟨a, x, b, rfl, ha, hx⟩
  · exact .inl hd
  · refine .inr ⟨a, x, b, rfl, ha, hx, fun c => ?_⟩
    have hne : a ≠ [] := by
      rintro rfl
      have := h.digits.1 x (by simp)
      simp [hx] at this
    have hm : final c a ∈ a := final_mem c hne
    rcases h.chars _ (List.mem_append_left _ hm) with h1 | h1 | h1
    · right
      have := ha _ hm
      simpa [Char.isAlphanum, this] using h1
    · exact .inl h1
    · exfalso
      cases hr : a.reverse with
      | nil => exact hne (by simpa using hr)
      | cons y u =>
        obtain rfl : a = u.reverse ++ [y] := by rw [← List.reverse_reverse a, hr]; simp
        have hy : final c (u.reverse ++ [y]) = y := by rw [final_append]; rfl
        rw [hy] at h1
        subst h1
        have := h.digits.2 u.reverse x b (by simp)
        simp [hx] at this

theorem plain_stops {n : Str} (h : Plain n) : ∀ c ∈ n, ¬ (c = ',' ∨ c = '>') := by
  intro c hc hs
  rcases h.chars c hc with h1 | h1 | h1
  · rcases hs with rfl | rfl <;> simp [Char.isAlphanum] at h1
  · subst h1; simp at hs
  · subst h1; simp at hs

theorem lit_skip_stop {s : Str} (h : (∃ t, s = ',' :: t) ∨ ∃ t, s = '>' :: t) : lit .skip s = lit .find s := by
  rcases h with ⟨t, rfl⟩ | ⟨t, rfl⟩ <;> simp [lit]

theorem lit_suffix_stop {s : Str} (h : (∃ t, s = ',' :: t) ∨ ∃ t, s = '>' :: t) : lit .suffix s = lit .find s := by
  rcases h with ⟨t, rfl⟩ | ⟨t, rfl⟩ <;> simp [lit]

theorem lit_number_stop {s : Str} (h : (∃ t, s = ',' :: t) ∨ ∃ t, s = '>' :: t) (first : Bool) : lit (.number first) s = lit .find s := by
  rcases h with ⟨t, rfl⟩ | ⟨t, rfl⟩ <;> simp [lit]

theorem lit_name {n s r : Str} (h : Plain n) (c : Char) (hs : (∀ c ∈ n, c.isDigit = false) ∨ (∃ t, s = ',' :: t) ∨ ∃ t, s = '>' :: t)
    (h1 : lit .find s = some r) (h2 : ∀ c, lit (.digit c) s = some r) : lit (.digit c) (n ++ s) = some (n ++ r) := by
  rcases plain_split h with hd | ⟨a, x, b, rfl, ha, hx, hf⟩
  · rw [lit_digit_append hd, h2]; rfl
  · have hs' : (∃ t, s = ',' :: t) ∨ ∃ t, s = '>' :: t := by
      rcases hs with hs | hs
      · have := hs x (by simp); simp [hx] at this
      · exact hs
    have hb : ∀ c ∈ b, ¬ (c = ',' ∨ c = '>') := fun c hc => plain_stops h c (by simp [hc])
    have hne : b ++ s ≠ [] := by rcases hs' with ⟨t, rfl⟩ | ⟨t, rfl⟩ <;> simp
    rw [List.append_assoc, List.cons_append, lit_digit_append ha, lit, if_pos hx, if_neg hne, if_pos (hf c), lit_skip_append hb, lit_skip_stop hs', h1]
    simp

theorem lit_value {ds sfx s r : Str} {p : Char} (hp : ¬ (p = '_' ∨ p.isAlpha = true)) (hp' : p ≠ '[') (hne : ds ≠ []) (hds : ∀ c ∈ ds, c.isDigit = true) (hsfx : sfx ∈ suffixes)
    (hs : (∃ t, s = ',' :: t) ∨ ∃ t, s = '>' :: t) (h1 : lit .find s = some r) : lit (.digit p) (ds ++ (sfx ++ s)) = some (ds ++ r) := by
  cases ds with
  | nil => exact absurd rfl hne
  | cons x ds =>
    have hs' : sfx ++ s ≠ [] := by rcases hs with ⟨t, rfl⟩ | ⟨t, rfl⟩ <;> simp
    rw [List.cons_append, lit, if_pos (hds x (by simp)), if_neg (by simp [hs']), if_neg hp, if_neg hp', lit_number_append fun c hc => hds c (by simp [hc])]
    have key : ∀ first, lit (.number first) (sfx ++ s) = some r := by
      intro first
      have hall : ∀ t ∈ suffixes, t = [] ∨ ∃ y ∈ ['u', 'l'], ∃ u ∈ ([[], ['l'], ['l', 'l']] : List Str), t = y :: u := by decide
      rcases hall sfx hsfx with rfl | ⟨y, hy, u, hu, rfl⟩
      · rw [List.nil_append, lit_number_stop hs, h1]
      · have hu' : ∀ c ∈ u, ¬ (c = ',' ∨ c = '>') := by
          have : ∀ u ∈ ([[], ['l'], ['l', 'l']] : List Str), ∀ c ∈ u, ¬ (c = ',' ∨ c = '>') := by decide
          exact this u hu
        have hyp : y.isDigit = false ∧ y.isAlpha = true ∧ y ≠ 'x' := by
          have : ∀ y ∈ ['u', 'l'], y.isDigit = false ∧ y.isAlpha = true ∧ y ≠ 'x' := by decide
          exact this y hy
        rw [List.cons_append, lit, if_neg (by simp [hyp.1]), if_pos hyp.2.1, if_neg (by simp [hyp.2.2]), lit_suffix_append hu', lit_suffix_stop hs, h1]
    rw [key]; rfl

theorem follows_stop {w : Word} {s : Str} (h : Follows w s) (hw : ¬ w.template) : (∃ t, s = ',' :: t) ∨ ∃ t, s = '>' :: t := by
  cases h with
  | comma => exact .inl ⟨_, rfl⟩
  | close => exact .inr ⟨_, rfl⟩
  | opening h _ => exact absurd h hw

theorem follows_name {w : Word} {s : Str} (h : Follows w s) : w.noDigits ∨ (∃ t, s = ',' :: t) ∨ ∃ t, s = '>' :: t := by
  cases h with
  | comma => exact .inr (.inl ⟨_, rfl⟩)
  | close => exact .inr (.inr ⟨_, rfl⟩)
  | opening _ h => exact .inl h

theorem int64_no_digits (u l : Bool) : ∀ c ∈ (Word.int64 u l).show (plainStd true), c.isDigit = false := by
  cases u <;> cases l <;> decide

theorem integer_shows (ds sfx s r : Str) :
    (Word.show (plainStd true) (.integer false ds sfx) ++ s = ds ++ (sfx ++ s) ∧ Word.show noSuffix (.integer false ds sfx) ++ r = ds ++ r) ∧
    Word.show (plainStd true) (.integer true ds sfx) ++ s = '-' :: (ds ++ (sfx ++ s)) ∧ Word.show noSuffix (.integer true ds sfx) ++ r = '-' :: (ds ++ r) := by
  have h1 : (plainStd true).suffixes = true := rfl
  have h2 : noSuffix.suffixes = false := rfl
  simp [Word.show, h1, h2]

theorem walk_literals : Walk (plainStd true) noSuffix (fun _ s r => ∀ c, (c = '<' ∨ c = ' ') → lit (.digit c) s = some r)
    (fun _ s r => lit .find s = some r ∧ ∀ c, lit (.digit c) s = some r) (fun _ s r => lit .find s = some r ∧ ∀ c, lit (.digit c) s = some r) where
  word := by
    intro w n s r hw hf hr c hc
    have hc1 : ¬ (c = '_' ∨ c.isAlpha = true) := by rcases hc with rfl | rfl <;> simp
    have hc2 : c ≠ '[' := by rcases hc with rfl | rfl <;> simp
    have noDig : ∀ t : Str, (∀ c ∈ t, c.isDigit = false) → lit (.digit c) (t ++ s) = some (t ++ r) := fun t ht => by rw [lit_digit_append ht, hr.2]; rfl
    match w, hw, hf with
    | .user k m, hw, hf => exact lit_name hw c (follows_name hf) hr.1 hr.2
    | .std k abi m, hw, hf =>
      refine lit_name (n := "std::".toList ++ m) hw c ?_ hr.1 hr.2
      rcases follows_name hf with h | h
      · refine .inl fun c hc => ?_
        rcases List.mem_append.1 hc with hc | hc
        · have : ∀ c ∈ "std::".toList, c.isDigit = false := by decide
          exact this c hc
        · exact h c hc
      · exact .inr h
    | .fundamental m, hw, _ =>
      have : ∀ t ∈ fundamentals, ∀ c ∈ t, c.isDigit = false := by decide
      exact noDig m (this m hw)
    | .int64 u l, _, _ => exact noDig _ (int64_no_digits u l)
    | .boolean true, _, _ => exact noDig "true".toList (by decide)
    | .boolean false, _, _ => exact noDig "false".toList (by decide)
    | .integer neg ds sfx, hw, hf =>
      have hst := follows_stop hf (by simp [Word.template])
      simp only [Word.Ok] at hw
      cases neg with
      | false =>
        have := lit_value hc1 hc2 hw.1 hw.2.1 hw.2.2 hst hr.1
        rw [(integer_shows ds sfx s r).1.1, (integer_shows ds sfx s r).1.2]
        exact this
      | true =>
        have := lit_value (p := '-') (by simp) (by simp) hw.1 hw.2.1 hw.2.2 hst hr.1
        have h2 : lit (.digit c) ('-' :: (ds ++ (sfx ++ s))) = some ('-' :: (ds ++ r)) := by rw [lit, if_neg (by simp), this]; rfl
        rw [(integer_shows ds sfx s r).2.1, (integer_shows ds sfx s r).2.2]
        exact h2
    | .enumerator e ds, hw, hf =>
      have hst := follows_stop hf (by simp [Word.template])
      simp only [Word.Ok] at hw
      have hds : ∀ c ∈ ds, ¬ (c = ',' ∨ c = '>') := fun c hc => not_stop_of_digit (hw.2.2 c hc)
      have hin : ∀ c, lit (.digit c) (e ++ ')' :: (ds ++ s)) = some (e ++ ')' :: (ds ++ r)) := by
        intro c
        rcases plain_split hw.1 with hd | ⟨a, x, b, rfl, ha, hx, hfin⟩
        · have := lit_value (p := ')') (sfx := []) (by simp) (by simp) hw.2.1 hw.2.2 (by decide) hst hr.1
          rw [lit_digit_append hd, lit, if_neg (by simp), List.nil_append] at *
          rw [this]; rfl
        · have hb : ∀ c ∈ b, ¬ (c = ',' ∨ c = '>') := fun c hc => plain_stops hw.1 c (by simp [hc])
          rw [List.append_assoc, List.cons_append, lit_digit_append ha, lit, if_pos hx, if_neg (by simp), if_pos (hfin c), lit_skip_append hb, lit, if_neg (by simp), lit_skip_append hds,
            lit_skip_stop hst, hr.1]
          simp
      have h2 : lit (.digit c) ('(' :: (e ++ ')' :: (ds ++ s))) = some ('(' :: (e ++ ')' :: (ds ++ r))) := by rw [lit, if_neg (by simp), hin]; rfl
      have c1 : (plainStd true).casts = true := rfl
      have c2 : noSuffix.casts = true := rfl
      simpa [Word.show, c1, c2] using h2
  opening := by
    intro n s r hr
    refine ⟨by rw [lit, if_pos (.inl rfl), hr _ (.inl rfl)]; rfl, fun c => by rw [lit, if_neg (by simp), hr _ (.inl rfl)]; rfl⟩
  commaB := by
    intro n s r hr
    show lit .find (',' :: ' ' :: s) = some (',' :: ' ' :: r) ∧ ∀ c, lit (.digit c) (',' :: ' ' :: s) = some (',' :: ' ' :: r)
    refine ⟨?_, fun c => ?_⟩
    · rw [lit, if_neg (by simp), lit, if_pos (.inr rfl), hr _ (.inr rfl)]; rfl
    · rw [lit, if_neg (by simp), lit, if_neg (by simp), hr _ (.inr rfl)]; rfl
  commaC := by
    intro n s r hr
    show lit .find (',' :: ' ' :: s) = some (',' :: ' ' :: r) ∧ ∀ c, lit (.digit c) (',' :: ' ' :: s) = some (',' :: ' ' :: r)
    refine ⟨?_, fun c => ?_⟩
    · rw [lit, if_neg (by simp), lit, if_pos (.inr rfl), hr _ (.inr rfl)]; rfl
    · rw [lit, if_neg (by simp), lit, if_neg (by simp), hr _ (.inr rfl)]; rfl
  close := by
    intro n s r hr
    refine ⟨by rw [lit, if_neg (by simp), hr.1]; rfl, fun c => by rw [lit, if_neg (by simp), hr.2]; rfl⟩
  closing := by
    intro n s r hr
    show lit .find (' ' :: '>' :: s) = some (' ' :: '>' :: r) ∧ ∀ c, lit (.digit c) (' ' :: '>' :: s) = some (' ' :: '>' :: r)
    refine ⟨?_, fun c => ?_⟩
    · rw [lit, if_pos (.inr rfl), lit, if_neg (by simp), hr.2]; rfl
    · rw [lit, if_neg (by simp), lit, if_neg (by simp), hr.2]; rfl

theorem pass_literals (env : Env) (t : Ty) (ho : t.Ok) : ∀ m, (t.show (plainStd true)).length + 1 ≤ m →
    processLiterals env m (t.show (plainStd true)) 0 = some (.ok (t.show noSuffix)) := by
  intro m hm
  refine processLiterals_lit env m (t.show (plainStd true)) [] _ ?_ (by omega)
  match t, ho with
  | .mk w as, ho =>
    simp only [Ty.Ok] at ho
    simp only [Ty.show]
    have hargs : lit .find (as.show (plainStd true)) = some (as.show noSuffix) := by
      cases as with
      | nil => rfl
      | cons a as =>
        have := walk_literals.args ⟨_, rfl⟩ (.cons a as) (by simp) ho.2.2.2.1 (n := 0) (s := []) (r := []) ⟨rfl, fun _ => rfl⟩
        rw [List.append_nil, List.append_nil] at this
        exact this.1
    have hname : ∀ n, Plain n → lit .find (n ++ as.show (plainStd true)) = some (n ++ as.show noSuffix) := by
      intro n hn
      rw [lit_find_append, hargs]
      · rfl
      · intro c hc
        rcases hn.chars c hc with h | h | h
        · constructor <;> (rintro rfl; simp [Char.isAlphanum] at h)
        · subst h; simp
        · subst h; simp
    have hleaf : ¬ w.template → as = .nil := fun hw => Classical.byContradiction fun h => hw (ho.2.2.1 h)
    match w, ho with
    | .user k n, ho => exact hname n ho.1
    | .std k abi n, ho => exact hname _ ho.1
    | .fundamental n, ho =>
      rw [hleaf (by simp [Word.template])]
      have : ∀ n ∈ fundamentals, lit .find n = some n := by decide
      have := this n ho.1
      simpa [Word.show, Args.show] using this
    | .int64 true l, ho => rw [hleaf (by simp [Word.template])]; cases l <;> decide
    | .int64 false l, ho => rw [hleaf (by simp [Word.template])]; cases l <;> decide
    | .integer _ _ _, ho => exact absurd ho.2.1 (by simp [Word.isType])
    | .boolean _, ho => exact absurd ho.2.1 (by simp [Word.isType])
    | .enumerator _ _, ho => exact absurd ho.2.1 (by simp [Word.isType])

end Verif.TidyName
