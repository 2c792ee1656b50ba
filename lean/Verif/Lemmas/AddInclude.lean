import Verif.Lemmas.FileEditors

/-
Lemmas about adding includes.
-/
set_option linter.unusedSimpArgs false
set_option linter.unusedVariables false

namespace Verif.FileEditors
open Text Verif.Spec.Text Verif.Spec.FileEditors

/-- Lines with their ends. -/
def ended (ls : List Str) : Str := ls.flatMap (· ++ ['\n'])

theorem unlines_ended {b : List Str} (hb : b ≠ []) : ∀ a : List Str, unlines (a ++ b) = ended a ++ unlines b
  | [] => rfl
  | l :: a => by
    have ih := unlines_ended hb a
    have : a ++ b ≠ [] := by simp [hb]
    cases h : a ++ b with
    | nil => exact absurd h this
    | cons m ms =>
      rw [List.cons_append, h, unlines, ← h, ih]
      · simp [ended]
      · simp

theorem ended_append (a b : List Str) : ended (a ++ b) = ended a ++ ended b := by simp [ended]

theorem ended_end : ∀ a : List Str, ended a = [] ∨ ∃ a', ended a = a' ++ ['\n']
  | [] => .inl rfl
  | l :: a => by
    rcases ended_end a with h | ⟨a', h⟩
    · exact .inr ⟨l, by simp [ended] at h ⊢; exact h⟩
    · exact .inr ⟨l ++ '\n' :: a', by simp only [ended, List.flatMap_cons] at h ⊢; rw [h]; simp⟩

theorem inc_eq : inc = directive := rfl

theorem directive_cons : directive = '#' :: "include".toList := rfl

theorem newline_directive : '\n' ∉ directive := by decide

theorem plain_ended {ls : List Str} {s : Str} (h : ∀ l ∈ ls, ¬ directive <:+: l) (hs : ¬ directive <:+: s) : ¬ directive <:+: ended ls ++ s := by
  intro hi
  rcases infix_lines newline_directive (by decide) hi with ⟨l, hl, hi⟩ | hi
  · exact h l hl hi
  · exact hs hi

theorem plain_newline {s : Str} (h : ¬ directive <:+: s) : ¬ directive <:+: '\n' :: s := by
  intro hi
  rcases infix_split (x := []) newline_directive hi with h' | h'
  · exact absurd h' (by decide)
  · exact h h'

theorem plain_append {s t : Str} (hs : s = [] ∨ ∃ s', s = s' ++ ['\n']) (h : ¬ directive <:+: s) (h' : ¬ directive <:+: t) : ¬ directive <:+: s ++ t := by
  rcases hs with rfl | ⟨s', rfl⟩
  · simpa using h'
  · intro hi
    rw [List.append_assoc] at hi
    rcases infix_split newline_directive hi with hi | hi
    · exact h (hi.trans ⟨[], ['\n'], by simp⟩)
    · exact h' hi

open Classical in
/-- The lines which are directives. -/
noncomputable def directives (ls : List Str) : List Str := ls.filter fun l => decide (directive <+: l)

theorem collect_spec {C : Str} (hC : ¬ directive <:+: C) : ∀ (bl : List Str) (f : Nat) (d j : Str) (E : Nat), bl.length < f → ¬ directive <:+: j → (j = [] ∨ ∃ j', j = j' ++ ['\n']) →
    (∀ l ∈ bl, '\n' ∉ l ∧ (¬ directive <:+: l ∨ directive <+: l)) → (∀ l ∈ bl.getLast?, directive <+: l) → E + 1 = (d ++ j ++ ended bl).length →
    collect (d ++ (j ++ ended bl ++ C)) E f d.length = (directives bl).map (· ++ ['\n'])
  | [], f, d, j, E, hf, hj, hje, hl, hlast, hE => by
    cases f with
    | zero => simp at hf
    | succ f =>
      rw [collect]
      have : find (d ++ (j ++ ended [] ++ C)) directive d.length = none := by
        rw [find_none]
        right
        rw [List.drop_left]
        simpa [ended] using plain_append hje hj hC
      rw [this]
      rfl
  | l :: bl, f, d, j, E, hf, hj, hje, hl, hlast, hE => by
    obtain ⟨hnl, hk⟩ := hl l (by simp)
    by_cases hdir : directive <+: l
    · cases f with
      | zero => simp at hf
      | succ f =>
        obtain ⟨r, rfl⟩ := hdir
        have h1 : d ++ (j ++ ended ((directive ++ r) :: bl) ++ C) = d ++ (j ++ directive ++ (r ++ '\n' :: (ended bl ++ C))) := by simp [ended]
        have h2 : find (d ++ (j ++ ended ((directive ++ r) :: bl) ++ C)) directive d.length = some (d.length + j.length) := by
          rw [h1]
          apply find_at
          simpa using first_of (x := []) (b := r ++ '\n' :: (ended bl ++ C)) directive_cons newline_directive hj (by simp) hje
        have h3 : d ++ (j ++ ended ((directive ++ r) :: bl) ++ C) = (d ++ j) ++ ((directive ++ r) ++ '\n' :: (ended bl ++ C)) := by simp [ended]
        have h4 : find (d ++ (j ++ ended ((directive ++ r) :: bl) ++ C)) ['\n'] (d.length + j.length) = some (d.length + j.length + (directive ++ r).length) := by
          rw [h3, ← List.length_append]
          exact find_newline hnl
        have hE' : E = d.length + j.length + (directive ++ r).length + (ended bl).length := by
          simp only [ended, List.flatMap_cons, List.length_append, List.length_cons, List.length_nil] at hE ⊢
          omega
        have hd : 0 < (directive ++ r).length := by simp [directive]
        rw [collect, h2]
        dsimp only
        rw [if_pos (by omega), h4]
        dsimp only
        rw [if_pos (by omega)]
        have ih := collect_spec hC bl f (d ++ j ++ (directive ++ r)) ['\n'] E (by simp at hf ⊢; omega) (plain_newline (by decide)) (.inr ⟨[], rfl⟩)
          (fun m hm => hl m (by simp [hm])) (fun m hm => hlast m (by
            cases bl with
            | nil => simp at hm
            | cons x bl => simpa [List.getLast?_cons] using hm)) (by rw [hE']; simp [ended]; omega)
        have h5 : d ++ (j ++ ended ((directive ++ r) :: bl) ++ C) = d ++ j ++ (directive ++ r) ++ (['\n'] ++ ended bl ++ C) := by simp [ended]
        rw [show d.length + j.length + (directive ++ r).length = (d ++ j ++ (directive ++ r)).length by simp; omega]
        have h6 : substr (d ++ (j ++ ended ((directive ++ r) :: bl) ++ C)) (d.length + j.length) ((d ++ j ++ (directive ++ r)).length + 1 - (d.length + j.length)) = (directive ++ r) ++ ['\n'] := by
          rw [h3, substr, ← List.length_append, List.drop_left]
          rw [show (directive ++ r) ++ '\n' :: (ended bl ++ C) = ((directive ++ r) ++ ['\n']) ++ (ended bl ++ C) by simp]
          rw [List.take_left']
          simp; omega
        rw [h6, h5, ih]
        have : directives ((directive ++ r) :: bl) = (directive ++ r) :: directives bl := by
          simp only [directives]
          rw [List.filter_cons_of_pos (by simp)]
        rw [this]
        rfl
    · have hpl : ¬ directive <:+: l := hk.resolve_right hdir
      have hne : bl ≠ [] := by
        rintro rfl
        exact hdir (hlast l (by simp))
      have ih := collect_spec hC bl f d (j ++ l ++ ['\n']) E (by simp at hf; omega)
        (by
          rw [List.append_assoc]
          refine plain_append hje hj ?_
          intro hi
          rcases infix_split newline_directive hi with hi | hi
          · exact hpl hi
          · exact absurd hi (by decide)) (.inr ⟨j ++ l, rfl⟩) (fun m hm => hl m (by simp [hm]))
        (fun m hm => hlast m (by
            cases bl with
            | nil => exact absurd rfl hne
            | cons x bl => simpa [List.getLast?_cons] using hm)) (by rw [hE]; simp [ended])
      have h5 : d ++ (j ++ ended (l :: bl) ++ C) = d ++ (j ++ l ++ ['\n'] ++ ended bl ++ C) := by simp [ended]
      rw [h5, ih]
      have : directives (l :: bl) = directives bl := by
        simp only [directives]
        rw [List.filter_cons_of_neg (by simpa using hdir)]
      rw [this]

/-! ### The order -/

theorem strictWeakOn_iff {lt : Str → Str → Bool} {l : List Str} : strictWeakOn lt l = true ↔ StrictWeak lt l := by
  simp only [strictWeakOn, StrictWeak, Bool.and_eq_true, List.all_eq_true, Bool.not_eq_true', Bool.or_eq_true, Bool.and_eq_false_imp]
  constructor
  · rintro ⟨h1, h2⟩
    refine ⟨h1, ?_, ?_⟩
    · intro a ha b hb c hc hab hbc
      rcases (h2 a ha b hb c hc).1 with h | h
      · exact absurd (h hab) (by simp [hbc])
      · exact h
    · intro a ha b hb c hc h3 h4 h5 h6
      rcases (h2 a ha b hb c hc).2 with h | h
      · simp [h3, h4, h5, h6] at h
      · exact h
  · rintro ⟨h1, h2, h3⟩
    refine ⟨h1, fun a ha b hb c hc => ⟨?_, ?_⟩⟩
    · cases hab : lt a b with
      | false => exact .inl (by simp)
      | true =>
        cases hbc : lt b c with
        | false => exact .inl (by simp)
        | true => exact .inr (h2 a ha b hb c hc hab hbc)
    · cases hab : lt a b <;> cases hba : lt b a <;> cases hbc : lt b c <;> cases hcb : lt c b <;> first
        | exact .inr (h3 a ha b hb c hc hab hba hbc hcb)
        | (left; simp)

/-- Text is ordered. -/
theorem strictWeak_text (l : List Str) : StrictWeak (fun a b => decide (a < b)) l := by
  refine ⟨?_, ?_, ?_⟩
  · intro a _
    simp
  · intro a _ b _ c _ h1 h2
    simp only [decide_eq_true_eq] at *
    exact List.lt_trans h1 h2
  · intro a _ b _ c _ h1 h2 h3 h4
    simp only [decide_eq_false_iff_not] at *
    have hab : a = b := List.le_antisymm (List.not_lt.1 h2) (List.not_lt.1 h1)
    subst hab
    exact ⟨h3, h4⟩

theorem includeLess_eq {x y : Str} (hx : '<' ∈ x ↔ '>' ∈ x) (hy : '<' ∈ y ↔ '>' ∈ y) :
    includeLess x y = true ↔ ('<' ∉ x ∧ '<' ∈ y) ∨ (('<' ∈ x ↔ '<' ∈ y) ∧ x < y) := by
  unfold includeLess
  have hyy : y.contains '>' = y.contains '<' := by
    rw [Bool.eq_iff_iff]
    simp [hy]
  rw [hyy]
  by_cases h1 : '<' ∈ x <;> by_cases h2 : '<' ∈ y <;> simp [h1, h2]

theorem strictWeak_include {l : List Str} (hl : ∀ x ∈ l, '<' ∈ x ↔ '>' ∈ x) : StrictWeak includeLess l := by
  refine ⟨?_, ?_, ?_⟩
  · intro a ha
    rw [← Bool.not_eq_true, includeLess_eq (hl a ha) (hl a ha)]
    rintro (⟨h1, h2⟩ | ⟨_, h⟩)
    · exact h1 h2
    · exact List.lt_irrefl a h
  · intro a ha b hb c hc h1 h2
    rw [includeLess_eq (hl _ ‹_›) (hl _ ‹_›)] at *
    rcases h1 with ⟨h1, h1'⟩ | ⟨h1, h1'⟩ <;> rcases h2 with ⟨h2, h2'⟩ | ⟨h2, h2'⟩
    · exact absurd h1' h2
    · exact .inl ⟨h1, h2.1 h1'⟩
    · exact .inl ⟨fun h => h2 (h1.1 h), h2'⟩
    · exact .inr ⟨h1.trans h2, List.lt_trans h1' h2'⟩
  · intro a ha b hb c hc h1 h2 h3 h4
    rw [← Bool.not_eq_true, includeLess_eq (hl _ ‹_›) (hl _ ‹_›)] at h1 h2
    have hab : a = b := by
      by_cases ha' : '<' ∈ a <;> by_cases hb' : '<' ∈ b <;> simp [ha', hb'] at h1 h2 <;> exact List.le_antisymm h2 h1
    subst hab
    exact ⟨h3, h4⟩

/-! ### The result -/

theorem quoted_eq (path : Str) : quoted path = directive ++ ([' ', '"'] ++ (path ++ ['"'])) := by
  simp only [quoted, inc_eq, List.append_assoc]
  rfl

theorem quoted_angles {path : Str} (h : '<' ∈ path ↔ '>' ∈ path) : '<' ∈ quoted path ↔ '>' ∈ quoted path := by
  rw [quoted_eq]
  have h1 : '<' ∉ directive := by decide
  have h2 : '>' ∉ directive := by decide
  simp only [List.mem_append, h1, h2, false_or, h]
  simp

theorem newInclude_eq (path : Str) : newInclude path = quoted path ++ ['\n'] := by
  rw [quoted_eq, newInclude]
  simp

/-- Where the block of directives ends. -/
theorem endBlock_eq {A : Str} {l C : Str} (hl : '\n' ∉ l) (hd : directive <+: l) (hC : ¬ directive <:+: C) :
    ∃ i, rsearch directive (A ++ (l ++ '\n' :: C)) = some i ∧ find (A ++ (l ++ '\n' :: C)) ['\n'] i = some (A.length + l.length) := by
  obtain ⟨r, hr⟩ := hd
  cases h : rsearch directive (A ++ (l ++ '\n' :: C)) with
  | none =>
    exact absurd ⟨A, r ++ '\n' :: C, by rw [← hr]; simp⟩ (rsearch_none.1 h)
  | some i =>
    obtain ⟨u, v, he, hu, hlast⟩ := rsearch_some h
    have h1 : A.length ≤ u.length := hlast A (r ++ '\n' :: C) (by rw [← he, ← hr]; simp)
    refine ⟨i, rfl, ?_⟩
    have h2 : u.length ≤ A.length + l.length := by
      apply Classical.byContradiction
      intro hlt
      have h3 : (A ++ (l ++ '\n' :: C)).drop (A.length + l.length + 1) = C := by
        rw [show A ++ (l ++ '\n' :: C) = (A ++ l ++ ['\n']) ++ C by simp, List.drop_left']
        simp; omega
      rw [he, List.append_assoc, List.drop_append_of_le_length (by omega)] at h3
      exact hC ⟨u.drop (A.length + l.length + 1), v, by rw [← h3]; simp⟩
    rw [find_char]
    refine ⟨A ++ l, C, by simp, by simp, by omega, ?_⟩
    rw [← hu, List.drop_append, List.drop_eq_nil_of_le h1]
    intro hm
    exact hl (List.mem_of_mem_drop (by simpa using hm))

theorem first_include {A B : Str} (hA : A = [] ∨ ∃ a', A = a' ++ ['\n']) (hp : ¬ directive <:+: A) : find (A ++ (directive ++ B)) directive 0 = some A.length := by
  have := find_at (d := []) (b := B) (by simpa using first_of (x := []) (b := B) directive_cons newline_directive hp (by simp) hA)
  simpa using this

theorem sorted_lines {stdSort : (Str → Str → Bool) → List Str → List Str} (hs : Sorts stdSort) {ls : List Str} (hl : ∀ x ∈ ls, '<' ∈ x ↔ '>' ∈ x) :
    ∃ ls' : List Str, sortBy stdSort includeLess (ls.map (· ++ ['\n'])) = .ok (ls'.map (· ++ ['\n'])) ∧ ls'.Perm ls ∧ ls'.Pairwise Ordered := by
  have hsw : StrictWeak includeLess (ls.map (· ++ ['\n'])) := by
    apply strictWeak_include
    intro x hx
    obtain ⟨y, hy, rfl⟩ := List.mem_map.1 hx
    simpa using hl y hy
  obtain ⟨hp, ho⟩ := hs _ _ hsw
  generalize hr : stdSort includeLess (ls.map (· ++ ['\n'])) = r at hp ho
  have h1 : (r.map List.dropLast).map (· ++ ['\n']) = r := by
    rw [List.map_map]
    conv => rhs; rw [← List.map_id r]
    apply List.map_congr_left
    intro x hx
    obtain ⟨y, hy, rfl⟩ := List.mem_map.1 (hp.subset hx)
    simp
  have h2 : (r.map List.dropLast).Perm ls := by
    have := hp.map List.dropLast
    rw [List.map_map] at this
    refine this.trans (List.Perm.of_eq ?_)
    conv => rhs; rw [← List.map_id ls]
    apply List.map_congr_left
    intro x _
    simp
  refine ⟨r.map List.dropLast, by rw [h1, sortBy, if_pos (strictWeakOn_iff.2 hsw), hr], h2, ?_⟩
  rw [← h1, List.pairwise_map] at ho
  refine ho.imp_of_mem ?_
  intro x y hx hy h
  have hx' := hl x (h2.subset hx)
  have hy' := hl y (h2.subset hy)
  rw [← Bool.not_eq_true, includeLess_eq (by simpa using hy') (by simpa using hx')] at h
  by_cases h3 : '<' ∈ x <;> by_cases h4 : '<' ∈ y <;> simp [h3, h4] at h <;> simp [Ordered, h3, h4]
  · exact h
  · exact h

theorem flatten_ended (ls : List Str) : (ls.map (· ++ ['\n'])).flatten = ended ls := by
  simp [ended, List.flatMap]

/-- What `add_include` does: the directives are sorted together with the new one, and what is between them is lost. -/
theorem addInclude_spec {stdSort : (Str → Str → Bool) → List Str → List Str} (hs : Sorts stdSort) {path text : Str} {a block b : List Str} (ht : lines text = a ++ block ++ b)
    (hpl : ∀ l ∈ a ++ b, ¬ directive <:+: l) (hbl : ∀ l ∈ block, ¬ directive <:+: l ∨ directive <+: l ∧ ('<' ∈ l ↔ '>' ∈ l)) (hfirst : ∃ l ∈ block.head?, directive <+: l)
    (hlast : ∃ l ∈ block.getLast?, directive <+: l) (hb : b ≠ []) (hpath : '<' ∈ path ↔ '>' ∈ path) :
    ∃ incs, addInclude stdSort path text = .ok (unlines (a ++ incs ++ b)) ∧ incs.Perm (quoted path :: directives block) ∧ incs.Pairwise Ordered := by
  have hnl : ∀ l ∈ a ++ block ++ b, '\n' ∉ l := fun l hl => mem_lines (s := text) (by rw [ht]; exact hl)
  have htext : text = ended a ++ ended block ++ unlines b := by
    rw [← unlines_lines text, ht, unlines_ended hb, ended_append]
  have hC : ¬ directive <:+: unlines b := by
    cases h : b.reverse with
    | nil => exact absurd (by simpa using h) hb
    | cons l ls =>
      have hb' : b = ls.reverse ++ [l] := by rw [← List.reverse_reverse b, h]; simp
      rw [hb', unlines_ended (by simp)]
      exact plain_ended (fun m hm => hpl m (by rw [hb']; simp only [List.mem_append]; exact .inr (.inl hm))) (by simpa [unlines] using hpl l (by rw [hb']; simp))
  have hA : ¬ directive <:+: ended a := by
    have := plain_ended (ls := a) (s := []) (fun m hm => hpl m (by simp [hm])) (by decide)
    simpa using this
  obtain ⟨l1, hl1, r1, hr1⟩ := hfirst
  obtain ⟨l2, hl2, hd2⟩ := hlast
  obtain ⟨bl2, hbl2⟩ : ∃ bl2, block = bl2 ++ [l2] := by
    rw [Option.mem_def, List.getLast?_eq_some_iff] at hl2
    exact hl2
  obtain ⟨bl1, hbl1⟩ : ∃ bl1, block = l1 :: bl1 := by
    cases block with
    | nil => simp at hl1
    | cons x bl => simp at hl1; exact ⟨bl, by rw [hl1]⟩
  have htext2 : text = (ended a ++ ended bl2) ++ (l2 ++ '\n' :: unlines b) := by
    rw [htext, hbl2, ended_append]
    simp [ended]
  have htext1 : text = ended a ++ (directive ++ (r1 ++ '\n' :: (ended bl1 ++ unlines b))) := by
    rw [htext, hbl1, ← hr1]
    simp [ended]
  have hnl2 : '\n' ∉ l2 := hnl l2 (by rw [hbl2]; simp)
  obtain ⟨i, hi, hfi⟩ := endBlock_eq (A := ended a ++ ended bl2) hnl2 hd2 hC
  rw [← htext2] at hi hfi
  have hEB : (ended a ++ ended bl2).length + l2.length + 1 = (ended a ++ ended block).length := by
    rw [hbl2, ended_append]
    simp [ended]; omega
  have hcol := collect_spec hC block (text.length + 1) [] (ended a) ((ended a ++ ended bl2).length + l2.length) (by
      have : ∀ bl : List Str, bl.length ≤ (ended bl).length := by
        intro bl
        induction bl with
        | nil => simp
        | cons x bl ih => simp [ended] at ih ⊢; omega
      have := this block
      rw [htext]; simp; omega) hA (ended_end a)
    (fun l hl => ⟨hnl l (by simp [hl]), (hbl l hl).imp id And.left⟩) (fun l hl => by
      rw [Option.mem_def] at hl hl2
      rw [hl] at hl2
      injection hl2 with h
      rw [h]; exact hd2) (by simpa using hEB)
  rw [List.nil_append, ← htext, List.length_nil] at hcol
  have hq : (newInclude path :: (directives block).map (· ++ ['\n'])) = (quoted path :: directives block).map (· ++ ['\n']) := by
    simp [newInclude_eq]
  obtain ⟨ls', h1, h2, h3⟩ := sorted_lines hs (ls := quoted path :: directives block) (by
    intro x hx
    rcases List.mem_cons.1 hx with rfl | hx
    · exact quoted_angles hpath
    · simp only [directives, List.mem_filter, decide_eq_true_eq] at hx
      rcases hbl x hx.1 with h | h
      · exact absurd hx.2.isInfix h
      · exact h.2)
  refine ⟨ls', ?_, h2, h3⟩
  unfold addInclude
  have hlen : (ended a ++ ended bl2).length + l2.length ≤ text.length := by rw [htext]; simp at hEB ⊢; omega
  simp only [hi, hfi, Option.elim_some, Nat.min_eq_left hlen, hcol, reduceCtorEq, if_false, hq, h1]
  have hff : find text directive 0 = some (ended a).length := by
    rw [htext1]
    exact first_include (ended_end a) hA
  simp only [Res.bind, hff, flatten_ended]
  congr 1
  rw [unlines_ended hb, ended_append, splice]
  have h4 : text.take (ended a).length = ended a := by rw [htext, List.append_assoc, List.take_left]
  have h5 : text.drop ((ended a).length + ((ended a ++ ended bl2).length + l2.length + 1 - (ended a).length)) = unlines b := by
    rw [show (ended a).length + ((ended a ++ ended bl2).length + l2.length + 1 - (ended a).length) = (ended a ++ ended block).length by simp at hEB ⊢; omega, htext, List.drop_left]
  rw [h4, h5]

/-- A text without directives. -/
theorem addInclude_none {stdSort : (Str → Str → Bool) → List Str → List Str} (hs : Sorts stdSort) {path text : Str} (ht : ¬ directive <:+: text) (hpath : '<' ∈ path ↔ '>' ∈ path) :
    addInclude stdSort path text = .ok (text ++ quoted path ++ ['\n']) := by
  obtain ⟨ls', h1, h2, h3⟩ := sorted_lines hs (ls := [quoted path]) (by intro x hx; rw [List.mem_singleton] at hx; subst hx; exact quoted_angles hpath)
  rw [List.perm_singleton] at h2
  subst h2
  unfold addInclude
  have hq : [newInclude path] = [quoted path].map (· ++ ['\n']) := by simp [newInclude_eq]
  have hf : find text directive 0 = none := by rw [find_none]; right; simpa using ht
  simp only [rsearch_none.2 ht, if_true, hq, h1, Res.bind, hf]
  simp [splice]

/-- If there is only one directive, there is nothing to be sorted. -/
theorem addInclude_one {stdSort : (Str → Str → Bool) → List Str → List Str} (hs : Sorts stdSort) {path text : Str}
    (h : strictWeakOn includeLess [newInclude path] = true ∧ (if rsearch directive text = none then []
      else collect text (match rsearch directive text with | none => text.length | some p => (find text ['\n'] p).elim text.length fun e => min e text.length) (text.length + 1) 0) = []) :
    addInclude stdSort path text = addInclude (fun _ l => l) path text := by
  have h1 : stdSort includeLess [newInclude path] = [newInclude path] := List.perm_singleton.1 (hs _ _ (strictWeakOn_iff.1 h.1)).1
  unfold addInclude
  cases hr : rsearch directive text with
  | none => simp only [if_true, sortBy, h1]
  | some p =>
    rw [hr] at h
    simp only [reduceCtorEq, if_false] at h ⊢
    rw [h.2]
    simp only [sortBy, h1]

theorem addInclude_ub {stdSort : (Str → Str → Bool) → List Str → List Str} {path text : Str}
    (h : strictWeakOn includeLess (newInclude path :: (if rsearch directive text = none then []
      else collect text (match rsearch directive text with | none => text.length | some p => (find text ['\n'] p).elim text.length fun e => min e text.length) (text.length + 1) 0)) = false) :
    addInclude stdSort path text = .ub := by
  unfold addInclude
  cases hr : rsearch directive text with
  | none =>
    rw [hr] at h
    simp only [if_true] at h ⊢
    simp only [sortBy, h, Res.bind]
    rfl
  | some p =>
    rw [hr] at h
    simp only [reduceCtorEq, if_false] at h ⊢
    simp only [sortBy, h, Res.bind]
    rfl

end Verif.FileEditors
