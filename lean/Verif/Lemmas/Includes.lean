import Verif.Model.Includes
import Verif.Spec.Includes
/- Lemmas about the search for included files. -/
namespace Verif.Includes
open Verif.Spec.Includes (Item text names WellFormed Tame isBlank isWord firstLine includeWord)

theorem ignoreTo_append {d : Char} {s t : List Char} (h : ∀ c ∈ s, c ≠ d) : ignoreTo d (s ++ t) = ignoreTo d t := by
  unfold ignoreTo
  induction s with
  | nil => rfl
  | cons c s ih =>
    rw [List.cons_append, List.dropWhile_cons, if_pos (by simpa using h c (by simp))]
    exact ih fun c' h' => h c' (by simp [h'])

theorem ignoreTo_length (d : Char) (s : List Char) : (ignoreTo d s).length ≤ s.length := by
  unfold ignoreTo
  have := (List.dropWhile_suffix (p := (· ≠ d)) (l := s)).length_le
  rw [List.length_drop]
  omega

theorem fromStream_newline (s : List Char) : fromStream ['\n'] s = (firstLine s, ignoreTo '\n' s) := by
  have : (fun c => !(['\n'] : List Char).contains c) = fun c : Char => decide (c ≠ '\n') := by
    funext c; simp
  unfold fromStream firstLine ignoreTo
  rw [this]

theorem fromStream_span {ds s : List Char} {d : Char} {t : List Char} (h : ∀ c ∈ s, ds.contains c = false) (hd : ds.contains d = true) :
    fromStream ds (s ++ d :: t) = (s, t) := by
  induction s with
  | nil =>
    unfold fromStream
    rw [List.nil_append, List.takeWhile_cons, List.dropWhile_cons, hd]
    rfl
  | cons c s ih =>
    have ih := ih fun c' h' => h c' (by simp [h'])
    have hc : (!ds.contains c) = true := by simp only [h c (by simp), Bool.not_false]
    unfold fromStream at ih ⊢
    rw [List.cons_append, List.takeWhile_cons, List.dropWhile_cons, if_pos hc, if_pos hc]
    simp only [Prod.mk.injEq] at ih ⊢
    exact ⟨by rw [ih.1], ih.2⟩

theorem fromStream_all {ds s : List Char} (h : ∀ c ∈ s, ds.contains c = false) : fromStream ds s = (s, []) := by
  induction s with
  | nil => simp [fromStream]
  | cons c s ih =>
    have ih := ih fun c' h' => h c' (by simp [h'])
    have hc : (!ds.contains c) = true := by simp only [h c (by simp), Bool.not_false]
    unfold fromStream at ih ⊢
    rw [List.takeWhile_cons, List.dropWhile_cons, if_pos hc, if_pos hc]
    simp only [Prod.mk.injEq] at ih ⊢
    exact ⟨by rw [ih.1], ih.2⟩

theorem skipBlock_append {s t : List Char} (h : ¬ ['*', '/'] <:+: s ++ ['*']) : skipBlock (s ++ '*' :: '/' :: t) = t := by
  induction s with
  | nil => simp [skipBlock]
  | cons c s ih =>
    have ih := ih fun h' => h (by obtain ⟨a, b, e⟩ := h'; exact ⟨c :: a, b, by simp [← e]⟩)
    rw [List.cons_append, skipBlock.eq_def]
    simp only
    split
    · rename_i hc
      subst hc
      split
      · rename_i u hu
        exfalso
        cases s with
        | nil => simp at hu
        | cons c' s =>
          simp only [List.cons_append, List.cons.injEq] at hu
          obtain ⟨rfl, _⟩ := hu
          exact h ⟨[], s ++ ['*'], by simp⟩
      · exact ih
    · exact ih

theorem occursIn_iff {cutoff s : List Char} : occursIn cutoff s = true ↔ cutoff <:+: s := by
  induction s with
  | nil => simp [occursIn]
  | cons c s ih =>
    rw [occursIn, Bool.or_eq_true, ih, List.isPrefixOf_iff_prefix, List.infix_cons_iff]

theorem occursIn_false {cutoff s : List Char} (h : ¬ cutoff <:+: s) : occursIn cutoff s = false := by
  cases h' : occursIn cutoff s
  · rfl
  · exact absurd (occursIn_iff.mp h') h

section
variable {dir cutoff : List Char}

theorem scan_slash (fuel : Nat) (s : List Char) : scan dir cutoff (fuel + 1) ('/' :: s) =
    match s with
      | '/' :: _ => scan dir cutoff fuel (ignoreTo '\n' s)
      | '*' :: t => scan dir cutoff fuel (skipBlock t)
      | s => scan dir cutoff fuel s := by
  rw [scan.eq_def]; rfl

theorem scan_other (fuel : Nat) {c : Char} (s : List Char) (hc : c ≠ '/') : scan dir cutoff (fuel + 1) (c :: s) =
    if c = '#' then
      let (follows, rest) := fromStream [' ', '\n'] s
      if follows = ['i', 'n', 'c', 'l', 'u', 'd', 'e'] then
        match included rest with
        | (some p, rest) => pushed dir p ++ scan dir cutoff fuel rest
        | (none, rest) => scan dir cutoff fuel rest
      else scan dir cutoff fuel rest
    else if cutoff.head? = some c then
      let (pattern, rest) := fromStream ['\n'] (c :: s)
      if occursIn cutoff pattern then [] else scan dir cutoff fuel rest
    else scan dir cutoff fuel s := by
  rw [scan.eq_def]; simp only; rw [if_neg hc]; rfl

/-- Characters which mean nothing. -/
theorem scan_plain {fuel : Nat} {c : Char} {s : List Char} (h1 : c ≠ '/') (h2 : c ≠ '#') (h3 : cutoff.head? ≠ some c) :
    scan dir cutoff (fuel + 1) (c :: s) = scan dir cutoff fuel s := by
  rw [scan_other _ _ h1, if_neg h2, if_neg h3]

theorem scan_plains {s : List Char} (h : ∀ c ∈ s, c ≠ '/' ∧ c ≠ '#' ∧ cutoff.head? ≠ some c) (fuel : Nat) (t : List Char) :
    scan dir cutoff (fuel + s.length) (s ++ t) = scan dir cutoff fuel t := by
  induction s with
  | nil => rfl
  | cons c s ih =>
    obtain ⟨h1, h2, h3⟩ := h c (by simp)
    rw [List.length_cons, ← Nat.add_assoc, List.cons_append, scan_plain h1 h2 h3, ih fun c' h' => h c' (by simp [h'])]

/-- What should be found: of the names, those with extensions, relative to the directory if there is nothing but a file name. -/
def expected (dir : List Char) (items : List Item) : List (List Char) := (names items).flatMap (pushed dir)

theorem blank_ne {c : Char} (h : isBlank c) : c ≠ '/' ∧ c ≠ '#' ∧ c ≠ '\n' := by
  rcases h with rfl | rfl <;> decide

theorem word_ne {c : Char} (h : isWord c) : c ≠ ' ' ∧ c ≠ '\n' := by
  constructor
  · rintro rfl; rcases h with h | h
    · exact absurd h (by decide)
    · exact absurd h (by decide)
  · rintro rfl; rcases h with h | h
    · exact absurd h (by decide)
    · exact absurd h (by decide)

theorem scan_items (hcut : ∀ c, cutoff.head? = some c → ¬ isBlank c ∧ c ≠ '\n' ∧ c ≠ '"' ∧ c ≠ '/' ∧ c ≠ '#') (hline : ∀ c ∈ cutoff, c ≠ '\n') (items : List Item) : ∀ start, WellFormed cutoff start items →
    (Tame cutoff false items → ∀ fuel, (text items).length ≤ fuel → scan dir cutoff fuel (text items) = expected dir items) ∧
    (Tame cutoff true items → ∀ fuel, (ignoreTo '\n' (text items)).length ≤ fuel → scan dir cutoff fuel (ignoreTo '\n' (text items)) = expected dir items) := by
  have hnil : ∀ fuel, scan dir cutoff fuel [] = [] := by intro fuel; cases fuel <;> rfl
  have hnl : cutoff.head? ≠ some '\n' := fun h => (hcut _ h).2.1 rfl
  have hbl : ∀ c, isBlank c → cutoff.head? ≠ some c := fun c hc h => (hcut _ h).1 hc
  have hqu : cutoff.head? ≠ some '"' := fun h => (hcut _ h).2.2.1 rfl
  have hex : ∀ i l, names (i :: l) = names l → expected dir (i :: l) = expected dir l := by intro i l h; simp only [expected, h]
  have hskip : ∀ (s t : List Char), (∀ c ∈ s, c ≠ '\n') → ignoreTo '\n' (s ++ t) = ignoreTo '\n' t := fun s t h => ignoreTo_append h
  induction items with
  | nil =>
    intro start _
    exact ⟨fun _ fuel _ => hnil fuel, fun _ fuel _ => hnil fuel⟩
  | cons i l ih =>
    intro start hw
    cases i with
    | newline =>
      have h1 := (ih true hw).1
      rw [hex _ _ rfl]
      simp only [text, Item.text, Tame, List.cons_append, List.nil_append, List.length_cons]
      refine ⟨fun ht fuel hf => ?_, fun ht fuel hf => h1 ht fuel (by simpa [ignoreTo] using hf)⟩
      obtain ⟨k, rfl⟩ : ∃ k, fuel = k + 1 := ⟨fuel - 1, by omega⟩
      rw [scan_plain (by decide) (by decide) hnl]
      exact h1 ht k (by omega)
    | blank c =>
      obtain ⟨hc, hw⟩ := hw
      obtain ⟨h1, h2⟩ := ih start hw
      obtain ⟨b1, b2, b3⟩ := blank_ne hc
      rw [hex _ _ rfl]
      simp only [text, Item.text, Tame, List.length_append, List.length_cons, List.length_nil]
      rw [hskip [c] _ (by simpa using b3)]
      refine ⟨fun ht fuel hf => ?_, h2⟩
      obtain ⟨k, rfl⟩ : ∃ k, fuel = k + 1 := ⟨fuel - 1, by omega⟩
      rw [List.cons_append, List.nil_append, scan_plain b1 b2 (hbl c hc)]
      exact h1 ht k (by omega)
    | code c =>
      obtain ⟨c1, c2, c3, c4, c5, c6, hw⟩ := hw
      obtain ⟨h1, h2⟩ := ih false hw
      rw [hex _ _ rfl]
      simp only [text, Item.text, Tame, List.length_append, List.length_cons, List.length_nil]
      rw [hskip [c] _ (by simpa using c1)]
      refine ⟨fun ht fuel hf => ?_, h2⟩
      obtain ⟨k, rfl⟩ : ∃ k, fuel = k + 1 := ⟨fuel - 1, by omega⟩
      obtain ⟨t1, t2⟩ := ht
      rw [List.cons_append, List.nil_append]
      by_cases hs : c = '/'
      · subst hs
        rw [if_neg (by simp)] at t2
        rw [scan_slash]
        have hd := c6 rfl
        split
        · rename_i u hu; rw [hu] at hd; exact absurd rfl (hd '/' rfl).1
        · rename_i u hu; rw [hu] at hd; exact absurd rfl (hd '*' rfl).2
        · exact h1 t2 k (by omega)
      · by_cases hh : cutoff.head? = some c
        · rw [if_pos ⟨hh, hs⟩] at t2
          rw [scan_other _ _ hs, if_neg t1, if_pos hh, fromStream_newline]
          simp only
          rw [if_neg (by rw [occursIn_false t2.1]; simp)]
          have := ignoreTo_append (d := '\n') (s := [c]) (t := text l) (by simpa using c1)
          rw [List.cons_append, List.nil_append] at this
          rw [this]
          exact h2 t2.2 k (by have := ignoreTo_length '\n' (text l); omega)
        · rw [if_neg (fun h => hh h.1)] at t2
          rw [scan_plain hs t1 hh]
          exact h1 t2 k (by omega)
    | literal s =>
      obtain ⟨hs, hw⟩ := hw
      obtain ⟨h1, h2⟩ := ih false hw
      rw [hex _ _ rfl]
      simp only [text, Item.text, Tame, List.length_append, List.length_cons, List.length_nil]
      rw [hskip ('"' :: (s ++ ['"'])) _ (by
        intro c hc
        simp only [List.mem_cons, List.mem_append, List.not_mem_nil, or_false] at hc
        rcases hc with rfl | hc | rfl
        · decide
        · exact (hs c hc).2.2
        · decide)]
      refine ⟨fun ht fuel hf => ?_, h2⟩
      have := scan_plains (dir := dir) (cutoff := cutoff) (s := '"' :: (s ++ ['"'])) (by
        intro c hc
        simp only [List.mem_cons, List.mem_append, List.not_mem_nil, or_false] at hc
        rcases hc with rfl | hc | rfl
        · exact ⟨by decide, by decide, hqu⟩
        · exact ht.1 c hc
        · exact ⟨by decide, by decide, hqu⟩) (fuel - (s.length + 2)) (text l)
      rw [show fuel - (s.length + 2) + ('"' :: (s ++ ['"'])).length = fuel by simp; omega] at this
      rw [this]
      exact h1 ht.2 _ (by omega)
    | lineComment s =>
      obtain ⟨hs, hd, hw⟩ := hw
      obtain ⟨h1, h2⟩ := ih start hw
      rw [hex _ _ rfl]
      have hk : ignoreTo '\n' ('/' :: s ++ text l) = ignoreTo '\n' (text l) := hskip _ _ (by
        intro c hc
        rcases List.mem_cons.mp hc with rfl | hc
        · decide
        · exact (hs c hc).1)
      have hk' : ignoreTo '\n' ('/' :: '/' :: s ++ text l) = ignoreTo '\n' (text l) := hskip _ _ (by
        intro c hc
        rcases List.mem_cons.mp hc with rfl | hc
        · decide
        rcases List.mem_cons.mp hc with rfl | hc
        · decide
        · exact (hs c hc).1)
      simp only [text, Item.text, Tame, List.length_append, List.length_cons]
      rw [hk']
      refine ⟨fun ht fuel hf => ?_, h2⟩
      obtain ⟨k, rfl⟩ : ∃ k, fuel = k + 1 := ⟨fuel - 1, by omega⟩
      rw [List.cons_append, List.cons_append, scan_slash]
      simp only
      rw [List.cons_append] at hk
      rw [hk]
      exact h2 ht k (by have := ignoreTo_length '\n' (text l); omega)
    | blockComment s =>
      obtain ⟨hs, hw⟩ := hw
      obtain ⟨h1, h2⟩ := ih start hw
      rw [hex _ _ rfl]
      simp only [text, Item.text, Tame, List.length_append, List.length_cons]
      refine ⟨fun ht fuel hf => ?_, fun ht => absurd ht.1 (by decide)⟩
      obtain ⟨k, rfl⟩ : ∃ k, fuel = k + 1 := ⟨fuel - 1, by omega⟩
      rw [List.cons_append, List.cons_append, scan_slash]
      simp only
      rw [List.append_assoc, List.cons_append, List.cons_append, List.nil_append, skipBlock_append hs]
      exact h1 ht.2 k (by omega)
    | directive gap word =>
      obtain ⟨_, _, hwd, hne, _, hw⟩ := hw
      obtain ⟨h1, h2⟩ := ih false hw
      rw [hex _ _ rfl]
      simp only [text, Item.text, Tame, List.length_append, List.length_cons]
      refine ⟨fun ht fuel hf => ?_, fun ht => absurd ht.1 (by decide)⟩
      obtain ⟨_, rfl, hd, ht⟩ := ht
      obtain ⟨k, rfl⟩ : ∃ k, fuel = k + 1 := ⟨fuel - 1, by omega⟩
      have hword : ∀ c ∈ word, ([' ', '\n'] : List Char).contains c = false := by
        intro c hc
        have := word_ne (hwd c hc)
        simp [this.1, this.2]
      rw [List.cons_append, List.nil_append, scan_other _ _ (by decide), if_pos rfl]
      cases htl : text l with
      | nil =>
        have e := h1 ht k (by rw [htl]; simp)
        rw [htl] at e
        rw [List.append_nil, fromStream_all hword]
        simp only
        rw [if_neg (by simpa [includeWord] using hne)]
        exact e
      | cons d t =>
        have hd' := hd d (by rw [htl]; rfl)
        rw [fromStream_span hword (by rcases hd' with rfl | rfl <;> decide)]
        simp only
        rw [if_neg (by simpa [includeWord] using hne)]
        have e := h1 ht (k + 1) (by rw [htl] at hf ⊢; simp at hf ⊢; omega)
        rw [htl, scan_plain (by rcases hd' with rfl | rfl <;> decide) (by rcases hd' with rfl | rfl <;> decide)
          (by rcases hd' with rfl | rfl
              · exact hbl _ (.inl rfl)
              · exact hnl)] at e
        exact e
    | inclusion gap gap' angled name =>
      obtain ⟨_, _, hg', hn, hw⟩ := hw
      obtain ⟨h1, h2⟩ := ih false hw
      simp only [text, Item.text, Tame, List.length_append, List.length_cons]
      refine ⟨fun ht fuel hf => ?_, fun ht => absurd ht.1 (by decide)⟩
      obtain ⟨_, rfl, hh, ht⟩ := ht
      obtain ⟨k, rfl⟩ : ∃ k, fuel = k + 1 := ⟨fuel - 1, by omega⟩
      cases gap' with
      | nil => simp at hh
      | cons d g =>
        simp only [List.head?_cons, Option.some.injEq] at hh
        subst hh
        rw [List.cons_append, List.nil_append, scan_other _ _ (by decide), if_pos rfl, List.append_assoc, List.cons_append, List.cons_append]
        rw [fromStream_span (s := includeWord) (by decide) (by decide)]
        simp only
        rw [if_pos (show includeWord = ['i', 'n', 'c', 'l', 'u', 'd', 'e'] from rfl)]
        have hdrop : ∀ (g u : List Char) (o : Char), (∀ c ∈ g, isBlank c) → isSpace o = false → (g ++ o :: u).dropWhile isSpace = o :: u := by
          intro g u o hg ho
          induction g with
          | nil => simp [ho]
          | cons c g ih =>
            have hc : isSpace c = true := by rcases hg c (by simp) with rfl | rfl <;> decide
            rw [List.cons_append, List.dropWhile_cons_of_pos hc]
            exact ih fun c' h' => hg c' (by simp [h'])
        have hinc : included (g ++ (if angled = true then '<' else '"') :: (name ++ [if angled = true then '>' else '"']) ++ text l) = (some name, text l) := by
          unfold included
          rw [List.append_assoc, List.cons_append, hdrop g _ _ (fun c hc => hg' c (by simp [hc])) (by cases angled <;> decide)]
          have hcl : ∀ c ∈ name, [if angled = true then '>' else '"'].contains c = false := by
            intro c hc
            have := (hn c hc).2
            simp only [List.contains_cons, List.contains_nil, Bool.or_false, beq_eq_false_iff_ne]
            exact this
          cases angled with
          | false =>
            simp only [Bool.false_eq_true, if_false, if_true, List.append_assoc, List.cons_append, List.nil_append] at hcl ⊢
            rw [fromStream_span hcl (by decide)]
          | true =>
            simp only [if_true, List.append_assoc, List.cons_append, List.nil_append] at hcl ⊢
            rw [if_neg (by decide), fromStream_span hcl (by decide)]
        rw [hinc]
        simp only
        rw [h1 ht k (by simp at hf; omega)]
        simp [expected, names]
    | rest s =>
      obtain ⟨rfl, hne, hpre⟩ := hw
      simp only [text, Item.text, Tame, List.append_nil]
      refine ⟨fun _ fuel hf => ?_, fun ht => absurd ht (by decide)⟩
      cases cutoff with
      | nil => exact absurd rfl hne
      | cons c cs =>
        obtain ⟨t, rfl⟩ := hpre
        obtain ⟨k, rfl⟩ : ∃ k, fuel = k + 1 := ⟨fuel - 1, by simp at hf; omega⟩
        obtain ⟨a1, a2, a3, a4, a5⟩ := hcut c rfl
        rw [List.cons_append, scan_other _ _ a4, if_neg a5, if_pos (show (c :: cs).head? = some c from rfl), fromStream_newline]
        simp only
        rw [if_pos]
        · rfl
        · rw [occursIn_iff]
          have : firstLine (c :: (cs ++ t)) = c :: cs ++ firstLine t := by
            unfold firstLine
            have hall : ∀ x ∈ c :: cs, decide (x ≠ '\n') = true := fun x hx => by simpa using hline x hx
            rw [← List.cons_append, List.takeWhile_append_of_pos hall]
          rw [this]
          exact (List.prefix_append _ _).isInfix

end
end Verif.Includes
