import Verif.Lemmas.ResolveOrder
import Verif.Spec.Resolve
import Verif.Props.Includes
/- Lemmas about names, paths and what includes refer to. -/
namespace Verif.Resolve
open Verif.Spec.Resolve
open Verif.Spec.Includes (Item)

/-! ### Pieces of names -/

theorem pieces_ne_nil (s : List Char) : pieces s ≠ [] := by
  cases s with
  | nil => simp [pieces]
  | cons c s =>
    unfold pieces
    split
    · simp
    · split <;> simp

theorem pieces_plain {b : List Char} (h : '/' ∉ b) : pieces b = [b] := by
  induction b with
  | nil => rfl
  | cons c b ih =>
    simp only [List.mem_cons, not_or] at h
    unfold pieces
    rw [if_neg (fun e => h.1 e.symm), ih h.2]

theorem pieces_append (a b : List Char) : pieces (a ++ '/' :: b) = pieces a ++ pieces b := by
  induction a with
  | nil => simp [pieces]
  | cons c a ih =>
    rw [List.cons_append, pieces.eq_2, pieces.eq_2]
    split
    · rw [ih]; rfl
    · rw [ih]
      cases hp : pieces a with
      | nil => exact absurd hp (pieces_ne_nil a)
      | cons p ps => rfl

theorem pieces_no_slash (s : List Char) : ∀ n ∈ pieces s, '/' ∉ n := by
  induction s with
  | nil => simp [pieces]
  | cons c s ih =>
    unfold pieces
    split
    · intro n hn
      rcases List.mem_cons.mp hn with rfl | hn
      · simp
      · exact ih n hn
    · rename_i hc
      cases hp : pieces s with
      | nil => exact absurd hp (pieces_ne_nil s)
      | cons p ps =>
        rw [hp] at ih
        intro n hn
        rcases List.mem_cons.mp hn with rfl | hn
        · simp only [List.mem_cons, not_or]
          exact ⟨fun e => hc e.symm, ih p (by simp)⟩
        · exact ih n (by simp [hn])

theorem intercalate_two (a b : Name) (ps : List Name) : List.intercalate ['/'] (a :: b :: ps) = a ++ '/' :: List.intercalate ['/'] (b :: ps) := by
  simp [List.intercalate, List.intersperse]

theorem pieces_intercalate : ∀ ps : List Name, ps ≠ [] → (∀ n ∈ ps, '/' ∉ n) → pieces (List.intercalate ['/'] ps) = ps
  | [], h, _ => absurd rfl h
  | [a], _, h => by
    have : List.intercalate ['/'] [a] = a := by simp [List.intercalate]
    rw [this]; exact pieces_plain (h a (by simp))
  | a :: b :: ps, _, h => by
    rw [intercalate_two, pieces_append, pieces_plain (h a (by simp)), pieces_intercalate (b :: ps) (by simp) fun n hn => h n (List.mem_cons_of_mem _ hn)]
    rfl

theorem intercalate_pieces (s : List Char) : List.intercalate ['/'] (pieces s) = s := by
  induction s with
  | nil => simp [pieces, List.intercalate]
  | cons c s ih =>
    unfold pieces
    split
    · rename_i hc
      subst hc
      cases hp : pieces s with
      | nil => exact absurd hp (pieces_ne_nil s)
      | cons p ps => rw [intercalate_two, ← hp, ih]; rfl
    · cases hp : pieces s with
      | nil => exact absurd hp (pieces_ne_nil s)
      | cons p ps =>
        rw [hp] at ih
        cases ps with
        | nil => simp [List.intercalate] at ih ⊢; exact ih
        | cons q ps => rw [intercalate_two] at ih ⊢; simp [← ih]

theorem elements_iff (name : List Char) (p : Path) : Elements name p ↔ p = (parse name).elements := by
  constructor
  · rintro ⟨ps, h1, h2, rfl⟩
    cases ps with
    | nil => subst h2; rfl
    | cons a ps =>
      unfold parse
      rw [h2, pieces_intercalate _ (by simp) h1]
  · rintro rfl
    exact ⟨pieces name, pieces_no_slash name, (intercalate_pieces name).symm, rfl⟩

/-- The last piece of a name. -/
theorem pieces_last (s : List Char) : ∃ init, pieces s = init ++ [Includes.filename s] := by
  have hsplit : s = (s.reverse.dropWhile (· ≠ '/')).reverse ++ Includes.filename s := by
    unfold Includes.filename
    rw [← List.reverse_append, List.takeWhile_append_dropWhile, List.reverse_reverse]
  have hno : '/' ∉ Includes.filename s := by
    unfold Includes.filename
    rw [List.mem_reverse]
    intro h
    exact absurd (Props.Includes.mem_takeWhile h) (by simp)
  cases hd : s.reverse.dropWhile (· ≠ '/') with
  | nil =>
    rw [hd] at hsplit
    simp only [List.reverse_nil, List.nil_append] at hsplit
    refine ⟨[], ?_⟩
    rw [← hsplit] at hno ⊢
    rw [pieces_plain hno]; rfl
  | cons c l =>
    have hc := Props.Includes.dropWhile_head hd
    have hc : c = '/' := by simpa using hc
    subst hc
    rw [hd] at hsplit
    rw [List.reverse_cons, List.append_assoc, List.singleton_append] at hsplit
    refine ⟨pieces l.reverse, ?_⟩
    have := congrArg pieces hsplit
    rw [pieces_append, pieces_plain hno] at this
    exact this

theorem elements_last {s : List Char} (h : Includes.filename s ≠ []) : ∃ init, (parse s).elements = init ++ [Includes.filename s] := by
  obtain ⟨init, hi⟩ := pieces_last s
  refine ⟨init.filter (· ≠ []), ?_⟩
  unfold parse
  rw [hi, List.filter_append]
  simp [h]

theorem filename_ne_nil {s : List Char} {c : Char} (h : s.getLast? = some c) (hc : c ≠ '/') : Includes.filename s ≠ [] := by
  unfold Includes.filename
  rw [← List.head?_reverse] at h
  cases hr : s.reverse with
  | nil => rw [hr] at h; cases h
  | cons d l =>
    rw [hr] at h
    cases h
    simp [hc]

theorem last_of_filename {s : List Char} (h : Includes.filename s ≠ []) : ∃ c, s.getLast? = some c ∧ c ≠ '/' := by
  unfold Includes.filename at h
  cases hr : s.reverse with
  | nil => rw [hr] at h; exact absurd rfl h
  | cons d l =>
    refine ⟨d, by rw [← List.head?_reverse, hr]; rfl, ?_⟩
    rintro rfl
    rw [hr] at h
    exact h (by simp)

/-! ### The text of a directory -/

theorem text_cons {n : Name} {p : Path} (hp : p ≠ []) : text (n :: p) = '/' :: (n ++ text p) := by
  cases p with
  | nil => exact absurd rfl hp
  | cons => rfl

theorem pieces_text : ∀ p : Path, p ≠ [] → (∀ n ∈ p, n ≠ [] ∧ '/' ∉ n) → pieces (text p) = [] :: p
  | [], h, _ => absurd rfl h
  | [n], _, h => by
    unfold text
    rw [show ('/' :: n) = [] ++ '/' :: n from rfl, pieces_append, pieces_plain (h n (by simp)).2]
    rfl
  | n :: m :: p, _, h => by
    rw [text_cons (by simp)]
    have ih := pieces_text (m :: p) (by simp) fun k hk => h k (List.mem_cons_of_mem _ hk)
    have ht : ∃ t, text (m :: p) = '/' :: t := by
      cases p with
      | nil => exact ⟨m, rfl⟩
      | cons => exact ⟨_, rfl⟩
    obtain ⟨t, ht⟩ := ht
    rw [ht] at ih ⊢
    have h0 : pieces ('/' :: t) = [] :: pieces t := by rw [show ('/' :: t) = [] ++ '/' :: t from rfl, pieces_append]; rfl
    rw [h0] at ih
    rw [show '/' :: (n ++ '/' :: t) = [] ++ '/' :: (n ++ '/' :: t) from rfl, pieces_append, pieces_append, pieces_plain (h n (by simp)).2,
      (List.cons.inj ih).2]
    rfl

theorem text_getLast : ∀ p : Path, p ≠ [] → (∀ n ∈ p, n ≠ [] ∧ '/' ∉ n) → ∃ c, (text p).getLast? = some c ∧ c ≠ '/'
  | [], h, _ => absurd rfl h
  | [n], _, h => by
    unfold text
    have hn := h n (by simp)
    rw [List.getLast?_cons]
    cases hl : n.getLast? with
    | none => exact absurd (List.getLast?_eq_none_iff.mp hl) hn.1
    | some c => exact ⟨c, rfl, fun e => hn.2 (e ▸ List.mem_of_getLast? hl)⟩
  | n :: m :: p, _, h => by
    obtain ⟨c, h1, h2⟩ := text_getLast (m :: p) (by simp) fun k hk => h k (List.mem_cons_of_mem _ hk)
    refine ⟨c, ?_, h2⟩
    rw [text_cons (by simp), List.getLast?_cons, List.getLast?_append, h1]
    rfl

/-- A name without directories is taken to be in the directory of the file. -/
theorem parse_located_bare {own : Path} (hown : ∀ n ∈ own, n ≠ [] ∧ '/' ∉ n) {name : List Char} (hs : '/' ∉ name) (hne : name ≠ []) :
    parse (Props.Includes.located (text own) name) = ⟨true, own ++ [name]⟩ := by
  have hf : name.contains '/' = false := by simpa using hs
  unfold Props.Includes.located
  rw [hf]
  simp only [Bool.false_eq_true, if_false]
  cases own with
  | nil =>
    have : Includes.append (text []) name = '/' :: name := rfl
    rw [this]
    unfold parse
    rw [show ('/' :: name) = [] ++ '/' :: name from rfl, pieces_append, pieces_plain hs]
    simp [pieces, hne]
  | cons m p =>
    obtain ⟨c, h1, h2⟩ := text_getLast (m :: p) (by simp) hown
    have : Includes.append (text (m :: p)) name = text (m :: p) ++ '/' :: name := by
      unfold Includes.append
      rw [h1]
      simp [h2]
    rw [this]
    unfold parse
    rw [pieces_append, pieces_text _ (by simp) hown, pieces_plain hs]
    have hh : ((text (m :: p)) ++ '/' :: name).head? = some '/' := by cases p <;> rfl
    rw [hh]
    have hfil : (m :: p).filter (fun x => decide (x ≠ [])) = m :: p := List.filter_eq_self.mpr fun n hn => by simpa using (hown n hn).1
    simp only [decide_true, Included.mk.injEq, true_and]
    rw [List.filter_append, List.filter_cons]
    simp only [ne_eq, not_true_eq_false, decide_false, Bool.false_eq_true, if_false] at hfil ⊢
    rw [hfil]
    simp [hne]

theorem located_slash {dir name : List Char} (h : '/' ∈ name) : Props.Includes.located dir name = name := by
  unfold Props.Includes.located
  simp [h]

/-! ### Extensions -/

theorem filename_append (dir : Path) (n : Name) : filename (dir ++ [n]) = n := by simp [filename]

theorem eq_filename {p : Path} (h : p ≠ []) : p = p.dropLast ++ [filename p] := by
  unfold filename
  rw [List.getLast?_eq_some_getLast h]
  exact (List.dropLast_concat_getLast h).symm

theorem splitName_append {stem e : Name} (hs : stem ≠ []) (he : '.' ∉ e) (hne : e ≠ []) : splitName (stem ++ '.' :: e) = (stem, '.' :: e) := by
  unfold splitName
  have h0 : stem ++ '.' :: e ≠ ['.', '.'] := by
    intro h
    cases stem with
    | nil => exact hs rfl
    | cons c stem =>
      have := congrArg List.length h
      cases stem with
      | nil => cases e with
        | nil => exact hne rfl
        | cons => simp at this
      | cons => simp at this
  rw [if_neg h0]
  have hall : ∀ c ∈ e.reverse, decide (c ≠ '.') = true := by
    intro c hc
    simp only [decide_eq_true_eq]
    rintro rfl
    exact he (List.mem_reverse.mp hc)
  have hrev : (stem ++ '.' :: e).reverse = e.reverse ++ '.' :: stem.reverse := by simp
  have h1 : (stem ++ '.' :: e).reverse.dropWhile (fun c => decide (c ≠ '.')) = '.' :: stem.reverse := by
    rw [hrev, List.dropWhile_append_of_pos hall, List.dropWhile_cons]; simp
  have h2 : (stem ++ '.' :: e).reverse.takeWhile (fun c => decide (c ≠ '.')) = e.reverse := by
    rw [hrev, List.takeWhile_append_of_pos hall, List.takeWhile_cons]; simp
  rw [h1, h2]
  cases hr : stem.reverse with
  | nil => exact absurd (List.reverse_eq_nil_iff.mp hr) hs
  | cons c l =>
    dsimp only
    rw [← hr]; simp

theorem splitName_ext {n : Name} (h : (splitName n).2 ≠ []) : n = (splitName n).1 ++ (splitName n).2 ∧ (splitName n).1 ≠ [] ∧ n ≠ ['.', '.'] := by
  unfold splitName at h ⊢
  split at h
  · exact absurd rfl h
  · rename_i h0
    rw [if_neg h0]
    split at h
    · exact absurd rfl h
    · exact absurd rfl h
    · rename_i c s hne hd
      dsimp only
      have hc := Props.Includes.dropWhile_head hd
      have hc : c = '.' := by simpa using hc
      subst hc
      refine ⟨?_, ?_, h0⟩
      · have : n.reverse = n.reverse.takeWhile (· ≠ '.') ++ '.' :: s := by rw [← hd, List.takeWhile_append_dropWhile]
        have := congrArg List.reverse this
        rw [List.reverse_reverse] at this
        simpa using this
      · simp only [ne_eq, List.reverse_eq_nil_iff]
        rintro rfl
        exact hne rfl

theorem named_iff {p : Path} {stem : Name} {exts : List String} (hx : ∀ e ∈ exts, e.toList ≠ [] ∧ '.' ∉ e.toList) :
    Named p stem exts ↔ ∃ e ∈ exts, splitName (filename p) = (stem, '.' :: e.toList) := by
  constructor
  · rintro ⟨dir, e, he, rfl, hs⟩
    exact ⟨e, he, by rw [filename_append, splitName_append hs (hx e he).2 (hx e he).1]⟩
  · rintro ⟨e, he, h⟩
    have := splitName_ext (n := filename p) (by rw [h]; simp)
    rw [h] at this
    have hp : p ≠ [] := by
      rintro rfl
      have h1 := this.1
      simp [filename] at h1
    exact ⟨p.dropLast, e, he, by rw [← this.1]; exact eq_filename hp, this.2.1⟩

theorem source_iff {p : Path} {stem : Name} : SourceFile p stem ↔
    (splitName (filename p)).1 = stem ∧ isCpp p = true := by
  unfold SourceFile
  rw [named_iff (by decide)]
  unfold isCpp
  generalize splitName (filename p) = x
  obtain ⟨a, b⟩ := x
  simp only [List.mem_cons, List.not_mem_nil, or_false, Prod.mk.injEq, Bool.or_eq_true, beq_iff_eq]
  constructor
  · rintro ⟨e, rfl | rfl | rfl, h, rfl⟩
    · exact ⟨h, .inl (.inl (by decide))⟩
    · exact ⟨h, .inl (.inr (by decide))⟩
    · exact ⟨h, .inr (by decide)⟩
  · rintro ⟨h, (rfl | rfl) | rfl⟩
    · exact ⟨"cpp", .inl rfl, h, by decide⟩
    · exact ⟨"cc", .inr (.inl rfl), h, by decide⟩
    · exact ⟨"cxx", .inr (.inr rfl), h, by decide⟩

theorem header_iff {p : Path} {stem : Name} : HeaderFile p stem ↔
    (splitName (filename p)).1 = stem ∧ isHeader p = true := by
  unfold HeaderFile
  rw [named_iff (by decide)]
  unfold isHeader
  generalize splitName (filename p) = x
  obtain ⟨a, b⟩ := x
  simp only [List.mem_cons, List.not_mem_nil, or_false, Prod.mk.injEq, Bool.or_eq_true, beq_iff_eq]
  constructor
  · rintro ⟨e, rfl | rfl | rfl, h, rfl⟩
    · exact ⟨h, .inl (.inl (by decide))⟩
    · exact ⟨h, .inl (.inr (by decide))⟩
    · exact ⟨h, .inr (by decide)⟩
  · rintro ⟨h, (rfl | rfl) | rfl⟩
    · exact ⟨"hpp", .inl rfl, h, by decide⟩
    · exact ⟨"h", .inr (.inl rfl), h, by decide⟩
    · exact ⟨"hxx", .inr (.inr rfl), h, by decide⟩

theorem not_both {p : Path} (h : isCpp p = true) : isHeader p = false := by
  unfold isCpp at h
  unfold isHeader
  generalize (splitName (filename p)).2 = b at *
  simp only [Bool.or_eq_true, beq_iff_eq] at h
  rcases h with (rfl | rfl) | rfl <;> decide

theorem ext_ne_nil {p : Path} (h : isCpp p = true ∨ isHeader p = true) : (splitName (filename p)).2 ≠ [] := by
  unfold isCpp isHeader at h
  generalize (splitName (filename p)).2 = b at *
  rintro rfl
  revert h
  decide

/-! ### Directories -/

theorem startsWith_iff : ∀ (file repo : Path), repo.length ≤ file.length → (startsWith file repo = true ↔ repo <+: file)
  | _, [], _ => by simp [startsWith]
  | [], _ :: _, h => by simp at h
  | f :: file, r :: repo, h => by
    unfold startsWith
    rw [List.cons_prefix_cons]
    split
    · rename_i hne
      constructor
      · intro h; cases h
      · rintro ⟨rfl, _⟩; exact absurd rfl hne
    · rename_i he
      have he : f = r := Classical.byContradiction he
      rw [startsWith_iff file repo (by simpa using h)]
      exact ⟨fun h => ⟨he.symm, h⟩, fun h => h.2⟩

theorem inRepo_iff (file repo : Path) : inRepo file repo = true ↔ Inside repo file := by
  unfold inRepo Inside
  split
  · rename_i h
    constructor
    · intro h; cases h
    · rintro ⟨rest, hne, rfl⟩
      cases rest with
      | nil => exact absurd rfl hne
      | cons => simp at h; omega
  · rename_i h
    rw [startsWith_iff _ _ (by omega)]
    constructor
    · rintro ⟨rest, rfl⟩
      refine ⟨rest, ?_, rfl⟩
      rintro rfl
      simp at h
    · rintro ⟨rest, _, rfl⟩
      exact ⟨rest, rfl⟩

theorem nodes_perm (D : Disk) (P : Project) : (nodes D P).Perm ((roots P).flatMap (addedFiles D)) := by
  unfold nodes roots
  exact sorted_perm _ _

theorem mem_nodes {D : Disk} {P : Project} {e : Entry} : e ∈ nodes D P ↔ e ∈ D.files ∧ (∃ r ∈ roots P, Inside r e.path) ∧ (isCpp e.path = true ∨ isHeader e.path = true) := by
  rw [(nodes_perm D P).mem_iff, List.mem_flatMap]
  unfold addedFiles
  simp only [List.mem_filter, Bool.and_eq_true, Bool.or_eq_true, inRepo_iff]
  constructor
  · rintro ⟨r, hr, he, hi, hx⟩; exact ⟨he, ⟨r, hr, hi⟩, hx⟩
  · rintro ⟨he, ⟨r, hr, hi⟩, hx⟩; exact ⟨r, hr, he, hi, hx⟩

theorem mem_nodes_iff {D : Disk} {P : Project} {e : Entry} (he : e ∈ D.files) : e ∈ nodes D P ↔ InProject D P e.path := by
  rw [mem_nodes]
  unfold InProject
  constructor
  · rintro ⟨_, h1, h2⟩
    refine ⟨⟨e, he, rfl⟩, h1, (splitName (filename e.path)).1, ?_⟩
    rcases h2 with h2 | h2
    · exact .inl (source_iff.mpr ⟨rfl, h2⟩)
    · exact .inr (header_iff.mpr ⟨rfl, h2⟩)
  · rintro ⟨_, h1, stem, h2⟩
    refine ⟨he, h1, ?_⟩
    rcases h2 with h2 | h2
    · exact .inl (source_iff.mp h2).2
    · exact .inr (header_iff.mp h2).2

theorem nodes_pairwise {D : Disk} {P : Project} (ho : Orderly D P) : (nodes D P).Pairwise fun a b => a.path ≠ b.path := by
  rw [(nodes_perm D P).pairwise_iff (fun {a b} h => fun e => h e.symm), List.pairwise_flatMap]
  constructor
  · intro r _
    exact ho.once.sublist List.filter_sublist
  · refine ho.apart.imp ?_
    intro r s hrs a ha b hb hab
    unfold addedFiles at ha hb
    simp only [List.mem_filter, Bool.and_eq_true, inRepo_iff] at ha hb
    obtain ⟨_, ⟨x, _, hx⟩, _⟩ := ha
    obtain ⟨_, ⟨y, _, hy⟩, _⟩ := hb
    have h1 : r <+: a.path := ⟨x, hx.symm⟩
    have h2 : s <+: a.path := ⟨y, by rw [hab]; exact hy.symm⟩
    rcases Nat.le_total r.length s.length with h | h
    · exact hrs.1 (List.prefix_of_prefix_length_le h1 h2 h)
    · exact hrs.2 (List.prefix_of_prefix_length_le h2 h1 h)

theorem nodes_index {D : Disk} {P : Project} (ho : Orderly D P) {i j : Nat} {a b : Entry} (ha : (nodes D P)[i]? = some a) (hb : (nodes D P)[j]? = some b) (h : a.path = b.path) :
    i = j := by
  obtain ⟨hi, rfl⟩ := List.getElem?_eq_some_iff.mp ha
  obtain ⟨hj, rfl⟩ := List.getElem?_eq_some_iff.mp hb
  have := List.pairwise_iff_getElem.mp (nodes_pairwise ho)
  rcases Nat.lt_trichotomy i j with hlt | heq | hgt
  · exact absurd h (this i j hi hj hlt)
  · exact heq
  · exact absurd h.symm (this j i hj hi hgt)

theorem nodes_sorted (D : Disk) (P : Project) : (nodes D P).Pairwise fun a b => fileLess b a = false := sorted_files _

end Verif.Resolve
