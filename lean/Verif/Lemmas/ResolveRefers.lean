import Verif.Lemmas.Resolve
/- Lemmas about the files to which directives refer. -/
namespace Verif.Resolve
open Verif.Spec.Resolve
open Verif.Spec.Includes (Item names)

/-! ### Following paths -/

theorem walk_cons {D : Disk} {p rest q : Path} {n : Name} (h : Walk D p (n :: rest) q) :
    p ∈ D.dirs ∧ ((n = ['.'] ∧ Walk D p rest q) ∨ (n = ['.', '.'] ∧ Walk D p.dropLast rest q) ∨ (n ≠ ['.'] ∧ n ≠ ['.', '.'] ∧ Walk D (p ++ [n]) rest q)) := by
  cases h with
  | dot h1 h2 => exact ⟨h1, .inl ⟨rfl, h2⟩⟩
  | up h1 h2 => exact ⟨h1, .inr (.inl ⟨rfl, h2⟩)⟩
  | down h1 h2 h3 h4 => exact ⟨h1, .inr (.inr ⟨h2, h3, h4⟩)⟩

theorem walk_nil {D : Disk} {p q : Path} (h : Walk D p [] q) : q = p := by
  cases h; rfl

theorem walk_unique {D : Disk} {p els q q' : Path} (h : Walk D p els q) (h' : Walk D p els q') : q = q' := by
  induction h with
  | here p => exact (walk_nil h').symm
  | dot _ _ ih =>
    obtain ⟨_, ⟨_, h⟩ | ⟨e, _⟩ | ⟨e, _⟩⟩ := walk_cons h'
    · exact ih h
    · exact absurd e (by decide)
    · exact absurd rfl e
  | up _ _ ih =>
    obtain ⟨_, ⟨e, _⟩ | ⟨_, h⟩ | ⟨_, e, _⟩⟩ := walk_cons h'
    · exact absurd e (by decide)
    · exact ih h
    · exact absurd rfl e
  | down _ h1 h2 _ ih =>
    obtain ⟨_, ⟨e, _⟩ | ⟨e, _⟩ | ⟨_, _, h⟩⟩ := walk_cons h'
    · exact absurd e h1
    · exact absurd e h2
    · exact ih h

theorem canonical_iff (D : Disk) (q : Path) : ∀ (els dir : Path), canonical D dir els = some q ↔ Walk D dir els q ∧ (q ∈ D.dirs ∨ IsFile D q)
  | [], dir => by
    unfold canonical
    constructor
    · intro h
      split at h
      · rename_i hc
        cases h
        refine ⟨.here _, ?_⟩
        simp only [Bool.or_eq_true, List.contains_eq_mem, decide_eq_true_eq, List.any_eq_true, beq_iff_eq] at hc
        exact hc
      · cases h
    · rintro ⟨h, hq⟩
      have := walk_nil h
      subst this
      rw [if_pos]
      simp only [Bool.or_eq_true, List.contains_eq_mem, decide_eq_true_eq, List.any_eq_true, beq_iff_eq]
      exact hq
  | n :: rest, dir => by
    unfold canonical
    by_cases hd : dir ∈ D.dirs
    · rw [if_pos (by simpa using hd)]
      by_cases h1 : n = ['.']
      · rw [if_pos h1, canonical_iff D q rest dir]
        constructor
        · rintro ⟨h, hq⟩; exact ⟨h1 ▸ .dot hd h, hq⟩
        · rintro ⟨h, hq⟩
          obtain ⟨_, ⟨_, h⟩ | ⟨e, _⟩ | ⟨e, _⟩⟩ := walk_cons h
          · exact ⟨h, hq⟩
          · rw [h1] at e; exact absurd e (by decide)
          · exact absurd h1 e
      · rw [if_neg h1]
        by_cases h2 : n = ['.', '.']
        · rw [if_pos h2, canonical_iff D q rest _]
          constructor
          · rintro ⟨h, hq⟩; exact ⟨h2 ▸ .up hd h, hq⟩
          · rintro ⟨h, hq⟩
            obtain ⟨_, ⟨e, _⟩ | ⟨_, h⟩ | ⟨_, e, _⟩⟩ := walk_cons h
            · exact absurd e h1
            · exact ⟨h, hq⟩
            · exact absurd h2 e
        · rw [if_neg h2, canonical_iff D q rest _]
          constructor
          · rintro ⟨h, hq⟩; exact ⟨.down hd h1 h2 h, hq⟩
          · rintro ⟨h, hq⟩
            obtain ⟨_, ⟨e, _⟩ | ⟨e, _⟩ | ⟨_, _, h⟩⟩ := walk_cons h
            · exact absurd e h1
            · exact absurd e h2
            · exact ⟨h, hq⟩
    · rw [if_neg (by simpa using hd)]
      constructor
      · intro h; cases h
      · rintro ⟨h, _⟩; exact absurd (walk_cons h).1 hd

/-- No dots. -/
def Plain (els : Path) : Prop := ['.'] ∉ els ∧ ['.', '.'] ∉ els

theorem walk_plain {D : Disk} {dir els q : Path} (h : Walk D dir els q) (hp : Plain els) : q = dir ++ els := by
  induction h with
  | here => simp
  | dot _ _ _ => exact absurd (by simp) hp.1
  | up _ _ _ => exact absurd (by simp) hp.2
  | down _ _ _ _ ih =>
    rw [ih ⟨fun h => hp.1 (by simp [h]), fun h => hp.2 (by simp [h])⟩]; simp

theorem plain_walk {D : Disk} : ∀ (els dir : Path), (∀ d, Inside d (dir ++ els) → d ∈ D.dirs) → Plain els → Walk D dir els (dir ++ els)
  | [], dir, _, _ => by rw [List.append_nil]; exact .here _
  | n :: els, dir, hd, hp => by
    simp only [Plain, List.mem_cons, not_or] at hp
    have := plain_walk (D := D) els (dir ++ [n]) (by simpa using hd) ⟨hp.1.2, hp.2.2⟩
    refine .down (hd dir ⟨n :: els, by simp, rfl⟩) (fun e => hp.1.1 e.symm) (fun e => hp.2.1 e.symm) (by simpa using this)

theorem walk_last {D : Disk} {dir els q : Path} (h : Walk D dir els q) {init : Path} {n : Name} (he : els = init ++ [n]) :
    (n ≠ ['.'] ∧ n ≠ ['.', '.'] ∧ filename q = n) ∨ ((∀ p ∈ D.dirs, p.dropLast ∈ D.dirs) → q ∈ D.dirs) := by
  induction h generalizing init with
  | here => simp at he
  | @dot p rest q hp hw ih =>
    cases init with
    | nil =>
      obtain ⟨rfl, rfl⟩ := List.cons.inj he
      have := walk_nil hw; subst this
      exact .inr fun _ => hp
    | cons m init => exact ih (List.cons.inj he).2
  | @up p rest q hp hw ih =>
    cases init with
    | nil =>
      obtain ⟨rfl, rfl⟩ := List.cons.inj he
      have := walk_nil hw; subst this
      exact .inr fun h => h _ hp
    | cons m init => exact ih (List.cons.inj he).2
  | @down p rest q k hp h1 h2 hw ih =>
    cases init with
    | nil =>
      obtain ⟨rfl, rfl⟩ := List.cons.inj he
      have := walk_nil hw; subst this
      exact .inl ⟨h1, h2, filename_append _ _⟩
    | cons m init => exact ih (List.cons.inj he).2

/-! ### Names of files -/

section
variable {D : Disk} {P : Project}

theorem namesFile_iff {dir q : Path} {name : List Char} : NamesFile D dir name q ↔ Walk D dir (parse name).elements q ∧ IsFile D q ∧ Includes.filename name ≠ [] := by
  unfold NamesFile
  constructor
  · rintro ⟨⟨p, h1, h2⟩, h3, c, h4, h5⟩
    rw [(elements_iff _ _).mp h1] at h2
    exact ⟨h2, h3, filename_ne_nil h4 h5⟩
  · rintro ⟨h1, h2, h3⟩
    exact ⟨⟨_, (elements_iff _ _).mpr rfl, h1⟩, h2, last_of_filename h3⟩

theorem file_not_dir (ho : Orderly D P) {q : Path} (h : IsFile D q) : q ∉ D.dirs := by
  obtain ⟨e, he, rfl⟩ := h
  exact ho.kinds e he

theorem namesFile_last (ho : Orderly D P) {dir q : Path} {name : List Char} (h : NamesFile D dir name q) :
    filename q = Includes.filename name ∧ Includes.filename name ≠ ['.'] ∧ Includes.filename name ≠ ['.', '.'] := by
  rw [namesFile_iff] at h
  obtain ⟨init, hi⟩ := elements_last h.2.2
  rcases walk_last h.1 hi with ⟨h1, h2, h3⟩ | hd
  · exact ⟨h3, h1, h2⟩
  · exact absurd (hd ho.above) (file_not_dir ho h.2.1)

theorem filename_dir_mem {dir q : Path} {name : List Char} (h : NamesFile D dir name q) : dir ∈ D.dirs := by
  rw [namesFile_iff] at h
  obtain ⟨init, hi⟩ := elements_last h.2.2
  have := h.1
  rw [hi] at this
  cases init with
  | nil => exact (walk_cons this).1
  | cons => exact (walk_cons this).1

theorem isFile_names (ho : Orderly D P) {q : Path} (h : IsFile D q) : q ≠ [] ∧ ∀ n ∈ q, n ≠ [] ∧ n ≠ ['.'] ∧ n ≠ ['.', '.'] ∧ '/' ∉ n := by
  obtain ⟨e, he, rfl⟩ := h
  exact ho.names e he

theorem isFile_plain (ho : Orderly D P) {dir els : Path} (h : IsFile D (dir ++ els)) : Plain els :=
  ⟨fun hm => ((isFile_names ho h).2 _ (by simp [hm])).2.1 rfl, fun hm => ((isFile_names ho h).2 _ (by simp [hm])).2.2.1 rfl⟩

theorem file_walk (ho : Orderly D P) {dir els : Path} (h : IsFile D (dir ++ els)) : Walk D dir els (dir ++ els) := by
  refine plain_walk els dir ?_ (isFile_plain ho h)
  intro d hd
  obtain ⟨e, he, hq⟩ := h
  exact ho.parents e he d (hq ▸ hd)

/-- A directive refers to at most one file. -/
theorem refers_unique {search : List Path} {own : Path} {d : Directive} {q q' : Path} (h : Refers D search own d q) (h' : Refers D search own d q') : q = q' := by
  obtain ⟨a, p, b, h1, h2, h3⟩ := h
  obtain ⟨a', p', b', h1', h2', h3'⟩ := h'
  rw [h1] at h1'
  have same : p = p' → q = q' := by
    rintro rfl
    rw [namesFile_iff] at h2 h2'
    exact walk_unique h2.1 h2'.1
  rcases List.append_eq_append_iff.mp h1' with ⟨c, hc1, hc2⟩ | ⟨c, hc1, hc2⟩
  · cases c with
    | nil => exact same (List.cons.inj hc2).1
    | cons x c =>
      obtain ⟨rfl, _⟩ := List.cons.inj hc2
      exact absurd h2 (h3' p (by rw [hc1]; simp) q)
  · cases c with
    | nil => exact same (List.cons.inj hc2).1.symm
    | cons x c =>
      obtain ⟨rfl, _⟩ := List.cons.inj hc2
      exact absurd h2' (h3 p' (by rw [hc1]; simp) q')

theorem refers_place {search : List Path} {own : Path} {d : Directive} {q : Path} (h : Refers D search own d q) :
    ∃ p ∈ places search own d, NamesFile D p d.name q := by
  obtain ⟨a, p, b, h1, h2, _⟩ := h
  exact ⟨p, by rw [h1]; simp, h2⟩

theorem exists_first {name : List Char} : ∀ (l : List Path), (∃ p ∈ l, ∃ q, NamesFile D p name q) →
    ∃ before place after q, l = before ++ place :: after ∧ NamesFile D place name q ∧ ∀ p ∈ before, ∀ q', ¬ NamesFile D p name q'
  | [], h => by obtain ⟨p, hp, _⟩ := h; simp at hp
  | x :: l, h => by
    by_cases hx : ∃ q, NamesFile D x name q
    · obtain ⟨q, hq⟩ := hx
      exact ⟨[], x, l, q, rfl, hq, by simp⟩
    · obtain ⟨p, hp, hq⟩ := h
      rcases List.mem_cons.mp hp with rfl | hp
      · exact absurd hq hx
      · obtain ⟨a, y, b, q, h1, h2, h3⟩ := exists_first l ⟨p, hp, hq⟩
        refine ⟨x :: a, y, b, q, by rw [h1]; rfl, h2, ?_⟩
        intro p hp
        rcases List.mem_cons.mp hp with rfl | hp
        · exact fun q' hq' => hx ⟨q', hq'⟩
        · exact h3 p hp

/-- If there are no different files then any which is found is the one referred to. -/
theorem refers_of_place {search : List Path} {own : Path} {d : Directive} {q p : Path} (hu : ∀ p ∈ places search own d, ∀ q', NamesFile D p d.name q' → q' = q)
    (hp : p ∈ places search own d) (h : NamesFile D p d.name q) : Refers D search own d q := by
  obtain ⟨a, y, b, q', h1, h2, h3⟩ := exists_first (D := D) (name := d.name) (places search own d) ⟨p, hp, q, h⟩
  have := hu y (by rw [h1]; simp) q' h2
  subst this
  exact ⟨a, y, b, h1, h2, h3⟩

theorem places_sub {search : List Path} {own : Path} {d : Directive} (hr : d.name.head? ≠ some '/') : ∀ p ∈ places search own d, p ∈ own :: search := by
  intro p hp
  unfold places at hp
  rw [if_neg hr] at hp
  split at hp
  · simp [hp]
  · exact hp

/-- The names which refer to something have an extension. -/
theorem refers_extension (ho : Orderly D P) {search : List Path} {own : Path} {d : Directive} (hc : Clear D P search own d) {q : Path} (h : Refers D search own d q) :
    Includes.hasExtension d.name = true := by
  obtain ⟨p, hp, hn⟩ := refers_place h
  have hin : InProject D P q := by
    refine hc.inside p ?_ q hn
    by_cases hr : d.name.head? = some '/'
    · unfold places at hp
      rw [if_pos hr] at hp
      simp only [List.mem_singleton] at hp
      subst hp; simp
    · exact List.mem_cons_of_mem _ (places_sub hr p hp)
  obtain ⟨hl, _, h2⟩ := namesFile_last ho hn
  have hx : (splitName (filename q)).2 ≠ [] := by
    obtain ⟨_, _, stem, hs⟩ := hin
    refine ext_ne_nil ?_
    rcases hs with hs | hs
    · exact .inl (source_iff.mp hs).2
    · exact .inr (header_iff.mp hs).2
  rw [hl] at hx
  obtain ⟨k1, k2, _⟩ := splitName_ext hx
  have hdot : ∃ e, (splitName (Includes.filename d.name)).2 = '.' :: e := by
    rw [← hl]
    obtain ⟨_, _, stem, hs⟩ := hin
    rcases hs with hs | hs
    · obtain ⟨e, _, he⟩ := (named_iff (by decide)).mp hs; exact ⟨_, by rw [he]⟩
    · obtain ⟨e, _, he⟩ := (named_iff (by decide)).mp hs; exact ⟨_, by rw [he]⟩
  obtain ⟨e, he⟩ := hdot
  rw [he] at k1
  unfold Includes.hasExtension
  rw [Bool.and_eq_true]
  refine ⟨by simpa using h2, ?_⟩
  rw [k1]
  cases hs : (splitName (Includes.filename d.name)).1 with
  | nil => exact absurd hs k2
  | cons c s => simp

theorem ext_filename {name : List Char} (h : Includes.hasExtension name = true) :
    Includes.filename name ≠ [] ∧ Includes.filename name ≠ ['.'] ∧ Includes.filename name ≠ ['.', '.'] := by
  unfold Includes.hasExtension at h
  rw [Bool.and_eq_true] at h
  refine ⟨?_, ?_, by simpa using h.1⟩ <;> (intro he; rw [he] at h; simp at h)

theorem filename_bare {name : List Char} (h : '/' ∉ name) : Includes.filename name = name := by
  unfold Includes.filename
  have hall : ∀ c ∈ name.reverse, decide (c ≠ '/') = true := by
    intro c hc
    simp only [decide_eq_true_eq]
    rintro rfl
    exact h (List.mem_reverse.mp hc)
  have := List.takeWhile_append_of_pos (l₂ := []) hall
  rw [List.append_nil, List.takeWhile_nil, List.append_nil] at this
  rw [this, List.reverse_reverse]

/-- The search predicate is right. -/
theorem isIncluded_iff (ho : Orderly D P) {search : List Path} (hse : Searches D P search) {own : Path} (hown : ∀ n ∈ own, n ≠ [] ∧ '/' ∉ n) {d : Directive}
    (hc : Clear D P search own d) (hx : Includes.hasExtension d.name = true) {e : Entry} (he : e ∈ D.files) :
    isIncluded D P own (parse (Props.Includes.located (text own) d.name)) e = true ↔ Refers D search own d e.path := by
  have hfile : IsFile D e.path := ⟨e, he, rfl⟩
  obtain ⟨hf1, hf2, hf3⟩ := ext_filename hx
  by_cases hs : '/' ∈ d.name
  · rw [located_slash hs]
    by_cases ha : d.name.head? = some '/'
    · have habs : (parse d.name).absolute = true := by simp [parse, ha]
      unfold isIncluded
      rw [if_pos habs, beq_iff_eq]
      have hpl : Plain (parse d.name).elements := hc.absolute ha _ ((elements_iff _ _).mpr rfl)
      constructor
      · intro hq
        have hw := file_walk (P := P) (dir := []) (els := (parse d.name).elements) ho (by rw [List.nil_append, ← hq]; exact hfile)
        rw [List.nil_append, ← hq] at hw
        refine ⟨[], [], [], ?_, namesFile_iff.mpr ⟨?_, hfile, hf1⟩, by simp⟩
        · unfold places; rw [if_pos ha]; rfl
        · rw [hq] at hw ⊢; exact hw
      · intro h
        obtain ⟨p, hp, hn⟩ := refers_place h
        unfold places at hp
        rw [if_pos ha, List.mem_singleton] at hp
        subst hp
        exact walk_plain (namesFile_iff.mp hn).1 hpl
    · have habs : (parse d.name).absolute = false := by simp [parse, ha]
      have hiff : isIncluded D P own (parse d.name) e = true ↔ (∃ r ∈ roots P, e.path = r ++ (parse d.name).elements) ∨ Walk D own (parse d.name).elements e.path := by
        unfold isIncluded roots
        rw [habs]
        simp only [Bool.false_eq_true, if_false, Bool.or_eq_true, beq_iff_eq, List.any_eq_true, List.mem_cons, exists_eq_or_imp]
        rw [canonical_iff]
        constructor
        · rintro (((h | h) | ⟨r, hr, h⟩) | h)
          · exact .inl (.inl h)
          · exact .inl (.inr (.inl h))
          · exact .inl (.inr (.inr ⟨r, hr, h.symm⟩))
          · exact .inr h.1
        · rintro ((h | h | ⟨r, hr, h⟩) | h)
          · exact .inl (.inl (.inl h))
          · exact .inl (.inl (.inr h))
          · exact .inl (.inr ⟨r, hr, h.symm⟩)
          · exact .inr ⟨h, .inr hfile⟩
      rw [hiff]
      have hu : ∀ p ∈ own :: search, NamesFile D p d.name e.path → Refers D search own d e.path := by
        intro p hp hn
        have huniq : ∀ p' ∈ places search own d, ∀ q', NamesFile D p' d.name q' → q' = e.path :=
          fun p' hp' q' hn' => hc.unambiguous p' (places_sub ha p' hp') p hp q' e.path hn' hn
        have hpl : ∀ p ∈ search, p ∈ places search own d := by
          intro p hp
          unfold places
          rw [if_neg ha]
          split
          · exact hp
          · simp [hp]
        rcases List.mem_cons.mp hp with rfl | hp
        · by_cases hang : d.angled = true
          · obtain ⟨p', hp', hn'⟩ := hc.angled hang _ hn
            exact refers_of_place huniq (hpl p' hp') hn'
          · refine refers_of_place huniq (p := p) ?_ hn
            unfold places
            rw [if_neg ha, if_neg hang]
            simp
        · exact refers_of_place huniq (hpl p hp) hn
      constructor
      · rintro (⟨r, hr, hq⟩ | hw)
        · have hw := file_walk (P := P) (dir := r) (els := (parse d.name).elements) ho (by rw [← hq]; exact hfile)
          rw [← hq] at hw
          exact hu r (by simp [hse.1 r hr]) (namesFile_iff.mpr ⟨hw, hfile, hf1⟩)
        · exact hu own (by simp) (namesFile_iff.mpr ⟨hw, hfile, hf1⟩)
      · intro h
        obtain ⟨p, hp, hn⟩ := refers_place h
        rcases List.mem_cons.mp (places_sub ha p hp) with rfl | hp
        · exact .inr (namesFile_iff.mp hn).1
        · by_cases hpl : Plain (parse d.name).elements
          · refine .inl ⟨p, ?_, walk_plain (namesFile_iff.mp hn).1 hpl⟩
            rcases hse.2 p hp with h | h
            · exact h
            · exact absurd (filename_dir_mem hn) h
          · have hd : ['.'] ∈ (parse d.name).elements ∨ ['.', '.'] ∈ (parse d.name).elements := by
              by_cases h1 : ['.'] ∈ (parse d.name).elements
              · exact .inl h1
              · by_cases h2 : ['.', '.'] ∈ (parse d.name).elements
                · exact .inr h2
                · exact absurd ⟨h1, h2⟩ hpl
            exact .inr (namesFile_iff.mp (hc.dots _ ((elements_iff _ _).mpr rfl) hd p hp _ hn)).1
  · have hne : d.name ≠ [] := by
      intro h; rw [h] at hf1; exact hf1 rfl
    have hb := filename_bare hs
    rw [hb] at hf1 hf2 hf3
    have ha : d.name.head? ≠ some '/' := fun h => hs (List.mem_of_head? h)
    rw [parse_located_bare hown hs hne]
    have hels : (parse d.name).elements = [d.name] := by simp [parse, pieces_plain hs, hne]
    have hpl : Plain [d.name] := ⟨by simpa using fun h => hf2 h.symm, by simpa using fun h => hf3 h.symm⟩
    unfold isIncluded
    rw [if_pos rfl, beq_iff_eq]
    dsimp only
    constructor
    · intro hq
      have hw := file_walk (P := P) (dir := own) (els := [d.name]) ho (by rw [← hq]; exact hfile)
      rw [← hq] at hw
      have hn : NamesFile D own d.name e.path := namesFile_iff.mpr ⟨by rw [hels]; exact hw, hfile, by rw [hb]; exact hf1⟩
      have huniq : ∀ p' ∈ places search own d, ∀ q', NamesFile D p' d.name q' → q' = e.path :=
        fun p' hp' q' hn' => hc.unambiguous p' (places_sub ha p' hp') own (by simp) q' e.path hn' hn
      by_cases hang : d.angled = true
      · obtain ⟨p', hp', hn'⟩ := hc.angled hang _ hn
        refine refers_of_place huniq (p := p') ?_ hn'
        unfold places
        rw [if_neg ha, if_pos hang]
        exact hp'
      · refine refers_of_place huniq (p := own) ?_ hn
        unfold places
        rw [if_neg ha, if_neg hang]
        simp
    · intro h
      obtain ⟨p, hp, hn⟩ := refers_place h
      have hn : NamesFile D own d.name e.path := by
        rcases List.mem_cons.mp (places_sub ha p hp) with rfl | hp
        · exact hn
        · exact hc.bare hs p hp _ hn
      have := (namesFile_iff.mp hn).1
      rw [hels] at this
      exact walk_plain this hpl

/-! ### The search -/

theorem findFrom_some {α : Type} {p : α → Bool} : ∀ {l : List α} {i j : Nat}, findFrom p i l = some j → ∃ k a, j = i + k ∧ l[k]? = some a ∧ p a = true
  | [], i, j, h => by simp [findFrom] at h
  | a :: l, i, j, h => by
    unfold findFrom at h
    split at h
    · rename_i ha
      cases h
      exact ⟨0, a, rfl, rfl, ha⟩
    · obtain ⟨k, b, h1, h2, h3⟩ := findFrom_some h
      exact ⟨k + 1, b, by omega, h2, h3⟩

theorem findFrom_none {α : Type} {p : α → Bool} : ∀ {l : List α} {i : Nat}, findFrom p i l = none → ∀ a ∈ l, p a = false
  | [], _, _, a, ha => by simp at ha
  | b :: l, i, h, a, ha => by
    unfold findFrom at h
    split at h
    · cases h
    · rename_i hb
      rcases List.mem_cons.mp ha with rfl | ha
      · simpa using hb
      · exact findFrom_none h a ha

theorem find_node {dir : Path} {inc : Included} {j : Nat} (h : find D P (nodes D P) dir inc = .node j) :
    ∃ e, (nodes D P)[j]? = some e ∧ isIncluded D P dir inc e = true := by
  unfold find at h
  dsimp only at h
  split at h
  · cases h
  · split at h
    · rename_i j' hf
      cases h
      obtain ⟨k, a, rfl, h2, h3⟩ := findFrom_some hf
      rw [List.getElem?_take] at h2
      split at h2
      · rw [List.getElem?_drop] at h2
        exact ⟨a, h2, h3⟩
      · cases h2
    · cases h

theorem range_mem {n : Name} {i : Nat} {e : Entry} (h : (nodes D P)[i]? = some e) (hn : filename e.path = n) :
    (equalRange (nodes D P) n).1 ≠ (equalRange (nodes D P) n).2 ∧
      e ∈ ((nodes D P).drop (equalRange (nodes D P) n).1).take ((equalRange (nodes D P) n).2 - (equalRange (nodes D P) n).1) := by
  have := ((equalRange_spec (nodes_sorted D P) n).1 i e h).mp hn
  refine ⟨by omega, ?_⟩
  refine List.mem_of_getElem? (i := i - (equalRange (nodes D P) n).1) ?_
  rw [List.getElem?_take, if_pos (by omega), List.getElem?_drop, ← h]
  congr 1
  omega

theorem find_exists {dir : Path} {inc : Included} {i : Nat} {e : Entry} (h : (nodes D P)[i]? = some e) (hn : filename e.path = filename inc.elements)
    (hi : isIncluded D P dir inc e = true) : ∃ j, find D P (nodes D P) dir inc = .node j := by
  obtain ⟨h1, h2⟩ := range_mem h hn
  unfold find
  dsimp only
  rw [if_neg h1]
  split
  · exact ⟨_, rfl⟩
  · rename_i hf
    rw [findFrom_none hf e h2] at hi
    cases hi

/-- What counts as external: no file has this name. -/
theorem find_external {dir : Path} {inc : Included} : find D P (nodes D P) dir inc = .external ↔ ∀ e ∈ nodes D P, filename e.path ≠ filename inc.elements := by
  constructor
  · intro h e he hn
    obtain ⟨i, hi⟩ := List.getElem?_of_mem he
    obtain ⟨h1, _⟩ := range_mem hi hn
    unfold find at h
    dsimp only at h
    rw [if_neg h1] at h
    split at h <;> cases h
  · intro h
    unfold find
    dsimp only
    split
    · rfl
    · rename_i hne
      split
      · rename_i j hf
        obtain ⟨k, a, rfl, h2, h3⟩ := findFrom_some hf
        rw [List.getElem?_take] at h2
        split at h2
        · rename_i hk
          rw [List.getElem?_drop] at h2
          have := ((equalRange_spec (nodes_sorted D P) (filename inc.elements)).1 _ a h2).mpr ⟨by omega, by omega⟩
          exact absurd this (h a (List.mem_of_getElem? h2))
        · cases h2
      · -- the range would be empty
        exfalso
        have hsp := equalRange_spec (nodes_sorted D P) (filename inc.elements)
        rcases Nat.lt_trichotomy (equalRange (nodes D P) (filename inc.elements)).1 (equalRange (nodes D P) (filename inc.elements)).2 with hlt | heq | hgt
        · have hl : (equalRange (nodes D P) (filename inc.elements)).1 < (nodes D P).length := by have := hsp.2.1; omega
          have := (hsp.1 _ _ (List.getElem?_eq_getElem hl)).mpr ⟨Nat.le_refl _, hlt⟩
          exact h _ (List.getElem_mem hl) this
        · exact hne heq
        · have := hsp.2.2; omega

theorem names_directives (items : List Item) : names items = (directives items).map (·.name) := by
  induction items with
  | nil => rfl
  | cons i l ih => cases i <;> simp [names, directives, ih]

end

end Verif.Resolve
