import Verif.Lemmas.ResolveRefers
import Verif.Props.Dependency
import Mathlib.Data.List.Lex
import Mathlib.Data.Char
/- C104: the files to which includes refer, and the tests which are run because of them. -/
namespace Verif.Props
open Verif.Resolve Verif.Spec.Resolve
open Verif.Dependency (File findStaleTests)
open Verif.Spec.Stale (DependsOn TestChangedAfter NeedsToRun Tidy Layered)
open Verif.Props.Includes (GoodCutoff located HasExtension)

namespace Resolve

section
variable {D : Disk} {P : Project} {search : List Path} {cutoff : List Char} {C : Contents}

theorem entry_inProject {e : Entry} (h : e ∈ nodes D P) : e ∈ D.files ∧ InProject D P e.path := by
  have he := (mem_nodes.mp h).1
  exact ⟨he, (mem_nodes_iff he).mp h⟩

theorem own_names (ho : Orderly D P) {p : Path} (h : IsFile D p) : ∀ n ∈ p.dropLast, n ≠ [] ∧ '/' ∉ n := fun n hn =>
  have := (isFile_names ho h).2 n (List.dropLast_subset _ hn)
  ⟨this.1, this.2.2.2⟩

theorem includedBy_mem (hcut : GoodCutoff cutoff) (hr : Readable D P search cutoff C) {e : Entry} (he : e ∈ D.files) (hp : InProject D P e.path) {inc : Included} :
    inc ∈ includedBy cutoff e ↔ ∃ d ∈ directives (C e.path), Includes.hasExtension d.name = true ∧ inc = parse (located (text e.path.dropLast) d.name) := by
  unfold includedBy
  rw [hr.content e he hp, C56_finds_partial _ cutoff hcut _ (hr.wellFormed _ hp) (hr.tame _ hp), names_directives]
  simp only [List.map_map, List.mem_map, List.mem_filter, Function.comp_apply]
  constructor
  · rintro ⟨n, ⟨⟨d, hd, rfl⟩, hx⟩, rfl⟩; exact ⟨d, hd, hx, rfl⟩
  · rintro ⟨d, hd, hx, rfl⟩; exact ⟨_, ⟨⟨d, hd, rfl⟩, hx⟩, rfl⟩

theorem filename_parse_located {own : Path} (hown : ∀ n ∈ own, n ≠ [] ∧ '/' ∉ n) {name : List Char} (hx : Includes.hasExtension name = true) :
    filename (parse (located (text own) name)).elements = Includes.filename name := by
  obtain ⟨hf, _, _⟩ := ext_filename hx
  by_cases hs : '/' ∈ name
  · rw [located_slash hs]
    obtain ⟨init, hi⟩ := elements_last hf
    rw [hi, filename_append]
  · have hne : name ≠ [] := by rintro rfl; exact hf rfl
    rw [parse_located_bare hown hs hne, filename_append, filename_bare hs]

theorem includes_iff (ho : Orderly D P) (hse : Searches D P search) (hcut : GoodCutoff cutoff) (hr : Readable D P search cutoff C) {x y : Nat} {e f : Entry}
    (hx : (nodes D P)[x]? = some e) (hy : (nodes D P)[y]? = some f) :
    y ∈ includesOf D P cutoff (nodes D P) e ↔ IncludesFile D search C e.path f.path := by
  obtain ⟨he, hp⟩ := entry_inProject (List.mem_of_getElem? hx)
  obtain ⟨hfl, hfp⟩ := entry_inProject (List.mem_of_getElem? hy)
  have hown := own_names ho hp.1
  unfold includesOf IncludesFile
  simp only [List.mem_filterMap]
  constructor
  · rintro ⟨inc, hinc, hpos⟩
    obtain ⟨d, hd, hext, rfl⟩ := (includedBy_mem hcut hr he hp).mp hinc
    refine ⟨hp.1, d, hd, ?_⟩
    cases hf : find D P (nodes D P) e.path.dropLast (parse (located (text e.path.dropLast) d.name)) with
    | node j =>
      rw [hf] at hpos
      cases hpos
      obtain ⟨f', hf', hi⟩ := find_node hf
      rw [hy] at hf'
      cases hf'
      exact (isIncluded_iff ho hse hown (hr.clear _ hp d hd) hext hfl).mp hi
    | nothing => rw [hf] at hpos; cases hpos
    | external => rw [hf] at hpos; cases hpos
  · rintro ⟨_, d, hd, href⟩
    have hc := hr.clear _ hp d hd
    have hext := refers_extension ho hc href
    refine ⟨_, (includedBy_mem hcut hr he hp).mpr ⟨d, hd, hext, rfl⟩, ?_⟩
    have hi := (isIncluded_iff ho hse hown hc hext hfl).mpr href
    obtain ⟨p, _, hn⟩ := refers_place href
    have hname : filename f.path = filename (parse (located (text e.path.dropLast) d.name)).elements := by
      rw [filename_parse_located hown hext, (namesFile_last ho hn).1]
    obtain ⟨j, hj⟩ := find_exists hy hname hi
    rw [hj]
    obtain ⟨f', hf', hi'⟩ := find_node hj
    have href' := (isIncluded_iff ho hse hown hc hext (entry_inProject (List.mem_of_getElem? hf')).1).mp hi'
    rw [nodes_index ho hf' hy (refers_unique href' href)]
    rfl

/-- Whatever is included is a file of the project. -/
theorem included_inProject (hr : Readable D P search cutoff C) {x y : Path} (hx : InProject D P x) (h : IncludesFile D search C x y) : InProject D P y := by
  obtain ⟨_, d, hd, href⟩ := h
  obtain ⟨p, hp, hn⟩ := refers_place href
  have hc := hr.clear _ hx d hd
  refine hc.inside p ?_ y hn
  by_cases ha : d.name.head? = some '/'
  · unfold places at hp
    rw [if_pos ha] at hp
    simp only [List.mem_singleton] at hp
    subst hp; simp
  · exact List.mem_cons_of_mem _ (places_sub ha p hp)

theorem inProject_node {p : Path} (h : InProject D P p) : ∃ (i : Nat) (e : Entry), (nodes D P)[i]? = some e ∧ e.path = p := by
  obtain ⟨⟨e, he, rfl⟩, _⟩ := id h
  obtain ⟨i, hi⟩ := List.getElem?_of_mem ((mem_nodes_iff he).mpr h)
  exact ⟨i, e, hi, rfl⟩

/-! ### The files for the analysis -/

theorem analysed_get {x : Nat} {g : File Path} : (analysed D P cutoff)[x]? = some g ↔ ∃ e, (nodes D P)[x]? = some e ∧
    g = ⟨stemNumber (nodes D P) (splitName (filename e.path)).1, isCpp e.path, inRepo e.path P.tests, e.path.drop P.tests.length, e.time,
      includesOf D P cutoff (nodes D P) e, e.materials⟩ := by
  unfold analysed
  rw [List.getElem?_map, Option.map_eq_some_iff]
  constructor
  · rintro ⟨e, h, rfl⟩; exact ⟨e, h, rfl⟩
  · rintro ⟨e, h, rfl⟩; exact ⟨e, h, rfl⟩

theorem stemNumber_inj {ns : List Entry} {a b : Entry} (ha : a ∈ ns)
    (h : stemNumber ns (splitName (filename a.path)).1 = stemNumber ns (splitName (filename b.path)).1) : (splitName (filename a.path)).1 = (splitName (filename b.path)).1 := by
  unfold stemNumber at h
  have h1 : ns.findIdx (fun e => (splitName (filename e.path)).1 == (splitName (filename a.path)).1) < ns.length :=
    List.findIdx_lt_length_of_exists ⟨a, ha, by simp⟩
  have k1 := List.findIdx_getElem (w := h1)
  have h2 := h1
  rw [h] at h2
  have k2 := List.findIdx_getElem (w := h2)
  simp only [beq_iff_eq] at k1 k2
  rw [← k1, ← k2]
  simp only [h]

theorem stale_includes_iff (ho : Orderly D P) (hse : Searches D P search) (hcut : GoodCutoff cutoff) (hr : Readable D P search cutoff C) {x y : Nat} {e f : Entry}
    (hx : (nodes D P)[x]? = some e) (hy : (nodes D P)[y]? = some f) :
    Spec.Stale.Includes (analysed D P cutoff) x y ↔ IncludesFile D search C e.path f.path := by
  rw [← includes_iff ho hse hcut hr hx hy]
  unfold Spec.Stale.Includes
  constructor
  · rintro ⟨g, hg, hm⟩
    obtain ⟨e', he', rfl⟩ := analysed_get.mp hg
    rw [hx] at he'; cases he'
    exact hm
  · intro h
    exact ⟨_, analysed_get.mpr ⟨e, hx, rfl⟩, h⟩

theorem stale_includes_range {x y : Nat} (h : Spec.Stale.Includes (analysed D P cutoff) x y) : ∃ e f, (nodes D P)[x]? = some e ∧ (nodes D P)[y]? = some f := by
  obtain ⟨g, hg, hm⟩ := h
  obtain ⟨e, he, rfl⟩ := analysed_get.mp hg
  refine ⟨e, ?_⟩
  unfold includesOf at hm
  simp only [List.mem_filterMap] at hm
  obtain ⟨inc, _, hpos⟩ := hm
  cases hf : find D P (nodes D P) e.path.dropLast inc with
  | node j =>
    rw [hf] at hpos
    cases hpos
    obtain ⟨f, hf', _⟩ := find_node hf
    exact ⟨f, he, hf'⟩
  | nothing => rw [hf] at hpos; cases hpos
  | external => rw [hf] at hpos; cases hpos

theorem cpp_or_header {e : Entry} (h : e ∈ nodes D P) : isCpp e.path = true ∨ isHeader e.path = true := (mem_nodes.mp h).2.2

/-- A header comes immediately after the source file of the same name. -/
theorem header_next (ho : Orderly D P) (hn : WellNamed D P search C) {x y : Nat} {e f : Entry} {stem : Name} (hx : (nodes D P)[x]? = some e) (hy : (nodes D P)[y]? = some f)
    (hs : SourceFile e.path stem) (hh : HeaderFile f.path stem) : y = x + 1 := by
  have hep := (entry_inProject (List.mem_of_getElem? hx)).2
  have hfp := (entry_inProject (List.mem_of_getElem? hy)).2
  have hsplit1 : ∃ t, filename e.path = (stem ++ ['.']) ++ t ∧ ∃ u, t = 'c' :: u := by
    obtain ⟨dir, x, hx, hp, _⟩ := hs
    rw [hp, filename_append]
    simp only [List.mem_cons, List.not_mem_nil, or_false] at hx
    refine ⟨x.toList, by simp, ?_⟩
    rcases hx with rfl | rfl | rfl
    · exact ⟨['p', 'p'], by decide⟩
    · exact ⟨['c'], by decide⟩
    · exact ⟨['x', 'x'], by decide⟩
  have hsplit2 : ∃ t, filename f.path = (stem ++ ['.']) ++ t ∧ ∃ u, t = 'h' :: u := by
    obtain ⟨dir, x, hx, hp, _⟩ := hh
    rw [hp, filename_append]
    simp only [List.mem_cons, List.not_mem_nil, or_false] at hx
    refine ⟨x.toList, by simp, ?_⟩
    rcases hx with rfl | rfl | rfl
    · exact ⟨['p', 'p'], by decide⟩
    · exact ⟨[], by decide⟩
    · exact ⟨['x', 'x'], by decide⟩
  obtain ⟨t1, ht1, u1, rfl⟩ := hsplit1
  obtain ⟨t2, ht2, u2, rfl⟩ := hsplit2
  have hle : ∀ (i j : Nat) (a b : Entry), i < j → (nodes D P)[i]? = some a → (nodes D P)[j]? = some b → nameLess (filename b.path) (filename a.path) = false := by
    intro i j a b hij ha hb
    obtain ⟨hi, rfl⟩ := List.getElem?_eq_some_iff.mp ha
    obtain ⟨hj, rfl⟩ := List.getElem?_eq_some_iff.mp hb
    have := List.pairwise_iff_getElem.mp (nodes_sorted D P) i j hi hj hij
    rw [fileLess_eq, Bool.or_eq_false_iff] at this
    exact this.1
  have hlt : nameLess (filename e.path) (filename f.path) = true := by
    rw [ht1, ht2, nameLess_append]; rfl
  have hxy : x < y := by
    rcases Nat.lt_trichotomy x y with h | h | h
    · exact h
    · subst h
      rw [hx] at hy
      cases hy
      rw [nameLess_strict.irrefl] at hlt; cases hlt
    · rw [hle y x f e h hy hx] at hlt; cases hlt
  refine Classical.byContradiction fun hne => ?_
  have hlen : x + 1 < (nodes D P).length := by
    have := (List.getElem?_eq_some_iff.mp hy).1
    omega
  have hz := List.getElem?_eq_getElem hlen
  generalize (nodes D P)[x + 1] = z at hz
  have h1 := hle x (x + 1) e z (by omega) hx hz
  have h2 := hle (x + 1) y z f (by omega) hz hy
  rw [ht1] at h1
  rw [ht2] at h2
  obtain ⟨rest, hrest⟩ := prefix_between _ _ _ _ h1 h2
  have hzp := (entry_inProject (List.mem_of_getElem? hz)).2
  -- the file in between has the same stem
  have hstem : ∀ st : Name, '.' ∉ st → ∀ w, filename z.path = st ++ '.' :: w → st = stem := by
    intro st hst w hw
    have hd : '.' ∉ stem := hn.stems e.path stem hep (.inl hs)
    rw [hw, List.append_assoc] at hrest
    clear hw
    revert hrest
    have : ∀ (a b : Name), '.' ∉ a → '.' ∉ b → ∀ r w : Name, a ++ (['.'] ++ r) = b ++ '.' :: w → b = a := by
      intro a
      induction a with
      | nil =>
        intro b _ hb r w h
        cases b with
        | nil => rfl
        | cons c b =>
          have := (List.cons.inj h).1
          subst this
          exact absurd (List.mem_cons_self) hb
      | cons c a ih =>
        intro b ha hb r w h
        cases b with
        | nil =>
          have := (List.cons.inj h).1
          subst this
          exact absurd (List.mem_cons_self) ha
        | cons c' b =>
          obtain ⟨rfl, h'⟩ := List.cons.inj h
          rw [ih b (fun h => ha (List.mem_cons_of_mem _ h)) (fun h => hb (List.mem_cons_of_mem _ h)) r w h']
    exact fun hrest => this stem st hd hst rest w hrest
  rcases cpp_or_header (List.mem_of_getElem? hz) with hc | hc
  · have hsz : SourceFile z.path (splitName (filename z.path)).1 := source_iff.mpr ⟨rfl, hc⟩
    have hst := hn.stems _ _ hzp (.inl hsz)
    obtain ⟨dir, x', _, hp, _⟩ := id hsz
    have := hstem _ hst x'.toList (by conv => lhs; rw [hp]; rw [filename_append])
    rw [this] at hsz
    have := nodes_index ho hx hz (hn.sources _ _ _ hep hzp hs hsz)
    omega
  · have hsz : HeaderFile z.path (splitName (filename z.path)).1 := header_iff.mpr ⟨rfl, hc⟩
    have hst := hn.stems _ _ hzp (.inr hsz)
    obtain ⟨dir, x', _, hp, _⟩ := id hsz
    have := hstem _ hst x'.toList (by conv => lhs; rw [hp]; rw [filename_append])
    rw [this] at hsz
    have := nodes_index ho hy hz (hn.headers _ _ _ hfp hzp hh hsz)
    omega

theorem analysed_tidy (ho : Orderly D P) (hse : Searches D P search) (hcut : GoodCutoff cutoff) (hr : Readable D P search cutoff C) (hn : WellNamed D P search C)
    {layer : Path → Nat} (hl : InLayers D P search C layer) : Tidy (analysed D P cutoff) := by
  refine ⟨?_, ?_, ?_⟩
  · intro x y h
    obtain ⟨e, f, _, hf⟩ := stale_includes_range h
    unfold analysed
    rw [List.length_map]
    exact (List.getElem?_eq_some_iff.mp hf).1
  · intro x g y k hg hc hy hk hst
    obtain ⟨e, he, rfl⟩ := analysed_get.mp hg
    obtain ⟨f, hf, rfl⟩ := analysed_get.mp hk
    have hinc := (includes_iff ho hse hcut hr he hf).mp hy
    have hep := (entry_inProject (List.mem_of_getElem? he)).2
    have hfp := (entry_inProject (List.mem_of_getElem? hf)).2
    dsimp only at hc hst ⊢
    have hst := stemNumber_inj (List.mem_of_getElem? hf) hst
    have hse' : SourceFile e.path (splitName (filename e.path)).1 := source_iff.mpr ⟨rfl, hc⟩
    cases hcf : isCpp f.path with
    | true =>
      have : SourceFile f.path (splitName (filename e.path)).1 := source_iff.mpr ⟨hst, hcf⟩
      have := hn.sources _ _ _ hep hfp hse' this
      have hlt := hl.1 _ _ hep hinc
      rw [this] at hlt
      exact absurd hlt (Nat.lt_irrefl _)
    | false =>
      have hh : isHeader f.path = true := by
        rcases cpp_or_header (List.mem_of_getElem? hf) with h | h
        · rw [hcf] at h; cases h
        · exact h
      exact ⟨header_next ho hn he hf hse' (header_iff.mpr ⟨hst, hh⟩), rfl⟩
  · intro x g k hg hc hk hst
    obtain ⟨e, he, rfl⟩ := analysed_get.mp hg
    obtain ⟨f, hf, rfl⟩ := analysed_get.mp hk
    have hep := (entry_inProject (List.mem_of_getElem? he)).2
    have hfp := (entry_inProject (List.mem_of_getElem? hf)).2
    dsimp only at hc hst ⊢
    have hst := stemNumber_inj (List.mem_of_getElem? hf) hst
    have hse' : SourceFile e.path (splitName (filename e.path)).1 := source_iff.mpr ⟨rfl, hc⟩
    refine (includes_iff ho hse hcut hr he hf).mpr ?_
    rcases cpp_or_header (List.mem_of_getElem? hf) with h | h
    · have := nodes_index ho he hf (hn.sources _ _ _ hep hfp hse' (source_iff.mpr ⟨hst, h⟩))
      omega
    · exact hn.own _ _ _ hep hfp hse' (header_iff.mpr ⟨hst, h⟩)

theorem sourceOf_iff (ho : Orderly D P) (hse : Searches D P search) (hcut : GoodCutoff cutoff) (hr : Readable D P search cutoff C) {x y : Nat} {e f : Entry}
    (hx : (nodes D P)[x]? = some e) (hy : (nodes D P)[y]? = some f) :
    Spec.Stale.SourceOf (analysed D P cutoff) x y ↔ ∃ stem, HeaderFile e.path stem ∧ SourceFile f.path stem ∧ IncludesFile D search C f.path e.path := by
  unfold Spec.Stale.SourceOf
  constructor
  · rintro ⟨g, k, hg, hk, h1, h2, h3, h4⟩
    obtain ⟨e', he, rfl⟩ := analysed_get.mp hg
    obtain ⟨f', hf, rfl⟩ := analysed_get.mp hk
    rw [hx] at he; cases he
    rw [hy] at hf; cases hf
    dsimp only at h1 h2 h3 h4
    have hst := stemNumber_inj (List.mem_of_getElem? hx) h3
    have hh : isHeader e.path = true := by
      rcases cpp_or_header (List.mem_of_getElem? hx) with h | h
      · rw [h1] at h; cases h
      · exact h
    exact ⟨_, header_iff.mpr ⟨rfl, hh⟩, source_iff.mpr ⟨hst.symm, h2⟩, (includes_iff ho hse hcut hr hy hx).mp h4⟩
  · rintro ⟨stem, hh, hs, hi⟩
    refine ⟨_, _, analysed_get.mpr ⟨e, hx, rfl⟩, analysed_get.mpr ⟨f, hy, rfl⟩, ?_, (source_iff.mp hs).2, ?_, (includes_iff ho hse hcut hr hy hx).mpr hi⟩
    · dsimp only
      cases hc : isCpp e.path with
      | false => rfl
      | true => have := not_both hc; rw [(header_iff.mp hh).2] at this; cases this
    · dsimp only
      rw [(header_iff.mp hh).1, (source_iff.mp hs).1]

theorem analysed_layered (ho : Orderly D P) (hse : Searches D P search) (hcut : GoodCutoff cutoff) (hr : Readable D P search cutoff C)
    {layer : Path → Nat} (hl : InLayers D P search C layer) :
    Layered (analysed D P cutoff) (fun i => match (nodes D P)[i]? with | some e => layer e.path | none => 0) := by
  refine ⟨?_, ?_⟩
  · intro x y h
    obtain ⟨e, f, he, hf⟩ := stale_includes_range h
    simp only [he, hf]
    exact hl.1 _ _ (entry_inProject (List.mem_of_getElem? he)).2 ((stale_includes_iff ho hse hcut hr he hf).mp h)
  · intro x s y hs hi hne
    obtain ⟨g, k, hg, hk, _⟩ := id hs
    obtain ⟨e, he, rfl⟩ := analysed_get.mp hg
    obtain ⟨_, f, hs', hf⟩ := stale_includes_range hi
    obtain ⟨stem, h1, h2, h3⟩ := (sourceOf_iff ho hse hcut hr he hs').mp hs
    simp only [he, hf]
    refine hl.2 _ _ stem _ (entry_inProject (List.mem_of_getElem? hs')).2 h1 h2 h3 ((stale_includes_iff ho hse hcut hr hs' hf).mp hi) ?_
    intro heq
    exact hne (nodes_index ho hf he heq)

theorem dependsOn_iff (ho : Orderly D P) (hse : Searches D P search) (hcut : GoodCutoff cutoff) (hr : Readable D P search cutoff C) {x : Nat} {e : Entry}
    (hx : (nodes D P)[x]? = some e) (q : Path) :
    Needs D search C e.path q ↔ ∃ (y : Nat) (f : Entry), (nodes D P)[y]? = some f ∧ f.path = q ∧ DependsOn (analysed D P cutoff) x y := by
  constructor
  · intro h
    induction h with
    | self => exact ⟨x, e, hx, rfl, .self⟩
    | includes _ hi ih =>
      obtain ⟨y, f, hy, rfl, hd⟩ := ih
      obtain ⟨z, k, hz, rfl⟩ := inProject_node (included_inProject hr (entry_inProject (List.mem_of_getElem? hy)).2 hi)
      exact ⟨z, k, hz, rfl, .includes hd ((stale_includes_iff ho hse hcut hr hy hz).mpr hi)⟩
    | source _ hh hs hi ih =>
      obtain ⟨y, f, hy, rfl, hd⟩ := ih
      obtain ⟨z, k, hz, rfl⟩ := inProject_node (D := D) (P := P) ⟨hi.1, ho.within _ _ hi.1 (.inl hs), _, .inl hs⟩
      exact ⟨z, k, hz, rfl, .source hd ((sourceOf_iff ho hse hcut hr hy hz).mpr ⟨_, hh, hs, hi⟩)⟩
  · rintro ⟨y, f, hy, rfl, hd⟩
    suffices ∀ y, DependsOn (analysed D P cutoff) x y → ∀ f, (nodes D P)[y]? = some f → Needs D search C e.path f.path from this y hd f hy
    intro y hd
    induction hd with
    | self => intro f hf; rw [hx] at hf; cases hf; exact .self
    | includes _ hi ih =>
      intro f hf
      obtain ⟨k, _, hk, _⟩ := stale_includes_range hi
      exact .includes (ih k hk) ((stale_includes_iff ho hse hcut hr hk hf).mp hi)
    | source _ hs ih =>
      intro f hf
      obtain ⟨g, _, hg, _⟩ := id hs
      obtain ⟨k, hk, _⟩ := analysed_get.mp hg
      obtain ⟨stem, h1, h2, h3⟩ := (sourceOf_iff ho hse hcut hr hk hf).mp hs
      exact .source (ih k hk) h1 h2 h3

theorem needs_file (ho : Orderly D P) {x : Path} (hr : Readable D P search cutoff C) (hx : InProject D P x) {q : Path} (h : Needs D search C x q) : InProject D P q := by
  induction h with
  | self => exact hx
  | includes _ hi ih => exact included_inProject hr ih hi
  | source _ _ hs hi _ => exact ⟨hi.1, ho.within _ _ hi.1 (.inl hs), _, .inl hs⟩

theorem changed_iff (ho : Orderly D P) (hse : Searches D P search) (hcut : GoodCutoff cutoff) (hr : Readable D P search cutoff C) {x : Nat} {e : Entry}
    (hx : (nodes D P)[x]? = some e) (folder : Bool) (t : Nat) :
    TestChangedAfter (analysed D P cutoff) folder t x ↔ Changed D search C folder t e := by
  have hep := entry_inProject (List.mem_of_getElem? hx)
  unfold TestChangedAfter Changed
  constructor
  · rintro (⟨y, hd, g, hg, ht⟩ | ⟨g, m, hg, hm, h⟩)
    · obtain ⟨f, hf, rfl⟩ := analysed_get.mp hg
      exact .inl ⟨f, (entry_inProject (List.mem_of_getElem? hf)).1, (dependsOn_iff ho hse hcut hr hx _).mpr ⟨y, f, hf, rfl, hd⟩, ht⟩
    · obtain ⟨f, hf, rfl⟩ := analysed_get.mp hg
      rw [hx] at hf; cases hf
      exact .inr ⟨m, hm, h⟩
  · rintro (⟨f, hf, hn, ht⟩ | ⟨m, hm, h⟩)
    · obtain ⟨y, k, hk, hp, hd⟩ := (dependsOn_iff ho hse hcut hr hx _).mp hn
      have hkf : k = f := by
        have hkm := (entry_inProject (List.mem_of_getElem? hk)).1
        have := ho.once
        refine Classical.byContradiction fun hne => ?_
        obtain ⟨i, hi⟩ := List.getElem?_of_mem hkm
        obtain ⟨j, hj⟩ := List.getElem?_of_mem hf
        obtain ⟨hi', rfl⟩ := List.getElem?_eq_some_iff.mp hi
        obtain ⟨hj', rfl⟩ := List.getElem?_eq_some_iff.mp hj
        have hpw := List.pairwise_iff_getElem.mp this
        rcases Nat.lt_trichotomy i j with h | h | h
        · exact hpw i j hi' hj' h hp
        · subst h; exact hne rfl
        · exact hpw j i hj' hi' h hp.symm
      subst hkf
      exact .inl ⟨y, hd, _, analysed_get.mpr ⟨k, hk, rfl⟩, ht⟩
    · exact .inr ⟨_, m, analysed_get.mpr ⟨e, hx, rfl⟩, hm, h⟩

theorem unique_sub {α : Type} [DecidableEq α] : ∀ (l : List α) (a : α), a ∈ unique l ↔ a ∈ l
  | [], a => by simp [unique]
  | [b], a => by simp [unique]
  | b :: c :: l, a => by
    unfold unique
    split
    · rename_i h
      subst h
      rw [unique_sub (b :: l) a]
      simp
    · rw [List.mem_cons, unique_sub (c :: l) a, List.mem_cons (a := a) (b := b)]

theorem lex_cons_iff' {α : Type} {r : α → α → Prop} {a b : α} {l m : List α} : List.Lex r (a :: l) (b :: m) ↔ r a b ∨ (a = b ∧ List.Lex r l m) := by
  constructor
  · rintro (_ | h | h)
    · exact .inl ‹_›
    · exact .inr ⟨rfl, ‹_›⟩
  · rintro (h | ⟨rfl, h⟩)
    · exact .rel h
    · exact .cons h

theorem nameLess_iff {m n : Name} : nameLess m n = true ↔ NameBefore m n := by
  unfold NameBefore
  induction m generalizing n with
  | nil => cases n <;> simp [nameLess]
  | cons c m ih =>
    cases n with
    | nil => simp [nameLess]
    | cons d n =>
      unfold nameLess
      rw [lex_cons_iff']
      by_cases h : c.toNat < d.toNat
      · simp [h]
      · by_cases h' : d.toNat < c.toNat
        · rw [if_neg h, if_pos h']
          refine ⟨fun g => (Bool.false_ne_true g).elim, ?_⟩
          rintro (g | ⟨rfl, _⟩)
          · exact absurd g h
          · omega
        · obtain rfl : c = d := Char.toNat_inj.mp (by omega)
          simp [ih]

theorem pathLess_iff {p q : Path} : pathLess p q = true ↔ PathBefore p q := by
  unfold PathBefore
  induction p generalizing q with
  | nil => cases q <;> simp [pathLess]
  | cons m p ih =>
    cases q with
    | nil => simp [pathLess]
    | cons n q =>
      unfold pathLess
      rw [lex_cons_iff', ← nameLess_iff, ← ih]
      by_cases h : nameLess m n = true
      · simp [h]
      · by_cases h' : nameLess n m = true
        · rw [if_neg h, if_pos h']
          refine ⟨fun g => (Bool.false_ne_true g).elim, ?_⟩
          rintro (g | ⟨rfl, _⟩)
          · exact absurd g h
          · exact absurd h' h
        · have := nameLess_strict.tri m n (by simpa using h) (by simpa using h')
          subst this
          simp [nameLess_strict.irrefl]

theorem includedLess_iff {a b : Included} : includedLess a b = true ↔ IncludedBefore a b := by
  unfold includedLess IncludedBefore
  rw [← pathLess_iff]
  cases a.absolute <;> cases b.absolute <;> simp

theorem unique_sorted {l : List Included} (h : l.Pairwise fun a b => includedLess b a = false) : (unique l).Pairwise fun a b => includedLess a b = true := by
  induction l with
  | nil => exact .nil
  | cons a l ih =>
    cases l with
    | nil => exact List.pairwise_singleton _ _
    | cons b l =>
      rw [List.pairwise_cons] at h
      unfold unique
      split
      · exact ih h.2
      · rename_i hne
        rw [List.pairwise_cons]
        refine ⟨?_, ih h.2⟩
        intro c hc
        have hc := (unique_sub _ _).mp hc
        have hab : includedLess a b = true := by
          cases hq : includedLess a b with
          | true => rfl
          | false => exact absurd (includedLess_strict.tri _ _ hq (h.1 b (by simp))) hne
        rcases List.mem_cons.mp hc with rfl | hc
        · exact hab
        · exact includedLess_strict.lt_of_lt_of_not hab ((List.pairwise_cons.mp h.2).1 c hc)

end

end Resolve

open Resolve

variable {D : Disk} {P : Project} {search : List Path} {cutoff : List Char} {C : Contents}

/-- **C104** The files which are considered are those in the directories of the project which by their extension are source files or headers, each of them once, in the order of their names
and, for the same name, of their paths. -/
theorem C104_files (ho : Orderly D P) :
    (∀ e, e ∈ nodes D P ↔ e ∈ D.files ∧ InProject D P e.path) ∧ (nodes D P).Pairwise (fun a b => a.path ≠ b.path) ∧
      ∀ (i j : Nat) (a b : Entry), i < j → (nodes D P)[i]? = some a → (nodes D P)[j]? = some b →
        NameBefore (filename a.path) (filename b.path) ∨ (filename a.path = filename b.path ∧ PathBefore a.path b.path) := by
  refine ⟨fun e => ⟨fun h => entry_inProject h, fun h => (mem_nodes_iff h.1).mpr h.2⟩, nodes_pairwise ho, ?_⟩
  intro i j a b hij ha hb
  obtain ⟨hi, rfl⟩ := List.getElem?_eq_some_iff.mp ha
  obtain ⟨hj, rfl⟩ := List.getElem?_eq_some_iff.mp hb
  have h1 := List.pairwise_iff_getElem.mp (nodes_sorted D P) i j hi hj hij
  have h2 := List.pairwise_iff_getElem.mp (nodes_pairwise ho) i j hi hj hij
  rw [fileLess_eq, Bool.or_eq_false_iff] at h1
  by_cases hn : filename (nodes D P)[i].path = filename (nodes D P)[j].path
  · refine .inr ⟨hn, ?_⟩
    have h3 := h1.2
    rw [hn] at h3
    simp only [beq_self_eq_true, Bool.true_and] at h3
    cases hq : pathLess (nodes D P)[i].path (nodes D P)[j].path with
    | true => exact pathLess_iff.mp hq
    | false => exact absurd (pathLess_strict.tri _ _ hq h3) h2
  · refine .inl ?_
    cases hq : nameLess (filename (nodes D P)[i].path) (filename (nodes D P)[j].path) with
    | true => exact nameLess_iff.mp hq
    | false => exact absurd (nameLess_strict.tri _ _ hq h1.1) hn

/-- **C104 (part)** If the texts are readable and the directives clear then a file of the project is taken to include precisely those files to which, for a compiler, its directives refer.
What is missing: directives which are not clear, see the violations. -/
theorem C104_includes_partial (ho : Orderly D P) (hse : Searches D P search) (hcut : GoodCutoff cutoff) (hr : Readable D P search cutoff C) {x y : Nat} {e f : Entry}
    (hx : (nodes D P)[x]? = some e) (hy : (nodes D P)[y]? = some f) :
    y ∈ includesOf D P cutoff (nodes D P) e ↔ IncludesFile D search C e.path f.path := includes_iff ho hse hcut hr hx hy

/-- **C104** A header comes immediately after the source file of the same name, as the comment in the code claims, if files are well named. -/
theorem C104_header_next (ho : Orderly D P) (hn : WellNamed D P search C) {x y : Nat} {e f : Entry} {stem : Name} (hx : (nodes D P)[x]? = some e) (hy : (nodes D P)[y]? = some f)
    (hs : SourceFile e.path stem) (hh : HeaderFile f.path stem) : y = x + 1 := header_next ho hn hx hy hs hh

/-- **C104 (part)** From the texts of the files to the selection of tests: precisely those tests are selected which have to be run, because they, or a file on which they depend through what a
compiler includes, or their materials, have changed.  What is missing: directives which are not clear, and files which are not well named or not in layers, see the violations. -/
theorem C104_selected_partial {sort : List Path → List Path} (hsort : ∀ l, (sort l).Perm l) (ho : Orderly D P) (hse : Searches D P search) (hcut : GoodCutoff cutoff)
    (hr : Readable D P search cutoff C) (hn : WellNamed D P search C) {layer : Path → Nat} (hl : InLayers D P search C layer) {prune : Nat} {exe : Option Nat}
    (hexe : ∀ e ∈ D.files, ∀ t, exe = some t → e.time < t) {passes : Option (List Path × Nat)} (hp : ∀ ps stamp, passes = some (ps, stamp) → ps.Pairwise (· ≤ ·)) :
    ∃ r, findStaleTests sort prune exe passes (analysed D P cutoff) = .ok r ∧
      ∀ k, k ∈ r ↔ ∃ e ∈ D.files, IsTest P e ∧ e.path = P.tests ++ k ∧ MustRun D search C prune passes e k := by
  obtain ⟨r, h1, h2⟩ := C43_selected_partial hsort (analysed_tidy ho hse hcut hr hn hl) (analysed_layered ho hse hcut hr hl) (prune := prune) (exe := exe) (passes := passes)
    (by
      intro g hg t ht
      obtain ⟨x, hx⟩ := List.getElem?_of_mem hg
      obtain ⟨e, he, rfl⟩ := analysed_get.mp hx
      exact hexe e (entry_inProject (List.mem_of_getElem? he)).1 t ht) hp
  refine ⟨r, h1, fun k => ?_⟩
  rw [h2]
  constructor
  · rintro ⟨x, g, hg, hc, ht, hk, hnr⟩
    obtain ⟨e, he, rfl⟩ := analysed_get.mp hg
    dsimp only at hc ht hk
    have hin := (inRepo_iff _ _).mp ht
    refine ⟨e, (entry_inProject (List.mem_of_getElem? he)).1, ⟨⟨_, source_iff.mpr ⟨rfl, hc⟩⟩, hin⟩, ?_, ?_⟩
    · obtain ⟨rest, _, hrest⟩ := hin
      rw [hrest, List.drop_left] at hk
      rw [hrest, hk]
    · unfold NeedsToRun at hnr
      unfold MustRun
      simp only [changed_iff ho hse hcut hr he] at hnr
      exact hnr
  · rintro ⟨e, he, ⟨⟨stem, hs⟩, hin⟩, hpath, hm⟩
    have hep : InProject D P e.path := ⟨⟨e, he, rfl⟩, ⟨P.tests, by simp [roots], hin⟩, stem, .inl hs⟩
    obtain ⟨x, hx⟩ := List.getElem?_of_mem ((mem_nodes_iff he).mpr hep)
    refine ⟨x, _, analysed_get.mpr ⟨e, hx, rfl⟩, (source_iff.mp hs).2, (inRepo_iff _ _).mpr hin, ?_, ?_⟩
    · dsimp only
      rw [hpath, List.drop_left]
    · unfold MustRun at hm
      unfold NeedsToRun
      simp only [changed_iff ho hse hcut hr hx]
      exact hm

/-- **C104** What is written as external dependencies: in order and without repetitions, the names in directives with an extension such that no file of the project has that name, whatever the
directories. -/
theorem C104_external (ho : Orderly D P) (hcut : GoodCutoff cutoff) (hr : Readable D P search cutoff C) :
    (externalDependencies D P cutoff).Pairwise IncludedBefore ∧
      ∀ inc, inc ∈ externalDependencies D P cutoff ↔ ∃ e ∈ D.files, InProject D P e.path ∧ ∃ d ∈ directives (C e.path), HasExtension d.name ∧
        Written e.path.dropLast d.name inc.absolute inc.elements ∧ ∀ f ∈ D.files, InProject D P f.path → ¬ SameFilename f.path d.name := by
  refine ⟨(unique_sorted (sorted_pairwise (less := includedLess) (fun a b h => includedLess_strict.asymm h) (fun a b c h1 h2 => includedLess_strict.not_trans h1 h2) _)).imp
    fun h => includedLess_iff.mp h, ?_⟩
  intro inc
  unfold externalDependencies
  rw [unique_sub, (sorted_perm _ _).mem_iff, List.mem_flatMap]
  have hsame : ∀ (e : Entry) (name : List Char), InProject D P e.path → Includes.hasExtension name = true → ((∀ f ∈ nodes D P, filename f.path ≠ filename (parse (located (text e.path.dropLast) name)).elements) ↔
      ∀ f ∈ D.files, InProject D P f.path → ¬ SameFilename f.path name) := by
    intro e name hp hx
    rw [filename_parse_located (own_names ho hp.1) hx]
    constructor
    · intro h f hf hfp hsn
      refine h f ((mem_nodes_iff hf).mpr hfp) ?_
      obtain ⟨dir, parent, file, h1, h2, h3, h4⟩ := hsn
      rw [h1, filename_append, h2]
      unfold Includes.filename
      have hall : ∀ c ∈ file.reverse, decide (c ≠ '/') = true := by
        intro c hc
        simp only [decide_eq_true_eq]
        rintro rfl
        exact h4 (List.mem_reverse.mp hc)
      rw [List.reverse_append, List.takeWhile_append_of_pos hall]
      have : parent.reverse.takeWhile (fun c => decide (c ≠ '/')) = [] := by
        rcases h3 with rfl | h3
        · rfl
        · rw [← List.head?_reverse] at h3
          cases hr : parent.reverse with
          | nil => rfl
          | cons c l =>
            rw [hr] at h3
            simp only [List.head?_cons, Option.some.injEq] at h3
            subst h3
            simp
      rw [this, List.append_nil, List.reverse_reverse]
    · intro h f hf hn
      obtain ⟨hfl, hfp⟩ := entry_inProject hf
      refine h f hfl hfp ?_
      have hne := (isFile_names ho hfp.1).1
      obtain ⟨parent, file, h1, h2, h3, _, _⟩ := (C56_extension name).mp hx
      have : Includes.filename name = file := by
        have hall : ∀ c ∈ file.reverse, decide (c ≠ '/') = true := by
          intro c hc
          simp only [decide_eq_true_eq]
          rintro rfl
          exact h3 (List.mem_reverse.mp hc)
        rw [h1]
        unfold Includes.filename
        rw [List.reverse_append, List.takeWhile_append_of_pos hall]
        have : parent.reverse.takeWhile (fun c => decide (c ≠ '/')) = [] := by
          rcases h2 with rfl | h2
          · rfl
          · rw [← List.head?_reverse] at h2
            cases hr : parent.reverse with
            | nil => rfl
            | cons c l =>
              rw [hr] at h2
              simp only [List.head?_cons, Option.some.injEq] at h2
              subst h2
              simp
        rw [this, List.append_nil, List.reverse_reverse]
      exact ⟨f.path.dropLast, parent, file, by rw [← this, ← hn]; exact eq_filename hne, h1, h2, h3⟩
  have hwritten : ∀ (e : Entry) (name : List Char) (inc : Included), InProject D P e.path → Includes.hasExtension name = true →
      (inc = parse (located (text e.path.dropLast) name) ↔ Written e.path.dropLast name inc.absolute inc.elements) := by
    intro e name inc hp hx
    obtain ⟨hf, _, _⟩ := ext_filename hx
    unfold Written
    by_cases hs : '/' ∈ name
    · rw [located_slash hs, if_pos hs, elements_iff]
      constructor
      · rintro rfl; exact ⟨by simp [parse], rfl⟩
      · rintro ⟨h1, h2⟩
        obtain ⟨a, els⟩ := inc
        dsimp only at h1 h2
        subst h2
        unfold parse
        congr
        exact Bool.eq_iff_iff.mpr (by rw [h1]; simp)
    · have hne : name ≠ [] := by rintro rfl; exact hf rfl
      rw [parse_located_bare (own_names ho hp.1) hs hne, if_neg hs]
      obtain ⟨a, els⟩ := inc
      simp
  constructor
  · rintro ⟨e, he, hm⟩
    obtain ⟨hel, hep⟩ := entry_inProject he
    unfold externalOf at hm
    simp only [List.mem_filter, decide_eq_true_eq] at hm
    obtain ⟨d, hd, hx, rfl⟩ := (includedBy_mem hcut hr hel hep).mp hm.1
    exact ⟨e, hel, hep, d, hd, (C56_extension _).mp hx, (hwritten e d.name _ hep hx).mp rfl, (hsame e d.name hep hx).mp (find_external.mp hm.2)⟩
  · rintro ⟨e, hel, hep, d, hd, hx, hw, hs⟩
    have hx := (C56_extension _).mpr hx
    have hinc := (hwritten e d.name _ hep hx).mpr hw
    refine ⟨e, (mem_nodes_iff hel).mpr hep, ?_⟩
    unfold externalOf
    simp only [List.mem_filter, decide_eq_true_eq]
    refine ⟨(includedBy_mem hcut hr hel hep).mpr ⟨d, hd, hx, hinc⟩, find_external.mpr ?_⟩
    rw [hinc]
    exact (hsame e d.name hep hx).mpr hs

/-! ### Examples -/

namespace Resolve
open Verif.Spec.Includes (Item)

theorem inside_take {dir p : Path} (h : Inside dir p) : ∃ i, i < p.length ∧ dir = p.take i := by
  obtain ⟨rest, hne, rfl⟩ := h
  refine ⟨dir.length, ?_, by simp⟩
  cases rest with
  | nil => exact absurd rfl hne
  | cons => simp

theorem orderly_of {D : Disk} {P : Project} (h1 : D.files.Pairwise fun a b => a.path ≠ b.path) (h2 : ∀ e ∈ D.files, ∀ i < e.path.length, e.path.take i ∈ D.dirs)
    (h3 : ∀ e ∈ D.files, e.path ∉ D.dirs) (h4 : ∀ p ∈ D.dirs, p.dropLast ∈ D.dirs)
    (h5 : ∀ e ∈ D.files, e.path ≠ [] ∧ ∀ n ∈ e.path, n ≠ [] ∧ n ≠ ['.'] ∧ n ≠ ['.', '.'] ∧ '/' ∉ n)
    (h6 : (roots P).Pairwise fun r s => ¬ r <+: s ∧ ¬ s <+: r)
    (h7 : ∀ e ∈ D.files, isCpp e.path = true ∨ isHeader e.path = true → ∃ r ∈ roots P, inRepo e.path r = true) : Orderly D P := by
  refine ⟨h1, ?_, h3, h4, h5, h6, ?_⟩
  · intro e he dir hd
    obtain ⟨i, hi, rfl⟩ := inside_take hd
    exact h2 e he i hi
  · rintro p stem ⟨e, he, rfl⟩ hs
    obtain ⟨r, hr, hi⟩ := h7 e he (hs.imp (fun h => (source_iff.mp h).2) (fun h => (header_iff.mp h).2))
    exact ⟨r, hr, (inRepo_iff _ _).mp hi⟩

theorem namesFile_canonical {D : Disk} {dir q : Path} {name : List Char} (h : NamesFile D dir name q) : canonical D dir (parse name).elements = some q := by
  rw [namesFile_iff] at h
  exact (canonical_iff D q _ _).mpr ⟨h.1, .inr h.2.1⟩

theorem canonical_namesFile {D : Disk} {dir q : Path} {name : List Char} (h : canonical D dir (parse name).elements = some q) (hf : ∃ e ∈ D.files, e.path = q)
    (hn : Includes.filename name ≠ []) : NamesFile D dir name q := namesFile_iff.mpr ⟨((canonical_iff D q _ _).mp h).1, hf, hn⟩

/-- A directive which finds a file in the first place. -/
theorem refers_first {D : Disk} {search : List Path} {own q : Path} {d : Directive} {place : Path} {after : List Path} (hp : places search own d = place :: after)
    (h : canonical D place (parse d.name).elements = some q) (hf : ∃ e ∈ D.files, e.path = q) (hn : Includes.filename d.name ≠ []) : Refers D search own d q :=
  ⟨[], place, after, hp, canonical_namesFile h hf hn, by simp⟩

/-- A directive which finds a file in the second place. -/
theorem refers_second {D : Disk} {search : List Path} {own q : Path} {d : Directive} {first place : Path} {after : List Path} (hp : places search own d = first :: place :: after)
    (h0 : canonical D first (parse d.name).elements = none)
    (h : canonical D place (parse d.name).elements = some q) (hf : ∃ e ∈ D.files, e.path = q) (hn : Includes.filename d.name ≠ []) : Refers D search own d q := by
  refine ⟨[first], place, after, hp, canonical_namesFile h hf hn, ?_⟩
  intro p hp q' hq'
  simp only [List.mem_singleton] at hp
  subst hp
  rw [namesFile_canonical hq'] at h0
  cases h0

def inc (name : List Char) : Item := .inclusion [] [' '] false name

/-- What is in the files, given as a list. -/
def contents (l : List (Path × List Item)) : Contents := fun p => ((l.find? fun x => x.1 == p).map (·.2)).getD []

def entries (l : List (Path × List Item)) (times : List Nat) : List Entry := (l.zip times).map fun x => ⟨x.1.1, Spec.Includes.text x.1.2, x.2, none⟩

/-- `/s` with the sources and `/t` with the tests. -/
def project : Project := ⟨[['s']], [['t']], []⟩

/-- `/s/l/A.cpp` and `/s/l/A.hpp` and a test which includes the header; the source file includes another header. -/
def orderlyFiles : List (Path × List Item) :=
  [([['s'], ['l'], ['A', '.', 'c', 'p', 'p']], [inc ['A', '.', 'h', 'p', 'p'], .newline, inc ['l', '/', 'Z', '.', 'h'], .newline]),
   ([['s'], ['l'], ['A', '.', 'h', 'p', 'p']], []),
   ([['s'], ['l'], ['Z', '.', 'h']], []),
   ([['t'], ['T', '.', 'c', 'p', 'p']], [.inclusion [] [' '] true ['x', '/', 'v', '.', 'h'], .newline, inc ['l', '/', 'A', '.', 'h', 'p', 'p'], .newline])]

def orderlyDisk : Disk := ⟨entries orderlyFiles [0, 0, 9, 0], [[], [['s']], [['s'], ['l']], [['t']]]⟩

def orderlySearch : List Path := [[['s']], [['t']], [['u']]]

theorem orderlyDisk_orderly : Orderly orderlyDisk project := by
  refine orderly_of ?_ ?_ ?_ ?_ ?_ ?_ ?_ <;> decide

theorem orderlyDisk_searches : Searches orderlyDisk project orderlySearch := by
  constructor <;> decide

theorem orderly_file {p : Path} (h : IsFile orderlyDisk p) : p ∈ orderlyFiles.map (·.1) := by
  obtain ⟨e, he, rfl⟩ := h
  have : ∀ e ∈ orderlyDisk.files, e.path ∈ orderlyFiles.map (·.1) := by decide
  exact this e he

theorem orderly_inProject : ∀ p ∈ orderlyFiles.map (·.1), InProject orderlyDisk project p := by
  intro p hp
  have h : ∀ p ∈ orderlyFiles.map (·.1), (∃ e ∈ orderlyDisk.files, e.path = p) ∧ (∃ r ∈ roots project, inRepo p r = true) ∧ (isCpp p = true ∨ isHeader p = true) := by decide
  obtain ⟨h1, ⟨r, hr, h2⟩, h3⟩ := h p hp
  refine ⟨h1, ⟨r, hr, (inRepo_iff _ _).mp h2⟩, (splitName (filename p)).1, ?_⟩
  rcases h3 with h3 | h3
  · exact .inl (source_iff.mpr ⟨rfl, h3⟩)
  · exact .inr (header_iff.mpr ⟨rfl, h3⟩)

/-- What the directives of the example may find, and where. -/
theorem orderly_found : ∀ p ∈ orderlyFiles.map (·.1), ∀ d ∈ directives (contents orderlyFiles p), ∀ place ∈ [] :: p.dropLast :: orderlySearch,
    canonical orderlyDisk place (parse d.name).elements = none ∨
      (place ≠ [] ∧ d.name = ['A', '.', 'h', 'p', 'p'] ∧ place = p.dropLast ∧ p = [['s'], ['l'], ['A', '.', 'c', 'p', 'p']] ∧
        canonical orderlyDisk place (parse d.name).elements = some [['s'], ['l'], ['A', '.', 'h', 'p', 'p']]) ∨
      (place ≠ [] ∧ d.name = ['l', '/', 'A', '.', 'h', 'p', 'p'] ∧ place = [['s']] ∧ p = [['t'], ['T', '.', 'c', 'p', 'p']] ∧
        canonical orderlyDisk place (parse d.name).elements = some [['s'], ['l'], ['A', '.', 'h', 'p', 'p']]) ∨
      (place ≠ [] ∧ d.name = ['l', '/', 'Z', '.', 'h'] ∧ place = [['s']] ∧ p = [['s'], ['l'], ['A', '.', 'c', 'p', 'p']] ∧
        canonical orderlyDisk place (parse d.name).elements = some [['s'], ['l'], ['Z', '.', 'h']]) := by decide

theorem orderly_names {p : Path} (hp : p ∈ orderlyFiles.map (·.1)) {d : Directive} (hd : d ∈ directives (contents orderlyFiles p)) {place q : Path}
    (hpl : place ∈ [] :: p.dropLast :: orderlySearch) (h : NamesFile orderlyDisk place d.name q) :
    place ≠ [] ∧ ((d.name = ['A', '.', 'h', 'p', 'p'] ∧ place = p.dropLast ∧ p = [['s'], ['l'], ['A', '.', 'c', 'p', 'p']] ∧ q = [['s'], ['l'], ['A', '.', 'h', 'p', 'p']]) ∨
      (d.name = ['l', '/', 'A', '.', 'h', 'p', 'p'] ∧ place = [['s']] ∧ p = [['t'], ['T', '.', 'c', 'p', 'p']] ∧ q = [['s'], ['l'], ['A', '.', 'h', 'p', 'p']]) ∨
      (d.name = ['l', '/', 'Z', '.', 'h'] ∧ place = [['s']] ∧ p = [['s'], ['l'], ['A', '.', 'c', 'p', 'p']] ∧ q = [['s'], ['l'], ['Z', '.', 'h']])) := by
  have hc := namesFile_canonical h
  rcases orderly_found p hp d hd place hpl with h | ⟨h0, h1, h2, h3, h4⟩ | ⟨h0, h1, h2, h3, h4⟩ | ⟨h0, h1, h2, h3, h4⟩
  · rw [hc] at h; cases h
  · rw [hc] at h4; exact ⟨h0, .inl ⟨h1, h2, h3, Option.some.inj h4⟩⟩
  · rw [hc] at h4; exact ⟨h0, .inr (.inl ⟨h1, h2, h3, Option.some.inj h4⟩)⟩
  · rw [hc] at h4; exact ⟨h0, .inr (.inr ⟨h1, h2, h3, Option.some.inj h4⟩)⟩

theorem orderly_readable : Readable orderlyDisk project orderlySearch [] (contents orderlyFiles) := by
  have hw : ∀ p ∈ orderlyFiles.map (·.1), Spec.Includes.WellFormed [] true (contents orderlyFiles p) ∧ Spec.Includes.Tame [] false (contents orderlyFiles p) := by decide
  refine ⟨?_, fun p hp => (hw p (orderly_file hp.1)).1, fun p hp => (hw p (orderly_file hp.1)).2, ?_⟩
  · intro e he _
    have : ∀ e ∈ orderlyDisk.files, e.content = Spec.Includes.text (contents orderlyFiles e.path) := by decide
    exact this e he
  · intro p hp d hd
    have hp := orderly_file hp.1
    have key : ∀ place ∈ p.dropLast :: orderlySearch, ∀ q, NamesFile orderlyDisk place d.name q → _ :=
      fun place hpl q h => (orderly_names hp hd (List.mem_cons_of_mem _ hpl) h).2
    refine ⟨?_, ?_, ?_, ?_, ?_, ?_⟩
    · intro a ha b hb q q' hq hq'
      rcases key a ha q hq with ⟨h1, _, _, rfl⟩ | ⟨h1, _, _, rfl⟩ | ⟨h1, _, _, rfl⟩ <;> rcases key b hb q' hq' with ⟨k1, _, _, rfl⟩ | ⟨k1, _, _, rfl⟩ | ⟨k1, _, _, rfl⟩ <;>
        first | rfl | (rw [h1] at k1; exact absurd k1 (by decide))
    · intro a ha q hq
      refine orderly_inProject q ?_
      rcases (orderly_names hp hd ha hq).2 with ⟨_, _, _, rfl⟩ | ⟨_, _, _, rfl⟩ | ⟨_, _, _, rfl⟩ <;> decide
    · intro hang q hq
      rcases key _ (by simp) q hq with ⟨h1, h2, rfl, rfl⟩ | ⟨h1, h2, rfl, rfl⟩ | ⟨h1, h2, rfl, rfl⟩
      · have : ∀ d ∈ directives (contents orderlyFiles [['s'], ['l'], ['A', '.', 'c', 'p', 'p']]), d.angled = false := by decide
        rw [this d hd] at hang; cases hang
      · exact absurd h2 (by decide)
      · exact absurd h2 (by decide)
    · intro hs a ha q hq
      rcases key a (by simp [ha]) q hq with ⟨h1, h2, rfl, rfl⟩ | ⟨h1, _⟩ | ⟨h1, _⟩
      · rw [← h2]; exact hq
      · rw [h1] at hs; exact absurd hs (by decide)
      · rw [h1] at hs; exact absurd hs (by decide)
    · intro els hels hdots a ha q hq
      rw [elements_iff] at hels
      subst hels
      rcases key a (by simp [ha]) q hq with ⟨h1, _⟩ | ⟨h1, _⟩ | ⟨h1, _⟩ <;> (rw [h1] at hdots; exact absurd hdots (by decide))
    · intro habs
      have : ∀ p ∈ orderlyFiles.map (·.1), ∀ d ∈ directives (contents orderlyFiles p), d.name.head? ≠ some '/' := by decide
      exact absurd habs (this p hp d hd)

theorem orderly_includes {x y : Path} (h : IncludesFile orderlyDisk orderlySearch (contents orderlyFiles) x y) :
    (x = [['s'], ['l'], ['A', '.', 'c', 'p', 'p']] ∧ (y = [['s'], ['l'], ['A', '.', 'h', 'p', 'p']] ∨ y = [['s'], ['l'], ['Z', '.', 'h']])) ∨
    (x = [['t'], ['T', '.', 'c', 'p', 'p']] ∧ y = [['s'], ['l'], ['A', '.', 'h', 'p', 'p']]) := by
  obtain ⟨hx, d, hd, href⟩ := h
  have hp := orderly_file hx
  obtain ⟨place, hpl, hn⟩ := refers_place href
  have : ∀ p ∈ orderlyFiles.map (·.1), ∀ d ∈ directives (contents orderlyFiles p), d.name.head? ≠ some '/' := by decide
  rcases (orderly_names hp hd (List.mem_cons_of_mem _ (places_sub (this x hp d hd) place hpl)) hn).2 with ⟨_, _, rfl, rfl⟩ | ⟨_, _, rfl, rfl⟩ | ⟨_, _, rfl, rfl⟩
  · exact .inl ⟨rfl, .inl rfl⟩
  · exact .inr ⟨rfl, rfl⟩
  · exact .inl ⟨rfl, .inr rfl⟩

theorem orderly_own : IncludesFile orderlyDisk orderlySearch (contents orderlyFiles) [['s'], ['l'], ['A', '.', 'c', 'p', 'p']] [['s'], ['l'], ['A', '.', 'h', 'p', 'p']] :=
  ⟨(by decide : ∃ e ∈ orderlyDisk.files, e.path = _), ⟨false, ['A', '.', 'h', 'p', 'p']⟩, by decide,
    refers_first (place := [['s'], ['l']]) rfl (by decide) (by decide) (by decide)⟩

theorem orderly_wellNamed : WellNamed orderlyDisk project orderlySearch (contents orderlyFiles) := by
  have h1 : ∀ p ∈ orderlyFiles.map (·.1), ∀ q ∈ orderlyFiles.map (·.1), isCpp p = true → isCpp q = true → (splitName (filename p)).1 = (splitName (filename q)).1 → p = q := by decide
  have h2 : ∀ p ∈ orderlyFiles.map (·.1), ∀ q ∈ orderlyFiles.map (·.1), isHeader p = true → isHeader q = true → (splitName (filename p)).1 = (splitName (filename q)).1 → p = q := by
    decide
  have h3 : ∀ p ∈ orderlyFiles.map (·.1), '.' ∉ (splitName (filename p)).1 := by decide
  have h4 : ∀ p ∈ orderlyFiles.map (·.1), ∀ q ∈ orderlyFiles.map (·.1), isCpp p = true → isHeader q = true → (splitName (filename p)).1 = (splitName (filename q)).1 →
      p = [['s'], ['l'], ['A', '.', 'c', 'p', 'p']] ∧ q = [['s'], ['l'], ['A', '.', 'h', 'p', 'p']] := by decide
  refine ⟨?_, ?_, ?_, ?_⟩
  · intro p q stem hp hq hs ht
    exact h1 p (orderly_file hp.1) q (orderly_file hq.1) (source_iff.mp hs).2 (source_iff.mp ht).2 ((source_iff.mp hs).1.trans (source_iff.mp ht).1.symm)
  · intro p q stem hp hq hs ht
    exact h2 p (orderly_file hp.1) q (orderly_file hq.1) (header_iff.mp hs).2 (header_iff.mp ht).2 ((header_iff.mp hs).1.trans (header_iff.mp ht).1.symm)
  · intro p stem hp hs
    have := h3 p (orderly_file hp.1)
    rcases hs with hs | hs
    · rw [(source_iff.mp hs).1] at this; exact this
    · rw [(header_iff.mp hs).1] at this; exact this
  · intro p q stem hp hq hs ht
    obtain ⟨rfl, rfl⟩ := h4 p (orderly_file hp.1) q (orderly_file hq.1) (source_iff.mp hs).2 (header_iff.mp ht).2 ((source_iff.mp hs).1.trans (header_iff.mp ht).1.symm)
    exact orderly_own

def orderlyLayer (p : Path) : Nat := if p = [['s'], ['l'], ['Z', '.', 'h']] then 0 else if p = [['s'], ['l'], ['A', '.', 'h', 'p', 'p']] then 1 else 2

theorem orderly_layers : InLayers orderlyDisk project orderlySearch (contents orderlyFiles) orderlyLayer := by
  refine ⟨?_, ?_⟩
  · intro x y _ h
    rcases orderly_includes h with ⟨rfl, rfl | rfl⟩ | ⟨rfl, rfl⟩ <;> decide
  · intro h s stem y _ hh hs h1 h2 hne
    rcases orderly_includes h1 with ⟨rfl, rfl | rfl⟩ | ⟨rfl, rfl⟩
    · rcases orderly_includes h2 with ⟨_, rfl | rfl⟩ | ⟨h, _⟩
      · exact absurd rfl hne
      · decide
      · exact absurd h (by decide)
    · have := (header_iff.mp hh).1.trans (source_iff.mp hs).1.symm
      exact absurd this (by decide)
    · have := (header_iff.mp hh).1.trans (source_iff.mp hs).1.symm
      exact absurd this (by decide)

/-- In the violations there are `/s`, `/s/l`, `/t` and `/t/l`. -/
def disk (l : List (Path × List Item)) (times : List Nat) : Disk := ⟨entries l times, [[], [['s']], [['s'], ['l']], [['t']], [['t'], ['l']]]⟩

/-- A test is skipped although something which it needs has changed. -/
def Skipped (D : Disk) (search : List Path) (C : Contents) (test changed : Path) : Prop :=
  Orderly D project ∧ Searches D project search ∧ (∀ e ∈ D.files, e.content = Spec.Includes.text (C e.path)) ∧
    (∀ e ∈ D.files, Spec.Includes.WellFormed [] true (C e.path) ∧ Spec.Includes.Tame [] false (C e.path)) ∧
    (∃ e ∈ D.files, e.path = test ∧ IsTest project e) ∧ (∃ e ∈ D.files, e.path = changed ∧ 5 < e.time) ∧
    Needs D search C test changed ∧ findStaleTests (fun l => l) 5 none none (analysed D project []) = .ok []

theorem skipped_of {D : Disk} {search : List Path} {C : Contents} {test changed : Path} (ho : Orderly D project) (hs : Searches D project search)
    (h : (∀ e ∈ D.files, e.content = Spec.Includes.text (C e.path)) ∧ (∀ e ∈ D.files, Spec.Includes.WellFormed [] true (C e.path) ∧ Spec.Includes.Tame [] false (C e.path)) ∧
      (∃ e ∈ D.files, e.path = test) ∧ (isCpp test = true ∧ inRepo test project.tests = true) ∧ ∃ e ∈ D.files, e.path = changed ∧ 5 < e.time)
    (hn : Needs D search C test changed) (hr : findStaleTests (fun l => l) 5 none none (analysed D project []) = .ok []) : Skipped D search C test changed := by
  obtain ⟨h1, h2, ⟨e, he, rfl⟩, h4, h5⟩ := h
  exact ⟨ho, hs, h1, h2, ⟨e, he, rfl, ⟨_, source_iff.mpr ⟨rfl, h4.1⟩⟩, (inRepo_iff _ _).mp h4.2⟩, h5, hn, hr⟩

/-- What the compiler searches: the sources and the tests. -/
def both : List Path := [[['s']], [['t']]]

/-- `/t/T.cpp` includes `F.hpp`, which is in `/s`. -/
def bareFiles : List (Path × List Item) :=
  [([['s'], ['F', '.', 'h', 'p', 'p']], []),
   ([['t'], ['T', '.', 'c', 'p', 'p']], [inc ['F', '.', 'h', 'p', 'p'], .newline])]

/-- `/t/T.cpp` includes `l/F.hpp`, which is in `/s` and in `/t`. -/
def firstFiles : List (Path × List Item) :=
  [([['s'], ['l'], ['F', '.', 'h', 'p', 'p']], []),
   ([['t'], ['T', '.', 'c', 'p', 'p']], [inc ['l', '/', 'F', '.', 'h', 'p', 'p'], .newline]),
   ([['t'], ['l'], ['F', '.', 'h', 'p', 'p']], [])]

/-- `/t/T.cpp` includes `l/../F.hpp`, which is in `/s`. -/
def dotsFiles : List (Path × List Item) :=
  [([['s'], ['F', '.', 'h', 'p', 'p']], []),
   ([['t'], ['T', '.', 'c', 'p', 'p']], [inc ['l', '/', '.', '.', '/', 'F', '.', 'h', 'p', 'p'], .newline])]

/-- `/t/T.cpp` includes `l/F.inl`. -/
def extensionFiles : List (Path × List Item) :=
  [([['s'], ['l'], ['F', '.', 'i', 'n', 'l']], []),
   ([['t'], ['T', '.', 'c', 'p', 'p']], [inc ['l', '/', 'F', '.', 'i', 'n', 'l'], .newline])]

/-- `/s/l/F.cpp` includes its header and another one, `/t/T.cpp` includes the header, and there is `F.d.hpp`. -/
def betweenFiles : List (Path × List Item) :=
  [([['s'], ['l'], ['F', '.', 'c', 'p', 'p']], [inc ['F', '.', 'h', 'p', 'p'], .newline, inc ['Z', '.', 'h', 'p', 'p'], .newline]),
   ([['s'], ['l'], ['F', '.', 'd', '.', 'h', 'p', 'p']], []),
   ([['s'], ['l'], ['F', '.', 'h', 'p', 'p']], []),
   ([['s'], ['l'], ['Z', '.', 'h', 'p', 'p']], []),
   ([['t'], ['T', '.', 'c', 'p', 'p']], [inc ['l', '/', 'F', '.', 'h', 'p', 'p'], .newline])]

/-- `/t/T.cpp` includes `<x/F.hpp>`, which is not on the disk. -/
def externalFiles : List (Path × List Item) :=
  [([['s'], ['l'], ['F', '.', 'h', 'p', 'p']], []),
   ([['t'], ['T', '.', 'c', 'p', 'p']], [.inclusion [] [' '] true ['x', '/', 'F', '.', 'h', 'p', 'p'], .newline])]

end Resolve

/-- The hypotheses are met by the files of `orderlyDisk`, and the test is selected because of a header which it needs only through the source file of the header which it includes. -/
example : Orderly orderlyDisk project ∧ Searches orderlyDisk project orderlySearch ∧ Readable orderlyDisk project orderlySearch [] (contents orderlyFiles) ∧
    WellNamed orderlyDisk project orderlySearch (contents orderlyFiles) ∧ InLayers orderlyDisk project orderlySearch (contents orderlyFiles) orderlyLayer ∧
    findStaleTests (fun l => l) 5 none none (analysed orderlyDisk project []) = .ok [[['T', '.', 'c', 'p', 'p']]] ∧
    externalDependencies orderlyDisk project [] = [⟨false, [['x'], ['v', '.', 'h']]⟩] :=
  ⟨orderlyDisk_orderly, orderlyDisk_searches, orderly_readable, orderly_wellNamed, orderly_layers, by rfl, by rfl⟩

/-- **C104 (violated)** A file whose name in the directive has no directories is only looked for in the directory of the file with the directive.  A test which includes a header which is directly in the
directory of the sources is not run although the header has changed. -/
theorem C104_bare_violated : Skipped (disk bareFiles [9, 0]) both (contents bareFiles) [['t'], ['T', '.', 'c', 'p', 'p']] [['s'], ['F', '.', 'h', 'p', 'p']] :=
  skipped_of (by refine orderly_of ?_ ?_ ?_ ?_ ?_ ?_ ?_ <;> decide) (by constructor <;> decide) (by decide)
    (.includes .self ⟨(by decide : ∃ e ∈ (disk bareFiles [9, 0]).files, e.path = _), ⟨false, ['F', '.', 'h', 'p', 'p']⟩, by decide, refers_second (first := [['t']]) (place := [['s']]) rfl (by decide) (by decide) (by decide) (by decide)⟩) (by rfl)

/-- **C104 (violated)** Among files with the same name the one with the smallest path is taken, not the one which is in the directory of the file with the directive. -/
theorem C104_first_violated : Skipped (disk firstFiles [0, 0, 9]) both (contents firstFiles) [['t'], ['T', '.', 'c', 'p', 'p']] [['t'], ['l'], ['F', '.', 'h', 'p', 'p']] :=
  skipped_of (by refine orderly_of ?_ ?_ ?_ ?_ ?_ ?_ ?_ <;> decide) (by constructor <;> decide) (by decide)
    (.includes .self ⟨(by decide : ∃ e ∈ (disk firstFiles [0, 0, 9]).files, e.path = _), ⟨false, ['l', '/', 'F', '.', 'h', 'p', 'p']⟩, by decide, refers_first (place := [['t']]) rfl (by decide) (by decide) (by decide)⟩) (by rfl)

/-- **C104 (violated)** Names with dots are only looked for in the directory of the file with the directive. -/
theorem C104_dots_violated : Skipped (disk dotsFiles [9, 0]) both (contents dotsFiles) [['t'], ['T', '.', 'c', 'p', 'p']] [['s'], ['F', '.', 'h', 'p', 'p']] :=
  skipped_of (by refine orderly_of ?_ ?_ ?_ ?_ ?_ ?_ ?_ <;> decide) (by constructor <;> decide) (by decide)
    (.includes .self ⟨(by decide : ∃ e ∈ (disk dotsFiles [9, 0]).files, e.path = _), ⟨false, ['l', '/', '.', '.', '/', 'F', '.', 'h', 'p', 'p']⟩, by decide, refers_second (first := [['t']]) (place := [['s']]) rfl (by decide) (by decide) (by decide) (by decide)⟩) (by rfl)

/-- **C104 (violated)** Files with other extensions are not looked at. -/
theorem C104_extension_violated : Skipped (disk extensionFiles [9, 0]) both (contents extensionFiles) [['t'], ['T', '.', 'c', 'p', 'p']] [['s'], ['l'], ['F', '.', 'i', 'n', 'l']] :=
  skipped_of (by refine orderly_of ?_ ?_ ?_ ?_ ?_ ?_ ?_ <;> decide) (by constructor <;> decide) (by decide)
    (.includes .self ⟨(by decide : ∃ e ∈ (disk extensionFiles [9, 0]).files, e.path = _), ⟨false, ['l', '/', 'F', '.', 'i', 'n', 'l']⟩, by decide, refers_second (first := [['t']]) (place := [['s']]) rfl (by decide) (by decide) (by decide) (by decide)⟩) (by rfl)

/-- **C104 (violated)** A file whose name comes between those of the source file and the header prevents the header from being furnished with what the source file includes, although "Sorting of g ensures that headers are directly after
sources". -/
theorem C104_between_violated : Skipped (disk betweenFiles [0, 0, 0, 9, 0]) both (contents betweenFiles) [['t'], ['T', '.', 'c', 'p', 'p']] [['s'], ['l'], ['Z', '.', 'h', 'p', 'p']] := by
  refine skipped_of (by refine orderly_of ?_ ?_ ?_ ?_ ?_ ?_ ?_ <;> decide) (by constructor <;> decide) (by decide) ?_ (by rfl)
  have h1 : IncludesFile (disk betweenFiles [0, 0, 0, 9, 0]) both (contents betweenFiles) [['t'], ['T', '.', 'c', 'p', 'p']] [['s'], ['l'], ['F', '.', 'h', 'p', 'p']] :=
    ⟨(by decide : ∃ e ∈ (disk betweenFiles [0, 0, 0, 9, 0]).files, e.path = _), ⟨false, ['l', '/', 'F', '.', 'h', 'p', 'p']⟩, by decide, refers_second (first := [['t']]) (place := [['s']]) rfl (by decide) (by decide) (by decide) (by decide)⟩
  have h2 : IncludesFile (disk betweenFiles [0, 0, 0, 9, 0]) both (contents betweenFiles) [['s'], ['l'], ['F', '.', 'c', 'p', 'p']] [['s'], ['l'], ['F', '.', 'h', 'p', 'p']] :=
    ⟨(by decide : ∃ e ∈ (disk betweenFiles [0, 0, 0, 9, 0]).files, e.path = _), ⟨false, ['F', '.', 'h', 'p', 'p']⟩, by decide, refers_first (place := [['s'], ['l']]) rfl (by decide) (by decide) (by decide)⟩
  have h3 : IncludesFile (disk betweenFiles [0, 0, 0, 9, 0]) both (contents betweenFiles) [['s'], ['l'], ['F', '.', 'c', 'p', 'p']] [['s'], ['l'], ['Z', '.', 'h', 'p', 'p']] :=
    ⟨(by decide : ∃ e ∈ (disk betweenFiles [0, 0, 0, 9, 0]).files, e.path = _), ⟨false, ['Z', '.', 'h', 'p', 'p']⟩, by decide, refers_first (place := [['s'], ['l']]) rfl (by decide) (by decide) (by decide)⟩
  exact .includes (.source (stem := ['F']) (.includes .self h1) ⟨[['s'], ['l']], "hpp", by decide⟩ ⟨[['s'], ['l']], "cpp", by decide⟩ h2) h3

/-- **C104 (violated)** A header which is not in the project is not listed with the external dependencies if some file of the project has the same name. -/
theorem C104_external_violated : Orderly (disk externalFiles [0, 0]) project ∧ Searches (disk externalFiles [0, 0]) project both ∧ (∀ e ∈ (disk externalFiles [0, 0]).files, e.content = Spec.Includes.text (contents externalFiles e.path)) ∧
    (⟨true, ['x', '/', 'F', '.', 'h', 'p', 'p']⟩ : Directive) ∈ directives (contents externalFiles [['t'], ['T', '.', 'c', 'p', 'p']]) ∧ (∀ q, ¬ Refers (disk externalFiles [0, 0]) both [['t']] ⟨true, ['x', '/', 'F', '.', 'h', 'p', 'p']⟩ q) ∧ externalDependencies (disk externalFiles [0, 0]) project [] = [] := by
  refine ⟨by refine orderly_of ?_ ?_ ?_ ?_ ?_ ?_ ?_ <;> decide, by constructor <;> decide, by decide, by decide, ?_, by rfl⟩
  intro q hq
  obtain ⟨place, hpl, hn⟩ := refers_place hq
  have h := namesFile_canonical hn
  have : ∀ p ∈ both, canonical (disk externalFiles [0, 0]) p (parse ['x', '/', 'F', '.', 'h', 'p', 'p']).elements = none := by decide
  rw [this place hpl] at h
  cases h

end Verif.Props
