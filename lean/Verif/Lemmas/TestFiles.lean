import Verif.Spec.TestFiles
import Verif.Lemmas.Materials
import Verif.Lemmas.ProjectPaths
import Verif.Lemmas.Instability
set_option linter.unusedSimpArgs false
set_option linter.unusedVariables false

/-
Lemmas about the creation of the files of a test.
-/
namespace Verif.TestFiles
open Text FileEditors Materials ProjectCreator TestCreator Spec.TestFiles

theorem ending_ok {σ : Type} {x : Ending σ} {f : σ → Ending σ} {s' : σ} (h : x.bind f = .ok s') : ∃ s, x = .ok s ∧ f s = .ok s' := by
  cases x with
  | ok s => exact ⟨s, rfl, h⟩
  | failed s => cases h
  | undefined => cases h

theorem change_ok {f : Disk → Res Disk} {s s' : St} (h : change f s = .ok s') : f s.fs = .ok s'.fs ∧ s.left = s'.left + 1 := by
  unfold change at h
  split at h
  · cases h
  · next n hn =>
    split at h
    · next fs hf => cases h; exact ⟨hf, hn⟩
    · cases h
    · cases h

theorem change_failed {f : Disk → Res Disk} {s s' : St} (h : change f s = .failed s') : s' = s := by
  unfold change at h
  split at h
  · cases h; rfl
  · split at h
    · cases h
    · cases h; rfl
    · cases h

theorem put_ok {p : Path} {c : Str} {fs fs' : Disk} (h : put p c fs = .ok fs') (q : Path) : get fs' q = if q = p then some (.file c) else get fs q := by
  unfold put at h
  split at h
  · cases h
    rw [get_cons]
    by_cases hq : q = p
    · subst hq; simp
    · simp [hq, Ne.symm hq]
  · cases h

theorem write_ok {p : Path} {c : Str} {s s' : St} (h : write p c s = .ok s') (q : Path) : get s'.fs q = if q = p then some (.file c) else get s.fs q := by
  obtain ⟨s1, h1, h2⟩ := ending_ok h
  rw [put_ok (change_ok h2).1, put_ok (change_ok h1).1]
  by_cases hq : q = p <;> simp [hq]

theorem copyFile_ok {src dst : Path} {fs fs' : Disk} (h : copyFile src dst fs = .ok fs') :
    ∃ c, get fs src = some (.file c) ∧ get fs dst = none ∧ ∀ q, get fs' q = if q = dst then some (.file c) else get fs q := by
  unfold copyFile at h
  split at h
  · next c hc =>
    split at h
    · next hd =>
      simp only [Bool.and_eq_true, Bool.not_eq_true'] at hd
      cases h
      refine ⟨c, hc, ?_, fun q => ?_⟩
      · cases hg : get fs dst with
        | none => rfl
        | some n =>
          have : exists' fs dst = true := exists'_iff.2 (by simp [hg])
          rw [this] at hd
          cases hd.1
      · rw [get_cons]
        by_cases hq : q = dst
        · subst hq; simp
        · simp [hq, Ne.symm hq]
    · cases h
  · cases h

theorem modify_ok {p : Path} {f : Str → Res Str} {s s' : St} (h : modify p f s = .ok s') :
    ∃ c t, get s.fs p = some (.file c) ∧ f c = .ok t ∧ ∀ q, get s'.fs q = if q = p then some (.file t) else get s.fs q := by
  unfold modify at h
  split at h
  · next c hc =>
    split at h
    · next t ht => exact ⟨c, t, hc, ht, write_ok h⟩
    · cases h
    · cases h
  · cases h

/-! ### What may be changed -/

/-- Only what is edited changes, and only what may be added is added. -/
def Frame (A E : Path → Prop) (fs fs' : Disk) : Prop := ∀ p, get fs' p ≠ get fs p → (get fs p ≠ none ∧ E p) ∨ (get fs p = none ∧ A p)

theorem Frame.refl {A E : Path → Prop} (fs : Disk) : Frame A E fs fs := fun p h => absurd rfl h

theorem Frame.trans {A E : Path → Prop} {a b c : Disk} (h1 : Frame A E a b) (h2 : Frame A E b c) : Frame A E a c := by
  intro p hp
  by_cases hb : get b p = get a p
  · rw [← hb] at hp ⊢
    exact h2 p hp
  · exact h1 p hb

theorem Frame.mono {A E A' E' : Path → Prop} {a b : Disk} (h : Frame A E a b) (hA : ∀ p, A p → A' p) (hE : ∀ p, E p → E' p) : Frame A' E' a b := by
  intro p hp
  rcases h p hp with h | h
  · exact .inl ⟨h.1, hE p h.2⟩
  · exact .inr ⟨h.1, hA p h.2⟩

/-- What has not been there may be edited once it is. -/
theorem Frame.new {A E : Path → Prop} {out : Path} {a b : Disk} (h : Frame A (fun p => E p ∨ p = out) a b) (hn : get a out = none) (hA : A out) : Frame A E a b := by
  intro p hp
  rcases h p hp with ⟨h0, h | h⟩ | h
  · exact .inl ⟨h0, h⟩
  · exact absurd (h ▸ hn) h0
  · exact .inr h

/-- However it ends. -/
def Ends (x : Ending St) (s' : St) : Prop := x = .ok s' ∨ x = .failed s'

/-- Whatever happens, no more is changed. -/
def Safe (A E : Path → Prop) (f : St → Ending St) : Prop := ∀ s s', Ends (f s) s' → Frame A E s.fs s'.fs

theorem Safe.ok {A E : Path → Prop} : Safe A E fun s => .ok s := by
  rintro s s' (h | h)
  · cases h; exact .refl _
  · cases h

theorem frame_bind {A E : Path → Prop} {x : Ending St} {g : St → Ending St} {fs : Disk} (hx : ∀ s', Ends x s' → Frame A E fs s'.fs) (hg : Safe A E g)
    {s' : St} (h : Ends (x.bind g) s') : Frame A E fs s'.fs := by
  cases x with
  | ok s => exact (hx s (.inl rfl)).trans (hg s s' h)
  | failed s => exact hx s' h
  | undefined => rcases h with h | h <;> cases h

theorem Safe.bind {A E : Path → Prop} {f g : St → Ending St} (hf : Safe A E f) (hg : Safe A E g) : Safe A E fun s => (f s).bind g :=
  fun s _ h => frame_bind (hf s) hg h

theorem Safe.each {α : Type} {A E : Path → Prop} {f : α → St → Ending St} : ∀ {l : List α}, (∀ x ∈ l, Safe A E (f x)) → Safe A E (each f l)
  | [], _ => Safe.ok
  | x :: xs, h => Safe.bind (h x (List.mem_cons_self ..)) (Safe.each fun y hy => h y (List.mem_cons_of_mem _ hy))

theorem Safe.change {A E : Path → Prop} {f : Disk → Res Disk} (h : ∀ fs fs', f fs = .ok fs' → Frame A E fs fs') : Safe A E (change f) := by
  rintro s s' (hs | hs)
  · exact h _ _ (change_ok hs).1
  · rw [change_failed hs]; exact .refl _

theorem frame_put {A E : Path → Prop} {p : Path} {c : Str} {s s' : St} (h : E p) (hp : get s.fs p ≠ none) (hs : Ends (TestFiles.change (put p c) s) s') : Frame A E s.fs s'.fs := by
  rcases hs with hs | hs
  · intro q hq
    rw [put_ok (change_ok hs).1] at hq
    by_cases he : q = p
    · exact .inl ⟨he ▸ hp, he ▸ h⟩
    · simp [he] at hq
  · rw [change_failed hs]; exact .refl _

theorem frame_write {A E : Path → Prop} {p : Path} {c : Str} {s s' : St} (h : E p) (hp : get s.fs p ≠ none) (hs : Ends (write p c s) s') : Frame A E s.fs s'.fs := by
  unfold TestFiles.write at hs
  cases hc : TestFiles.change (put p []) s with
  | ok s1 =>
    rw [hc] at hs
    refine (frame_put h hp (.inl hc)).trans (frame_put h ?_ hs)
    rw [put_ok (change_ok hc).1, if_pos rfl]
    simp
  | failed s1 =>
    rw [hc] at hs
    rcases hs with hs | hs
    · cases hs
    · cases hs; exact frame_put h hp (.inr hc)
  | undefined =>
    rw [hc] at hs
    rcases hs with hs | hs <;> cases hs

theorem Safe.modify {A E : Path → Prop} {p : Path} {f : Str → Res Str} (h : E p) : Safe A E (modify p f) := by
  rintro s s' hs
  unfold TestFiles.modify at hs
  split at hs
  · next c hc =>
    split at hs
    · exact frame_write h (by rw [hc]; simp) hs
    · rcases hs with hs | hs
      · cases hs
      · cases hs; exact .refl _
    · rcases hs with hs | hs <;> cases hs
  · rcases hs with hs | hs
    · cases hs
    · cases hs; exact .refl _

theorem Safe.directories {A E : Path → Prop} {p : Path} (h : ∀ q, q <+: p → A q) : Safe A E (TestFiles.change (createDirectories p)) := by
  refine Safe.change fun fs fs' hf q hq => ?_
  have hq' := hq
  rw [createDirectories_ok hf] at hq
  by_cases hp : q <+: p
  · rw [if_pos hp] at hq
    refine .inr ⟨?_, h q hp⟩
    cases hg : get fs q with
    | none => rfl
    | some n =>
      cases n with
      | dir => exact absurd hg.symm hq
      | file c =>
        unfold createDirectories at hf
        split at hf
        · cases hf
        · next hn => exact absurd (List.any_eq_true.2 ⟨q, mem_prefixes.2 hp, isFile_iff.2 ⟨c, hg⟩⟩) hn
  · simp [hp] at hq

theorem frame_copy {A E : Path → Prop} {src dst : Path} {fs fs' : Disk} (h : copyFile src dst fs = .ok fs') (hA : A dst) : Frame A E fs fs' := by
  obtain ⟨c, _, hn, hg⟩ := copyFile_ok h
  intro q hq
  rw [hg] at hq
  by_cases hp : q = dst
  · exact .inr ⟨hp ▸ hn, hp ▸ hA⟩
  · simp [hp] at hq

/-- A file is copied and then edited. -/
theorem Safe.copyEdit {A E : Path → Prop} {src dst : Path} {g : St → Ending St} (hA : A dst) (hg : Safe A (fun p => E p ∨ p = dst) g) :
    Safe A E fun s => (TestFiles.change (copyFile src dst) s).bind g := by
  intro s s' h
  dsimp only at h
  cases hc : TestFiles.change (copyFile src dst) s with
  | ok s1 =>
    rw [hc] at h
    refine Frame.new (out := dst) ?_ ?_ hA
    · exact (frame_copy (change_ok hc).1 hA).trans (hg s1 s' h)
    · obtain ⟨_, _, hn, _⟩ := copyFile_ok (change_ok hc).1
      exact hn
  | failed s1 =>
    rw [hc] at h
    rcases h with h | h
    · cases h
    · cases h; rw [change_failed hc]; exact .refl _
  | undefined =>
    rw [hc] at h
    rcases h with h | h <;> cases h

/-! ### The search for the source -/

theorem ends_iff {h : Given} {p : Path} : ends h p = true ↔ Matches h p := by
  unfold ends Matches
  split
  · simp
  · simp [List.isSuffixOf_iff_suffix]

theorem find_some {env : Env} (hw : Walks env.walk) {P : Project} {fs : Disk} {h : Given} {p : Path} (hp : findInTree env fs P.sourceRepo h = some p) : InSources P fs p ∧ Matches h p := by
  have h1 := List.mem_of_find?_eq_some hp
  have h2 := List.find?_some hp
  exact ⟨(hw ..).1 h1, ends_iff.1 h2⟩

theorem find_none {env : Env} (hw : Walks env.walk) {P : Project} {fs : Disk} {h : Given} (hp : findInTree env fs P.sourceRepo h = none) {p : Path} (hi : InSources P fs p) : ¬ Matches h p := by
  intro hm
  have := List.find?_eq_none.1 hp p ((hw ..).2 hi)
  exact this (ends_iff.2 hm)

theorem takeWhile_beyond (l : Str) : ∃ a x, l = a ++ x ∧ '.' ∉ x ∧ x.length = (l.reverse.takeWhile (· ≠ '.')).length ∧ (a = [] ∨ ∃ b, a = b ++ ['.']) := by
  induction l with
  | nil => exact ⟨[], [], rfl, by simp, rfl, .inl rfl⟩
  | cons c l ih =>
    obtain ⟨a, x, h1, h2, h3, h4⟩ := ih
    rw [List.reverse_cons]
    rcases h4 with h4 | ⟨b, h4⟩
    · subst h4
      rw [List.nil_append] at h1
      subst h1
      have hall : ∀ y ∈ l.reverse, (decide (y ≠ '.')) = true := by
        intro y hy
        rw [List.mem_reverse] at hy
        simp only [decide_eq_true_eq]
        intro e; subst e; exact h2 hy
      rw [List.takeWhile_append_of_pos hall]
      by_cases hc : c = '.'
      · subst hc
        exact ⟨['.'], l, rfl, h2, by simp, .inr ⟨[], rfl⟩⟩
      · exact ⟨[], c :: l, rfl, by simp [h2, Ne.symm hc], by simp [hc], .inl rfl⟩
    · subst h4
      refine ⟨c :: (b ++ ['.']), x, by simp [h1], h2, ?_, .inr ⟨c :: b, rfl⟩⟩
      have hall : ∀ y ∈ x.reverse, (decide (y ≠ '.')) = true := by
        intro y hy
        rw [List.mem_reverse] at hy
        simp only [decide_eq_true_eq]
        intro e; subst e; exact h2 hy
      rw [h1]
      simp only [List.reverse_append, List.append_assoc]
      rw [List.takeWhile_append_of_pos hall]
      simp

theorem splitExtension_extension (n : Str) : Extension n (Instability.splitExtension n).1 (Instability.splitExtension n).2 := by
  unfold Instability.splitExtension
  split
  · next h => exact ⟨by simp, .inl ⟨rfl, .inr h⟩⟩
  · next h =>
    obtain ⟨a, x, h1, h2, h3, h4⟩ := takeWhile_beyond n
    simp only [← h3]
    rcases h4 with h4 | ⟨b, h4⟩
    · subst h4
      rw [List.nil_append] at h1
      subst h1
      rw [if_pos (Nat.le_succ _)]
      exact ⟨by simp, .inl ⟨rfl, .inl fun hm => h2 (List.mem_of_mem_tail hm)⟩⟩
    · subst h4
      cases b with
      | nil =>
        rw [if_pos (by simp [h1])]
        exact ⟨by simp, .inl ⟨rfl, .inl (by simp [h1, h2])⟩⟩
      | cons c b =>
        have hl : n.length - x.length - 1 = (c :: b).length := by simp [h1]; omega
        rw [if_neg (by simp [h1]; omega), hl]
        subst h1
        refine ⟨by simp, .inr ⟨by simp, h, x, h2, by simp⟩⟩

theorem extension_unique {n a b x y : Str} (h1 : Extension n a x) (h2 : Extension n b y) : a = b ∧ x = y := by
  obtain ⟨e1, h1⟩ := h1
  obtain ⟨e2, h2⟩ := h2
  have aux : ∀ {stem x : Str} {c : Char}, '.' ∉ (stem ++ '.' :: x).tail → stem = [] := by
    intro stem x _ h
    cases stem with
    | nil => rfl
    | cons => simp at h
  rcases h1 with ⟨hx, h1⟩ | ⟨ha, hn, x', hx', hx⟩ <;> rcases h2 with ⟨hy, h2⟩ | ⟨hb, hn', y', hy', hy⟩
  · subst hx hy; simp_all
  · subst hx hy
    rw [List.append_nil] at e1
    subst e1
    rcases h1 with h1 | h1
    · rw [e2] at h1; exact absurd (aux (c := '.') h1) hb
    · exact absurd h1 hn'
  · subst hx hy
    rw [List.append_nil] at e2
    subst e2
    rcases h2 with h2 | h2
    · rw [e1] at h2; exact absurd (aux (c := '.') h2) ha
    · exact absurd h2 hn
  · subst hx hy
    rw [e1] at e2
    have := ProjectPaths.dot_inj hx' hy' e2
    exact ⟨this.1, by rw [this.2]⟩

theorem splitExtension_of {n a x : Str} (h : Extension n a x) : Instability.splitExtension n = (a, x) := by
  have := extension_unique (splitExtension_extension n) h
  exact Prod.ext this.1 this.2

theorem mem_headerExtensions {e : Str} : e ∈ headerExtensions ↔ ∃ s : String, (s = ".hpp" ∨ s = ".h" ∨ s = ".hxx") ∧ e = s.toList := by
  unfold headerExtensions
  constructor
  · intro h
    simp only [List.mem_cons, List.not_mem_nil, or_false] at h
    rcases h with h | h | h
    · exact ⟨".hpp", .inl rfl, h⟩
    · exact ⟨".h", .inr (.inl rfl), h⟩
    · exact ⟨".hxx", .inr (.inr rfl), h⟩
  · rintro ⟨s, h | h | h, rfl⟩ <;> subst h <;> simp

theorem similar_of_candidate {h : Given} {e : Str} (he : e ∈ headerExtensions) (hn : h.names ≠ []) {p : Path} (hm : Matches (withExtension h e) p) : Similar h p := by
  obtain ⟨s, hs, rfl⟩ := mem_headerExtensions.1 he
  refine ⟨h.names.dropLast, h.names.getLast hn, replaceExtension s.toList (h.names.getLast hn), (List.dropLast_concat_getLast hn).symm,
    ⟨_, _, s, splitExtension_extension _, hs, by simp [replaceExtension]⟩, ?_⟩
  simpa [withExtension, List.getLast?_eq_some_getLast hn] using hm

theorem candidate_of_similar {h : Given} {p : Path} (hm : Similar h p) :
    Matches h p ∨ ∃ e, e ∈ headerExtensions ∧ some e ≠ h.names.getLast?.map extension ∧ Matches (withExtension h e) p := by
  obtain ⟨dir, old, new, hn, ⟨stem, x, e, hx, he, hnew⟩, hm⟩ := hm
  have hs := splitExtension_of hx
  have hw : withExtension h e.toList = ⟨h.absolute, dir ++ [new]⟩ := by
    have : replaceExtension e.toList old = new := by
      rw [replaceExtension, hs, ← hnew, String.ofList_toList]
    simp [withExtension, hn, this]
  by_cases hx' : x = e.toList
  · left
    have : old = new := by
      rw [← String.toList_inj, hnew, hx.1, hx']
    subst this
    rw [← hn] at hm
    exact hm
  · right
    refine ⟨e.toList, mem_headerExtensions.2 ⟨e, he, rfl⟩, ?_, hw ▸ hm⟩
    simp only [hn, List.getLast?_concat, Option.map_some, ne_eq, Option.some.injEq, extension, hs]
    exact Ne.symm hx'

theorem locate_some {env : Env} (hw : Walks env.walk) {P : Project} {fs : Disk} {h : Given} {p : Path} (hp : locate env fs P.sourceRepo h = some p) : Source P fs h p := by
  unfold locate candidates at hp
  rw [List.findSome?_cons] at hp
  split at hp
  · next q hq =>
    cases hp
    obtain ⟨h1, h2⟩ := find_some hw hq
    exact ⟨h1, .inl h2⟩
  · next hq =>
    obtain ⟨c, hc, hf⟩ := List.exists_of_findSome?_eq_some hp
    obtain ⟨e, he, rfl⟩ := List.mem_map.1 hc
    obtain ⟨h1, h2⟩ := find_some hw hf
    refine ⟨h1, .inr ⟨similar_of_candidate (List.mem_of_mem_filter he) ?_ h2, fun q hi => find_none hw hq hi⟩⟩
    intro hn
    obtain ⟨_, r, hr, hr'⟩ := h1
    unfold Matches at h2
    simp only [withExtension, hn, List.dropLast_nil, List.getLast?_nil, Option.map_none, Option.toList_none, List.append_nil] at h2
    split at h2
    · rw [hr'] at h2
      simp [hr] at h2
    · exact h2.1 rfl

theorem locate_none {env : Env} (hw : Walks env.walk) {P : Project} {fs : Disk} {h : Given} (hp : locate env fs P.sourceRepo h = none) (q : Path) : ¬ Source P fs h q := by
  unfold locate candidates at hp
  rw [List.findSome?_eq_none_iff] at hp
  have h0 := fun q hi => find_none hw (p := q) (hp h (List.mem_cons_self ..)) hi
  rintro ⟨hi, hm | ⟨hm, -⟩⟩
  · exact h0 q hi hm
  · rcases candidate_of_similar hm with hm | ⟨e, he, hne, hm⟩
    · exact h0 q hi hm
    · exact find_none hw (hp _ (List.mem_cons_of_mem _ (List.mem_map.2 ⟨e, List.mem_filter.2 ⟨he, decide_eq_true hne⟩, rfl⟩))) hi hm

end Verif.TestFiles
