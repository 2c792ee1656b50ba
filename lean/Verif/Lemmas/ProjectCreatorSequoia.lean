import Verif.Lemmas.ProjectCreatorInit

set_option linter.unusedVariables false
set_option linter.unusedSimpArgs false

/-
Lemmas on the copying of sequoia into a new project.
-/
namespace Verif.ProjectCreator
open Verif.Text Verif.Materials Verif.Spec.ProjectCreator

/-- What there is before sequoia is copied, compared with the beginning: `R` is the new project. -/
structure Before (R : Path) (fs fs' : Disk) : Prop where
  out : ∀ p, ¬ R <+: p → get fs' p = if p <+: R then some .dir else get fs p
  root : get fs' R = some .dir
  target : get fs' (R ++ ["dependencies", "sequoia"]) = some .dir
  bare : ∀ x t, get fs' (R ++ "dependencies" :: "sequoia" :: x :: t) ≠ none → x = ".keep" ∧ t = []

theorem getLast_snoc (p : Path) (x : String) : (p ++ [x]).getLast?.toList = [x] := by simp

section
variable {H S R : Path} {fs fs' : Disk} {fuel : Nat}

/-- What is not above the new project is apart from it. -/
theorem entry_apart (habove : ¬ R <+: S) {x : String} (h : ¬ S ++ [x] <+: R) : Apart (S ++ [x]) R := by
  refine ⟨h, fun h2 => ?_⟩
  rw [List.prefix_concat_iff] at h2
  rcases h2 with h2 | h2
  · exact h (by rw [h2]; exact List.prefix_rfl)
  · exact habove h2

theorem before_apart (hB : Before R fs fs') {q : Path} (ha : Apart q R) (r : Path) : get fs' (q ++ r) = get fs (q ++ r) := by
  rw [hB.out _ (apart_below ha (List.prefix_append _ _)), if_neg]
  exact fun h => ha.1 ((List.prefix_append _ _).trans h)

/-- `copy_sequoia_subdir` for a directory which is apart from the new project. -/
theorem copySubdir_ok (hr : Rooted fs) (hN : ∀ p, get fs p ≠ none → p.length < fuel) {src T : Path} {x : String} {s : St} (hs : ∀ r, get s.fs (src ++ [x] ++ r) = get fs (src ++ [x] ++ r))
    (ha : Apart (src ++ [x]) (T ++ [x])) (hd : get s.fs (src ++ [x]) = some .dir) (hT : get s.fs T = some .dir) (hf : ∀ r, get s.fs (T ++ x :: r) = none) :
    ∃ s', copySubdir fuel T (src ++ [x]) s = .ok s' ∧ s'.reported = s.reported ∧ (∀ r, get s'.fs (T ++ x :: r) = get fs (src ++ x :: r)) ∧ ∀ p, ¬ T ++ [x] <+: p → get s'.fs p = get s.fs p := by
  obtain ⟨f', h1, h2, h3⟩ := copyTree_fresh (skip := false) (n := fuel) (src := src ++ [x]) (dst := T ++ [x]) (fs := s.fs) ha
    ((closed_of_rooted hr _).congr hs) (by rw [hd]; simp)
    (fun r h => by
      rw [hs] at h
      have := hN _ h
      simp at this
      omega)
    (fun r => by simpa using hf r) (by simp) (by rw [parent_append]; exact hT)
  unfold copySubdir
  rw [getLast_snoc, h1]
  refine ⟨_, rfl, rfl, fun r => ?_, h3⟩
  have := h2 r
  rw [hs] at this
  simpa using this

theorem createDirectory_new {p : Path} {x : String} {fs : Disk} (h0 : get fs (p ++ [x]) = none) (h1 : get fs p = some .dir) :
    createDirectory (p ++ [x]) fs = .ok ((p ++ [x], .dir) :: fs) := by
  apply createDirectory_fresh h0
  rw [parent_append]
  exact h1

/-- What is copied of the output. -/
def outputWanted (fs : Disk) (src : Path) (y : String) (u : Path) : Option (Node Str) :=
  if (y = "DiagnosticsOutput" ∨ y = "TestSummaries") ∧ get fs (src ++ [y]) = some .dir then get fs (src ++ y :: u) else none

/-- `copy_sequoia_output`. -/
theorem copyOutput_ok (P : Parent) (hr : Rooted fs) (hN : ∀ p, get fs p ≠ none → p.length < fuel) {T : Path} {s : St}
    (hs : ∀ y r, y = "DiagnosticsOutput" ∨ y = "TestSummaries" → get s.fs (P.root ++ ["output"] ++ y :: r) = get fs (P.root ++ ["output"] ++ y :: r))
    (ha : ∀ y, y = "DiagnosticsOutput" ∨ y = "TestSummaries" → Apart (P.root ++ ["output"] ++ [y]) (T ++ ["output"]))
    (hT : get s.fs T = some .dir) (hf : ∀ r, get s.fs (T ++ "output" :: r) = none) :
    ∃ s', copyOutput P fuel (T ++ ["output"]) (P.root ++ ["output"]) s = .ok s' ∧ s'.reported = s.reported ∧ get s'.fs (T ++ ["output"]) = some .dir ∧
      (∀ y u, get s'.fs (T ++ "output" :: y :: u) = outputWanted fs (P.root ++ ["output"]) y u) ∧ ∀ p, ¬ T ++ ["output"] <+: p → get s'.fs p = get s.fs p := by
  let s1 : St := ⟨(T ++ ["output"], .dir) :: s.fs, s.reported⟩
  have hs1 : ∀ p, p ≠ T ++ ["output"] → get s1.fs p = get s.fs p := fun p hp => by
    show get ((T ++ ["output"], Node.dir) :: s.fs) p = _
    rw [get_cons, if_neg (fun h => hp h.symm)]
  have hs1d : get s1.fs (T ++ ["output"]) = some .dir := by
    show get ((T ++ ["output"], Node.dir) :: s.fs) _ = _
    rw [get_cons, if_pos rfl]
  have hs1f : ∀ y r, get s1.fs (T ++ ["output"] ++ y :: r) = none := fun y r => by
    rw [hs1 _ (by simp), List.append_assoc]
    exact hf _
  have hs1s : ∀ y r, y = "DiagnosticsOutput" ∨ y = "TestSummaries" → get s1.fs (P.root ++ ["output"] ++ y :: r) = get fs (P.root ++ ["output"] ++ y :: r) := fun y r hy => by
    rw [hs1 _ (fun h => (ha y hy).1 ⟨r, by simpa using h⟩)]
    exact hs y r hy
  unfold copyOutput
  rw [show onDisk (fun fs => if exists' fs (T ++ ["output"]) then .ok fs else lift (createDirectory (T ++ ["output"])) fs) s = .ok s1 by
    unfold onDisk
    dsimp only
    rw [if_neg (by simp [exists'_false (show get s.fs (T ++ ["output"]) = none from hf [])]), lift_ok (createDirectory_new (hf []) hT)]]
  simp only [Out.bind]
  obtain ⟨s', h1, hI, h2, h3⟩ := forEach_ok (σ := St) (·.fs) (fun t => t.reported = s.reported) (fun y s =>
        if isDir s.fs (P.root ++ ["output"] ++ [y]) && (P.root ++ ["output"] ++ [y] = P.root ++ ["output", "DiagnosticsOutput"] || P.root ++ ["output"] ++ [y] = P.root ++ ["output", "TestSummaries"]) then
          copySubdir fuel (T ++ ["output"]) (P.root ++ ["output"] ++ [y]) s
        else .ok s) (T ++ ["output"]) (fun y u => outputWanted fs (P.root ++ ["output"]) y u) s1
      (children s1.fs (P.root ++ ["output"])) (nodup_children _ _) [] (by simp) s1 rfl (fun _ _ => rfl) (by
    intro y hy t hIt ht
    have hname : (P.root ++ ["output"] ++ [y] = P.root ++ ["output", "DiagnosticsOutput"] ∨ P.root ++ ["output"] ++ [y] = P.root ++ ["output", "TestSummaries"]) ↔
        (y = "DiagnosticsOutput" ∨ y = "TestSummaries") := by simp [List.append_assoc]
    have hnone : ∀ r, get t.fs (T ++ ["output"] ++ y :: r) = none := fun r => by
      rw [ht _ fun z hz => split_below hz snoc_prefix]
      exact hs1f y r
    by_cases hc : y = "DiagnosticsOutput" ∨ y = "TestSummaries"
    · have hsrc : ∀ r, get t.fs (P.root ++ ["output"] ++ [y] ++ r) = get fs (P.root ++ ["output"] ++ [y] ++ r) := fun r => by
        rw [ht _ fun z hz => absurd ((List.prefix_append _ _).trans hz) (apart_below (ha y hc) (List.prefix_append _ _))]
        have := hs1s y r hc
        simpa using this
      by_cases hdir : get fs (P.root ++ ["output"] ++ [y]) = some .dir
      · have hdt : get t.fs (P.root ++ ["output"] ++ [y]) = some .dir := by
          have := hsrc []
          rw [List.append_nil] at this
          rw [this, hdir]
        rw [if_pos (by
          rw [isDir_iff.2 hdt]
          simpa using hname.2 hc)]
        obtain ⟨t', g1, g2, g3, g4⟩ := copySubdir_ok (fs := fs) hr hN (src := P.root ++ ["output"]) (T := T ++ ["output"]) (x := y) (s := t) hsrc
          (by
            have := ha y hc
            refine ⟨fun h => ?_, fun h => ?_⟩
            · rw [List.prefix_concat_iff] at h
              rcases h with h | h
              · exact this.2 ⟨[y], h.symm⟩
              · exact this.1 h
            · exact this.2 ((List.prefix_append _ _).trans h)) hdt
          (by rw [ht _ fun z hz => by have := hz.length_le; simp at this]; exact hs1d) hnone
        refine ⟨t', g1, by rw [g2, hIt], fun r => ?_, g4⟩
        rw [g3]
        unfold outputWanted
        rw [if_pos ⟨hc, hdir⟩]
      · have hdt : get t.fs (P.root ++ ["output"] ++ [y]) ≠ some .dir := by
          have := hsrc []
          rw [List.append_nil] at this
          rw [this]
          exact hdir
        rw [isDir_false hdt]
        simp only [Bool.false_and, Bool.false_eq_true, if_false]
        refine ⟨t, rfl, hIt, fun r => ?_, fun _ _ => rfl⟩
        rw [hnone]
        unfold outputWanted
        rw [if_neg (fun h => hdir h.2)]
    · rw [if_neg (by
        simp only [Bool.and_eq_true, Bool.or_eq_true, decide_eq_true_eq, not_and]
        exact fun _ h => hc (hname.1 h))]
      refine ⟨t, rfl, hIt, fun r => ?_, fun _ _ => rfl⟩
      rw [hnone]
      unfold outputWanted
      rw [if_neg (fun h => hc h.1)])
  refine ⟨s', h1, hI, ?_, ?_, ?_⟩
  · rw [h3 _ (fun z _ hz => by have := hz.length_le; simp at this)]
    exact hs1d
  · intro y u
    by_cases hy : y ∈ children s1.fs (P.root ++ ["output"])
    · have := h2 y hy u
      simpa using this
    · have := h3 (T ++ ["output"] ++ y :: u) (fun z hz hzp => hy (by rw [← split_below hzp snoc_prefix]; exact hz))
      rw [hs1f] at this
      rw [show T ++ "output" :: y :: u = T ++ ["output"] ++ y :: u by simp, this]
      unfold outputWanted
      rw [if_neg]
      rintro ⟨hc, hd⟩
      rw [mem_children, Classical.not_not] at hy
      have := hs1s y [] hc
      rw [hy, hd] at this
      cases this
  · intro p hp
    rw [h3 p (fun z _ hz => hp ((List.prefix_append _ _).trans hz)), hs1]
    rintro rfl
    exact hp List.prefix_rfl

theorem apart_ext {a b : Path} (h : Apart a R) (hb : R <+: b) : Apart a b := by
  constructor
  · intro h1
    rcases prefix_total h1 hb with h2 | h2
    · exact h.1 h2
    · exact h.2 h2
  · intro h1
    exact h.2 (hb.trans h1)

theorem snoc_inj {p q : Path} {x y : String} : p ++ [x] = q ++ [y] ↔ p = q ∧ x = y := by
  constructor
  · intro h
    have := List.append_inj' h rfl
    exact ⟨this.1, by simpa using this.2⟩
  · rintro ⟨rfl, rfl⟩; rfl

theorem not_below_self {p : Path} {y : String} {r : Path} : ¬ p ++ r ++ [y] <+: p := by
  intro h
  have := h.length_le
  simp at this
  omega

/-- A file is copied. -/
theorem copyFile_ok (hr : Rooted fs) (hf0 : 0 < fuel) {T : Path} {x : String} {c : Str} {s : St} (hfs : get fs (S ++ [x]) = some (.file c)) (hs : get s.fs (S ++ [x]) = some (.file c))
    (hT : get s.fs T = some .dir) (hf : ∀ r, get s.fs (T ++ x :: r) = none) :
    ∃ s', onDisk (copyTree false fuel (S ++ [x]) T) s = .ok s' ∧ s'.reported = s.reported ∧ (∀ r, get s'.fs (T ++ x :: r) = get fs (S ++ x :: r)) ∧ ∀ p, ¬ T ++ [x] <+: p → get s'.fs p = get s.fs p := by
  obtain ⟨n, rfl⟩ : ∃ n, fuel = n + 1 := ⟨fuel - 1, by omega⟩
  unfold onDisk
  rw [copyTree_into hs hT (hf [])]
  refine ⟨_, rfl, rfl, fun r => ?_, fun p hp => ?_⟩
  · show get ((T ++ [x], Node.file c) :: s.fs) _ = _
    rw [get_cons]
    by_cases hr0 : r = []
    · subst hr0; rw [if_pos rfl, hfs]
    · rw [if_neg (by simpa using hr0), hf]
      have := (closed_of_rooted hr (S ++ [x])).none r (by rw [hfs]; simp) hr0
      simpa using this.symm
  · show get ((T ++ [x], Node.file c) :: s.fs) _ = _
    rw [get_cons, if_neg]
    rintro rfl
    exact hp List.prefix_rfl

theorem sequoiaRoot_before {P : Parent} {tmpl : Path} (hO : Outside P.root (sequoiaRoot P fs) tmpl R fs) (hB : Before R fs fs') : sequoiaRoot P fs' = sequoiaRoot P fs := by
  by_cases he : exists' fs (sequoiaIn P.root) = true
  · have h1 : sequoiaRoot P fs = sequoiaIn P.root := by unfold sequoiaRoot; rw [if_pos he]
    have h2 : exists' fs' (sequoiaIn P.root) = true := by
      rw [exists'_iff, hB.out _ (by rw [← h1]; exact hO.above)]
      split
      · simp
      · exact exists'_iff.1 he
    rw [h1]
    unfold sequoiaRoot
    rw [if_pos h2]
  · have h1 : sequoiaRoot P fs = P.root := by unfold sequoiaRoot; rw [if_neg he]
    rw [h1] at hO
    have ha : Apart (P.root ++ ["dependencies"]) R := entry_apart hO.above (hO.whole _ (by simp))
    have h2 := before_apart hB ha ["sequoia"]
    rw [List.append_assoc] at h2
    have h3 : exists' fs' (sequoiaIn P.root) = exists' fs (sequoiaIn P.root) := by
      unfold exists' sequoiaIn
      rw [show P.root ++ ["dependencies", "sequoia"] = P.root ++ (["dependencies"] ++ ["sequoia"]) from rfl, h2]
    unfold sequoiaRoot
    rw [h3]

/-- What is done for one of the entries. -/
theorem copyEntry_ok {P : Parent} (hr : Rooted fs) (hb : ∀ q c, q <+: R → get fs q ≠ some (.file c)) (hf0 : 0 < fuel) (hN : ∀ p, get fs p ≠ none → p.length < fuel) {tmpl : Path}
    (hO : Outside P.root S tmpl R fs) (hk : get fs (S ++ [".keep"]) = none) (hB : Before R fs fs') {x : String} (hx : get fs' (S ++ [x]) ≠ none) {t : St}
    (ht : ∀ p, (∀ y, sequoiaIn R ++ [y] <+: p → y = x) → get t.fs p = get fs' p) :
    ∃ t', copyEntry P fuel S (sequoiaIn R) x t = .ok t' ∧ t'.reported = t.reported ∧ (∀ r, get t'.fs (sequoiaIn R ++ x :: r) = shipped P.root S fs (x :: r)) ∧
      ∀ p, ¬ sequoiaIn R ++ [x] <+: p → get t'.fs p = get t.fs p := by
  have hRT : R <+: sequoiaIn R := List.prefix_append _ _
  have hxk : x ≠ ".keep" := by
    rintro rfl
    have ha : Apart (S ++ [".keep"]) R := entry_apart hO.above (hO.whole _ (by simp))
    have := before_apart hB ha []
    rw [List.append_nil, hk] at this
    exact hx this
  have hT : get t.fs (sequoiaIn R) = some .dir := by
    rw [ht _ fun y hy => absurd hy (by have := not_below_self (p := sequoiaIn R) (y := y) (r := []); simpa using this)]
    exact hB.target
  have hnone : ∀ r, get t.fs (sequoiaIn R ++ x :: r) = none := fun r => by
    rw [ht _ fun y hy => split_below hy snoc_prefix]
    have h0 : sequoiaIn R ++ x :: r = R ++ "dependencies" :: "sequoia" :: x :: r := by simp [sequoiaIn]
    rw [h0]
    cases hg : get fs' (R ++ "dependencies" :: "sequoia" :: x :: r) with
    | none => rfl
    | some v => exact absurd (hB.bare x r (by rw [hg]; simp)).1 hxk
  -- the entry itself
  have hq : ∀ p, ¬ R <+: p → get t.fs p = get fs' p := fun p hp => ht p fun y hy => absurd (hRT.trans ((List.prefix_append _ _).trans hy)) hp
  have hshape : ∀ z, S ++ [x] = P.root ++ [z] ↔ S = P.root ∧ x = z := fun z => snoc_inj
  -- entries which are apart from the new project
  have apartCase : Apart (S ++ [x]) R → ¬ (S = P.root ∧ x = "output") → ¬ (S = P.root ∧ x = "build" ∧ get fs (S ++ [x]) = some .dir) →
      ∃ t', copyEntry P fuel S (sequoiaIn R) x t = .ok t' ∧ t'.reported = t.reported ∧ (∀ r, get t'.fs (sequoiaIn R ++ x :: r) = shipped P.root S fs (x :: r)) ∧
      ∀ p, ¬ sequoiaIn R ++ [x] <+: p → get t'.fs p = get t.fs p := by
    intro ha ho hbu
    have hsame : ∀ r, get t.fs (S ++ [x] ++ r) = get fs (S ++ [x] ++ r) := fun r => by
      rw [hq _ (apart_below ha (List.prefix_append _ _))]
      exact before_apart hB ha r
    have hsame0 : get t.fs (S ++ [x]) = get fs (S ++ [x]) := by simpa using hsame []
    have hfx : get fs (S ++ [x]) ≠ none := by
      have := before_apart hB ha []
      rw [List.append_nil] at this
      rwa [← this]
    have hship : ∀ r, shipped P.root S fs (x :: r) = get fs (S ++ x :: r) := fun r => by
      unfold shipped
      dsimp only
      rw [if_neg (fun h => ho ((hshape _).1 h.1)), if_neg (fun h => hbu ⟨((hshape _).1 h.1).1, ((hshape _).1 h.1).2, h.2⟩)]
    unfold copyEntry
    cases hg : get fs (S ++ [x]) with
    | none => exact absurd hg hfx
    | some v =>
      cases v with
      | dir =>
        rw [if_pos (isDir_iff.2 (by rw [hsame0, hg])), if_neg (fun h => ho ((hshape _).1 h)),
          if_pos (fun h => hbu ⟨((hshape _).1 h).1, ((hshape _).1 h).2, hg⟩)]
        obtain ⟨t', g1, g2, g3, g4⟩ := copySubdir_ok (fs := fs) hr hN (src := S) (T := sequoiaIn R) (x := x) (s := t) hsame
          (apart_ext ha (hRT.trans (List.prefix_append _ _))) (by rw [hsame0, hg]) hT hnone
        exact ⟨t', g1, g2, fun r => by rw [g3, hship], g4⟩
      | file c =>
        rw [if_neg (by rw [isDir_iff, hsame0, hg]; simp)]
        obtain ⟨t', g1, g2, g3, g4⟩ := copyFile_ok (fs := fs) (fuel := fuel) hr hf0 (T := sequoiaIn R) (s := t) hg (by rw [hsame0, hg]) hT hnone
        exact ⟨t', g1, g2, fun r => by rw [g3, hship], g4⟩
  by_cases hout : S = P.root ∧ x = "output"
  · obtain ⟨rfl, rfl⟩ := hout
    have hRq : ¬ R <+: P.root ++ ["output"] := by
      intro h
      have h' := h
      rw [List.prefix_concat_iff] at h
      rcases h with h | h
      · exact (hO.output rfl (by rw [h]; exact List.prefix_rfl)).1 h
      · exact hO.above h
    have hy : ∀ y, y = "DiagnosticsOutput" ∨ y = "TestSummaries" → Apart (P.root ++ ["output"] ++ [y]) R := by
      intro y hy
      refine entry_apart hRq fun h => ?_
      have h1 : P.root ++ ["output"] <+: R := (List.prefix_append _ _).trans h
      obtain ⟨-, -, h2, h3⟩ := hO.output rfl h1
      rw [List.append_assoc] at h
      rcases hy with rfl | rfl
      · exact h2 h
      · exact h3 h
    by_cases hd : get fs (P.root ++ ["output"]) = some .dir
    · have hd' : get t.fs (P.root ++ ["output"]) = some .dir := by
        rw [hq _ hRq, hB.out _ hRq]
        split
        · rfl
        · exact hd
      obtain ⟨t', g1, g2, g3, g4, g5⟩ := copyOutput_ok (fs := fs) (fuel := fuel) P hr hN (T := sequoiaIn R) (s := t)
        (fun y r h => by
          have := before_apart hB (hy y h) r
          rw [show P.root ++ ["output"] ++ [y] ++ r = P.root ++ ["output"] ++ y :: r by simp] at this
          rw [hq _ (apart_below (hy y h) ⟨r, by simp⟩), this])
        (fun y h => apart_ext (hy y h) (hRT.trans (List.prefix_append _ _))) hT hnone
      refine ⟨t', ?_, g2, ?_, g5⟩
      · unfold copyEntry
        rw [if_pos (isDir_iff.2 hd'), if_pos rfl]
        exact g1
      · intro r
        unfold shipped
        dsimp only
        rw [if_pos ⟨rfl, hd⟩]
        cases r with
        | nil => exact g3
        | cons y u =>
          rw [g4]
          unfold outputWanted
          simp only [List.append_assoc, List.cons_append, List.nil_append]
    · -- it is a file
      have hnp : ¬ P.root ++ ["output"] <+: R := fun h => hd (hO.output rfl h).2.1
      have ha := entry_apart hO.above hnp
      have hsame0 : get t.fs (P.root ++ ["output"]) = get fs (P.root ++ ["output"]) := by
        rw [hq _ hRq]
        have := before_apart hB ha []
        simpa using this
      have hship : ∀ r, shipped P.root P.root fs ("output" :: r) = get fs (P.root ++ "output" :: r) := fun r => by
        unfold shipped
        dsimp only
        rw [if_neg (fun h => hd h.2), if_neg (fun h => hd h.2)]
      cases hg : get fs (P.root ++ ["output"]) with
      | none =>
        have := before_apart hB ha []
        rw [List.append_nil, hg] at this
        exact absurd this hx
      | some v =>
        cases v with
        | dir => exact absurd hg hd
        | file c =>
          obtain ⟨t', g1, g2, g3, g4⟩ := copyFile_ok (fs := fs) (fuel := fuel) hr hf0 (T := sequoiaIn R) (s := t) hg (by rw [hsame0, hg]) hT hnone
          refine ⟨t', ?_, g2, fun r => by rw [g3, hship], g4⟩
          unfold copyEntry
          rw [if_neg (by rw [isDir_iff, hsame0, hg]; simp)]
          exact g1
  · by_cases hbu : S = P.root ∧ x = "build"
    · obtain ⟨rfl, rfl⟩ := hbu
      have htq : get t.fs (P.root ++ ["build"]) = get fs' (P.root ++ ["build"]) := ht _ fun y hy => by
        have h1 : R ++ ["dependencies", "sequoia"] ++ [y] <+: P.root ++ ["build"] := hy
        have h2 : R <+: P.root ++ ["build"] := hRT.trans ((List.prefix_append _ _).trans hy)
        rw [List.prefix_concat_iff] at h2
        rcases h2 with h2 | h2
        · rw [← h2] at h1
          exact absurd h1 not_below_self
        · exact absurd h2 hO.above
      by_cases hp : P.root ++ ["build"] <+: R
      · have hdir : get fs' (P.root ++ ["build"]) = some .dir := by
          by_cases hR : R <+: P.root ++ ["build"]
          · have : R = P.root ++ ["build"] := hR.eq_of_length (Nat.le_antisymm hR.length_le hp.length_le)
            rw [← this]
            exact hB.root
          · rw [hB.out _ hR, if_pos hp]
        refine ⟨t, ?_, rfl, ?_, fun _ _ => rfl⟩
        · unfold copyEntry
          rw [if_pos (isDir_iff.2 (by rw [htq, hdir])), if_neg (fun h => by simpa using (hshape _).1 h), if_neg (by simp)]
        · intro r
          rw [hnone]
          unfold shipped
          dsimp only
          rw [if_neg (fun h => by simpa using (hshape _).1 h.1)]
          cases hg : get fs (P.root ++ ["build"]) with
          | none =>
            rw [if_neg (by simp)]
            have := tmpl_none hr hg r
            simpa using this.symm
          | some v =>
            cases v with
            | dir => rw [if_pos ⟨rfl, rfl⟩]
            | file c => exact absurd hg (hb _ c hp)
      · have ha := entry_apart hO.above hp
        by_cases hd : get fs (P.root ++ ["build"]) = some .dir
        · have hdir : get fs' (P.root ++ ["build"]) = some .dir := by
            have := before_apart hB ha []
            rw [List.append_nil] at this
            rw [this, hd]
          refine ⟨t, ?_, rfl, ?_, fun _ _ => rfl⟩
          · unfold copyEntry
            rw [if_pos (isDir_iff.2 (by rw [htq, hdir])), if_neg (fun h => by simpa using (hshape _).1 h), if_neg (by simp)]
          · intro r
            rw [hnone]
            unfold shipped
            dsimp only
            rw [if_neg (fun h => by simpa using (hshape _).1 h.1), if_pos ⟨rfl, hd⟩]
        · exact apartCase ha (by simp) (fun h => hd h.2.2)
    · refine apartCase (entry_apart hO.above (hO.whole x ?_)) hout (fun h => hbu ⟨h.1, h.2.1⟩)
      rintro ⟨h1, h2 | h2⟩
      · exact hout ⟨h1, h2⟩
      · exact hbu ⟨h1, h2⟩

/-- `copy_sequoia`. -/
theorem copySequoia_ok {P : Parent} (hr : Rooted fs) (hb : ∀ q c, q <+: R → get fs q ≠ some (.file c)) (hf0 : 0 < fuel) (hN : ∀ p, get fs p ≠ none → p.length < fuel) {tmpl : Path}
    (hO : Outside P.root (sequoiaRoot P fs) tmpl R fs) (hk : get fs (sequoiaRoot P fs ++ [".keep"]) = none) (hB : Before R fs fs') :
    ∃ s', copySequoia P fuel R ⟨fs', false⟩ = .ok s' ∧ s'.reported = false ∧
      (∀ x t, get s'.fs (R ++ "dependencies" :: "sequoia" :: x :: t) = shipped P.root (sequoiaRoot P fs) fs (x :: t)) ∧
      ∀ p, (∀ x, ¬ R ++ ["dependencies", "sequoia", x] <+: p) → get s'.fs p = get fs' p := by
  have hseq := sequoiaRoot_before hO hB
  generalize hS : sequoiaRoot P fs = S at *
  obtain ⟨s1, h1, hI, h2, h3⟩ := forEach_ok (σ := St) (·.fs) (fun t => t.reported = false) (copyEntry P fuel S (sequoiaIn R)) (sequoiaIn R) (fun x u => shipped P.root S fs (x :: u))
    ⟨fs', false⟩ (children fs' S) (nodup_children _ _) [] (by simp) ⟨fs', false⟩ rfl (fun _ _ => rfl) (by
      intro x hx t hIt ht
      obtain ⟨t', g1, g2, g3, g4⟩ := copyEntry_ok hr hb hf0 hN hO hk hB (mem_children.1 hx) ht
      exact ⟨t', g1, by rw [g2, hIt], g3, g4⟩)
  -- what is not in the directory is not shipped
  have hgone : ∀ x u, x ∉ children fs' S → shipped P.root S fs (x :: u) = none := by
    intro x u hx
    rw [mem_children, Classical.not_not] at hx
    have h0 : get fs (S ++ [x]) = none := by
      by_cases hR : R <+: S ++ [x]
      · rw [List.prefix_concat_iff] at hR
        rcases hR with hR | hR
        · rw [← hR, hB.root] at hx; cases hx
        · exact absurd hR hO.above
      · rw [hB.out _ hR] at hx
        split at hx
        · cases hx
        · exact hx
    unfold shipped
    dsimp only
    rw [if_neg (by rw [h0]; simp), if_neg (by rw [h0]; simp)]
    have := tmpl_none hr h0 u
    simpa using this
  have hkeep : ".keep" ∉ children fs' S := by
    rw [mem_children, Classical.not_not]
    have ha : Apart (S ++ [".keep"]) R := entry_apart hO.above (hO.whole _ (by simp))
    have := before_apart hB ha []
    rw [List.append_nil, hk] at this
    exact this
  have hT : ∀ x u, get s1.fs (sequoiaIn R ++ x :: u) = if x ∈ children fs' S then shipped P.root S fs (x :: u) else get fs' (sequoiaIn R ++ x :: u) := by
    intro x u
    split
    · next hx => exact h2 x hx u
    · next hx => exact h3 _ fun z hz hzp => hx (by rw [← split_below hzp snoc_prefix]; exact hz)
  have hbare : ∀ x u, get fs' (sequoiaIn R ++ x :: u) ≠ none → x = ".keep" ∧ u = [] := by
    intro x u h
    refine hB.bare x u ?_
    simpa [sequoiaIn] using h
  have hch : children s1.fs (sequoiaIn R ++ [".keep"]) = [] := by
    apply List.eq_nil_iff_forall_not_mem.2
    intro z hz
    rw [mem_children, List.append_assoc] at hz
    have := hT ".keep" [z]
    rw [if_neg hkeep] at this
    have h5 : get s1.fs (sequoiaIn R ++ ([".keep"] ++ [z])) = get fs' (sequoiaIn R ++ ".keep" :: [z]) := this
    rw [h5] at hz
    have := (hbare _ _ hz).2
    cases this
  refine ⟨⟨removeAll (sequoiaIn R ++ [".keep"]) s1.fs, false⟩, ?_, rfl, ?_, ?_⟩
  · unfold copySequoia
    simp only [hseq, h1, Out.bind, onDisk, remove, hch, if_true]
    rw [← hI]
  · intro x u
    show get (removeAll _ _) _ = _
    rw [get_removeAll]
    have e0 : R ++ "dependencies" :: "sequoia" :: x :: u = sequoiaIn R ++ x :: u := by simp [sequoiaIn]
    rw [e0]
    by_cases hx : x = ".keep"
    · subst hx
      have : below (sequoiaIn R ++ [".keep"]) (sequoiaIn R ++ ".keep" :: u) = some u := below_iff.2 (by simp)
      rw [this]
      exact (hgone _ u hkeep).symm
    · have : below (sequoiaIn R ++ [".keep"]) (sequoiaIn R ++ x :: u) = none := below_none.2 fun h => hx (split_below snoc_prefix h)
      rw [this]
      dsimp only
      rw [hT]
      split
      · rfl
      · next hm =>
        rw [hgone x u hm]
        cases hg : get fs' (sequoiaIn R ++ x :: u) with
        | none => rfl
        | some v => exact absurd (hbare x u (by rw [hg]; simp)).1 hx
  · intro p hp
    have hp' : ∀ x, ¬ sequoiaIn R ++ [x] <+: p := fun x h => hp x (by simpa [sequoiaIn] using h)
    show get (removeAll _ _) _ = _
    rw [get_removeAll, below_none.2 (hp' _)]
    exact h3 p fun x _ => hp' x

end

end Verif.ProjectCreator
