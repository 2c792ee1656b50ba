import Verif.Lemmas.ProjectCreator
import Verif.Lemmas.Text

set_option linter.unusedVariables false
set_option linter.unusedSimpArgs false

/-
Lemmas on the steps of the creation of a project.
-/
namespace Verif.ProjectCreator
open Verif.Text Verif.Materials Verif.Spec.ProjectCreator

theorem isDir_false {fs : Disk} {p : Path} (h : get fs p ≠ some .dir) : isDir fs p = false := by
  cases hd : isDir fs p with
  | false => rfl
  | true => exact absurd (isDir_iff.1 hd) h

theorem exists'_false {fs : Disk} {p : Path} (h : get fs p = none) : exists' fs p = false := by
  cases hd : exists' fs p with
  | false => rfl
  | true => exact absurd h (exists'_iff.1 hd)

theorem edit_some (x : Option (Node Str)) : edit some x = x := by
  rcases x with _ | _ | c <;> rfl

theorem edit_id {f : Str → Option Str} (h : ∀ t, f t = some t) (x : Option (Node Str)) : edit f x = x := by
  rw [show f = some from funext h, edit_some]

theorem replaceAll_total {p new : Str} (hp : p ≠ []) (s : Str) : ∃ r, replaceAll (s.length + 1) s p new = some r := by
  have := replaceAllFrom_total («to» := new) hp (s.length + 1) s [] (by omega)
  simpa [replaceAll] using this

theorem setProjName_total (name text : Str) : ∃ t, setProjName name text = some t := by
  unfold setProjName
  obtain ⟨n, hn⟩ := replaceAll_total (p := [' ']) (new := ['_']) (by simp) name
  rw [hn, Option.bind_some]
  obtain ⟨t, ht⟩ := replaceAll_total (p := "MyProject".toList) (new := n) (by decide) text
  rw [ht, Option.bind_some]
  exact replaceAll_total (by decide) t

theorem modify_ok {p : Path} {f : Str → Option Str} {fs : Disk} {c c' : Str} (h : get fs p = some (.file c)) (hf : f c = some c') :
    ∃ fs', modifyFile p f fs = .ok fs' ∧ ∀ q, get fs' q = if q = p then edit f (get fs q) else get fs q := by
  unfold modifyFile
  rw [h]
  simp only [hf, Option.elim_some]
  refine ⟨_, rfl, fun q => ?_⟩
  rw [get_cons]
  by_cases hq : q = p
  · subst hq
    simp [h, edit, hf]
  · rw [if_neg (fun e => hq e.symm), if_neg hq]

theorem rename_ok {src dst : Path} {fs : Disk} (hs : get fs src ≠ none) (hd : src ≠ dst → Apart src dst ∧ ∀ r, get fs (dst ++ r) = none) :
    ∃ fs', rename src dst fs = .ok fs' ∧ ∀ q, get fs' q = match below dst q with | some r => get fs (src ++ r) | none => if src <+: q then none else get fs q := by
  unfold rename
  rw [if_neg (by simp [exists'_iff.2 hs])]
  by_cases he : src = dst
  · rw [if_pos he]
    refine ⟨fs, rfl, fun q => ?_⟩
    cases hb : below dst q with
    | some r => rw [below_iff.1 hb, he]
    | none =>
      dsimp only
      rw [if_neg]
      rw [he]
      exact below_none.1 hb
  · obtain ⟨ha, hn⟩ := hd he
    rw [if_neg he, if_neg (by simp [exists'_false (by simpa using hn [])])]
    refine ⟨_, rfl, fun q => ?_⟩
    rw [get_append, get_transplant, get_removeAll]
    cases hb : below dst q with
    | some r =>
      dsimp only
      have hq := below_iff.1 hb
      cases hg : get fs (src ++ r) with
      | some v => rfl
      | none =>
        rw [Option.none_or]
        cases below src q with
        | none => rw [hq]; exact hn r
        | some _ => rfl
    | none =>
      dsimp only
      rw [Option.none_or]
      cases hb' : below src q with
      | none => dsimp only; rw [if_neg (below_none.1 hb')]
      | some r => dsimp only; rw [if_pos ⟨r, (below_iff.1 hb').symm⟩]

theorem lift_ok {f : Disk → Res Disk} {fs fs' : Disk} (h : f fs = .ok fs') : lift f fs = .ok fs' := by
  unfold lift; rw [h]

/-- What there should be in a new project before sequoia is copied. -/
def base (root tmpl : Path) (year : Str) (d : Data) (fs : Disk) (r : Path) : Option (Node Str) :=
  match below ["Source", sourceName d.root.back] r with
  | some t => edit (change year d r) (get fs (tmpl ++ "Source" :: "projectTemplate" :: t))
  | none =>
    if ["Source", "projectTemplate"] <+: r then none
    else edit (change year d r) ((get fs (root ++ r)).or (get fs (tmpl ++ r)))

section
variable {P : Parent} {X : Commands} {year : Str} {fuel : Nat} {d : Data} {fs : Disk} {E : Path → Prop}

theorem unused_none (hr : Rooted fs) (hu : unused fs d.root.location = true) {x : String} (h1 : x ≠ ".keep") (h2 : x ≠ ".DS_Store") (r : Path) :
    get fs (d.root.location ++ x :: r) = none := by
  have h0 : get fs (d.root.location ++ [x]) = none := by
    cases hg : get fs (d.root.location ++ [x]) with
    | none => rfl
    | some v =>
      have hd := hr _ _ (by rw [hg]; simp)
      have hc := mem_children.2 (show get fs (d.root.location ++ [x]) ≠ none by rw [hg]; simp)
      unfold unused at hu
      rw [exists'_iff.2 (by rw [hd]; simp)] at hu
      simp only [Bool.not_true, Bool.false_or, Bool.and_eq_true, List.all_eq_true] at hu
      have := hu.2 x hc
      simp [h1, h2] at this
  by_cases hx : r = []
  · subst hx; exact h0
  · have := ((closed_of_rooted hr d.root.location).child x).none r (by rw [h0]; simp) hx
    simpa using this

theorem unused_root (hu : unused fs d.root.location = true) : get fs d.root.location = none ∨ get fs d.root.location = some .dir := by
  cases hg : get fs d.root.location with
  | none => exact Or.inl rfl
  | some v =>
    unfold unused at hu
    rw [exists'_iff.2 (by rw [hg]; simp)] at hu
    simp only [Bool.not_true, Bool.false_or, Bool.and_eq_true] at hu
    rw [isDir_iff, hg] at hu
    exact Or.inr hu.1

theorem tmpl_none (hr : Rooted fs) {p : Path} (h : get fs p = none) (r : Path) : get fs (p ++ r) = none := by
  by_cases hx : r = []
  · subst hx; simpa using h
  · exact (closed_of_rooted hr p).none r (by rw [h]; simp) hx

theorem prefix_append_cancel {p a b : Path} : p ++ a <+: p ++ b ↔ a <+: b := List.prefix_append_right_inj p

/-- Everything before sequoia is copied. -/
theorem prepare_ok (hr : Rooted fs) (hu : unused fs d.root.location = true) (hb : ∀ q c, q <+: d.root.location → get fs q ≠ some (.file c))
    (hN : ∀ p, get fs p ≠ none → p.length < fuel) (ht : Template (template P) year d fs) (ha : Apart d.root.location (template P)) (hX : Confined X d.root.location E) :
    ∃ fs', prepare P X year fuel d fs = .ok fs' ∧ (∀ r, ¬ E (d.root.location ++ r) → get fs' (d.root.location ++ r) = base d.root.location (template P) year d fs r) ∧
      ∀ p, ¬ d.root.location <+: p → get fs' p = if p <+: d.root.location then some .dir else get fs p := by
  have hroot := unused_root hu
  have hnone := fun {x : String} (h1 : x ≠ ".keep") (h2 : x ≠ ".DS_Store") (r : Path) => unused_none (d := d) hr hu h1 h2 r
  generalize hR : d.root.location = R at *
  generalize hT : template P = T at *
  -- the directory
  obtain ⟨fs1, g1⟩ := createDirectories_of (p := R) (fs := fs) hb
  have hg1 := createDirectories_ok g1
  have g1' : lift (createDirectories R) fs = .ok fs1 := lift_ok g1
  have hT1 : ∀ r, get fs1 (T ++ r) = get fs (T ++ r) := fun r => by
    rw [hg1, if_neg]
    exact fun h => ha.2 ((List.prefix_append _ _).trans h)
  have hR1 : ∀ r, r ≠ [] → get fs1 (R ++ r) = get fs (R ++ r) := fun r hr => by
    rw [hg1, if_neg]
    intro h
    have := h.length_le
    simp at this
    have h0 := List.length_pos_iff.2 hr
    omega
  have hR0 : get fs1 R = some .dir := by rw [hg1, if_pos List.prefix_rfl]
  -- the template
  have hcR : Closed fs1 R := by
    intro r x hx
    by_cases hr0 : r = []
    · subst hr0; simpa using hR0
    · rw [hR1 r hr0]
      rw [List.append_assoc, hR1 _ (by simp)] at hx
      exact hr _ x (by rwa [List.append_assoc])
  obtain ⟨fs2, g2, hg2, hg2'⟩ := copyTree_merge (skip := true) (n := fuel) (src := T) (dst := R) (fs := fs1) ⟨ha.2, ha.1⟩
    ((closed_of_rooted hr T).congr hT1) hcR (by rw [← List.append_nil T, hT1, List.append_nil]; exact ht.dir)
    (fun r h => by
      rw [hT1] at h
      have := hN _ h
      simp at this
      omega) hR0 (by
      intro x hx
      rw [hT1] at hx
      rw [hR1 _ (by simp)]
      by_cases h1 : x = ".keep"
      · subst h1; exact absurd ht.fresh.1 hx
      · by_cases h2 : x = ".DS_Store"
        · subst h2; exact absurd ht.fresh.2 hx
        · exact hnone h1 h2 [])
  have old : ∀ r, get fs2 (R ++ r) = (get fs (R ++ r)).or (get fs (T ++ r)) := by
    intro r
    rw [hg2, hT1]
    by_cases hr0 : r = []
    · subst hr0
      simp only [List.append_nil, hR0, Option.some_or]
      rcases hroot with h | h
      · rw [h, ht.dir]; rfl
      · rw [h]; rfl
    · rw [hR1 r hr0]
  have oldT : ∀ {x : String} (r : Path), x ≠ ".keep" → x ≠ ".DS_Store" → get fs2 (R ++ x :: r) = get fs (T ++ x :: r) := fun r h1 h2 => by
    rw [old, hnone h1 h2, Option.none_or]
  -- the new name
  have hsp : get fs (T ++ ["Source", "projectTemplate"]) = some .dir := by
    obtain ⟨c, hc⟩ := ht.source
    have := hr (T ++ ["Source", "projectTemplate"]) "CMakeLists.txt" (by rw [List.append_assoc]; simp [hc])
    exact this
  obtain ⟨fs3, g3, hg3⟩ := rename_ok (src := R ++ ["Source", "projectTemplate"]) (dst := R ++ ["Source", sourceName d.root.back]) (fs := fs2)
    (by rw [oldT _ (by decide) (by decide), hsp]; simp)
    (by
      intro hne
      have hne' : sourceName d.root.back ≠ "projectTemplate" := fun h => hne (by rw [h])
      refine ⟨⟨?_, ?_⟩, ?_⟩
      · rw [prefix_append_cancel]; simp [List.cons_prefix_cons, hne'.symm]
      · rw [prefix_append_cancel]; simp [List.cons_prefix_cons, hne']
      · intro r
        have h0 := ht.name.resolve_left hne'
        rw [List.append_assoc]
        show get fs2 (R ++ "Source" :: (sourceName d.root.back :: r)) = none
        rw [oldT _ (by decide) (by decide)]
        have := tmpl_none hr h0 r
        simpa using this)
  have hg3in : ∀ r, get fs3 (R ++ r) = match below ["Source", sourceName d.root.back] r with
      | some t => get fs (T ++ "Source" :: "projectTemplate" :: t)
      | none => if ["Source", "projectTemplate"] <+: r then none else (get fs (R ++ r)).or (get fs (T ++ r)) := by
    intro r
    rw [hg3]
    have hbl : below (R ++ ["Source", sourceName d.root.back]) (R ++ r) = below ["Source", sourceName d.root.back] r := by
      cases h : below ["Source", sourceName d.root.back] r with
      | some t => rw [below_iff, below_iff.1 h]; simp
      | none => rw [below_none, prefix_append_cancel]; exact below_none.1 h
    rw [hbl]
    cases h : below ["Source", sourceName d.root.back] r with
    | some t =>
      dsimp only
      rw [List.append_assoc]
      show get fs2 (R ++ "Source" :: ("projectTemplate" :: t)) = _
      exact oldT _ (by decide) (by decide)
    | none => dsimp only; simp only [prefix_append_cancel, old]
  have hg3out : ∀ p, ¬ R <+: p → get fs3 p = get fs1 p := by
    intro p hp
    rw [hg3, below_none.2 (fun h => hp ((List.prefix_append _ _).trans h))]
    dsimp only
    rw [if_neg (fun h => hp ((List.prefix_append _ _).trans h)), hg2' p hp]
  have belowSrc : ∀ {x : String} (r : Path), x ≠ "Source" → below ["Source", sourceName d.root.back] (x :: r) = none ∧ ¬ ["Source", "projectTemplate"] <+: x :: r := by
    intro x r hx
    constructor
    · rw [below_none]
      intro h
      exact hx (List.cons_prefix_cons.1 h).1.symm
    · intro h
      exact hx (List.cons_prefix_cons.1 h).1.symm
  have plain : ∀ {x : String} (r : Path), x ≠ "Source" → x ≠ ".keep" → x ≠ ".DS_Store" → get fs3 (R ++ x :: r) = get fs (T ++ x :: r) := by
    intro x r hx h1 h2
    rw [hg3in, (belowSrc r hx).1]
    dsimp only
    rw [if_neg (belowSrc r hx).2, hnone h1 h2, Option.none_or]
  -- the main file
  obtain ⟨cm, cm', hcm, hcm'⟩ := ht.main
  obtain ⟨fs4, g4, hg4⟩ := modify_ok (p := R ++ ["TestAll", "TestAllMain.cpp"]) (f := mainText year d.owner d.indent d.root.back) (fs := fs3)
    (by rw [plain _ (by decide) (by decide) (by decide)]; exact hcm) hcm'
  obtain ⟨cc, hcc⟩ := ht.cmake
  obtain ⟨cc', hcc'⟩ := setProjName_total d.root.back cc
  obtain ⟨fs5, g5, hg5⟩ := modify_ok (p := R ++ ["TestAll", "CMakeLists.txt"]) (f := setProjName d.root.back) (fs := fs4)
    (by rw [hg4, if_neg (by simp), plain _ (by decide) (by decide) (by decide)]; exact hcc) hcc'
  obtain ⟨cs, hcs⟩ := ht.source
  obtain ⟨cs', hcs'⟩ := setProjName_total d.root.back cs
  obtain ⟨fs6, g6, hg6⟩ := modify_ok (p := R ++ ["Source", sourceName d.root.back, "CMakeLists.txt"]) (f := setProjName d.root.back) (fs := fs5)
    (by
      rw [hg5, if_neg (by simp), hg4, if_neg (by simp), hg3in]
      have : below ["Source", sourceName d.root.back] ["Source", sourceName d.root.back, "CMakeLists.txt"] = some ["CMakeLists.txt"] := below_iff.2 rfl
      rw [this]
      exact hcs) hcs'
  -- git
  have hgit : ∃ fs7, gitFirst X d fs6 = .ok fs7 ∧ ∀ p, ¬ E p → get fs7 p =
      if p = R ++ [".gitignore"] ∧ d.git = true then edit (fun t => some (d.output.elim t fun f => t ++ ['\n', '\n'] ++ f)) (get fs6 p) else get fs6 p := by
    unfold gitFirst
    rw [hR]
    cases hd : d.git with
    | false => exact ⟨fs6, by simp, fun p _ => by simp⟩
    | true =>
      simp only [if_true, and_true]
      cases ho : d.output with
      | none =>
        refine ⟨_, rfl, fun p hp => ?_⟩
        rw [hX.gitFirst _ _ hp]
        split
        · rw [edit_id]; intro t; rfl
        · rfl
      | some f =>
        obtain ⟨ci, hci⟩ := ht.ignore hd
        obtain ⟨fs7, g7, hg7⟩ := modify_ok (p := R ++ [".gitignore"]) (f := fun t => some (t ++ ['\n', '\n'] ++ f)) (fs := fs6) (c := ci)
          (by rw [hg6, if_neg (by simp), hg5, if_neg (by simp), hg4, if_neg (by simp), plain _ (by decide) (by decide) (by decide)]; exact hci) rfl
        simp only [g7, Out.bind]
        refine ⟨_, rfl, fun p hp => ?_⟩
        rw [hX.gitFirst _ _ hp, hg7]
        rfl
  obtain ⟨fs7, g7, hg7⟩ := hgit
  refine ⟨fs7, ?_, ?_, ?_⟩
  · unfold prepare generateMain generateBuildFiles
    rw [hR, hT]
    simp only [g1', g2, g3, g4, g5, g6, g7, Out.bind]
  · intro r hEr
    rw [hg7 _ hEr, hg6, hg5, hg4, hg3in]
    simp only [List.append_cancel_left_eq]
    unfold base change
    by_cases h1 : r = ["TestAll", "TestAllMain.cpp"]
    · subst h1
      simp [belowSrc _ (show "TestAll" ≠ "Source" by decide)]
    · by_cases h2 : r = ["TestAll", "CMakeLists.txt"]
      · subst h2
        simp [belowSrc _ (show "TestAll" ≠ "Source" by decide)]
      · by_cases h3 : r = ["Source", sourceName d.root.back, "CMakeLists.txt"]
        · subst h3
          have : below ["Source", sourceName d.root.back] ["Source", sourceName d.root.back, "CMakeLists.txt"] = some ["CMakeLists.txt"] := below_iff.2 rfl
          simp [this]
        · by_cases h4 : r = [".gitignore"]
          · subst h4
            simp only [belowSrc _ (show ".gitignore" ≠ "Source" by decide), h1, h2, h3, if_false, true_and, or_self]
            split <;> simp [edit_some]
          · simp only [h1, h2, h3, h4, if_false, false_and, or_self]
            split
            · rw [edit_some]
            · rw [edit_some]
  · intro p hp
    have hEp : ¬ E p := fun h => by
      rcases hX.within p h with h | h
      · exact hp ((List.prefix_append _ _).trans h)
      · exact hp ((List.prefix_append _ _).trans h)
    have hne : ∀ r : Path, p ≠ R ++ r := fun r h => hp ⟨r, h.symm⟩
    rw [hg7 p hEp, if_neg (fun h => hne _ h.1), hg6, if_neg (hne _), hg5, if_neg (hne _), hg4, if_neg (hne _), hg3out p hp, hg1]

end

end Verif.ProjectCreator
