import Verif.Lemmas.ProjectCreatorSequoia

set_option linter.unusedVariables false
set_option linter.unusedSimpArgs false

/-
Lemmas on the creation of a project, as a whole.
-/
namespace Verif.ProjectCreator
open Verif.Text Verif.Materials Verif.Spec.ProjectCreator

/-- A bound for the depth of everything. -/
theorem depth_bound (fs : Disk) : ∃ N, 0 < N ∧ ∀ p, get fs p ≠ none → p.length < N := by
  induction fs with
  | nil => exact ⟨1, by simp, fun p h => by simp [Materials.get] at h⟩
  | cons e fs ih =>
    obtain ⟨N, h0, h⟩ := ih
    refine ⟨N + e.1.length + 1, by omega, fun p hp => ?_⟩
    obtain ⟨q, v⟩ := e
    rw [get_cons] at hp
    by_cases hq : q = p
    · subst hq; dsimp only; omega
    · rw [if_neg hq] at hp
      have := h p hp
      omega

section
variable {P : Parent} {X : Commands} {year : Str} {fuel : Nat} {d : Data} {fs : Disk} {E : Path → Prop}

theorem edit_none (f : Str → Option Str) : edit f none = none := rfl
theorem edit_dir (f : Str → Option Str) : edit f (some .dir) = some .dir := rfl

theorem below_source_dep (n : String) (r : Path) : below ["Source", n] ("dependencies" :: r) = none := by
  rw [below_none]
  intro h
  rw [List.cons_prefix_cons] at h
  exact absurd h.1 (by decide)

theorem prefix_source_dep (n : String) (r : Path) : ¬ ["Source", n] <+: "dependencies" :: r := by
  intro h
  rw [List.cons_prefix_cons] at h
  exact absurd h.1 (by decide)

theorem outside_commands (hX : Confined X d.root.location E) {x : String} (h1 : x ≠ ".git") (h2 : x ≠ "build") (r : Path) : ¬ E (d.root.location ++ x :: r) := by
  intro h
  rcases hX.within _ h with h | h <;>
  · rw [prefix_append_cancel, List.cons_prefix_cons] at h
    first | exact h1 h.1.symm | exact h2 h.1.symm

theorem outside_commands_root (hX : Confined X d.root.location E) {p : Path} (h : ¬ d.root.location <+: p ∨ p = d.root.location) : ¬ E p := by
  intro hE
  rcases h with h | rfl
  · rcases hX.within _ hE with g | g <;> exact h ((List.prefix_append _ _).trans g)
  · rcases hX.within _ hE with g | g <;>
    · have := g.length_le
      simp at this; omega

/-- The creation of a project. -/
theorem initProject_ok (hr : Rooted fs) (ha : accepted d fs = true) (hb : ∀ q c, q <+: d.root.location → get fs q ≠ some (.file c)) (hf0 : 0 < fuel)
    (hN : ∀ p, get fs p ≠ none → p.length < fuel) (ht : Template (template P) year d fs) (hO : Outside P.root (sequoiaRoot P fs) (template P) d.root.location fs)
    (hk : get fs (sequoiaRoot P fs ++ [".keep"]) = none) (hX : Confined X d.root.location E) (hc : d.build = true → get fs P.cache ≠ none ∧ ¬ d.root.location <+: P.cache) :
    ∃ fs', initProject P X year fuel d ⟨fs, false⟩ = .ok ⟨fs', false⟩ ∧
      (∀ r, ¬ E (d.root.location ++ r) → get fs' (d.root.location ++ r) = wanted P.root (sequoiaRoot P fs) (template P) year d fs r) ∧
      ∀ p, ¬ d.root.location <+: p → get fs' p = if p <+: d.root.location then some .dir else get fs p := by
  have hu : unused fs d.root.location = true := by
    unfold accepted at ha
    simp only [Bool.and_eq_true] at ha
    exact ha.1.1.1.2
  obtain ⟨fs1, g1, g2, g3⟩ := prepare_ok (fuel := fuel) (X := X) (E := E) hr hu hb hN ht hO.template hX
  have hdep : ∀ r, get fs1 (d.root.location ++ "dependencies" :: r) = edit (change year d ("dependencies" :: r)) (get fs (template P ++ "dependencies" :: r)) := by
    intro r
    rw [g2 _ (outside_commands hX (by decide) (by decide) r)]
    unfold base
    rw [below_source_dep]
    dsimp only
    rw [if_neg (prefix_source_dep _ _), unused_none hr hu (by decide) (by decide)]
    simp
  have hB : Before d.root.location fs fs1 := by
    refine ⟨g3, ?_, ?_, ?_⟩
    · have := g2 [] (by rw [List.append_nil]; exact outside_commands_root hX (Or.inr rfl))
      rw [List.append_nil] at this
      rw [this]
      unfold base
      have h0 : below ["Source", sourceName d.root.back] [] = none := by rw [below_none]; simp
      rw [h0]
      dsimp only
      rw [if_neg (by simp), List.append_nil, List.append_nil, ht.dir]
      rcases unused_root hu with h | h <;> rw [h] <;> rfl
    · rw [hdep, ht.sequoia]; rfl
    · intro x t h
      rw [hdep] at h
      refine ht.bare x t fun h' => h ?_
      rw [h']; rfl
  obtain ⟨s2, k1, k2, k3, k4⟩ := copySequoia_ok hr hb hf0 hN hO hk hB
  let fs3 := if d.git then X.gitSecond d.root.location s2.fs else s2.fs
  let fs4 := if d.build then X.build d.root.location fs3 else fs3
  have h3 : ∀ p, ¬ E p → get fs3 p = get s2.fs p := by
    intro p hp
    show get (if d.git then _ else _) p = _
    split
    · exact hX.gitSecond _ _ hp
    · rfl
  have h4 : ∀ p, ¬ E p → get fs4 p = get s2.fs p := by
    intro p hp
    show get (if d.build then _ else _) p = _
    split
    · rw [hX.build _ _ hp, h3 p hp]
    · exact h3 p hp
  have hout : ∀ p, ¬ d.root.location <+: p → get s2.fs p = if p <+: d.root.location then some .dir else get fs p := by
    intro p hp
    rw [k4 p fun x h => hp ((List.prefix_append _ _).trans h), g3 p hp]
  refine ⟨fs4, ?_, ?_, ?_⟩
  · unfold initProject
    rw [if_neg (by rw [ha]; simp)]
    unfold onDisk
    dsimp only
    rw [g1]
    simp only [Out.bind]
    rw [k1]
    simp only
    have e3 : gitSecond X d s2.fs = .ok fs3 := by
      unfold gitSecond
      show _ = Out.ok (if d.git then _ else _)
      split <;> rfl
    rw [e3]
    simp only
    have e4 : buildStep P X d fs3 = .ok fs4 := by
      unfold buildStep
      show _ = Out.ok (if d.build then _ else _)
      split
      · next hbu =>
        obtain ⟨c1, c2⟩ := hc hbu
        rw [if_pos]
        rw [exists'_iff, h3 _ (outside_commands_root hX (Or.inl c2)), hout _ c2]
        split
        · simp
        · exact c1
      · rfl
    rw [e4, k2]
  · intro r hE
    rw [h4 _ hE]
    unfold wanted
    cases hbel : below ["dependencies", "sequoia"] r with
    | some u =>
      have hr' := below_iff.1 hbel
      subst hr'
      cases u with
      | cons x t =>
        dsimp only
        have := k3 x t
        simpa using this
      | nil =>
        dsimp only
        rw [k4 _ (by
          intro x h
          have := h.length_le
          simp at this), g2 _ hE]
        rfl
    | none =>
      dsimp only
      rw [k4 _ (by
        intro x h
        rw [prefix_append_cancel] at h
        exact below_none.1 hbel (List.IsPrefix.trans ⟨[x], rfl⟩ h)), g2 _ hE]
      rfl
  · intro p hp
    rw [h4 _ (outside_commands_root hX (Or.inl hp)), hout p hp]

end

end Verif.ProjectCreator
