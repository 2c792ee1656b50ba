import Verif.Lemmas.ProjectCreatorText

set_option linter.unusedVariables false
set_option linter.unusedSimpArgs false

/-
Lemmas on the main file of a new project.
-/
namespace Verif.ProjectCreator
open Verif.Text Verif.FileEditors Verif.Spec.Text Verif.Spec.ProjectCreator

def rosten : Str := ['O', 'l', 'i', 'v', 'e', 'r', ' ', 'J', '.', ' ', 'R', 'o', 's', 't', 'e', 'n']

theorem rosten_eq : "Oliver J. Rosten".toList = rosten := by decide +kernel

theorem top_found : find mainTemplate "Copyright".toList 0 = some 87 ∧ rfind mainTemplate "//".toList 87 = some 69 ∧ find mainTemplate "//".toList 87 = some 135 := by decide +kernel

theorem top_split : mainTemplate.take 71 = main₀ ∧ mainTemplate.drop 135 = main₁ ++ littleMark ++ main₂ ++ littleMark ++ main₃ ++ rosten ++ main₄ ++ ['\\', 't'] ++ main₅ := by decide +kernel

theorem main₀_facts : 'O' ∉ main₀ ∧ 'j' ∉ main₀ ∧ '\t' ∉ main₀ ∧ '\\' ∉ main₀ := by decide +kernel
theorem main₁_facts : 'O' ∉ main₁ ∧ 'j' ∉ main₁ ∧ '\t' ∉ main₁ ∧ ¬ ['\\', 't'] <:+: main₁ ∧ main₁ = '/' :: main₁.tail ∧ main₁ = main₁.dropLast ++ [' '] := by decide +kernel
theorem main₂_facts : 'O' ∉ main₂ ∧ 'j' ∉ main₂ ∧ '\\' ∉ main₂ ∧ main₂ = main₂.dropLast ++ [' '] := by decide +kernel
theorem main₃_facts : 'O' ∉ main₃ ∧ 'j' ∉ main₃ ∧ '\\' ∉ main₃ ∧ main₃ = main₃.dropLast ++ ['"'] := by decide +kernel
theorem main₄_facts : 'j' ∉ main₄ ∧ '\t' ∉ main₄ ∧ '\\' ∉ main₄ ∧ main₄ = '"' :: [',', ' ', '"'] := by decide +kernel
theorem main₅_facts : 'j' ∉ main₅ := by decide +kernel

/-- The first occurrence is replaced. -/
theorem replace_first {p a b new : Str} (h : First p a b) : Text.replace (a ++ p ++ b) p new = a ++ new ++ b := by
  have hf := find_append [] (a ++ p ++ b) p
  rw [List.nil_append, List.length_nil] at hf
  unfold Text.replace
  rw [hf]
  cases hs : search p (a ++ p ++ b) with
  | none => exact absurd ⟨a, b, rfl⟩ (search_none.1 hs)
  | some i =>
    obtain ⟨a', b', h1, h2, h3⟩ := search_some hs
    obtain ⟨rfl, rfl⟩ := Verif.Text.First.eq h h3 h1
    simp only [Option.map_some, Nat.zero_add]
    have := splice_append [] a p b new (n := i) (by simp [h2])
    simpa using this

theorem not_infix_of_not_mem {c : Char} {p s : Str} (h : c ∉ s) : ¬ c :: p <:+: s := by
  rintro ⟨a, b, rfl⟩
  exact h (by simp)

theorem not_infix_j {s : Str} (h : 'j' ∉ s) : ¬ littleMark <:+: s := by
  rintro ⟨a, b, rfl⟩
  exact h (by simp [littleMark])

theorem untab_append (i a b : Str) : untab i (a ++ b) = untab i a ++ untab i b := by unfold untab; rw [List.flatMap_append]

theorem untab_none {i s : Str} (h : '\t' ∉ s) : untab i s = s := by
  induction s with
  | nil => rfl
  | cons c t ih =>
    rw [List.mem_cons, not_or] at h
    unfold untab
    rw [List.flatMap_cons, if_neg (fun e => h.1 e.symm)]
    have := ih h.2
    unfold untab at this
    rw [this]; rfl

theorem mem_untab {i s : Str} {c : Char} (h : c ∈ untab i s) : c ∈ s ∨ c ∈ i := by
  unfold untab at h
  obtain ⟨x, h1, h2⟩ := List.mem_flatMap.1 h
  split at h2
  · exact Or.inr h2
  · rw [List.mem_singleton] at h2; exact Or.inl (h2 ▸ h1)

theorem tabs_eq (t indent : Str) : tabsToSpacing (t.length + 1) t indent = some (untab indent t) := by
  unfold tabsToSpacing
  split
  · next h =>
    subst h
    congr 1
    unfold untab
    induction t with
    | nil => rfl
    | cons c t ih =>
      rw [List.flatMap_cons, ← ih]
      split
      · next h => rw [h]; rfl
      · rfl
  · obtain ⟨r, hr⟩ := replaceAllFrom_total (p := ['\t']) («to» := indent) (by simp) (t.length + 1) t [] (by omega)
    obtain ⟨u, h1, h2⟩ := replaceAllFrom_spec (d := []) hr
    rw [List.nil_append] at h1
    subst h1
    rw [replaceAll_eq (by simp) (by omega) h2, replaced_char h2]
    rfl

theorem escapeTabs_eq (i : Str) : escapeTabs i = i.flatMap fun c => if c = '\t' then ['\\', 't'] else [c] := by
  induction i with
  | nil => rfl
  | cons c t ih => rw [escapeTabs, List.flatMap_cons, ih]

/-- Neither a character of a name nor the small letter which is put in its place is a backslash. -/
theorem lower_ne {c : Char} (h : c ≠ '\\') : lower c ≠ '\\' := by
  unfold lower
  by_cases hu : c.isUpper
  · exact ascii (P := fun c => c.isUpper → c.toLower ≠ '\\') (by decide +kernel) (toNat_of_upper hu) hu
  · unfold Char.toLower
    split
    · next h' => exact absurd (by simpa [Char.isUpper] using h') hu
    · exact h

theorem uncapitalize_ne {n : Str} (h : '\\' ∉ n) : '\\' ∉ uncapitalize n := by
  cases n with
  | nil => exact h
  | cons c t =>
    rw [List.mem_cons, not_or] at h
    unfold uncapitalize
    rw [List.mem_cons, not_or]
    exact ⟨fun e => lower_ne (fun e' => h.1 e'.symm) e.symm, h.2⟩

/-- The notice, with the name of the owner in the middle. -/
theorem notice_split (owner year : Str) (hy : ∀ c ∈ year, c.isDigit) : ∃ n m, notice owner year = (spaces n ++ "Copyright".toList) ++ ' ' :: (owner ++ ' ' :: (year ++ '.' :: spaces m)) := by
  unfold notice
  dsimp only
  generalize List.length _ = k
  refine ⟨64 - k - (64 - k) / 2, (64 - k) / 2, ?_⟩
  rw [show "Copyright ".toList = "Copyright".toList ++ [' '] by decide +kernel, show " ".toList = [' '] by decide +kernel, show ".".toList = ['.'] by decide +kernel]
  unfold spaces
  simp only [List.append_assoc, List.cons_append, List.nil_append]

theorem not_mem_spaces {c : Char} {n : Nat} (h : c ≠ ' ') : c ∉ spaces n := fun hc => h (List.eq_of_mem_replicate hc)

theorem copyright_facts : 'O' ∉ "Copyright".toList ∧ 'j' ∉ "Copyright".toList ∧ '\t' ∉ "Copyright".toList ∧ '\\' ∉ "Copyright".toList := by decide +kernel

/-- `generate_test_main` for the template. -/
theorem mainText_template {year owner indent name : Str} (hy : ∀ c ∈ year, c.isDigit) (hi : ∀ c ∈ indent, c = '\t' ∨ c = ' ') (hn : '\\' ∉ name) (ho1 : '\t' ∉ owner) (ho2 : '\\' ∉ owner)
    (ho3 : ¬ littleMark <:+: owner) (ho4 : ¬ "Oliver J. Rosten".toList <:+: owner) : mainText year owner indent name mainTemplate = some (mainWanted owner year indent name) := by
  rw [rosten_eq] at ho4
  have hyn : ∀ c : Char, ¬ c.isDigit → c ∉ year := fun c h h' => h (hy c h')
  have hin : ∀ c : Char, c ≠ '\t' → c ≠ ' ' → c ∉ indent := fun c h1 h2 h => by rcases hi c h with h | h; exact h1 h; exact h2 h
  have hun : ∀ (c : Char) (s : Str), c ≠ '\t' → c ≠ ' ' → c ∉ s → c ∉ untab indent s := fun c s h1 h2 h3 h => by
    rcases mem_untab h with h | h
    · exact h3 h
    · exact hin c h1 h2 h
  have hlast : ∀ (s : Str) (c : Char), c ≠ '\t' → s = s.dropLast ++ [c] → untab indent s = untab indent s.dropLast ++ [c] := fun s c h1 h2 => by
    conv => lhs; rw [h2]
    rw [untab_append, untab_none (s := [c]) (by simpa using fun e => h1 e.symm)]
  obtain ⟨p, q, hno⟩ := notice_split owner year hy
  generalize hN : notice owner year = N at *
  obtain ⟨c1, c2, c3, c4⟩ := copyright_facts
  obtain ⟨a1, a2, a3, a4⟩ := main₀_facts
  obtain ⟨b1, b2, b3, b4, b5, b6⟩ := main₁_facts
  obtain ⟨d1, d2, d3, d4⟩ := main₂_facts
  obtain ⟨e1, e2, e3, e4⟩ := main₃_facts
  obtain ⟨f2, f3, f4, f5⟩ := main₄_facts
  have g2 := main₅_facts
  -- the notice
  have s1 : setTopCopyright year owner mainTemplate = some (main₀ ++ N ++ main₁ ++ littleMark ++ main₂ ++ littleMark ++ main₃ ++ rosten ++ main₄ ++ ['\\', 't'] ++ main₅) := by
    unfold setTopCopyright
    rw [top_found.1]
    dsimp only
    rw [top_found.2.1, top_found.2.2]
    dsimp only
    unfold splice
    rw [show 69 + 2 = 71 from rfl, show 135 - 69 - 2 = 64 from rfl, show 71 + 64 = 135 from rfl, top_split.1, top_split.2, ← hN]
    unfold notice spaces
    simp only [List.append_assoc]
  -- tabs
  have hNt : '\t' ∉ N := by
    rw [hno]
    simp only [List.mem_append, List.mem_cons, not_or]
    exact ⟨⟨not_mem_spaces (by decide), c3⟩, by decide, ho1, by decide, hyn _ (by decide), by decide, not_mem_spaces (by decide)⟩
  generalize hU2 : untab indent main₂ = U2
  generalize hU3 : untab indent main₃ = U3
  generalize hU5 : untab indent main₅ = U5
  have s2 : untab indent (main₀ ++ N ++ main₁ ++ littleMark ++ main₂ ++ littleMark ++ main₃ ++ rosten ++ main₄ ++ ['\\', 't'] ++ main₅) =
      main₀ ++ N ++ main₁ ++ littleMark ++ U2 ++ littleMark ++ U3 ++ rosten ++ (main₄ ++ ['\\', 't'] ++ U5) := by
    simp only [untab_append, untab_none a3, untab_none hNt, untab_none b3, untab_none (s := littleMark) (by decide), untab_none (s := rosten) (by decide), untab_none f3,
      untab_none (s := ['\\', 't']) (by decide), hU2, hU3, hU5, List.append_assoc]
  have hU3' : U3 = untab indent main₃.dropLast ++ ['"'] := by rw [← hU3]; exact hlast _ _ (by decide) e4
  have hU2' : U2 = untab indent main₂.dropLast ++ [' '] := by rw [← hU2]; exact hlast _ _ (by decide) d4
  -- the owner
  have s3 : Text.replace (main₀ ++ N ++ main₁ ++ littleMark ++ U2 ++ littleMark ++ U3 ++ rosten ++ (main₄ ++ ['\\', 't'] ++ U5)) rosten owner =
      main₀ ++ N ++ main₁ ++ littleMark ++ U2 ++ littleMark ++ U3 ++ owner ++ (main₄ ++ ['\\', 't'] ++ U5) := by
    apply replace_first
    have hfree : ¬ rosten <:+: main₀ ++ N ++ main₁ ++ littleMark ++ U2 ++ littleMark ++ U3 := by
      intro h
      rw [b5, show main₀ ++ N ++ '/' :: main₁.tail ++ littleMark ++ U2 ++ littleMark ++ U3 = (main₀ ++ N) ++ '/' :: (main₁.tail ++ littleMark ++ U2 ++ littleMark ++ U3) by simp] at h
      rcases infix_split (by decide) h with h | h
      · rw [hno, show main₀ ++ (spaces p ++ "Copyright".toList ++ ' ' :: (owner ++ ' ' :: (year ++ '.' :: spaces q)))
          = (main₀ ++ spaces p ++ "Copyright".toList ++ [' ']) ++ (owner ++ (' ' :: (year ++ '.' :: spaces q))) by simp] at h
        have h := infix_drop (c := 'O') (p := rosten.tail) (by
          simp only [List.mem_append, not_or]
          exact ⟨⟨⟨a1, not_mem_spaces (by decide)⟩, c1⟩, by decide⟩) h
        have h := infix_take (c := 'n') (p := rosten.dropLast) (by
          simp only [List.mem_append, List.mem_cons, not_or]
          exact ⟨by decide, hyn _ (by decide), by decide, not_mem_spaces (by decide)⟩) h
        exact ho4 h
      · refine not_infix_of_not_mem (c := 'O') (p := rosten.tail) ?_ h
        simp only [List.mem_append, not_or]
        exact ⟨⟨⟨⟨fun h => b1 (List.mem_of_mem_tail h), by decide⟩, hU2 ▸ hun _ _ (by decide) (by decide) d1⟩, by decide⟩, hU3 ▸ hun _ _ (by decide) (by decide) e1⟩
    rw [hU3', ← List.append_assoc] at hfree ⊢
    exact first_of_clear (by decide) (by decide) hfree
  -- the name
  have s4 : Replaced littleMark (uncapitalize name) (main₀ ++ N ++ main₁ ++ littleMark ++ U2 ++ littleMark ++ U3 ++ owner ++ (main₄ ++ ['\\', 't'] ++ U5))
      (main₀ ++ N ++ main₁ ++ uncapitalize name ++ (U2 ++ uncapitalize name ++ (U3 ++ owner ++ (main₄ ++ ['\\', 't'] ++ U5)))) := by
    have hj : ∀ s : Str, 'j' ∉ s → 'j' ∉ untab indent s := fun s => hun _ _ (by decide) (by decide)
    have k3 : ¬ littleMark <:+: U3 ++ owner ++ (main₄ ++ ['\\', 't'] ++ U5) := by
      intro h
      rw [hU3', f5, show untab indent main₃.dropLast ++ ['"'] ++ owner ++ ('"' :: [',', ' ', '"'] ++ ['\\', 't'] ++ U5)
        = untab indent main₃.dropLast ++ '"' :: (owner ++ '"' :: ([',', ' ', '"'] ++ ['\\', 't'] ++ U5)) by simp] at h
      rcases infix_split (by decide) h with h | h
      · exact not_infix_j (hj _ fun h => e2 ((List.dropLast_prefix _).subset h)) h
      · rcases infix_split (by decide) h with h | h
        · exact ho3 h
        · refine not_infix_j ?_ h
          simp only [List.mem_append, not_or]
          exact ⟨⟨by decide, by decide⟩, hU5 ▸ hj _ g2⟩
    have k1 : ¬ littleMark <:+: main₀ ++ N ++ main₁ := by
      intro h
      rw [hno, show main₀ ++ (spaces p ++ "Copyright".toList ++ ' ' :: (owner ++ ' ' :: (year ++ '.' :: spaces q))) ++ main₁
          = (main₀ ++ spaces p ++ "Copyright".toList) ++ ' ' :: (owner ++ (' ' :: (year ++ '.' :: spaces q ++ main₁))) by simp] at h
      rcases infix_split (by decide) h with h | h
      · refine not_infix_j ?_ h
        simp only [List.mem_append, not_or]
        exact ⟨⟨a2, not_mem_spaces (by decide)⟩, c2⟩
      · rcases infix_split (by decide) h with h | h
        · exact ho3 h
        · refine not_infix_j ?_ h
          simp only [List.mem_append, List.mem_cons, not_or]
          exact ⟨⟨hyn _ (by decide), by decide, not_mem_spaces (by decide)⟩, b2⟩
    have k2 : ¬ littleMark <:+: U2 := not_infix_j (hU2 ▸ hj _ d2)
    have t1 : First littleMark (main₀ ++ N ++ main₁) (U2 ++ littleMark ++ (U3 ++ owner ++ (main₄ ++ ['\\', 't'] ++ U5))) := by
      rw [b6, ← List.append_assoc] at k1 ⊢
      exact first_of_clear (by decide) (by decide) k1
    have t2 : First littleMark U2 (U3 ++ owner ++ (main₄ ++ ['\\', 't'] ++ U5)) := by
      rw [hU2'] at k2 ⊢
      exact first_of_clear (by decide) (by decide) k2
    have := Replaced.step t1 (Replaced.step (r := _) t2 (Replaced.none («to» := uncapitalize name) k3))
    simpa using this
  -- the indentation
  have s5 : Text.replace (main₀ ++ N ++ main₁ ++ uncapitalize name ++ (U2 ++ uncapitalize name ++ (U3 ++ owner ++ (main₄ ++ ['\\', 't'] ++ U5)))) ['\\', 't'] (escapeTabs indent) =
      main₀ ++ N ++ main₁ ++ uncapitalize name ++ U2 ++ uncapitalize name ++ U3 ++ owner ++ main₄ ++ escapeTabs indent ++ U5 := by
    rw [show main₀ ++ N ++ main₁ ++ uncapitalize name ++ (U2 ++ uncapitalize name ++ (U3 ++ owner ++ (main₄ ++ ['\\', 't'] ++ U5)))
      = (main₀ ++ N ++ main₁ ++ uncapitalize name ++ U2 ++ uncapitalize name ++ U3 ++ owner ++ main₄) ++ ['\\', 't'] ++ U5 by simp]
    apply replace_first
    have hb : ∀ s : Str, '\\' ∉ s → '\\' ∉ untab indent s := fun s => hun _ _ (by decide) (by decide)
    have hfree : ¬ ['\\', 't'] <:+: main₀ ++ N ++ main₁ ++ uncapitalize name ++ U2 ++ uncapitalize name ++ U3 ++ owner ++ main₄ := by
      intro h
      rw [show main₀ ++ N ++ main₁ ++ uncapitalize name ++ U2 ++ uncapitalize name ++ U3 ++ owner ++ main₄
        = (main₀ ++ N) ++ (main₁ ++ (uncapitalize name ++ U2 ++ uncapitalize name ++ U3 ++ owner ++ main₄)) by simp] at h
      have h := infix_drop (c := '\\') (p := ['t']) (by
        rw [hno]
        simp only [List.mem_append, List.mem_cons, not_or]
        exact ⟨a4, ⟨not_mem_spaces (by decide), c4⟩, by decide, ho2, by decide, hyn _ (by decide), by decide, not_mem_spaces (by decide)⟩) h
      rw [b6, List.append_assoc] at h
      rcases infix_split (c := ' ') (by decide) h with h | h
      · exact b4 (h.trans (List.dropLast_prefix _).isInfix)
      · refine not_infix_of_not_mem (c := '\\') (p := ['t']) ?_ (by simpa using h)
        simp only [List.mem_append, not_or]
        exact ⟨uncapitalize_ne hn, hU2 ▸ hb _ d3, uncapitalize_ne hn, hU3 ▸ hb _ e3, ho2, f4⟩
    rw [f5, show ('"' :: [',', ' ', '"'] : Str) = ['"', ',', ' '] ++ ['"'] from rfl, ← List.append_assoc] at hfree ⊢
    exact first_of_clear (by decide) (by decide) hfree
  unfold mainText
  rw [s1, Option.bind_some, tabs_eq, s2, Option.bind_some, rosten_eq]
  dsimp only
  rw [s3, show "myProject".toList = littleMark by decide +kernel, replaceAll_eq (by decide) (by omega) s4, Option.bind_some, s5]
  unfold mainWanted
  rw [hN, hU2, hU3, hU5, escapeTabs_eq]

end Verif.ProjectCreator
