import Verif.Spec.Dependency
import Verif.Props.Traversal
import Mathlib.Order.Nat
/- Lemmas about the selection of stale tests: bounds for time stamps, and the order in which depth first search leaves nodes. -/
namespace Verif.Dependency

open Verif.Graph Verif.Spec EdgeLike Verif.Spec.Stale

section
variable {K : Type} (fs : List (File K)) (prune : Nat)

/-- The time stamp is at least the ones of the files in `lo` and is the one of a file in `hi`, and likewise for being stale. -/
structure Bounds (lo hi : Nat → Prop) (w : Info) : Prop where
  ge : ∀ x f, lo x → fs[x]? = some f → f.time ≤ w.time
  att : ∃ x f, hi x ∧ fs[x]? = some f ∧ f.time = w.time
  staleLo : ∀ x, lo x → ChangedAfter fs prune x → w.stale = true
  staleHi : w.stale = true → ∃ x, hi x ∧ ChangedAfter fs prune x

def merge (a b : Info) : Info := ⟨max a.time b.time, a.stale || b.stale⟩

variable {fs prune}

theorem Bounds.merge {l₁ h₁ l₂ h₂ : Nat → Prop} {a b : Info} (ha : Bounds fs prune l₁ h₁ a) (hb : Bounds fs prune l₂ h₂ b) :
    Bounds fs prune (fun x => l₁ x ∨ l₂ x) (fun x => h₁ x ∨ h₂ x) (merge a b) := by
  refine ⟨?_, ?_, ?_, ?_⟩
  · rintro x f (h | h) hf
    · exact le_trans (ha.ge x f h hf) (le_max_left _ _)
    · exact le_trans (hb.ge x f h hf) (le_max_right _ _)
  · obtain ⟨x, f, h1, h2, h3⟩ := ha.att
    obtain ⟨y, g, k1, k2, k3⟩ := hb.att
    rcases le_total a.time b.time with h | h
    · exact ⟨y, g, .inr k1, k2, by simp [Dependency.merge, k3, h]⟩
    · exact ⟨x, f, .inl h1, h2, by simp [Dependency.merge, h3, h]⟩
  · rintro x (h | h) hc
    · simp [Dependency.merge, ha.staleLo x h hc]
    · simp [Dependency.merge, hb.staleLo x h hc]
  · intro h
    simp only [Dependency.merge, Bool.or_eq_true] at h
    rcases h with h | h
    · obtain ⟨x, h1, h2⟩ := ha.staleHi h
      exact ⟨x, .inl h1, h2⟩
    · obtain ⟨x, h1, h2⟩ := hb.staleHi h
      exact ⟨x, .inr h1, h2⟩

theorem Bounds.mono {l₁ h₁ l₂ h₂ : Nat → Prop} {a : Info} (ha : Bounds fs prune l₁ h₁ a) (hl : ∀ x, l₂ x → l₁ x) (hh : ∀ x, h₁ x → h₂ x) :
    Bounds fs prune l₂ h₂ a := by
  refine ⟨fun x f h => ha.ge x f (hl x h), ?_, fun x h => ha.staleLo x (hl x h), ?_⟩
  · obtain ⟨x, f, h1, h2⟩ := ha.att
    exact ⟨x, f, hh x h1, h2⟩
  · intro h
    obtain ⟨x, h1, h2⟩ := ha.staleHi h
    exact ⟨x, hh x h1, h2⟩

theorem bounds_own {x : Nat} {f : File K} (h : fs[x]? = some f) : Bounds fs prune (· = x) (· = x) ⟨f.time, decide (prune < f.time)⟩ := by
  refine ⟨?_, ⟨x, f, rfl, h, rfl⟩, ?_, ?_⟩
  · rintro y g rfl hg; rw [h] at hg; cases hg; exact le_refl _
  · rintro y rfl ⟨g, hg, ht⟩; rw [h] at hg; cases hg; simpa using ht
  · intro hs; exact ⟨x, rfl, f, h, by simpa using hs⟩

/-! ### The files -/

theorem addFiles_spec (exe : Option Nat) : ∀ fs : List (File K),
    (∀ f ∈ fs, ∀ e, exe = some e → f.time < e) → addFiles prune exe fs = .ok (fs.map fun f => ⟨f.time, decide (prune < f.time)⟩)
  | [], _ => rfl
  | f :: fs, h => by
    have h1 : fileInfo prune exe f = .ok ⟨f.time, decide (prune < f.time)⟩ := by
      cases exe with
      | none => rfl
      | some e =>
        have : ¬ e ≤ f.time := not_le.mpr (h f (by simp) e rfl)
        simp [fileInfo, this]
    rw [addFiles, h1, Res.bind, addFiles_spec exe fs fun f hf => h f (by simp [hf])]
    rfl

theorem addFiles_throws (exe : Option Nat) : ∀ fs : List (File K),
    (∃ f ∈ fs, ∃ e, exe = some e ∧ e ≤ f.time) → addFiles prune exe fs = .throws
  | [], h => by simp at h
  | f :: fs, ⟨g, hg, e, he, hle⟩ => by
    subst he
    rw [addFiles]
    by_cases hf : e ≤ f.time
    · simp [fileInfo, hf, Res.bind]
    · rcases List.mem_cons.mp hg with rfl | hg
      · exact absurd hle hf
      · simp [fileInfo, hf, Res.bind, addFiles_throws (some e) fs ⟨g, hg, e, rfl, hle⟩]

/-! ### The graph -/

/-- The edges of the graph: from files to the ones they include, and to these also from the file after it if it has the same name. -/
def Arrow (fs : List (File K)) (i j x y : Nat) : Prop :=
  y = j ∧ (x = i ∨ ∃ f g n, fs[i]? = some f ∧ f.cpp = true ∧ fs[j]? = some g ∧ f.stem ≠ g.stem ∧ fs[i + 1]? = some n ∧ n.stem = f.stem ∧ x = i + 1)

theorem leads_join {s : Edges (Edge Unit Unit)} {i j : Nat} (hi : i < s.length) (x y : Nat) :
    Leads (onNode s i (· ++ [(⟨j, (), ()⟩ : Edge Unit Unit)])) x y ↔ Leads s x y ∨ (x = i ∧ y = j) := by
  have hmem : ∀ (s : Edges (Edge Unit Unit)) x y, Leads s x y ↔ ∃ l, s[x]? = some l ∧ ∃ e ∈ l, e.target = y := by
    intro s x y
    constructor
    · rintro ⟨k, e, h1, h2⟩
      rw [edgeAt, Option.bind_eq_some_iff] at h1
      obtain ⟨l, h3, h4⟩ := h1
      exact ⟨l, h3, e, List.mem_of_getElem? h4, h2⟩
    · rintro ⟨l, h1, e, h2, h3⟩
      obtain ⟨k, hk⟩ := List.mem_iff_getElem?.mp h2
      exact ⟨k, e, by rw [edgeAt, h1]; exact hk, h3⟩
  rw [hmem, hmem, onNode, List.getElem?_modify]
  by_cases hx : i = x
  · subst hx
    rw [List.getElem?_eq_getElem hi]
    simp [eq_comm]
  · have : ¬ x = i := fun h => hx h.symm
    simp [hx, this]

theorem inRange_join {s : Edges (Edge Unit Unit)} {i j : Nat} (hs : InRange s) (hj : j < s.length) :
    InRange (onNode s i (· ++ [(⟨j, (), ()⟩ : Edge Unit Unit)])) := by
  intro l hl e he
  rw [onNode] at hl ⊢
  rw [List.length_modify]
  obtain ⟨k, hk⟩ := List.mem_iff_getElem?.mp hl
  rw [List.getElem?_modify] at hk
  cases hsk : s[k]? with
  | none => rw [hsk] at hk; simp at hk
  | some l' =>
    rw [hsk] at hk
    have hl' : l' ∈ s := List.mem_of_getElem? hsk
    by_cases hik : i = k
    · have hk : l' ++ [⟨j, (), ()⟩] = l := by simpa [hik] using hk
      subst hk
      rcases List.mem_append.mp he with he | he
      · exact hs l' hl' e he
      · rw [List.mem_singleton] at he; subst he; exact hj
    · have hk : l' = l := by simpa [hik] using hk
      subst hk
      exact hs l' hl' e he

/-- The state of the construction after the includes in `done`. -/
structure Built (fs : List (File K)) (prune : Nat) (done : List (Nat × Nat)) (g : Build) : Prop where
  elen : g.edges.length = fs.length
  ilen : g.infos.length = fs.length
  range : InRange g.edges
  leads : ∀ x y, Leads g.edges x y ↔ ∃ p ∈ done, Arrow fs p.1 p.2 x y
  info : ∀ (x : Nat) (w : Info), g.infos[x]? = some w →
    Bounds fs prune (fun m => m = x ∨ ((m, x) ∈ done ∧ SourceOf fs x m)) (fun m => m = x ∨ ((m, x) ∈ done ∧ SourceOf fs x m)) w

theorem addInclude_spec (ht : Tidy fs) {i j : Nat} {f : File K} (hf : fs[i]? = some f) (hj : j ∈ f.includes) {done : List (Nat × Nat)} {g : Build}
    (hb : Built fs prune done g) : ∃ g', addInclude fs i f j g = .ok g' ∧ Built fs prune (done ++ [(i, j)]) g' := by
  have hi : i < fs.length := (List.getElem?_eq_some_iff.mp hf).1
  have hjl : j < fs.length := ht.inRange i j ⟨f, hf, hj⟩
  have hfj := List.getElem?_eq_getElem hjl
  rw [addInclude, joinDirected, if_pos ⟨by rw [hb.elen]; exact hi, by rw [hb.elen]; exact hjl⟩, Res.bind]
  have hr := inRange_join (i := i) hb.range (by rw [hb.elen]; exact hjl)
  have hlen : (onNode g.edges i (· ++ [(⟨j, (), ()⟩ : Edge Unit Unit)])).length = fs.length := by rw [onNode, List.length_modify, hb.elen]
  have hl := leads_join (s := g.edges) (i := i) (j := j) (by rw [hb.elen]; exact hi)
  -- if the include is not that of the own header, the infos remain as they are
  have hinfo : ¬ SourceOf fs j i → ∀ (x : Nat) (w : Info), g.infos[x]? = some w →
      Bounds fs prune (fun m => m = x ∨ ((m, x) ∈ done ++ [(i, j)] ∧ SourceOf fs x m)) (fun m => m = x ∨ ((m, x) ∈ done ++ [(i, j)] ∧ SourceOf fs x m)) w := by
    intro hns x w hw
    have heq : ∀ m, (m = x ∨ ((m, x) ∈ done ++ [(i, j)] ∧ SourceOf fs x m)) ↔ (m = x ∨ ((m, x) ∈ done ∧ SourceOf fs x m)) := by
      intro m
      constructor
      · rintro (h | ⟨h1, h2⟩)
        · exact .inl h
        · rcases List.mem_append.mp h1 with h1 | h1
          · exact .inr ⟨h1, h2⟩
          · simp only [List.mem_singleton, Prod.mk.injEq] at h1
            obtain ⟨rfl, rfl⟩ := h1
            exact absurd h2 hns
      · rintro (h | ⟨h1, h2⟩)
        · exact .inl h
        · exact .inr ⟨List.mem_append_left _ h1, h2⟩
    exact (hb.info x w hw).mono (fun m => (heq m).mp) (fun m => (heq m).mpr)
  by_cases hcpp : f.cpp = true
  · simp only [hcpp, if_true, hfj]
    by_cases hstem : f.stem = fs[j].stem
    · rw [if_pos hstem]
      obtain ⟨hji, hjc⟩ := ht.own i f j _ hf hcpp hj hfj hstem.symm
      have hii : i < g.infos.length := by rw [hb.ilen]; exact hi
      have hij : j < g.infos.length := by rw [hb.ilen]; exact hjl
      rw [List.getElem?_eq_getElem hii, List.getElem?_eq_getElem hij]
      refine ⟨_, rfl, hlen, by simp [hb.ilen], hr, ?_, ?_⟩
      · intro x y
        rw [hl, hb.leads]
        constructor
        · rintro (⟨p, hp, h⟩ | ⟨rfl, rfl⟩)
          · exact ⟨p, List.mem_append_left _ hp, h⟩
          · exact ⟨(x, y), by simp, rfl, .inl rfl⟩
        · rintro ⟨p, hp, h⟩
          rcases List.mem_append.mp hp with hp | hp
          · exact .inl ⟨p, hp, h⟩
          · rw [List.mem_singleton] at hp
            subst hp
            obtain ⟨rfl, rfl | ⟨f', g', n, k1, k2, k3, k4, _⟩⟩ := h
            · exact .inr ⟨rfl, rfl⟩
            · rw [hf] at k1; cases k1
              rw [hfj] at k3; cases k3
              exact absurd hstem k4
      · intro x w hw
        rw [List.getElem?_set] at hw
        by_cases hx : j = x
        · subst hx
          rw [if_pos rfl, if_pos hij] at hw
          cases hw
          have h1 := hb.info i _ (List.getElem?_eq_getElem hii)
          have h2 := hb.info j _ (List.getElem?_eq_getElem hij)
          have hsrc : SourceOf fs j i := ⟨_, f, hfj, hf, hjc, hcpp, hstem.symm, hj⟩
          have hnos : ∀ m, ¬ SourceOf fs i m := by
            rintro m ⟨f', _, k1, _, k2, _⟩
            rw [hf] at k1; cases k1
            rw [hcpp] at k2; cases k2
          refine (h1.merge h2).mono ?_ ?_
          · rintro m (rfl | ⟨h3, h4⟩)
            · exact .inr (.inl rfl)
            · rcases List.mem_append.mp h3 with h3 | h3
              · exact .inr (.inr ⟨h3, h4⟩)
              · simp only [List.mem_singleton, Prod.mk.injEq, and_true] at h3
                exact .inl (.inl h3)
          · rintro m ((rfl | ⟨h3, h4⟩) | (rfl | ⟨h3, h4⟩))
            · exact .inr ⟨by simp, hsrc⟩
            · exact absurd h4 (hnos m)
            · exact .inl rfl
            · exact .inr ⟨List.mem_append_left _ h3, h4⟩
        · rw [if_neg hx] at hw
          refine (hb.info x w hw).mono ?_ ?_
          · rintro m (h | ⟨h1, h2⟩)
            · exact .inl h
            · rcases List.mem_append.mp h1 with h1 | h1
              · exact .inr ⟨h1, h2⟩
              · simp only [List.mem_singleton, Prod.mk.injEq] at h1
                exact absurd h1.2.symm hx
          · rintro m (h | ⟨h1, h2⟩)
            · exact .inl h
            · exact .inr ⟨List.mem_append_left _ h1, h2⟩
    · rw [if_neg hstem]
      have hns : ¬ SourceOf fs j i := by
        rintro ⟨f', g', k1, k2, _, _, k3, _⟩
        rw [hf] at k2; cases k2
        rw [hfj] at k1; cases k1
        exact hstem k3.symm
      have hplain : (∀ n, fs[i + 1]? = some n → n.stem ≠ f.stem) →
          Built fs prune (done ++ [(i, j)]) ⟨onNode g.edges i (· ++ [(⟨j, (), ()⟩ : Edge Unit Unit)]), g.infos⟩ := by
        intro hn
        refine ⟨hlen, hb.ilen, hr, ?_, hinfo hns⟩
        intro x y
        rw [hl, hb.leads]
        constructor
        · rintro (⟨p, hp, h⟩ | ⟨rfl, rfl⟩)
          · exact ⟨p, List.mem_append_left _ hp, h⟩
          · exact ⟨(x, y), by simp, rfl, .inl rfl⟩
        · rintro ⟨p, hp, h⟩
          rcases List.mem_append.mp hp with hp | hp
          · exact .inl ⟨p, hp, h⟩
          · rw [List.mem_singleton] at hp
            subst hp
            obtain ⟨rfl, rfl | ⟨f', g', n, k1, k2, k3, k4, k5, k6, _⟩⟩ := h
            · exact .inr ⟨rfl, rfl⟩
            · rw [hf] at k1; cases k1
              exact absurd k6 (hn n k5)
      cases hn : fs[i + 1]? with
      | none => exact ⟨_, rfl, hplain (by simp [hn])⟩
      | some n =>
        by_cases hns' : n.stem = f.stem
        · simp only [if_pos hns']
          have hi1 : i + 1 < fs.length := (List.getElem?_eq_some_iff.mp hn).1
          rw [joinDirected, if_pos ⟨by rw [hlen]; exact hi1, by rw [hlen]; exact hjl⟩, Res.bind]
          refine ⟨_, rfl, by rw [onNode, List.length_modify, hlen], hb.ilen, inRange_join hr (by rw [hlen]; exact hjl), ?_, hinfo hns⟩
          intro x y
          rw [leads_join (by rw [hlen]; exact hi1), hl, hb.leads]
          constructor
          · rintro ((⟨p, hp, h⟩ | ⟨rfl, rfl⟩) | ⟨rfl, rfl⟩)
            · exact ⟨p, List.mem_append_left _ hp, h⟩
            · exact ⟨(x, y), by simp, rfl, .inl rfl⟩
            · exact ⟨(i, y), by simp, rfl, .inr ⟨f, _, n, hf, hcpp, hfj, hstem, hn, hns', rfl⟩⟩
          · rintro ⟨p, hp, h⟩
            rcases List.mem_append.mp hp with hp | hp
            · exact .inl (.inl ⟨p, hp, h⟩)
            · rw [List.mem_singleton] at hp
              subst hp
              obtain ⟨rfl, rfl | ⟨f', g', n, k1, k2, k3, k4, k5, k6, rfl⟩⟩ := h
              · exact .inl (.inr ⟨rfl, rfl⟩)
              · exact .inr ⟨rfl, rfl⟩
        · simp only [if_neg hns']
          exact ⟨_, rfl, hplain (by rintro n' h; rw [hn] at h; cases h; exact hns')⟩
  · have hc : f.cpp = false := by simpa using hcpp
    simp only [hc, Bool.false_eq_true, if_false]
    have hns : ¬ SourceOf fs j i := by
      rintro ⟨f', g', k1, k2, _, k3, _⟩
      rw [hf] at k2; cases k2
      exact hcpp k3
    refine ⟨_, rfl, hlen, hb.ilen, hr, ?_, hinfo hns⟩
    intro x y
    rw [hl, hb.leads]
    constructor
    · rintro (⟨p, hp, h⟩ | ⟨rfl, rfl⟩)
      · exact ⟨p, List.mem_append_left _ hp, h⟩
      · exact ⟨(x, y), by simp, rfl, .inl rfl⟩
    · rintro ⟨p, hp, h⟩
      rcases List.mem_append.mp hp with hp | hp
      · exact .inl ⟨p, hp, h⟩
      · rw [List.mem_singleton] at hp
        subst hp
        obtain ⟨rfl, rfl | ⟨f', g', n, k1, k2, _⟩⟩ := h
        · exact .inr ⟨rfl, rfl⟩
        · rw [hf] at k1; cases k1
          exact absurd k2 hcpp

theorem addIncludes_spec (ht : Tidy fs) {i : Nat} {f : File K} (hf : fs[i]? = some f) : ∀ (js : List Nat) {done : List (Nat × Nat)} {g : Build},
    (∀ j ∈ js, j ∈ f.includes) → Built fs prune done g →
    ∃ g', addIncludes fs i f js g = .ok g' ∧ Built fs prune (done ++ js.map (i, ·)) g'
  | [], done, g, _, hb => ⟨g, rfl, by simpa using hb⟩
  | j :: js, done, g, h, hb => by
    obtain ⟨g1, h1, hb1⟩ := addInclude_spec ht hf (h j (by simp)) hb
    obtain ⟨g2, h2, hb2⟩ := addIncludes_spec ht hf js (fun j hj => h j (by simp [hj])) hb1
    refine ⟨g2, ?_, by simpa using hb2⟩
    rw [addIncludes, h1, Res.bind, h2]

theorem buildFrom_spec (ht : Tidy fs) : ∀ (l : List (File K × Nat)) {done : List (Nat × Nat)} {g : Build},
    (∀ p ∈ l, fs[p.2]? = some p.1) → Built fs prune done g →
    ∃ g', buildFrom fs l g = .ok g' ∧ Built fs prune (done ++ l.flatMap fun p => p.1.includes.map (p.2, ·)) g'
  | [], done, g, _, hb => ⟨g, rfl, by simpa using hb⟩
  | (f, i) :: l, done, g, h, hb => by
    obtain ⟨g1, h1, hb1⟩ := addIncludes_spec ht (h (f, i) (by simp)) f.includes (fun j hj => hj) hb
    obtain ⟨g2, h2, hb2⟩ := buildFrom_spec ht l (fun p hp => h p (by simp [hp])) hb1
    refine ⟨g2, ?_, by simpa using hb2⟩
    rw [buildFrom, h1, Res.bind, h2]

/-- The edges of the finished graph. -/
def DepEdge (fs : List (File K)) (x y : Nat) : Prop :=
  Includes fs x y ∨ ∃ s, SourceOf fs x s ∧ Includes fs s y ∧ y ≠ x

/-- The files whose time stamps a node has initially: the file and the source file which goes with it. -/
def Own (fs : List (File K)) (x m : Nat) : Prop := m = x ∨ SourceOf fs x m

theorem build_spec (ht : Tidy fs) : ∃ g, buildFrom fs fs.zipIdx ⟨List.replicate fs.length [], fs.map fun f => ⟨f.time, decide (prune < f.time)⟩⟩ = .ok g ∧
    g.edges.length = fs.length ∧ g.infos.length = fs.length ∧ InRange g.edges ∧ (∀ x y, Leads g.edges x y ↔ DepEdge fs x y) ∧
    ∀ (x : Nat) (w : Info), g.infos[x]? = some w → Bounds fs prune (Own fs x) (Own fs x) w := by
  have h0 : Built fs prune [] ⟨List.replicate fs.length [], fs.map fun f => ⟨f.time, decide (prune < f.time)⟩⟩ := by
    refine ⟨by simp, by simp, ?_, ?_, ?_⟩
    · intro l hl e he
      rw [List.mem_replicate] at hl
      rw [hl.2] at he
      simp at he
    · intro x y
      simp only [List.not_mem_nil, false_and, exists_false, iff_false]
      rintro ⟨k, e, h1, _⟩
      rw [edgeAt, List.getElem?_replicate] at h1
      split at h1 <;> simp at h1
    · intro x w hw
      simp only [List.getElem?_map, Option.map_eq_some_iff] at hw
      obtain ⟨f, hf, rfl⟩ := hw
      simpa using bounds_own hf
  obtain ⟨g, h1, hb⟩ := buildFrom_spec ht fs.zipIdx (done := []) (by
    rintro ⟨f, i⟩ h
    exact List.mem_zipIdx_iff_getElem?.mp h) h0
  have hdone : ∀ i j, (i, j) ∈ ([] ++ fs.zipIdx.flatMap fun p => p.1.includes.map (p.2, ·) : List (Nat × Nat)) ↔ Includes fs i j := by
    intro i j
    simp only [List.nil_append, List.mem_flatMap, List.mem_map, Prod.mk.injEq, Prod.exists, List.mem_zipIdx_iff_getElem?]
    constructor
    · rintro ⟨f, n, h, j', hj, rfl, rfl⟩; exact ⟨f, h, hj⟩
    · rintro ⟨f, h, hj⟩; exact ⟨f, i, h, j, hj, rfl, rfl⟩
  refine ⟨g, h1, hb.elen, hb.ilen, hb.range, ?_, ?_⟩
  · intro x y
    rw [hb.leads]
    constructor
    · rintro ⟨⟨i, j⟩, hp, h⟩
      rw [hdone] at hp
      obtain ⟨rfl, rfl | ⟨f, g, n, k1, k2, k3, k4, k5, k6, rfl⟩⟩ := h
      · exact .inl hp
      · refine .inr ⟨i, ?_, hp, ?_⟩
        · have hmem := ht.next i f n k1 k2 k5 k6
          obtain ⟨_, hc⟩ := ht.own i f _ n k1 k2 hmem k5 k6
          exact ⟨n, f, k5, k1, hc, k2, k6, hmem⟩
        · rintro heq
          simp only at heq k3
          rw [heq, k5] at k3; cases k3
          exact k4 k6.symm
    · rintro (h | ⟨s, ⟨f, g, k1, k2, k3, k4, k5, k6⟩, h2, h3⟩)
      · exact ⟨(x, y), (hdone x y).mpr h, rfl, .inl rfl⟩
      · refine ⟨(s, y), (hdone s y).mpr h2, rfl, .inr ?_⟩
        obtain ⟨rfl, _⟩ := ht.own s g x f k2 k4 k6 k1 k5
        have hy : y < fs.length := ht.inRange s y h2
        refine ⟨g, _, f, k2, k4, List.getElem?_eq_getElem hy, ?_, k1, k5, rfl⟩
        intro hst
        obtain ⟨g', hg', hyi⟩ := h2
        rw [k2] at hg'; cases hg'
        exact h3 (ht.own s g y _ k2 k4 hyi (List.getElem?_eq_getElem hy) hst.symm).1
  · intro x w hw
    refine (hb.info x w hw).mono ?_ ?_
    · rintro m (h | h)
      · exact .inl h
      · refine .inr ⟨(hdone m x).mpr ?_, h⟩
        obtain ⟨_, g, _, k2, _, _, _, k6⟩ := h
        exact ⟨g, k2, k6⟩
    · rintro m (h | ⟨_, h⟩)
      · exact .inl h
      · exact .inr h

end

end Verif.Dependency
