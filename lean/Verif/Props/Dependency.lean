/-
C43: the selection of stale tests.
-/
import Verif.Lemmas.DependencyOrder
import Mathlib.Order.Lattice

namespace Verif.Props

open Verif.Graph Verif.Spec Verif.Spec.Stale Verif.Dependency Verif.Suites

section
variable {K : Type}

theorem closure_dependsOn {fs : List (File K)} {s : Edges (Edge Unit Unit)} (hl : ∀ x y, Leads s x y ↔ DepEdge fs x y) (x m : Nat) :
    Closure s (Own fs) x m ↔ DependsOn fs x m := by
  constructor
  · rintro ⟨r, ⟨d, hw⟩, ho⟩
    have hr : DependsOn fs x r := by
      clear ho
      induction hw with
      | refl => exact .self
      | snoc _ h ih =>
        rcases (hl _ _).mp h with h | ⟨t, h1, h2, _⟩
        · exact .includes ih h
        · exact .includes (.source ih h1) h2
    rcases ho with rfl | ho
    · exact hr
    · exact .source hr ho
  · intro h
    induction h with
    | self => exact ⟨x, Reach.refl' x, .inl rfl⟩
    | @includes y z _ h2 ih =>
      obtain ⟨r, hr, rfl | ho⟩ := ih
      · exact ⟨z, Reach.tail hr ((hl _ _).mpr (.inl h2)), .inl rfl⟩
      · by_cases hz : z = r
        · subst hz; exact ⟨z, hr, .inl rfl⟩
        · exact ⟨z, Reach.tail hr ((hl _ _).mpr (.inr ⟨y, ho, h2, hz⟩)), .inl rfl⟩
    | @source y z _ h2 ih =>
      obtain ⟨r, hr, rfl | ho⟩ := ih
      · exact ⟨y, hr, .inr h2⟩
      · obtain ⟨_, g, _, k1, _, k2, _⟩ := ho
        obtain ⟨f, _, k3, _, k4, _⟩ := h2
        rw [k1] at k3; cases k3
        rw [k2] at k4; cases k4

/-- What the traversal gives. -/
theorem propagate_spec {fs : List (File K)} (ht : Tidy fs) {prune : Nat} {exe : Option Nat} (hexe : ∀ f ∈ fs, ∀ e, exe = some e → f.time < e) :
    ∃ ws, propagate prune exe fs = .ok ws ∧ ws.length = fs.length ∧ AllBounds fs prune (Own fs) (DependsOn fs) ws ∧
      ∀ layer, Layered fs layer → AllBounds fs prune (DependsOn fs) (DependsOn fs) ws := by
  obtain ⟨g, h1, h2, h3, h4, h5, h6⟩ := build_spec (prune := prune) ht
  obtain ⟨events, k1, k2, k3, k4⟩ := traverseDfs_afters h4 (fuel := fs.length) (by rw [h2])
  have hcl := closure_dependsOn h5
  have h0 : AllBounds fs prune (Own fs) (Closure g.edges (Own fs)) g.infos := fun x w hw =>
    (h6 x w hw).mono (fun _ h => h) (fun m hm => ⟨x, Reach.refl' x, hm⟩)
  obtain ⟨ws, l1, l2, l3, l4⟩ := lateFold_spec (fs := fs) (prune := prune) h4 (afters events) (done := []) (ws := g.infos) (by rw [h3, h2])
    (fun n hn => (k3 n).mp hn) h0
  refine ⟨ws, ?_, l2.trans h3, ?_, ?_⟩
  · rw [propagate, addFiles_spec exe fs hexe, Res.bind, h1, Res.bind, k1, Res.bind]
    show lateAll g.edges events g.infos = _
    rw [lateAll_afters, l1]
  · exact fun x w hw => (l3 x w hw).mono (fun _ h => h) (fun m hm => (hcl x m).mp hm)
  · intro layer hlay
    have hdown : ∀ x t, Leads g.edges x t → layer t < layer x := by
      intro x t h
      rcases (h5 x t).mp h with h | ⟨s, h7, h8, h9⟩
      · exact hlay.1 x t h
      · exact hlay.2 x s t h7 h8 h9
    have hwalk : ∀ x t, Reach g.edges x t → layer t ≤ layer x := by
      rintro x t ⟨d, hw⟩
      induction hw with
      | refl => exact le_refl _
      | snoc _ h ih => exact le_trans (le_of_lt (hdown _ _ h)) ih
    have hac : ∀ x t, Leads g.edges x t → ¬ Reach g.edges t x := fun x t h1 h2 => absurd (hdown x t h1) (not_lt.mpr (hwalk t x h2))
    have := l4 hac (by simp) k2
      (by
        intro a x b hab t hlt
        rcases k4 a x b hab t hlt with h | h
        · simpa using h
        · exact absurd h (hac x t hlt))
      (fun x w hw => (h0 x w hw).mono (by rintro m (h | ⟨h, _⟩); exacts [h, by simp at h]) (fun _ h => h))
    intro x w hw
    refine (this x w hw).mono ?_ (fun m hm => (hcl x m).mp hm)
    intro m hm
    refine .inr ⟨?_, (hcl x m).mpr hm⟩
    rw [List.nil_append, k3, h2, ← h3, ← l2]
    exact (List.getElem?_eq_some_iff.mp hw).1

variable [LinearOrder K]

theorem binarySearch_spec {l : List K} (hs : l.Pairwise (· ≤ ·)) (k : K) : binarySearch l k = true ↔ k ∈ l := by
  have hs' : (l.map fun e => (e, 0)).Pairwise (fun a b => a.1 ≤ b.1) := by rw [List.pairwise_map]; exact hs
  obtain ⟨h1, h2⟩ := lowerBound_spec hs' k l.length 0 l.length (le_refl _) (by simp) (by intro i e _ h; omega) (by
    intro i e he h
    have := (List.getElem?_eq_some_iff.mp he).1
    rw [List.length_map] at this
    omega)
  rw [binarySearch]
  constructor
  · intro h
    cases hq : l[lowerBound (l.map fun e => (e, 0)) k l.length 0 l.length]? with
    | none => rw [hq] at h; cases h
    | some e =>
      rw [hq] at h
      simp only [decide_eq_true_eq] at h
      rw [← h]; exact List.mem_of_getElem? hq
  · intro h
    obtain ⟨i, hi⟩ := List.mem_iff_getElem?.mp h
    have hi' : (l.map fun e => (e, 0))[i]? = some (k, 0) := by rw [List.getElem?_map, hi]; rfl
    have hle : lowerBound (l.map fun e => (e, 0)) k l.length 0 l.length ≤ i := by
      by_contra hlt
      exact lt_irrefl _ (h1 i _ hi' (by omega))
    have hil := (List.getElem?_eq_some_iff.mp hi).1
    have hlb : lowerBound (l.map fun e => (e, 0)) k l.length 0 l.length < l.length := by omega
    have hge := h2 _ (l[lowerBound (l.map fun e => (e, 0)) k l.length 0 l.length], 0)
      (by rw [List.getElem?_map, List.getElem?_eq_getElem hlb]; rfl) (le_refl _)
    have hle2 : l[lowerBound (l.map fun e => (e, 0)) k l.length 0 l.length] ≤ k := by
      rcases Nat.lt_or_eq_of_le hle with h | h
      · have := List.pairwise_iff_getElem.mp hs _ _ hlb hil h
        rwa [(List.getElem?_eq_some_iff.mp hi).2] at this
      · have := (List.getElem?_eq_some_iff.mp hi).2
        simp only [h]
        exact le_of_eq this
    rw [List.getElem?_eq_getElem hlb]
    simp only [decide_eq_true_eq]
    exact le_antisymm hle2 (not_lt.mp hge)

theorem mem_staleTests (prune : Nat) (passes : Option (List K × Nat)) (k : K) : ∀ (fs : List (File K)) (ws : List Info), fs.length = ws.length →
    (k ∈ staleTests prune passes fs ws ↔ ∃ (x : Nat) (f : File K) (w : Info), fs[x]? = some f ∧ ws[x]? = some w ∧ f.cpp = true ∧ f.test = true ∧ f.rel = k ∧
      testStale prune passes f w = true)
  | [], [], _ => by simp [staleTests]
  | f :: fs, w :: ws, h => by
    have ih := mem_staleTests prune passes k fs ws (by simpa using h)
    have hsplit : (∃ (x : Nat) (f' : File K) (w' : Info), (f :: fs)[x]? = some f' ∧ (w :: ws)[x]? = some w' ∧ f'.cpp = true ∧ f'.test = true ∧ f'.rel = k ∧
        testStale prune passes f' w' = true) ↔ (f.cpp = true ∧ f.test = true ∧ f.rel = k ∧ testStale prune passes f w = true) ∨ k ∈ staleTests prune passes fs ws := by
      rw [ih]
      constructor
      · rintro ⟨x, f', w', h1, h2, h3⟩
        cases x with
        | zero =>
          simp only [List.getElem?_cons_zero, Option.some.injEq] at h1 h2
          subst h1 h2
          exact .inl h3
        | succ x => exact .inr ⟨x, f', w', by simpa using h1, by simpa using h2, h3⟩
      · rintro (h3 | ⟨x, f', w', h1, h2, h3⟩)
        · exact ⟨0, f, w, rfl, rfl, h3⟩
        · exact ⟨x + 1, f', w', by simpa using h1, by simpa using h2, h3⟩
    rw [hsplit, staleTests]
    by_cases hc : (f.cpp && f.test && testStale prune passes f w) = true
    · rw [if_pos hc]
      simp only [Bool.and_eq_true] at hc
      rw [List.mem_cons]
      constructor
      · rintro (rfl | h)
        · exact .inl ⟨hc.1.1, hc.1.2, rfl, hc.2⟩
        · exact .inr h
      · rintro (⟨_, _, rfl, _⟩ | h)
        · exact .inl rfl
        · exact .inr h
    · rw [if_neg hc]
      simp only [Bool.and_eq_true] at hc
      constructor
      · exact .inr
      · rintro (⟨h1, h2, _, h3⟩ | h)
        · exact absurd ⟨⟨h1, h2⟩, h3⟩ hc
        · exact h

theorem foldl_max_lt (t : Nat) : ∀ (l : List Nat) (a : Nat), t < l.foldl max a ↔ t < a ∨ ∃ s ∈ l, t < s
  | [], a => by simp
  | b :: l, a => by
    rw [List.foldl_cons, foldl_max_lt t l, lt_sup_iff]
    simp [or_assoc]

theorem testStale_spec {fs : List (File K)} {prune : Nat} {passes : Option (List K × Nat)} (hp : ∀ ps stamp, passes = some (ps, stamp) → ps.Pairwise (· ≤ ·))
    {x : Nat} {f : File K} {w : Info} (hf : fs[x]? = some f) (hb : Bounds fs prune (DependsOn fs x) (DependsOn fs x) w) :
    testStale prune passes f w = true ↔ NeedsToRun fs prune passes x f.rel := by
  have hstale : w.stale = true ↔ ∃ y, DependsOn fs x y ∧ ChangedAfter fs prune y :=
    ⟨hb.staleHi, fun ⟨y, h1, h2⟩ => hb.staleLo y h1 h2⟩
  have htime : ∀ t, t < w.time ↔ ∃ y, DependsOn fs x y ∧ ChangedAfter fs t y := by
    intro t
    constructor
    · intro h
      obtain ⟨y, g, h1, h2, h3⟩ := hb.att
      exact ⟨y, h1, g, h2, by omega⟩
    · rintro ⟨y, h1, g, h2, h3⟩
      exact lt_of_lt_of_le h3 (hb.ge y g h1 h2)
  have hmat : ∀ folder t, TestChangedAfter fs folder t x ↔ (∃ y, DependsOn fs x y ∧ ChangedAfter fs t y) ∨
      ∃ m, f.materials = some m ∧ ((folder = true ∧ t < m.1) ∨ ∃ s ∈ m.2, t < s) := by
    intro folder t
    rw [TestChangedAfter]
    constructor
    · rintro (h | ⟨f', m, h1, h2⟩)
      · exact .inl h
      · rw [hf] at h1; cases h1; exact .inr ⟨m, h2⟩
    · rintro (h | ⟨m, h2⟩)
      · exact .inl h
      · exact .inr ⟨f, m, hf, h2⟩
  have hother : (w.stale || materialsModified prune f.materials) = true ↔
      TestChangedAfter fs false prune x := by
    rw [hmat, Bool.or_eq_true, hstale]
    cases f.materials with
    | none => simp [materialsModified]
    | some m => simp [materialsModified]
  rw [NeedsToRun, testStale.eq_def]
  cases passes with
  | none =>
    simp only [reduceCtorEq, false_implies, implies_true, true_and]
    exact ⟨fun h _ => hother.mp h, fun h => hother.mpr (h trivial)⟩
  | some p =>
    obtain ⟨ps, stamp⟩ := p
    have hbs := binarySearch_spec (hp ps stamp rfl) f.rel
    by_cases hin : f.rel ∈ ps
    · simp only [hbs.mpr hin, if_true]
      have hchg : ∀ t, TestChangedAfter fs true t x ↔ t < maxModificationTime w.time (materialsMaxWriteTime f.materials) := by
        intro t
        rw [hmat, ← htime]
        cases hm : f.materials with
        | none => simp [materialsMaxWriteTime, maxModificationTime]
        | some m =>
          simp only [materialsMaxWriteTime, maxModificationTime, Option.some.injEq, lt_sup_iff, foldl_max_lt, exists_eq_left', true_and]
          exact or_comm
      have hfirst : (w.stale || later prune (materialsMaxWriteTime f.materials)) = true ↔
          TestChangedAfter fs true prune x := by
        rw [hchg, Bool.or_eq_true, hstale, ← htime]
        cases f.materials with
        | none => simp [materialsMaxWriteTime, maxModificationTime, later]
        | some m =>
          simp only [materialsMaxWriteTime, maxModificationTime, later, decide_eq_true_eq, lt_sup_iff]
          exact or_comm
      have hrhs : ((∀ ps' stamp', some (ps, stamp) = some (ps', stamp') → f.rel ∈ ps' → TestChangedAfter fs true prune x ∧ TestChangedAfter fs true stamp' x) ∧
          ((∀ ps' stamp', some (ps, stamp) = some (ps', stamp') → f.rel ∉ ps') → TestChangedAfter fs false prune x)) ↔
          (TestChangedAfter fs true prune x ∧ TestChangedAfter fs true stamp x) := by
        constructor
        · intro h; exact h.1 ps stamp rfl hin
        · intro h
          refine ⟨?_, fun h' => absurd hin (h' ps stamp rfl)⟩
          rintro ps' stamp' heq _
          cases heq
          exact h
      rw [hrhs, ← hfirst, hchg stamp]
      generalize (w.stale || later prune (materialsMaxWriteTime f.materials)) = b
      cases b
      · simp
      · simp
    · have hnb : binarySearch ps f.rel = false := by
        cases hq : binarySearch ps f.rel
        · rfl
        · exact absurd (hbs.mp hq) hin
      simp only [hnb, Bool.false_eq_true, if_false]
      rw [hother]
      constructor
      · intro h
        refine ⟨?_, fun _ => h⟩
        rintro ps' stamp' heq hin'
        cases heq
        exact absurd hin' hin
      · rintro ⟨_, h⟩
        refine h ?_
        rintro ps' stamp' heq
        cases heq
        exact hin

/-- C43: if the files can be put into layers, then exactly those tests are selected which themselves, or through a file they depend on, or in their materials, have been
changed since the reference time stamp; a test which is recorded as passing needs to have been changed since then, too. -/
theorem C43_selected_partial {sort : List K → List K} (hsort : ∀ l, (sort l).Perm l) {fs : List (File K)} (ht : Tidy fs) {layer : Nat → Nat} (hl : Layered fs layer)
    {prune : Nat} {exe : Option Nat} (hexe : ∀ f ∈ fs, ∀ e, exe = some e → f.time < e) {passes : Option (List K × Nat)}
    (hp : ∀ ps stamp, passes = some (ps, stamp) → ps.Pairwise (· ≤ ·)) :
    ∃ r, findStaleTests sort prune exe passes fs = .ok r ∧
      ∀ k, k ∈ r ↔ ∃ (x : Nat) (f : File K), fs[x]? = some f ∧ f.cpp = true ∧ f.test = true ∧ f.rel = k ∧ NeedsToRun fs prune passes x k := by
  obtain ⟨ws, h1, h2, h3, h4⟩ := propagate_spec (prune := prune) ht hexe
  refine ⟨_, by rw [findStaleTests, h1, Res.bind], ?_⟩
  intro k
  rw [(hsort _).mem_iff, mem_staleTests _ _ _ _ _ h2.symm]
  constructor
  · rintro ⟨x, f, w, k1, k2, k3, k4, rfl, k6⟩
    exact ⟨x, f, k1, k3, k4, rfl, (testStale_spec hp k1 (h4 layer hl x w k2)).mp k6⟩
  · rintro ⟨x, f, k1, k3, k4, rfl, k6⟩
    have hx : x < ws.length := by rw [h2]; exact (List.getElem?_eq_some_iff.mp k1).1
    exact ⟨x, f, _, k1, List.getElem?_eq_getElem hx, k3, k4, rfl, (testStale_spec hp k1 (h4 layer hl x _ (List.getElem?_eq_getElem hx))).mpr k6⟩

/-- C43: whatever the includes, cycles among them or not, no test is selected without reason, and a test which was itself changed, or whose materials were, is selected
unless recorded as passing. -/
theorem C43_no_needless_selection {sort : List K → List K} (hsort : ∀ l, (sort l).Perm l) {fs : List (File K)} (ht : Tidy fs)
    {prune : Nat} {exe : Option Nat} (hexe : ∀ f ∈ fs, ∀ e, exe = some e → f.time < e) (passes : Option (List K × Nat)) :
    ∃ r, findStaleTests sort prune exe passes fs = .ok r ∧
      (∀ k ∈ r, ∃ (x : Nat) (f : File K), fs[x]? = some f ∧ f.cpp = true ∧ f.test = true ∧ f.rel = k ∧ TestChangedAfter fs true prune x) ∧
      (passes = none → ∀ (x : Nat) (f : File K), fs[x]? = some f → f.cpp = true → f.test = true →
        (prune < f.time ∨ ∃ m, f.materials = some m ∧ ∃ s ∈ m.2, prune < s) → f.rel ∈ r) := by
  obtain ⟨ws, h1, h2, h3, _⟩ := propagate_spec (prune := prune) ht hexe
  refine ⟨_, by rw [findStaleTests, h1, Res.bind], ?_, ?_⟩
  · intro k hk
    rw [(hsort _).mem_iff, mem_staleTests _ _ _ _ _ h2.symm] at hk
    obtain ⟨x, f, w, k1, k2, k3, k4, k5, k6⟩ := hk
    refine ⟨x, f, k1, k3, k4, k5, ?_⟩
    by_cases hw : w.stale = true
    · exact .inl ((h3 x w k2).staleHi hw)
    · refine .inr ⟨f, ?_⟩
      have hw : w.stale = false := by simpa using hw
      have hother : materialsModified prune f.materials = true →
          ∃ m, fs[x]? = some f ∧ f.materials = some m ∧ (true = true ∧ prune < m.1 ∨ ∃ s ∈ m.2, prune < s) := by
        intro h
        cases hm : f.materials with
        | none => rw [hm] at h; cases h
        | some m =>
          rw [hm] at h
          exact ⟨m, k1, rfl, .inr (by simpa [materialsModified] using h)⟩
      rw [testStale.eq_def, hw] at k6
      cases passes with
      | none => exact hother (by simpa using k6)
      | some p =>
        obtain ⟨ps, stamp⟩ := p
        by_cases hin : binarySearch ps f.rel = true
        · simp only [hin, if_true, Bool.false_or] at k6
          cases hm : f.materials with
          | none => rw [hm] at k6; simp [materialsMaxWriteTime, later] at k6
          | some m =>
            rw [hm] at k6
            refine ⟨m, k1, rfl, ?_⟩
            have : prune < m.2.foldl max m.1 := by
              by_contra hlt
              simp [materialsMaxWriteTime, later, hlt] at k6
            rw [foldl_max_lt] at this
            rcases this with h | h
            · exact .inl ⟨rfl, h⟩
            · exact .inr h
        · simp only [hin, Bool.false_or] at k6
          exact hother (by simpa using k6)
  · rintro rfl x f k1 k3 k4 hch
    have hx : x < ws.length := by rw [h2]; exact (List.getElem?_eq_some_iff.mp k1).1
    rw [(hsort _).mem_iff, mem_staleTests _ _ _ _ _ h2.symm]
    refine ⟨x, f, _, k1, List.getElem?_eq_getElem hx, k3, k4, rfl, ?_⟩
    rw [testStale.eq_def]
    rcases hch with h | ⟨m, h4, s, h5, h6⟩
    · have := (h3 x _ (List.getElem?_eq_getElem hx)).staleLo x (.inl rfl) ⟨f, k1, h⟩
      simp [this]
    · have : (m.2.any fun t => decide (prune < t)) = true := List.any_eq_true.mpr ⟨s, h5, by simpa using h6⟩
      simp [h4, materialsModified, this]

/-- C43: if any file is as new as the executable, an exception says so. -/
theorem C43_executable_out_of_date (sort : List K → List K) {fs : List (File K)} {prune e : Nat} (passes : Option (List K × Nat)) (h : ∃ f ∈ fs, e ≤ f.time) :
    findStaleTests sort prune (some e) passes fs = .throws := by
  obtain ⟨f, hf, hle⟩ := h
  rw [findStaleTests, propagate, addFiles_throws (some e) fs ⟨f, hf, e, rfl, hle⟩]
  rfl

end

/-- `A.cpp`, `A.hpp`, `B.cpp`, `B.hpp`, the test `T.cpp` and `Z.hpp`.  Both source files include both headers, `A.hpp` includes `Z.hpp` and the test includes `B.hpp`. -/
def mutualSources : List (File Nat) :=
  [⟨1, true, false, 0, 0, [1, 3], none⟩, ⟨1, false, false, 1, 0, [5], none⟩, ⟨2, true, false, 2, 0, [3, 1], none⟩, ⟨2, false, false, 3, 0, [], none⟩,
   ⟨3, true, true, 4, 0, [3], none⟩, ⟨4, false, false, 5, 9, [], none⟩]

theorem mutualSources_tidy : Tidy mutualSources := by
  have hl : mutualSources.length = 6 := rfl
  refine ⟨?_, ?_, ?_⟩
  · rintro x y ⟨f, hf, hy⟩
    have hx := (List.getElem?_eq_some_iff.mp hf).1
    rw [hl] at hx ⊢
    have : ∀ x < 6, ∀ f, mutualSources[x]? = some f → ∀ y ∈ f.includes, y < 6 := by decide
    exact this x hx f hf y hy
  · intro x f y g hf hc hy hg hst
    have hx := (List.getElem?_eq_some_iff.mp hf).1
    rw [hl] at hx
    have : ∀ x < 6, ∀ f, mutualSources[x]? = some f → f.cpp = true → ∀ y ∈ f.includes, ∀ g, mutualSources[y]? = some g → g.stem = f.stem → y = x + 1 ∧ g.cpp = false := by
      decide
    exact this x hx f hf hc y hy g hg hst
  · intro x f g hf hc hg hst
    have hx := (List.getElem?_eq_some_iff.mp hf).1
    rw [hl] at hx
    have : ∀ x < 6, ∀ f, mutualSources[x]? = some f → f.cpp = true → ∀ g, mutualSources[x + 1]? = some g → g.stem = f.stem → x + 1 ∈ f.includes := by decide
    exact this x hx f hf hc g hg hst

/-- C43, not as claimed: although no file includes itself, directly or indirectly, a test is skipped after a change of a file on which it depends.  The reason is that the
headers of two source files which include each other's headers are taken to depend on each other. -/
theorem C43_mutual_sources_violated :
    Tidy mutualSources ∧ (∃ layer : Nat → Nat, ∀ x y, Includes mutualSources x y → layer y < layer x) ∧
    DependsOn mutualSources 4 5 ∧ ChangedAfter mutualSources 5 5 ∧
    findStaleTests (fun l : List Nat => l) 5 none none mutualSources = .ok [] := by
  refine ⟨mutualSources_tidy, ⟨fun x => if x = 0 then 2 else if x = 1 then 1 else if x = 2 then 2 else if x = 4 then 1 else 0, ?_⟩, ?_, ?_, by rfl⟩
  · rintro x y ⟨f, hf, hy⟩
    have hx := (List.getElem?_eq_some_iff.mp hf).1
    have hl : mutualSources.length = 6 := rfl
    rw [hl] at hx
    have : ∀ x < 6, ∀ f, mutualSources[x]? = some f → ∀ y ∈ f.includes,
        (if y = 0 then 2 else if y = 1 then 1 else if y = 2 then 2 else if y = 4 then 1 else 0) <
          (if x = 0 then 2 else if x = 1 then 1 else if x = 2 then 2 else if x = 4 then 1 else 0) := by decide
    exact this x hx f hf y hy
  · have h1 : DependsOn mutualSources 4 3 := .includes .self ⟨_, rfl, by decide⟩
    have h2 : DependsOn mutualSources 4 2 := .source h1 ⟨_, _, rfl, rfl, rfl, rfl, rfl, by decide⟩
    have h3 : DependsOn mutualSources 4 1 := .includes h2 ⟨_, rfl, by decide⟩
    exact .includes h3 ⟨_, rfl, by decide⟩
  · exact ⟨_, rfl, by decide⟩

/-- `X/Foo.cpp`, `Y/Foo.cpp`, `X/Foo.hpp`, `Y/Foo.hpp`, the test `T.cpp`, which includes `X/Foo.hpp`, and `Z.hpp`, which `X/Foo.cpp` includes. -/
def sameNames : List (File Nat) :=
  [⟨1, true, false, 0, 0, [2, 5], none⟩, ⟨1, true, false, 1, 0, [3], none⟩, ⟨1, false, false, 2, 0, [], none⟩, ⟨1, false, false, 3, 0, [], none⟩,
   ⟨2, true, true, 4, 0, [2], none⟩, ⟨3, false, false, 5, 9, [], none⟩]

/-- C43, not as claimed: if there are two source files of the same name in different folders, then the dependencies of the first are attributed to the second instead of the
header, and a test is skipped after a change of a file on which it depends. -/
theorem C43_same_names_violated :
    (∃ layer : Nat → Nat, Layered sameNames layer) ∧ DependsOn sameNames 4 5 ∧ ChangedAfter sameNames 5 5 ∧
    findStaleTests (fun l : List Nat => l) 5 none none sameNames = .ok [] := by
  have hl : sameNames.length = 6 := rfl
  have hinc : ∀ x y, Includes sameNames x y → (x = 0 ∧ (y = 2 ∨ y = 5)) ∨ (x = 1 ∧ y = 3) ∨ (x = 4 ∧ y = 2) := by
    rintro x y ⟨f, hf, hy⟩
    have hx := (List.getElem?_eq_some_iff.mp hf).1
    rw [hl] at hx
    have : ∀ x < 6, ∀ f, sameNames[x]? = some f → ∀ y ∈ f.includes, (x = 0 ∧ (y = 2 ∨ y = 5)) ∨ (x = 1 ∧ y = 3) ∨ (x = 4 ∧ y = 2) := by decide
    exact this x hx f hf y hy
  refine ⟨⟨fun x => if x = 0 ∨ x = 1 ∨ x = 4 then 2 else if x = 2 ∨ x = 3 then 1 else 0, ?_, ?_⟩, ?_, ⟨_, rfl, by decide⟩, by rfl⟩
  · intro x y h
    rcases hinc x y h with ⟨rfl, rfl | rfl⟩ | ⟨rfl, rfl⟩ | ⟨rfl, rfl⟩ <;> decide
  · rintro x s y ⟨f, g, h1, h2, h3, h4, h5, h6⟩ hy hne
    rcases hinc s x ⟨g, h2, h6⟩ with ⟨rfl, rfl | rfl⟩ | ⟨rfl, rfl⟩ | ⟨rfl, rfl⟩
    · rcases hinc 0 y hy with ⟨_, rfl | rfl⟩ | ⟨h, _⟩ | ⟨h, _⟩
      · exact absurd rfl hne
      · decide
      · exact absurd h (by decide)
      · exact absurd h (by decide)
    · cases h1; cases h2; exact absurd h5 (by decide)
    · rcases hinc 1 y hy with ⟨h, _⟩ | ⟨_, rfl⟩ | ⟨h, _⟩
      · exact absurd h (by decide)
      · exact absurd rfl hne
      · exact absurd h (by decide)
    · cases h1; cases h2; exact absurd h5 (by decide)
  · have h1 : DependsOn sameNames 4 2 := .includes .self ⟨_, rfl, by decide⟩
    have h2 : DependsOn sameNames 4 0 := .source h1 ⟨_, _, rfl, rfl, rfl, rfl, rfl, by decide⟩
    exact .includes h2 ⟨_, rfl, by decide⟩

/-- C43, not as claimed: a change to the folder with the materials, such as the removal of a file, is noticed only for tests which are recorded as passing. -/
theorem C43_removed_materials_violated :
    findStaleTests (fun l : List Nat => l) 5 none none [⟨1, true, true, 7, 0, [], some (9, [])⟩] = .ok [] ∧
    findStaleTests (fun l : List Nat => l) 5 none (some ([7], 6)) [⟨1, true, true, 7, 0, [], some (9, [])⟩] = .ok [7] := by
  constructor <;> rfl

/-- Layered files for which a change is propagated through a header to the corresponding source file and on from there. -/
def layeredFiles : List (File Nat) :=
  [⟨1, true, false, 0, 0, [1, 4], none⟩, ⟨1, false, false, 1, 0, [], none⟩, ⟨2, true, true, 2, 0, [1], none⟩, ⟨3, true, true, 3, 0, [], some (1, [2])⟩,
   ⟨4, false, false, 4, 9, [], none⟩]

example : Tidy layeredFiles := by
  have hl : layeredFiles.length = 5 := rfl
  refine ⟨?_, ?_, ?_⟩
  · rintro x y ⟨f, hf, hy⟩
    have hx := (List.getElem?_eq_some_iff.mp hf).1
    rw [hl] at hx ⊢
    have : ∀ x < 5, ∀ f, layeredFiles[x]? = some f → ∀ y ∈ f.includes, y < 5 := by decide
    exact this x hx f hf y hy
  · intro x f y g hf hc hy hg hst
    have hx := (List.getElem?_eq_some_iff.mp hf).1
    rw [hl] at hx
    have : ∀ x < 5, ∀ f, layeredFiles[x]? = some f → f.cpp = true → ∀ y ∈ f.includes, ∀ g, layeredFiles[y]? = some g → g.stem = f.stem → y = x + 1 ∧ g.cpp = false := by
      decide
    exact this x hx f hf hc y hy g hg hst
  · intro x f g hf hc hg hst
    have hx := (List.getElem?_eq_some_iff.mp hf).1
    rw [hl] at hx
    have : ∀ x < 5, ∀ f, layeredFiles[x]? = some f → f.cpp = true → ∀ g, layeredFiles[x + 1]? = some g → g.stem = f.stem → x + 1 ∈ f.includes := by decide
    exact this x hx f hf hc g hg hst

example : Layered layeredFiles (fun x => if x = 3 ∨ x = 4 then 0 else if x = 1 then 1 else 2) := by
  have hl : layeredFiles.length = 5 := rfl
  have hinc : ∀ x y, Includes layeredFiles x y → (x = 0 ∧ (y = 1 ∨ y = 4)) ∨ (x = 2 ∧ y = 1) := by
    rintro x y ⟨f, hf, hy⟩
    have hx := (List.getElem?_eq_some_iff.mp hf).1
    rw [hl] at hx
    have : ∀ x < 5, ∀ f, layeredFiles[x]? = some f → ∀ y ∈ f.includes, (x = 0 ∧ (y = 1 ∨ y = 4)) ∨ (x = 2 ∧ y = 1) := by decide
    exact this x hx f hf y hy
  refine ⟨?_, ?_⟩
  · intro x y h
    rcases hinc x y h with ⟨rfl, rfl | rfl⟩ | ⟨rfl, rfl⟩ <;> decide
  · rintro x s y ⟨f, g, h1, h2, h3, h4, h5, h6⟩ hy hne
    rcases hinc s x ⟨g, h2, h6⟩ with ⟨rfl, rfl | rfl⟩ | ⟨rfl, rfl⟩
    · rcases hinc 0 y hy with ⟨_, rfl | rfl⟩ | ⟨h, _⟩
      · exact absurd rfl hne
      · decide
      · exact absurd h (by decide)
    · cases h1; cases h2; exact absurd h5 (by decide)
    · cases h1; cases h2; exact absurd h5 (by decide)

example : findStaleTests (fun l : List Nat => l) 5 none none layeredFiles = .ok [2] := by rfl
example : findStaleTests (fun l : List Nat => l) 5 none (some ([2], 10)) layeredFiles = .ok [] := by rfl

end Verif.Props
