/-
C40 to C42: factories, suites and the granular filter.
-/
import Verif.Lemmas.Factory
import Verif.Lemmas.Suite
import Mathlib.Order.Nat

namespace Verif.Props

open Verif.Spec.Suites Verif.Suites Verif.Graph

/-! ### C40 -/

section
variable {K : Type} [LinearOrder K]

/-- `std::ranges::sort` by name: a permutation which is in order. -/
def SortsByName (sort : List (K × Nat) → List (K × Nat)) : Prop := ∀ l, (sort l).Perm l ∧ (sort l).Pairwise fun a b => a.1 ≤ b.1

omit [LinearOrder K] in
theorem zipIdx_names (names : List K) : (names.zipIdx.map Prod.fst) = names := by simp

/-- C40: construction throws unless the names are distinct and not empty; the products are stored under their names, in the order of these. -/
theorem C40_constructible {sort : List (K × Nat) → List (K × Nat)} (hsort : SortsByName sort) (empty : K) (names : List K) :
    (empty ∉ names ∧ names.Nodup → ∃ c, construct sort empty names = .ok c ∧ (∀ n i, (n, i) ∈ c ↔ names[i]? = some n) ∧
      (c.map Prod.fst).Pairwise (· < ·)) ∧
    (¬ (empty ∉ names ∧ names.Nodup) → construct sort empty names = .throws) := by
  have hperm : ((sort names.zipIdx).map Prod.fst).Perm names := by
    have := ((hsort names.zipIdx).1).map Prod.fst
    rwa [zipIdx_names] at this
  have hadj := adjacentEqual_sorted (hsort names.zipIdx).2
  rw [hperm.nodup_iff] at hadj
  unfold construct
  rw [makeElements_spec]
  constructor
  · rintro ⟨h1, h2⟩
    simp only [h1, if_false, Res.bind, hadj.mpr h2]
    refine ⟨_, rfl, ?_, ?_⟩
    · intro n i
      rw [(hsort _).1.mem_iff]
      exact List.mem_zipIdx_iff_getElem?
    · rw [List.pairwise_map]
      have hnd : ((sort names.zipIdx).map Prod.fst).Nodup := hperm.nodup_iff.mpr h2
      have := List.pairwise_map.mp hnd
      exact (((hsort names.zipIdx).2.and this)).imp fun h => lt_of_le_of_ne h.1 h.2
  · intro h
    by_cases h1 : empty ∈ names
    · simp [h1, Res.bind]
    · have h2 : ¬ names.Nodup := fun h2 => h ⟨h1, h2⟩
      have : adjacentEqual (sort names.zipIdx) = true := by
        cases hq : adjacentEqual (sort names.zipIdx)
        · exact absurd (hadj.mp hq) h2
        · rfl
      simp [h1, Res.bind, this]

theorem findName_constructed {sort : List (K × Nat) → List (K × Nat)} (hsort : SortsByName sort) {empty : K} {names : List K} {c : List (K × Nat)}
    (hc : construct sort empty names = .ok c) (name : K) (e : K × Nat) : findName c name = some e ↔ names[e.2]? = some e.1 ∧ e.1 = name := by
  have hok : empty ∉ names ∧ names.Nodup := by
    by_contra h
    rw [(C40_constructible hsort empty names).2 h] at hc
    cases hc
  obtain ⟨c', h1, h2, h3⟩ := (C40_constructible hsort empty names).1 hok
  rw [hc] at h1
  cases h1
  have h4 := List.pairwise_map.mp h3
  rw [findName_spec (h4.imp fun h => le_of_lt h) (h3.imp fun h => ne_of_lt h)]
  rw [← h2]

/-- C40: `make(name)` returns the product which was registered under that name, and throws if there is none. -/
theorem C40_make {sort : List (K × Nat) → List (K × Nat)} (hsort : SortsByName sort) {empty : K} {names : List K} {c : List (K × Nat)}
    (hc : construct sort empty names = .ok c) (name : K) :
    (∀ i, make c name = .ok i ↔ names[i]? = some name) ∧ (make c name = .throws ↔ name ∉ names) := by
  have key := findName_constructed hsort hc name
  unfold make
  cases hf : findName c name with
  | some e =>
    obtain ⟨h1, h2⟩ := (key e).mp hf
    constructor
    · intro i
      simp only [Res.ok.injEq]
      constructor
      · rintro rfl; rw [h1, h2]
      · intro hi
        have := (key (name, i)).mpr ⟨hi, rfl⟩
        rw [hf] at this
        cases this; rfl
    · simp only [reduceCtorEq, false_iff, not_not]
      rw [← h2]; exact List.mem_of_getElem? h1
  | none =>
    constructor
    · intro i
      simp only [reduceCtorEq, false_iff]
      intro hi
      have := (key (name, i)).mpr ⟨hi, rfl⟩
      rw [hf] at this; cases this
    · simp only [true_iff]
      intro hm
      obtain ⟨i, hi⟩ := List.mem_iff_getElem?.mp hm
      have := (key (name, i)).mpr ⟨hi, rfl⟩
      rw [hf] at this; cases this

/-- C40: `make_or<Product>(name)` returns the product registered under the name and otherwise the given one. -/
theorem C40_make_or {sort : List (K × Nat) → List (K × Nat)} (hsort : SortsByName sort) {empty : K} {names : List K} {c : List (K × Nat)}
    (hc : construct sort empty names = .ok c) {product : Nat} (hp : product < names.length) (name : K) :
    (∀ i, names[i]? = some name → makeOr c product name = .ok i) ∧ (name ∉ names → makeOr c product name = .ok product) := by
  have key := findName_constructed hsort hc name
  constructor
  · intro i hi
    rw [makeOr, (key (name, i)).mpr ⟨hi, rfl⟩]
  · intro hn
    have hf : findName c name = none := by
      cases hf : findName c name with
      | none => rfl
      | some e =>
        obtain ⟨h1, h2⟩ := (key e).mp hf
        exact absurd (h2 ▸ List.mem_of_getElem? h1) hn
    rw [makeOr, hf]
    have hok : empty ∉ names ∧ names.Nodup := by
      by_contra h
      rw [(C40_constructible hsort empty names).2 h] at hc
      cases hc
    obtain ⟨c', h1, h2, h3⟩ := (C40_constructible hsort empty names).1 hok
    rw [hc] at h1
    cases h1
    have hmem : (names[product], product) ∈ c := (h2 _ _).mpr (List.getElem?_eq_getElem hp)
    simp only
    cases hq : c.find? (fun e => decide (e.2 = product)) with
    | none =>
      have := List.find?_eq_none.mp hq _ hmem
      simp at this
    | some e =>
      have := List.find?_some hq
      simp only [decide_eq_true_eq] at this
      simp [this]

/-- C40: a function which is given a permutation in order exists, so that the theorems are not about nothing. -/
example : SortsByName (K := Nat) (fun l => l.mergeSort fun a b => a.1 ≤ b.1) := fun l =>
  ⟨List.mergeSort_perm _ _, by
    have := List.pairwise_mergeSort (le := fun a b : Nat × Nat => decide (a.1 ≤ b.1)) (by simp; omega) (by simp; omega) l
    simpa using this⟩

example : construct (K := Nat) (fun l => l.mergeSort fun a b => a.1 ≤ b.1) 0 [5, 3, 9, 4] = .ok [(3, 1), (4, 3), (5, 0), (9, 2)] := by
  simp [construct, makeElements, Res.bind, List.mergeSort, List.MergeSort.Internal.splitInTwo, adjacentEqual]
example : make [(3, 1), (4, 3), (5, 0), (9, 2)] 4 = .ok 3 ∧ make [(3, 1), (4, 3), (5, 0), (9, 2)] 6 = .throws ∧
    makeOr [(3, 1), (4, 3), (5, 0), (9, 2)] 2 6 = .ok 2 := by decide +kernel

end

/-! ### C41 -/

section
variable {S L σ : Type}

/-- C41: `extract_leaves` gives exactly the items which the filter accepts, in order, and asks the filter once for each item, together with all
suites around it. -/
theorem C41_leaves {filter : σ → L → List S → Bool × σ} {acc : L → List S → Bool} {Inv : σ → Prop} (hd : Decides filter acc Inv) {X : Type}
    (t : L → X) (s : Suite S L) {st : σ} (h : Inv st) :
    extractLeaves filter t [] s ([], st) =
      (((located [] s).filter fun x => acc x.1 x.2).map (fun x => t x.1), visited filter st (located [] s)) := by
  rw [extractLeaves_spec hd t s [] [] h]
  simp

/-- C41: `extract_tree` gives the tree which initialization from what is left of the suite gives: the accepted items and the suites which still
have items. -/
theorem C41_tree_partial {filter : σ → L → List S → Bool × σ} {acc : L → List S → Bool} {Inv : σ → Prop} (hd : Decides filter acc Inv) {N W M : Type}
    (dw : W) (dm : M) (tS : S → N) (tL : L → N) (s : Suite S L) {st : σ} (h : Inv st) (npos : Nat) {fuel : Nat} (hf : 0 < fuel) :
    ∃ g, extractTree filter .forward dw dm fuel tS tL [] npos s (⟨[], []⟩, st) = .ok (g, visited filter st (located [] s)) ∧
      (pruned acc tS tL [] s = none → g = ⟨[], []⟩) ∧
      ∀ t, pruned acc tS tL [] s = some t → buildTree .forward dw dm t.1 t.2 = .ret g () := by
  have hr : Ready (⟨[], []⟩ : G N (Edge W M)) := ⟨rfl, by intro l hl; simp at hl⟩
  refine ⟨_, extractTree_spec dw dm hd tS tL hf s [] hr (.inl rfl) h, ?_, ?_⟩
  · intro hp; rw [hp]
  · intro t ht
    rw [ht, buildTree_grown]
    rfl

/-- C41: `extract_tree` into an existing forward tree adds what is left of the suite below the given node, as initialization would. -/
theorem C41_tree_below_partial {filter : σ → L → List S → Bool × σ} {acc : L → List S → Bool} {Inv : σ → Prop} (hd : Decides filter acc Inv) {N W M : Type}
    (dw : W) (dm : M) (tS : S → N) (tL : L → N) (s : Suite S L) {st : σ} (h : Inv st) {g : G N (Edge W M)} (hn : g.nodes.length = g.edges.length)
    (hr : Verif.Spec.InRange g.edges) {pos : Nat} (hpos : pos < g.edges.length) {fuel : Nat} (hf : 0 < fuel) :
    ∃ g', extractTree filter .forward dw dm fuel tS tL [] pos s (g, st) = .ok (g', visited filter st (located [] s)) ∧
      buildChildren .forward dw dm (match pruned acc tS tL [] s with | none => .nil | some t => .cons t.1 t.2 .nil) pos g = .ret g' () := by
  refine ⟨_, extractTree_spec dw dm hd tS tL hf s [] ⟨hn, hr⟩ (.inr hpos) h, ?_⟩
  rw [buildChildren_grown dw dm _ ⟨hn, hr⟩ hpos]
  cases pruned acc tS tL [] s <;> rfl

/-- C41: in what is left of a suite, the nodes without children are exactly the accepted items, in order, each below the same chain of suites as before;
in particular no suite is without items, and nothing is left exactly if no item is accepted. -/
theorem C41_pruned (acc : L → List S → Bool) {N : Type} (tS : S → N) (tL : L → N) (s : Suite S L) :
    tips [] (match pruned acc tS tL [] s with | none => .nil | some t => .cons t.1 t.2 .nil) =
      (((located [] s).filter fun x => acc x.1 x.2).map fun x => (tL x.1, x.2.map tS)) := by
  have := tips_pruned acc tS tL s []
  cases h : pruned acc tS tL [] s <;> rw [h] at this <;> simpa using this

/-- A suite with a suite whose only item is rejected. -/
def twoSuites : Suite Nat Nat := .deep 1 [.flat 2 [10, 11], .flat 3 [12]]

def reject12 : Unit → Nat → List Nat → Bool × Unit := fun _ l _ => (l ≠ 12, ())

/-- C41, not as claimed for trees with links in both directions and undirected trees: the node of the suite which has no items left has an
edge to its parent, is not taken to be empty and is kept. -/
theorem C41_other_trees_violated :
    (extractTree reject12 .forward () () 9 id id [] 99 twoSuites (⟨[], []⟩, ())).bind (fun x => .ok x.1.nodes) = .ok [1, 2, 10, 11] ∧
    (extractTree reject12 .symmetric () () 9 id id [] 99 twoSuites (⟨[], []⟩, ())).bind (fun x => .ok x.1.nodes) = .ok [1, 2, 10, 11, 3] ∧
    (extractTree reject12 .undirected () () 9 id id [] 99 twoSuites (⟨[], []⟩, ())).bind (fun x => .ok x.1.nodes) = .ok [1, 2, 10, 11, 3] := by
  refine ⟨rfl, rfl, rfl⟩

/-- C41, not as claimed: the root of a backward tree has no edges, and the whole tree is pruned although all items are accepted. -/
theorem C41_backward_root_violated :
    (extractTree (fun st _ _ => (true, st)) .backward () () 9 id id [] 99 twoSuites (⟨[], []⟩, ())).bind (fun x => .ok x.1.nodes) = .ok [] := rfl

example : Decides reject12 (fun l _ => l ≠ 12) (fun _ => True) := fun _ _ _ _ => ⟨rfl, trivial⟩
example : located [] twoSuites = [(10, [1, 2]), (11, [1, 2]), (12, [1, 3])] := rfl
example : pruned (fun l _ => decide (l ≠ 12)) id id [] twoSuites = some (1, .cons 2 (.cons 10 .nil (.cons 11 .nil .nil)) .nil) := rfl

end

/-! ### C42 -/

section
variable {K I S L : Type} [DecidableEq K]

/-- C42: the filter accepts an item exactly if nothing is selected, or the item is, or any of the suites around it is; and it never changes what is
selected. -/
theorem C42_accepts (m : I → L → Bool) (name : S → K) (f : Granular K I) (l : L) (path : List S) :
    ((f.apply m name l path).1 = true ↔ Accepts m name (keys f.suites) (keys f.items) l path) ∧
    keys (f.apply m name l path).2.suites = keys f.suites ∧ keys (f.apply m name l path).2.items = keys f.items := by
  rw [Granular.apply]
  by_cases h : (f.suites.isNone && f.items.isNone) = true
  · rw [if_pos h]
    rw [Bool.and_eq_true, Option.isNone_iff_eq_none, Option.isNone_iff_eq_none] at h
    simp [Accepts, keys, h.1, h.2]
  · rw [if_neg h]
    rw [Bool.and_eq_true, Option.isNone_iff_eq_none, Option.isNone_iff_eq_none] at h
    have hs := findSuites_spec name path f.suites
    have hi := findSelection_found (fun k => m k l) f.items
    refine ⟨?_, hs.1, findSelection_keys _ _⟩
    simp only [Bool.or_eq_true, hs.2, hi, Accepts]
    constructor
    · exact .inr
    · rintro (⟨h1, h2⟩ | h1)
      · refine absurd ⟨?_, ?_⟩ h
        · cases hq : f.suites <;> simp_all [keys]
        · cases hq : f.items <;> simp_all [keys]
      · exact h1

open Classical in
/-- C41 applies to the granular filter: which items are accepted does not depend on what has been found so far. -/
theorem C42_decides (m : I → L → Bool) (name : S → K) (ks : Option (List K)) (is : Option (List I)) :
    Decides (fun (f : Granular K I) l path => f.apply m name l path) (fun l path => decide (Accepts m name ks is l path))
      (fun f => keys f.suites = ks ∧ keys f.items = is) := by
  rintro f l path ⟨rfl, rfl⟩
  obtain ⟨h1, h2, h3⟩ := C42_accepts m name f l path
  refine ⟨?_, h2, h3⟩
  by_cases h : Accepts m name (keys f.suites) (keys f.items) l path
  · rw [h1.mpr h]; simp [h]
  · have : (f.apply m name l path).1 ≠ true := fun h' => h (h1.mp h')
    simpa [h] using this

open Classical in
/-- C42: the items which are extracted from a suite with a granular filter are exactly the selected ones and the ones in the selected suites; all if
nothing is selected. -/
theorem C42_extracted (m : I → L → Bool) (name : S → K) (ks : Option (List K)) (is : Option (List I)) {X : Type} (t : L → X) (s : Suite S L) :
    (extractLeaves (fun (f : Granular K I) l path => f.apply m name l path) t [] s ([], ⟨makeSelection ks, makeSelection is⟩)).1 =
      ((located [] s).filter fun x => decide (Accepts m name ks is x.1 x.2)).map (fun x => t x.1) := by
  have hk : ∀ {K : Type} (ks : Option (List K)), keys (makeSelection ks) = ks := by
    intro K ks; cases ks <;> simp [keys, makeSelection, Function.comp_def]
  rw [C41_leaves (C42_decides m name ks is) t s ⟨hk ks, hk is⟩]

/-- C42: if all suites are selected only once and no item is selected more than once, then after any number of items exactly those selections are marked
as found which one of the items, or one of the suites around it, has matched. -/
theorem C42_reports_partial (m : I → L → Bool) (name : S → K) {ks : Option (List K)} {is : Option (List I)} (ls : List (L × List S))
    (hks : ∀ l, ks = some l → l.Nodup) (his : ∀ l, is = some l → ∀ x ∈ ls, l.Pairwise fun a b => ¬ (m a x.1 = true ∧ m b x.1 = true)) :
    visited (fun (f : Granular K I) l path => f.apply m name l path) ⟨makeSelection ks, makeSelection is⟩ ls =
      ⟨ks.map fun l => l.map fun k => (k, ls.any fun x => x.2.any fun s => decide (k = name s)),
       is.map fun l => l.map fun k => (k, ls.any fun x => m k x.1)⟩ := by
  have hfs : ∀ (path : List S) (l : List (K × Bool)), (l.map Prod.fst).Nodup →
      (findSuites name path (some l)).1 = some (l.map fun e => (e.1, e.2 || path.any fun s => decide (e.1 = name s))) := by
    intro path
    induction path with
    | nil => intro l _; simp [findSuites]
    | cons s path ih =>
      intro l hl
      have hex : (l.map Prod.fst).Pairwise (fun a b => ¬ (decide (a = name s) = true ∧ decide (b = name s) = true)) :=
        hl.imp fun {a b} hab h => by
          simp only [decide_eq_true_eq] at h
          exact hab (h.1.trans h.2.symm)
      have := ih (l.map fun e => (e.1, e.2 || decide (e.1 = name s))) (by simpa [List.map_map, Function.comp_def] using hl)
      simp only [findSuites, findSelection, markFirst_exclusive (eq := fun k => decide (k = name s)) hex]
      rw [this]
      simp [List.map_map, Function.comp_def, Bool.or_assoc]
  have key : ∀ (ls : List (L × List S)) (f : Granular K I), (∀ l, f.suites = some l → (l.map Prod.fst).Nodup) →
      (∀ l, f.items = some l → ∀ x ∈ ls, (l.map Prod.fst).Pairwise fun a b => ¬ (m a x.1 = true ∧ m b x.1 = true)) →
      visited (fun (f : Granular K I) l path => f.apply m name l path) f ls =
        ⟨f.suites.map fun l => l.map fun e => (e.1, e.2 || ls.any fun x => x.2.any fun s => decide (e.1 = name s)),
         f.items.map fun l => l.map fun e => (e.1, e.2 || ls.any fun x => m e.1 x.1)⟩ := by
    intro ls
    induction ls with
    | nil => intro f _ _; simp [visited]
    | cons x ls ih =>
      intro f h1 h2
      have hstep : (f.apply m name x.1 x.2).2 =
          ⟨f.suites.map fun l => l.map fun e => (e.1, e.2 || x.2.any fun s => decide (e.1 = name s)),
           f.items.map fun l => l.map fun e => (e.1, e.2 || m e.1 x.1)⟩ := by
        obtain ⟨fs, fi⟩ := f
        rw [Granular.apply]
        by_cases h : ((Granular.mk fs fi).suites.isNone && (Granular.mk fs fi).items.isNone) = true
        · rw [if_pos h]
          rw [Bool.and_eq_true, Option.isNone_iff_eq_none, Option.isNone_iff_eq_none] at h
          obtain ⟨rfl, rfl⟩ : fs = none ∧ fi = none := h
          rfl
        · rw [if_neg h]
          simp only [Granular.mk.injEq]
          constructor
          · cases fs with
            | none =>
              have : ∀ p : List S, (findSuites name p (none : Selection K)).1 = none := by
                intro p; induction p with
                | nil => rfl
                | cons s p ihp => simp [findSuites, findSelection, ihp]
              simp [this]
            | some l => simp [hfs x.2 l (h1 l rfl)]
          · cases fi with
            | none => rfl
            | some l =>
              simp only [findSelection, Option.map_some, Option.some.injEq]
              exact markFirst_exclusive (eq := fun k => m k x.1) (h2 l rfl x (by simp))
      have hv : visited (fun (f : Granular K I) l path => f.apply m name l path) f (x :: ls) =
          visited (fun (f : Granular K I) l path => f.apply m name l path) (f.apply m name x.1 x.2).2 ls := rfl
      rw [hv, ih]
      · rw [hstep]
        simp [Option.map_map, Function.comp_def, List.map_map, Bool.or_assoc]
      · rw [hstep]
        intro l hl
        simp only [Option.map_eq_some_iff] at hl
        obtain ⟨l', hl', rfl⟩ := hl
        simpa [List.map_map, Function.comp_def] using h1 l' hl'
      · rw [hstep]
        intro l hl y hy
        simp only [Option.map_eq_some_iff] at hl
        obtain ⟨l', hl', rfl⟩ := hl
        simpa [List.map_map, Function.comp_def] using h2 l' hl' y (by simp [hy])
  have := key ls ⟨makeSelection ks, makeSelection is⟩ ?_ ?_
  · rw [this]
    simp [makeSelection, Option.map_map, Function.comp_def, List.map_map]
  · intro l hl
    simp only [makeSelection, Option.map_eq_some_iff] at hl
    obtain ⟨l', hl', rfl⟩ := hl
    simpa [List.map_map, Function.comp_def] using hks l' hl'
  · intro l hl x hx
    simp only [makeSelection, Option.map_eq_some_iff] at hl
    obtain ⟨l', hl', rfl⟩ := hl
    simpa [List.map_map, Function.comp_def] using his l' hl' x hx

omit [DecidableEq K] in
/-- C42: adding a selection adds its key, and nothing else. -/
theorem C42_add (f : Selection K) (k : K) : keys (addSelection f k) = some (match keys f with | none => [k] | some ks => ks ++ [k]) := by
  cases f <;> simp [keys, addSelection]

/-- C42, not as claimed: if a suite is selected twice, the second selection is reported as not found. -/
theorem C42_selected_twice_violated :
    visited (fun (f : Granular Nat Nat) l path => f.apply (fun (a b : Nat) => a == b) (id : Nat → Nat) l path) ⟨makeSelection (some [2, 2]), makeSelection none⟩
      (located [] twoSuites) = ⟨some [(2, true), (2, false)], none⟩ := rfl

/-- The hypotheses of `C42_reports_partial` and the report for a suite and an item which are there and ones which are not. -/
example : visited (fun (f : Granular Nat Nat) l path => f.apply (fun (a b : Nat) => a == b) (id : Nat → Nat) l path)
    ⟨makeSelection (some [2, 7]), makeSelection (some [12, 99])⟩ (located [] twoSuites) = ⟨some [(2, true), (7, false)], some [(12, true), (99, false)]⟩ := rfl
example : [2, 7].Nodup ∧ ∀ x ∈ located [] twoSuites, [12, 99].Pairwise fun a b => ¬ ((a == x.1) = true ∧ (b == x.1) = true) := by decide

end

end Verif.Props
