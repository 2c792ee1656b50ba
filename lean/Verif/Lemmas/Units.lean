import Verif.Spec.Units
import Verif.Lemmas.TypeLists
set_option linter.unusedSectionVars false

namespace Verif.Units
open Verif.TypeLists Verif.Spec

variable {N : Type} [DecidableEq N]

/-! ### The comparison -/

theorem compare_base (lt : Ty N → Ty N → Bool) (n m : N) : typeComparator lt (.base n) (.base m) = some (lt (.base n) (.base m)) := by
  rfl

theorem compare_base_dual (lt : Ty N → Ty N → Bool) (n m : N) :
    typeComparator lt (.base n) (.dual (.base m)) = some (if n = m then true else lt (.base n) (.base m)) := by
  by_cases h : n = m
  · subst h
    have : matching (.base n) (.dual (.base n)) = [(⟨.T, .dual .T, [], some true⟩, (some (.base n), none))] := by
      simp [matching, specs, List.filterMap_cons, Spec.matched, deduce, Cond.holds, subst]
    rw [typeComparator, this, if_pos rfl]
    rfl
  · have h' : ¬ m = n := fun h' => h h'.symm
    have : matching (.base n) (.dual (.base m)) = [(⟨.T, .dual .U, [.differ .T .U, .notDisp .T, .notDisp .U], none⟩, (some (.base n), some (.base m)))] := by
      simp [matching, specs, List.filterMap_cons, Spec.matched, deduce, Cond.holds, subst, h, h']
    rw [typeComparator, this, if_neg h]
    rfl

theorem compare_dual_base (lt : Ty N → Ty N → Bool) (n m : N) :
    typeComparator lt (.dual (.base n)) (.base m) = some (if n = m then false else lt (.base n) (.base m)) := by
  by_cases h : n = m
  · subst h
    have : matching (.dual (.base n)) (.base n) = [(⟨.dual .T, .T, [], some false⟩, (some (.base n), none))] := by
      simp [matching, specs, List.filterMap_cons, Spec.matched, deduce, Cond.holds, subst]
    rw [typeComparator, this, if_pos rfl]
    rfl
  · have h' : ¬ m = n := fun h' => h h'.symm
    have : matching (.dual (.base n)) (.base m) = [(⟨.dual .T, .U, [.differ .T .U], none⟩, (some (.base n), some (.base m)))] := by
      simp [matching, specs, List.filterMap_cons, Spec.matched, deduce, Cond.holds, subst, h, h']
    rw [typeComparator, this, if_neg h]
    rfl

theorem compare_dual (lt : Ty N → Ty N → Bool) (n m : N) : typeComparator lt (.dual (.base n)) (.dual (.base m)) = some (lt (.base n) (.base m)) := by
  have : matching (.dual (.base n)) (.dual (.base m)) =
      [(⟨.dual .T, .U, [.differ .T .U], none⟩, (some (.base n), some (.dual (.base m)))),
       (⟨.T, .dual .U, [.differ .T .U, .notDisp .T, .notDisp .U], none⟩, (some (.dual (.base n)), some (.base m))),
       (⟨.dual .T, .dual .U, [], none⟩, (some (.base n), some (.base m)))] := by
    simp [matching, specs, List.filterMap_cons, Spec.matched, deduce, Cond.holds, subst]
  rw [typeComparator, this]
  rfl

/-- The comparison of units is that of names, with units before their duals. -/
theorem compare_atoms (lt : Ty N → Ty N → Bool) (hl : UnitNames lt) (a b : Atom N) :
    typeComparator lt a.toTy b.toTy = some (if a.name = b.name then !a.isDual && b.isDual else lt (.base a.name) (.base b.name)) := by
  obtain ⟨n, p⟩ := a
  obtain ⟨m, q⟩ := b
  cases p <;> cases q
  · show typeComparator lt (.base n) (.base m) = _
    rw [compare_base]
    by_cases h : n = m
    · subst h; simp [hl.irrefl]
    · simp [h]
  · show typeComparator lt (.base n) (.dual (.base m)) = _
    rw [compare_base_dual]
    simp
  · show typeComparator lt (.dual (.base n)) (.base m) = _
    rw [compare_dual_base]
    simp
  · show typeComparator lt (.dual (.base n)) (.dual (.base m)) = _
    rw [compare_dual]
    by_cases h : n = m
    · subst h; simp [hl.irrefl]
    · simp [h]

/-- The comparison of names. -/
def nlt (lt : Ty N → Ty N → Bool) (n m : N) : Bool := lt (.base n) (.base m)

theorem cmp_eq {lt : Ty N → Ty N → Bool} (hl : UnitNames lt) (a b : Atom N) : cmp lt a b = if a.name = b.name then !a.isDual && b.isDual else nlt lt a.name b.name := by
  rw [cmp, compare_atoms lt hl, Bool.eq_iff_iff]
  simp [nlt]

theorem nlt_total {lt : Ty N → Ty N → Bool} (hl : UnitNames lt) {n m : N} (h : nlt lt n m = false) (h' : n ≠ m) : nlt lt m n = true := by
  rcases hl.total (.base n) (.base m) (fun e => h' (by injection e)) with h1 | h1
  · exact absurd h1 (by simpa [nlt] using h)
  · exact h1

theorem nlt_asymm {lt : Ty N → Ty N → Bool} (hl : UnitNames lt) {n m : N} (h : nlt lt n m = true) : nlt lt m n = false := by
  cases h1 : nlt lt m n with
  | false => rfl
  | true => exact absurd (hl.trans _ _ _ h h1) (by simp [hl.irrefl])

theorem nlt_ne {lt : Ty N → Ty N → Bool} (hl : UnitNames lt) {n m : N} (h : nlt lt n m = true) : n ≠ m := by
  rintro rfl
  exact absurd h (by simp [nlt, hl.irrefl])

theorem cmp_weak {lt : Ty N → Ty N → Bool} (hl : UnitNames lt) : StrictWeak (cmp lt) := by
  constructor
  · intro a b h
    rw [cmp_eq hl] at h ⊢
    by_cases e : a.name = b.name
    · rw [if_pos e] at h
      rw [if_pos e.symm]
      cases h1 : a.isDual <;> cases h2 : b.isDual <;> simp [h1, h2] at h ⊢
    · rw [if_neg e] at h
      rw [if_neg (fun x => e x.symm)]
      exact nlt_asymm hl h
  · intro a b c h h'
    rw [cmp_eq hl] at h h' ⊢
    by_cases e : a.name = b.name <;> by_cases e' : b.name = c.name
    · rw [if_pos e] at h
      rw [if_pos e'] at h'
      rw [if_pos (e.trans e')]
      cases h1 : a.isDual <;> cases h2 : b.isDual <;> cases h3 : c.isDual <;> simp [h1, h2, h3] at h h' ⊢
    · rw [if_neg e'] at h'
      rw [if_neg (fun x => e' (e.symm.trans x)), e]
      exact h'
    · rw [if_neg e] at h
      rw [if_neg (fun x => e (x.trans e'.symm)), ← e']
      exact h
    · rw [if_neg e] at h
      rw [if_neg e'] at h'
      have h1 := hl.trans _ _ _ (nlt_total hl h' e') (nlt_total hl h e)
      rw [if_neg (fun x => nlt_ne hl h1 x.symm)]
      exact nlt_asymm hl h1

theorem cmp_total {lt : Ty N → Ty N → Bool} (hl : UnitNames lt) (a b : Atom N) (h : cmp lt a b = false) (h' : cmp lt b a = false) : a = b := by
  rw [cmp_eq hl] at h h'
  by_cases e : a.name = b.name
  · rw [if_pos e] at h
    rw [if_pos e.symm] at h'
    obtain ⟨n, p⟩ := a
    obtain ⟨m, q⟩ := b
    cases p <;> cases q <;> simp_all
  · rw [if_neg e] at h
    rw [if_neg (fun x => e x.symm)] at h'
    exact absurd (nlt_total hl h e) (by simp [h'])

/-! ### Counting -/

/-- The exponent of a base unit. -/
def expo (l : List (Atom N)) (n : N) : Int := (l.count ⟨n, false⟩ : Int) - (l.count ⟨n, true⟩ : Int)

theorem expo_append (l m : List (Atom N)) (n : N) : expo (l ++ m) n = expo l n + expo m n := by
  simp only [expo, List.count_append]
  omega

theorem expo_perm {l m : List (Atom N)} (h : l.Perm m) (n : N) : expo l n = expo m n := by
  simp only [expo, h.count_eq]

theorem expo_single (a : Atom N) (n : N) : expo [a] n = if a.name = n then (if a.isDual then -1 else 1) else 0 := by
  obtain ⟨m, p⟩ := a
  by_cases h : m = n
  · subst h
    cases p <;> simp [expo]
  · simp [expo, h]

/-- The sign with which a unit is counted. -/
def sgn (a : Atom N) (i : Int) : Int := if a.isDual then -i else i

/-- What holds of the counted units when those in `p` have been processed. -/
structure Counted (lt : Ty N → Ty N → Bool) (p : List (Atom N)) (c : List (Atom N × Int)) : Prop where
  dec : c.Pairwise fun x y => nlt lt y.1.name x.1.name = true
  mem : ∀ x ∈ c, x.1 ∈ p
  cnt : ∀ x ∈ c, sgn x.1 x.2 = expo p x.1.name
  pos : ∀ x ∈ c, x.1.isDual = true → 0 < x.2
  all : ∀ a ∈ p, ∃ x ∈ c, x.1.name = a.name

theorem dualOf_name (e : Env N) (a : Atom N) : (dualOf e a).name = a.name := by
  unfold dualOf; split <;> rfl

theorem combine_counted {e : Env N} (hl : UnitNames e.lt) {p : List (Atom N)} {c : List (Atom N × Int)} (hc : Counted e.lt p c) (hne : c ≠ []) {s : Atom N}
    (hs : ∀ a ∈ p, cmp e.lt s a = false) : ∃ c', combine e s c = some c' ∧ c' ≠ [] ∧ Counted e.lt (p ++ [s]) c' := by
  cases c with
  | nil => exact absurd rfl hne
  | cons y l =>
    obtain ⟨t, i⟩ := y
    have ht : t ∈ p := hc.mem (t, i) (by simp)
    have hst := hs t ht
    have hdec := List.pairwise_cons.mp hc.dec
    -- the units which have been counted before the head are other ones
    have hother : ∀ x ∈ l, x.1.name ≠ t.name := fun x hx => nlt_ne hl (hdec.1 x hx)
    by_cases hn : s.name = t.name
    · -- the same base unit
      have hkeep : ∀ j : Int, (sgn t j = sgn t i + (if s.isDual then -1 else 1)) → (t.isDual = true → 0 < j) → Counted e.lt (p ++ [s]) ((t, j) :: l) := by
        intro j hj hjp
        refine ⟨List.pairwise_cons.mpr hdec, ?_, ?_, ?_, ?_⟩
        · intro x hx
          rcases List.mem_cons.mp hx with rfl | hx
          · simp [ht]
          · have := hc.mem x (by simp [hx]); simp [this]
        · intro x hx
          rw [expo_append, expo_single]
          rcases List.mem_cons.mp hx with rfl | hx
          · have h1 := hc.cnt (t, i) (by simp)
            simp only at h1 ⊢
            rw [if_pos hn, hj, h1]
          · have h1 := hc.cnt x (by simp [hx])
            rw [if_neg (fun h => hother x hx (h.symm.trans hn)), h1]; omega
        · intro x hx hd
          rcases List.mem_cons.mp hx with rfl | hx
          · exact hjp hd
          · exact hc.pos x (by simp [hx]) hd
        · intro a ha
          rcases List.mem_append.mp ha with ha | ha
          · obtain ⟨x, hx, hxn⟩ := hc.all a ha
            rcases List.mem_cons.mp hx with rfl | hx
            · exact ⟨(t, j), by simp, hxn⟩
            · exact ⟨x, by simp [hx], hxn⟩
          · rw [List.mem_singleton] at ha
            subst ha
            exact ⟨(t, j), by simp, hn.symm⟩
      by_cases heq : s = t
      · subst heq
        refine ⟨(s, i + 1) :: l, by simp [combine], by simp, hkeep _ ?_ ?_⟩
        · unfold sgn; split <;> omega
        · intro hd; have := hc.pos (s, i) (by simp) hd; simp only at this; omega
      · obtain ⟨n, q⟩ := s
        obtain ⟨m, r⟩ := t
        simp only at hn
        subst hn
        have hqr : q = true ∧ r = false := by
          rw [cmp_eq hl, if_pos rfl] at hst
          cases q <;> cases r <;> simp_all
        obtain ⟨rfl, rfl⟩ := hqr
        refine ⟨(⟨n, false⟩, i - 1) :: l, by simp [combine], by simp, hkeep _ ?_ ?_⟩
        · simp [sgn]; omega
        · intro h; exact absurd h (by simp)
    · -- another base unit
      have hlt : nlt e.lt t.name s.name = true := by
        rw [cmp_eq hl, if_neg hn] at hst
        exact nlt_total hl hst hn
      refine ⟨(s, 1) :: (t, i) :: l, ?_, by simp, ?_, ?_, ?_, ?_, ?_⟩
      · have h1 : s ≠ t := fun h => hn (by rw [h])
        have h2 : t ≠ ⟨s.name, false⟩ := fun h => hn (by rw [h])
        have h3 : (⟨s.name, false⟩ : Atom N) ≠ dualOf e t := fun h => hn (by rw [← dualOf_name e t, ← h])
        have h4 : t ≠ dualOf e ⟨s.name, false⟩ := fun h => hn (by rw [h, dualOf_name])
        simp only [combine]
        rw [if_neg h1, if_neg (fun h => h2 h.2)]
        by_cases hd : s.isDual = false
        · rw [if_pos hd]
        · rw [if_neg hd, if_pos ⟨fun h => h2 h.symm, h3, h4⟩]
      · refine List.pairwise_cons.mpr ⟨?_, hc.dec⟩
        intro x hx
        rcases List.mem_cons.mp hx with rfl | hx
        · exact hlt
        · exact hl.trans _ _ _ (hdec.1 x hx) hlt
      · intro x hx
        rcases List.mem_cons.mp hx with rfl | hx
        · simp
        · have := hc.mem x hx; simp [this]
      · intro x hx
        rw [expo_append, expo_single]
        rcases List.mem_cons.mp hx with rfl | hx
        · have hz : expo p s.name = 0 := by
            have h1 : ∀ b, (⟨s.name, b⟩ : Atom N) ∉ p := by
              intro b hb
              obtain ⟨x, hx, hxn⟩ := hc.all _ hb
              simp only at hxn
              rcases List.mem_cons.mp hx with rfl | hx
              · exact hn hxn.symm
              · exact nlt_ne hl (hl.trans _ _ _ (hdec.1 x hx) hlt) hxn
            simp [expo, List.count_eq_zero.mpr (h1 true), List.count_eq_zero.mpr (h1 false)]
          simp only [hz, if_true]
          unfold sgn; split <;> rfl
        · have h1 := hc.cnt x hx
          have h2 : s.name ≠ x.1.name := by
            rcases List.mem_cons.mp hx with rfl | hx
            · exact hn
            · exact (nlt_ne hl (hl.trans _ _ _ (hdec.1 x hx) hlt)).symm
          rw [if_neg h2, h1]; omega
      · intro x hx hd
        rcases List.mem_cons.mp hx with rfl | hx
        · show (0 : Int) < 1; omega
        · exact hc.pos x hx hd
      · intro a ha
        rcases List.mem_append.mp ha with ha | ha
        · obtain ⟨x, hx, hxn⟩ := hc.all a ha
          exact ⟨x, List.mem_cons_of_mem _ hx, hxn⟩
        · rw [List.mem_singleton] at ha
          subst ha
          exact ⟨(a, 1), by simp, rfl⟩

theorem combineAll_counted {e : Env N} (hl : UnitNames e.lt) : ∀ (ss p : List (Atom N)) (c : List (Atom N × Int)), Counted e.lt p c → c ≠ [] → Sorted (cmp e.lt) (p ++ ss) →
    ∃ c', combineAll e ss c = some c' ∧ c' ≠ [] ∧ Counted e.lt (p ++ ss) c'
  | [], p, c, hc, hne, _ => ⟨c, rfl, hne, by simpa using hc⟩
  | s :: ss, p, c, hc, hne, hs => by
    obtain ⟨c1, h1, h2, h3⟩ := combine_counted hl hc hne (s := s) fun a ha => (List.pairwise_append.mp hs).2.2 a ha s (by simp)
    obtain ⟨c2, h4, h5, h6⟩ := combineAll_counted hl ss (p ++ [s]) c1 h3 h2 (by simpa using hs)
    exact ⟨c2, by simp [combineAll, h1, h4], h5, by simpa using h6⟩

theorem countAndCombine_counted {e : Env N} (hl : UnitNames e.lt) {l : List (Atom N)} (hne : l ≠ []) (hs : Sorted (cmp e.lt) l) :
    ∃ c, countAndCombine e l = some c ∧ c ≠ [] ∧ Counted e.lt l c := by
  cases l with
  | nil => exact absurd rfl hne
  | cons s ss =>
    refine combineAll_counted hl ss [s] [(s, 1)] ⟨by simp, by simp, ?_, by simp, by simp⟩ (by simp) hs
    intro x hx
    rw [List.mem_singleton] at hx
    subst hx
    rw [expo_single]
    simp [sgn]

/-! ### Normal forms -/

/-- A list of units in normal form: sorted, without `no_unit_t`, and without a unit next to its dual. -/
structure Normal (e : Env N) (l : List (Atom N)) : Prop where
  sorted : Sorted (cmp e.lt) l
  unit : ∀ a ∈ l, a.name ≠ e.noUnit
  one : ∀ a ∈ l, ∀ b ∈ l, a.name = b.name → a = b

theorem expo_none {l : List (Atom N)} {n : N} (h : ∀ a ∈ l, a.name ≠ n) : expo l n = 0 := by
  have h1 : ∀ b, (⟨n, b⟩ : Atom N) ∉ l := fun b hb => h _ hb rfl
  simp [expo, List.count_eq_zero.mpr (h1 true), List.count_eq_zero.mpr (h1 false)]

theorem Normal.not_both {e : Env N} {l : List (Atom N)} (h : Normal e l) (n : N) : l.count ⟨n, false⟩ = 0 ∨ l.count ⟨n, true⟩ = 0 := by
  by_cases h1 : (⟨n, false⟩ : Atom N) ∈ l
  · right
    refine List.count_eq_zero.mpr fun h2 => ?_
    have := h.one _ h1 _ h2 rfl
    simp at this
  · exact .inl (List.count_eq_zero.mpr h1)

theorem Normal.unique {e : Env N} (hl : UnitNames e.lt) {l m : List (Atom N)} (h : Normal e l) (h' : Normal e m) (hx : ∀ n, expo l n = expo m n) : l = m := by
  have hp : l.Perm m := by
    refine List.perm_iff_count.mpr fun a => ?_
    obtain ⟨n, b⟩ := a
    have h1 := h.not_both n
    have h2 := h'.not_both n
    have h3 := hx n
    unfold expo at h3
    cases b <;> omega
  exact hp.eq_of_pairwise (fun a b _ _ h h' => cmp_total hl a b h' h) h.sorted h'.sorted

theorem Normal.expo_ne {e : Env N} {l : List (Atom N)} (h : Normal e l) {a : Atom N} (ha : a ∈ l) : expo l a.name ≠ 0 := by
  have h1 := h.not_both a.name
  have h2 : 0 < l.count a := List.count_pos_iff.mpr ha
  obtain ⟨n, b⟩ := a
  unfold expo
  cases b <;> simp only at h1 ⊢ <;> omega

theorem Normal.eq_nil {e : Env N} {l : List (Atom N)} (h : Normal e l) (h0 : ∀ n, expo l n = 0) : l = [] := by
  cases l with
  | nil => rfl
  | cons a l => exact absurd (h0 a.name) (h.expo_ne (by simp))

/-! ### Unpacking -/

/-- What a counted unit stands for. -/
def block (x : Atom N × Int) : List (Atom N) := List.replicate x.2.natAbs ⟨x.1.name, if x.2 < 0 then true else x.1.isDual⟩

theorem unpackOne_eq {x : Atom N × Int} (h0 : x.2 ≠ 0) (hd : x.1.isDual = true → 0 < x.2) : unpackOne x = some (block x) := by
  obtain ⟨⟨n, b⟩, i⟩ := x
  simp only at h0 hd
  unfold unpackOne block
  simp only
  by_cases h : 0 < i
  · have h' : ¬ i < 0 := by omega
    rw [if_pos h, if_neg h']
    congr 2
    omega
  · have h' : i < 0 := by omega
    rw [if_neg h, if_pos h', if_pos h']
    have : b = false := by
      cases b with
      | false => rfl
      | true => exact absurd (hd rfl) h
    subst this
    rw [if_neg (by simp)]
    congr 2
    omega

theorem mapM_unpackOne : ∀ (c : List (Atom N × Int)), (∀ x ∈ c, x.2 ≠ 0) → (∀ x ∈ c, x.1.isDual = true → 0 < x.2) → c.mapM unpackOne = some (c.map block)
  | [], _, _ => rfl
  | x :: c, h0, hd => by
    rw [List.mapM_cons, unpackOne_eq (h0 x (by simp)) (hd x (by simp)), mapM_unpackOne c (fun y hy => h0 y (by simp [hy])) (fun y hy => hd y (by simp [hy]))]
    rfl

theorem block_name {x : Atom N × Int} {a : Atom N} (h : a ∈ block x) : a.name = x.1.name := by
  rw [block, List.mem_replicate] at h
  rw [h.2]

theorem block_expo {x : Atom N × Int} (hd : x.1.isDual = true → 0 < x.2) : expo (block x) x.1.name = sgn x.1 x.2 := by
  obtain ⟨⟨n, b⟩, i⟩ := x
  simp only at hd
  simp only [expo, block, List.count_replicate, sgn]
  by_cases h : i < 0
  · have : b = false := by
      cases b with
      | false => rfl
      | true => exact absurd (hd rfl) (by omega)
    subst this
    simp [h]; omega
  · cases b <;> simp [h] <;> omega

/-- What counted units stand for. -/
def out (c : List (Atom N × Int)) : List (Atom N) := (c.map block).flatten

theorem out_name {c : List (Atom N × Int)} {a : Atom N} (h : a ∈ out c) : ∃ x ∈ c, a ∈ block x := by
  obtain ⟨l, hl, ha⟩ := List.mem_flatten.mp h
  obtain ⟨x, hx, rfl⟩ := List.mem_map.mp hl
  exact ⟨x, hx, ha⟩

theorem out_expo_none {c : List (Atom N × Int)} {n : N} (h : ∀ x ∈ c, x.1.name ≠ n) : expo (out c) n = 0 := by
  refine expo_none fun a ha => ?_
  obtain ⟨x, hx, hax⟩ := out_name ha
  rw [block_name hax]
  exact h x hx

theorem out_expo {lt : Ty N → Ty N → Bool} (hl : UnitNames lt) : ∀ {c : List (Atom N × Int)}, c.Pairwise (fun x y => nlt lt y.1.name x.1.name = true) →
    (∀ x ∈ c, x.1.isDual = true → 0 < x.2) → ∀ x ∈ c, expo (out c) x.1.name = sgn x.1 x.2
  | [], _, _, x, hx => absurd hx (by simp)
  | y :: c, hdec, hd, x, hx => by
    have hdec' := List.pairwise_cons.mp hdec
    have hsplit : out (y :: c) = block y ++ out c := by simp [out]
    rw [hsplit, expo_append]
    rcases List.mem_cons.mp hx with rfl | hx
    · rw [block_expo (hd x (by simp)), out_expo_none fun z hz => nlt_ne hl (hdec'.1 z hz)]
      omega
    · rw [out_expo hl hdec'.2 (fun z hz => hd z (by simp [hz])) x hx, expo_none fun a ha => ?_]
      · omega
      · rw [block_name ha]
        exact (nlt_ne hl (hdec'.1 x hx)).symm

theorem out_sorted {lt : Ty N → Ty N → Bool} (hl : UnitNames lt) {c : List (Atom N × Int)} (hdec : c.Pairwise (fun x y => nlt lt y.1.name x.1.name = true)) :
    Sorted (cmp lt) (out c).reverse := by
  rw [Sorted, List.pairwise_reverse, out, List.pairwise_flatten]
  constructor
  · intro l hlm
    obtain ⟨x, _, rfl⟩ := List.mem_map.mp hlm
    rw [block, List.pairwise_replicate]
    right
    rw [cmp_eq hl, if_pos rfl]
    cases (if x.2 < 0 then true else x.1.isDual) <;> rfl
  · rw [List.pairwise_map]
    refine hdec.imp ?_
    intro x y h a ha b hb
    rw [cmp_eq hl, block_name ha, block_name hb, if_neg (nlt_ne hl h).symm]
    exact nlt_asymm hl h

theorem out_one {lt : Ty N → Ty N → Bool} (hl : UnitNames lt) {c : List (Atom N × Int)} (hdec : c.Pairwise (fun x y => nlt lt y.1.name x.1.name = true)) :
    ∀ a ∈ out c, ∀ b ∈ out c, a.name = b.name → a = b := by
  intro a ha b hb hn
  obtain ⟨x, hx, hax⟩ := out_name ha
  obtain ⟨y, hy, hby⟩ := out_name hb
  have hxy : x = y := by
    by_cases h : x = y
    · exact h
    · exfalso
      have hxyn : x.1.name = y.1.name := by rw [← block_name hax, ← block_name hby, hn]
      obtain ⟨i, hi, rfl⟩ := List.getElem_of_mem hx
      obtain ⟨j, hj, rfl⟩ := List.getElem_of_mem hy
      rcases Nat.lt_trichotomy i j with hij | hij | hij
      · exact nlt_ne hl (List.pairwise_iff_getElem.mp hdec i j hi hj hij) hxyn.symm
      · subst hij; exact h rfl
      · exact nlt_ne hl (List.pairwise_iff_getElem.mp hdec j i hj hi hij) hxyn
  subst hxy
  rw [block, List.mem_replicate] at hax hby
  rw [hax.2, hby.2]

/-- The result of simplifying a sorted list of units: a normal form with the same exponents, except that where nothing is left over `no_unit_t` is given if there was but one base
unit. -/
theorem simplifySorted_eq {e : Env N} (hu : Usual e) {p : List (Atom N)} (hne : p ≠ []) (hs : Sorted (cmp e.lt) p) (hnu : ∀ a ∈ p, a.name = e.noUnit → a.isDual = false) :
    ∃ k r, simplifySorted e p = some r ∧ Normal e k ∧ (∀ n, expo k n = if n = e.noUnit then 0 else expo p n) ∧
      (k ≠ [] → r = k) ∧ (k = [] → (∀ a ∈ p, ∀ b ∈ p, a.name = b.name) → r = [⟨e.noUnit, false⟩]) ∧
      (k = [] → ¬ (∀ a ∈ p, ∀ b ∈ p, a.name = b.name) → r = []) := by
  have hl := hu.names
  obtain ⟨c, hc, hcne, hcc⟩ := countAndCombine_counted hl hne hs
  have hprune : ∀ x ∈ c, prunable e x = (decide (x.2 = 0) || decide (x.1.name = e.noUnit)) := by
    intro x hx
    unfold prunable isDerived
    by_cases hn : x.1.name = e.noUnit
    · rw [(hu.derived _).mpr hn, hnu _ (hcc.mem x hx) hn]; simp [hn]
    · have h1 : e.derived x.1.name = false := by
        cases h : e.derived x.1.name with
        | false => rfl
        | true => exact absurd ((hu.derived _).mp h) hn
      simp [hn, h1]
  let c' := c.filter fun x => !prunable e x
  have hsub : c'.Sublist c := List.filter_sublist
  have hmem' : ∀ x, x ∈ c' ↔ x ∈ c ∧ x.2 ≠ 0 ∧ x.1.name ≠ e.noUnit := by
    intro x
    rw [List.mem_filter]
    constructor
    · rintro ⟨hx, h⟩; rw [hprune x hx] at h; simp at h; exact ⟨hx, h.1, h.2⟩
    · rintro ⟨hx, h1, h2⟩; refine ⟨hx, ?_⟩; rw [hprune x hx]; simp [h1, h2]
  have hunpack : (filterByTrait (fun x => !prunable e x) c).bind unpack = some (out c') := by
    rw [filterByTrait_eq, Option.bind_some]
    show unpack c' = _
    rw [unpack, mapM_unpackOne c' (fun x hx => ((hmem' x).mp hx).2.1) fun x hx => hcc.pos x ((hmem' x).mp hx).1]
    rfl
  have hdec' := hcc.dec.sublist hsub
  have hpos' : ∀ x ∈ c', x.1.isDual = true → 0 < x.2 := fun x hx => hcc.pos x ((hmem' x).mp hx).1
  have hnormal : Normal e (out c').reverse := by
    refine ⟨out_sorted hl hdec', ?_, ?_⟩
    · intro a ha
      obtain ⟨x, hx, hax⟩ := out_name (List.mem_reverse.mp ha)
      rw [block_name hax]
      exact ((hmem' x).mp hx).2.2
    · intro a ha b hb
      exact out_one hl hdec' a (List.mem_reverse.mp ha) b (List.mem_reverse.mp hb)
  have hexpo : ∀ n, expo (out c').reverse n = if n = e.noUnit then 0 else expo p n := by
    intro n
    rw [expo_perm (List.reverse_perm _)]
    by_cases hn : n = e.noUnit
    · rw [if_pos hn, out_expo_none]
      intro x hx h
      exact ((hmem' x).mp hx).2.2 (h.trans hn)
    · rw [if_neg hn]
      by_cases hx : ∃ x ∈ c, x.1.name = n
      · obtain ⟨x, hx, rfl⟩ := hx
        by_cases h0 : x.2 = 0
        · rw [← hcc.cnt x hx, out_expo_none]
          · unfold sgn; split <;> omega
          · intro y hy hyn
            have hy' := (hmem' y).mp hy
            have h2 := hcc.cnt y hy'.1
            rw [hyn, ← hcc.cnt x hx] at h2
            have : y.2 = 0 := by
              rw [h0] at h2
              unfold sgn at h2
              split at h2 <;> split at h2 <;> omega
            exact hy'.2.1 this
        · rw [out_expo hl hdec' hpos' x ((hmem' x).mpr ⟨hx, h0, hn⟩), hcc.cnt x hx]
      · rw [out_expo_none, expo_none]
        · intro a ha han
          obtain ⟨x, hx', hxn⟩ := hcc.all a ha
          exact hx ⟨x, hx', hxn.trans han⟩
        · intro x hx' hxn
          exact hx ⟨x, ((hmem' x).mp hx').1, hxn⟩
  -- one base unit only
  have hone : (∀ a ∈ p, ∀ b ∈ p, a.name = b.name) ↔ ∃ x, c = [x] := by
    constructor
    · intro h
      cases c with
      | nil => exact absurd rfl hcne
      | cons x c =>
        cases c with
        | nil => exact ⟨x, rfl⟩
        | cons y c =>
          exfalso
          have h1 := (List.pairwise_cons.mp hcc.dec).1 y (by simp)
          exact nlt_ne hl h1 (h _ (hcc.mem y (by simp)) _ (hcc.mem x (by simp)))
    · rintro ⟨x, rfl⟩ a ha b hb
      obtain ⟨y, hy, hyn⟩ := hcc.all a ha
      obtain ⟨z, hz, hzn⟩ := hcc.all b hb
      rw [List.mem_singleton] at hy hz
      rw [← hyn, ← hzn, hy, hz]
  have hnil : (out c').reverse = [] ↔ ∀ x ∈ c, x.2 = 0 ∨ x.1.name = e.noUnit := by
    constructor
    · intro h x hx
      by_cases h0 : x.2 = 0
      · exact .inl h0
      · by_cases h1 : x.1.name = e.noUnit
        · exact .inr h1
        · exfalso
          have h2 := out_expo hl hdec' hpos' x ((hmem' x).mpr ⟨hx, h0, h1⟩)
          have h3 : out c' = [] := by simpa using h
          rw [h3] at h2
          simp only [expo, List.count_nil, sgn] at h2
          split at h2 <;> omega
    · intro h
      have : c' = [] := by
        refine List.eq_nil_iff_forall_not_mem.mpr fun x hx => ?_
        have hx' := (hmem' x).mp hx
        rcases h x hx'.1 with h1 | h1
        · exact hx'.2.1 h1
        · exact hx'.2.2 h1
      rw [this]
      rfl
  refine ⟨(out c').reverse, ?_⟩
  have hsimp : simplifySorted e p = (reduce e c).map List.reverse := by
    rw [simplifySorted, hc, Option.bind_some]
    congr 1
    funext l
    exact reverse_eq l
  by_cases h1 : (∀ a ∈ p, ∀ b ∈ p, a.name = b.name)
  · obtain ⟨⟨u, i⟩, rfl⟩ := hone.mp h1
    by_cases h2 : i = 0 ∨ u.name = e.noUnit
    · have hk : (out c').reverse = [] := hnil.mpr (by intro x hx; rw [List.mem_singleton] at hx; subst hx; exact h2)
      have hred : reduce e [(u, i)] = some [⟨e.noUnit, false⟩] := by
        unfold reduce
        simp only
        by_cases h0 : i = 0
        · rw [if_pos h0]
        · have hun := h2.resolve_left h0
          have hud : u.isDual = false := hnu u (hcc.mem (u, i) (by simp)) hun
          have hpi : 0 < i := by
            have h3 := hcc.cnt (u, i) (by simp)
            simp only [sgn, hud, Bool.false_eq_true, if_false] at h3
            have h4 : p.count ⟨u.name, true⟩ = 0 := by
              refine List.count_eq_zero.mpr fun h => ?_
              have := hnu _ h hun
              simp at this
            unfold expo at h3
            omega
          have hder : isDerived e u = true := by simp [isDerived, hud, (hu.derived _).mpr hun]
          rw [if_neg h0, if_pos ⟨hder, hpi⟩]
          obtain ⟨n, b⟩ := u
          simp only at hun hud
          rw [hun, hud]
      refine ⟨[⟨e.noUnit, false⟩], by rw [hsimp, hred]; rfl, hnormal, hexpo, ?_, ?_, ?_⟩
      · intro h; exact absurd hk h
      · intro _ _; rfl
      · intro _ h; exact absurd h1 h
    · have hk : (out c').reverse ≠ [] := by
        intro h
        exact h2 (hnil.mp h (u, i) (by simp))
      have hred : reduce e [(u, i)] = some (out c') := by
        unfold reduce
        simp only
        have h3 : ¬ (isDerived e u = true ∧ 0 < i) := by
          rintro ⟨h, _⟩
          simp only [isDerived, Bool.and_eq_true] at h
          exact h2 (.inr ((hu.derived _).mp h.2))
        rw [if_neg (fun h => h2 (.inl h)), if_neg h3]
        exact hunpack
      refine ⟨(out c').reverse, by rw [hsimp, hred]; rfl, hnormal, hexpo, fun _ => rfl, fun h => absurd h hk, fun h => absurd h hk⟩
  · have hred : reduce e c = some (out c') := by
      cases c with
      | nil => exact absurd rfl hcne
      | cons x c =>
        cases c with
        | nil => exact absurd (hone.mpr ⟨x, rfl⟩) h1
        | cons y c => exact hunpack
    refine ⟨(out c').reverse, by rw [hsimp, hred]; rfl, hnormal, hexpo, fun _ => rfl, fun _ h => absurd h h1, fun h _ => h⟩

/-! ### Units as normal forms -/

/-- The unit of a normal form. -/
def unitOf (e : Env N) : List (Atom N) → Unit N
  | [] => .single ⟨e.noUnit, false⟩
  | [a] => .single a
  | a :: b :: l => .composite (a :: b :: l)

/-- The units multiplied by `reduction`. -/
def asAtoms (e : Env N) : List (Atom N) → List (Atom N)
  | [] => [⟨e.noUnit, false⟩]
  | a :: l => a :: l

theorem asAtoms_ne (e : Env N) (l : List (Atom N)) : asAtoms e l ≠ [] := by cases l <;> simp [asAtoms]

theorem asAtoms_sorted {e : Env N} {l : List (Atom N)} (h : Normal e l) : Sorted (cmp e.lt) (asAtoms e l) := by
  cases l with
  | nil => simp [asAtoms, Sorted]
  | cons a l => exact h.sorted

theorem asAtoms_noUnit {e : Env N} {l : List (Atom N)} (h : Normal e l) : ∀ a ∈ asAtoms e l, a.name = e.noUnit → a.isDual = false := by
  cases l with
  | nil => simp [asAtoms]
  | cons b l => intro a ha hn; exact absurd hn (h.unit a ha)

theorem asAtoms_expo {e : Env N} {l : List (Atom N)} (n : N) (hn : n ≠ e.noUnit) : expo (asAtoms e l) n = expo l n := by
  cases l with
  | nil =>
    rw [show asAtoms e [] = [⟨e.noUnit, false⟩] from rfl, expo_single, if_neg (fun h => hn h.symm)]
    simp [expo]
  | cons a l => rfl

theorem Normal.noUnit {e : Env N} {l : List (Atom N)} (h : Normal e l) : expo l e.noUnit = 0 := expo_none h.unit

theorem reduction_eq {e : Env N} (hl : UnitNames e.lt) {l m : List (Atom N)} (h : Normal e l) (h' : Normal e m) :
    ∃ p, reduction e (unitOf e l) (unitOf e m) = simplifySorted e p ∧ p.Perm (asAtoms e l ++ asAtoms e m) ∧ Sorted (cmp e.lt) p := by
  have hw := cmp_weak hl
  have key : ∀ a b : Atom N, ∃ p, reduction e (.single a) (.single b) = simplifySorted e p ∧ p.Perm ([a] ++ [b]) ∧ Sorted (cmp e.lt) p := by
    intro a b
    obtain ⟨p, h1, h2, h3⟩ := stableSort_eq hw ([a, b].length + 1) [a, b] (by simp)
    exact ⟨p, by rw [reduction, stableSortT, h1]; rfl, h2, h3⟩
  have keym : ∀ a b : List (Atom N), Sorted (cmp e.lt) a → Sorted (cmp e.lt) b → ∃ p, (merge (cmp e.lt) a b).bind (simplifySorted e) = simplifySorted e p ∧ p.Perm (a ++ b) ∧ Sorted (cmp e.lt) p := by
    intro a b ha hb
    obtain ⟨p, h1, h2, h3⟩ := merge_eq hw a b ha hb
    exact ⟨p, by rw [h1]; rfl, h2, h3⟩
  have hs1 := asAtoms_sorted h
  have hs2 := asAtoms_sorted h'
  cases l with
  | nil =>
    cases m with
    | nil => exact key _ _
    | cons b m =>
      cases m with
      | nil => exact key _ _
      | cons b' m => exact keym _ _ hs1 hs2
  | cons a l =>
    cases l with
    | nil =>
      cases m with
      | nil => exact key _ _
      | cons b m =>
        cases m with
        | nil => exact key _ _
        | cons b' m => exact keym _ _ hs1 hs2
    | cons a' l =>
      cases m with
      | nil => exact keym _ _ hs1 hs2
      | cons b m =>
        cases m with
        | nil => exact keym _ _ hs1 hs2
        | cons b' m => exact keym _ _ hs1 hs2

theorem reducedValidator_some (vs : List Validator) (hne : vs ≠ []) (h : ∀ v ∈ vs, v = .identity ∨ v = .halfLine) :
    ∃ v, reducedValidator vs = some v ∧ (v = .identity ∨ v = .halfLine) ∧ (v = .halfLine ↔ ∀ w ∈ vs, w = .halfLine) := by
  induction vs with
  | nil => exact absurd rfl hne
  | cons a vs ih =>
    cases vs with
    | nil =>
      refine ⟨a, rfl, h a (by simp), by simp⟩
    | cons b vs =>
      obtain ⟨v, h1, h2, h3⟩ := ih (by simp) fun w hw => h w (by simp [hw])
      have ha := h a (by simp)
      rw [show reducedValidator (a :: b :: vs) = (reducedValidator (b :: vs)).bind (reducedTwo a) from rfl, h1, Option.bind_some]
      rcases ha with rfl | rfl <;> rcases h2 with rfl | rfl
      · exact ⟨.identity, rfl, .inl rfl, by simp⟩
      · exact ⟨.identity, rfl, .inl rfl, by simp⟩
      · refine ⟨.identity, rfl, .inl rfl, ?_⟩
        constructor
        · intro h; cases h
        · intro h; exact absurd (h3.mpr fun w hw => h w (by simp [hw])) (by simp)
      · refine ⟨.halfLine, rfl, .inr rfl, ?_⟩
        constructor
        · intro _ w hw
          rcases List.mem_cons.mp hw with rfl | hw
          · rfl
          · exact h3.mp rfl w hw
        · intro _; rfl

theorem atomValidator_usual {e : Env N} (hu : Usual e) (a : Atom N) : atomValidator e a = e.validator a.name := by
  unfold atomValidator
  rcases hu.validators a.name with h | h <;> rw [h] <;> simp

theorem toComposite_eq {e : Env N} (hu : Usual e) {l : List (Atom N)} (hne : l ≠ []) : toComposite e l = some (unitOf e l) := by
  cases l with
  | nil => exact absurd rfl hne
  | cons a l =>
    cases l with
    | nil => rfl
    | cons b l =>
      obtain ⟨v, hv, _⟩ := reducedValidator_some ((a :: b :: l).map (atomValidator e)) (by simp) (by
        intro w hw
        obtain ⟨x, _, rfl⟩ := List.mem_map.mp hw
        rw [atomValidator_usual hu]
        exact hu.validators _)
      simp only [toComposite, hv, Option.isSome_some, if_true, unitOf]

/-- The product of two units in normal form. -/
theorem valueProduct_eq {e : Env N} (hu : Usual e) {l m : List (Atom N)} (h : Normal e l) (h' : Normal e m) :
    ∃ k, Normal e k ∧ (∀ n, expo k n = expo l n + expo m n) ∧
      valueProduct e (unitOf e l) (unitOf e m) =
        if k = [] ∧ ¬ (∀ a ∈ asAtoms e l ++ asAtoms e m, ∀ b ∈ asAtoms e l ++ asAtoms e m, a.name = b.name) then none else some (unitOf e k) := by
  obtain ⟨p, hp, hperm, hsort⟩ := reduction_eq hu.names h h'
  have hpne : p ≠ [] := by
    rintro rfl
    have := hperm.symm.eq_nil
    simp [asAtoms_ne] at this
  obtain ⟨k, r, hr, hk, hx, h1, h2, h3⟩ := simplifySorted_eq hu hpne hsort (by
    intro a ha
    rcases List.mem_append.mp (hperm.mem_iff.mp ha) with ha | ha
    · exact asAtoms_noUnit h a ha
    · exact asAtoms_noUnit h' a ha)
  refine ⟨k, hk, ?_, ?_⟩
  · intro n
    rw [hx n]
    by_cases hn : n = e.noUnit
    · rw [if_pos hn, hn, h.noUnit, h'.noUnit]; rfl
    · rw [if_neg hn, expo_perm hperm, expo_append, asAtoms_expo n hn, asAtoms_expo n hn]
  · have hall : (∀ a ∈ p, ∀ b ∈ p, a.name = b.name) ↔ (∀ a ∈ asAtoms e l ++ asAtoms e m, ∀ b ∈ asAtoms e l ++ asAtoms e m, a.name = b.name) := by
      constructor
      · intro h a ha b hb; exact h a (hperm.mem_iff.mpr ha) b (hperm.mem_iff.mpr hb)
      · intro h a ha b hb; exact h a (hperm.mem_iff.mp ha) b (hperm.mem_iff.mp hb)
    rw [valueProduct, hp, hr, Option.bind_some]
    by_cases hk0 : k = []
    · by_cases ha : (∀ a ∈ p, ∀ b ∈ p, a.name = b.name)
      · rw [h2 hk0 ha, if_neg (fun h => h.2 (hall.mp ha)), hk0]
        rfl
      · rw [h3 hk0 ha, if_pos ⟨hk0, fun h => ha (hall.mpr h)⟩]
        rfl
    · rw [h1 hk0, if_neg (fun h => hk0 h.1), toComposite_eq hu hk0]

theorem unitOf_inj {e : Env N} {l m : List (Atom N)} (h : Normal e l) (h' : Normal e m) (heq : unitOf e l = unitOf e m) : l = m := by
  cases l with
  | nil =>
    cases m with
    | nil => rfl
    | cons b m =>
      cases m with
      | nil =>
        simp only [unitOf, Unit.single.injEq] at heq
        exact absurd (by rw [← heq]) (h'.unit b (by simp))
      | cons b' m => simp [unitOf] at heq
  | cons a l =>
    cases l with
    | nil =>
      cases m with
      | nil =>
        simp only [unitOf, Unit.single.injEq] at heq
        exact absurd (by rw [heq]) (h.unit a (by simp))
      | cons b m =>
        cases m with
        | nil => simpa [unitOf] using heq
        | cons b' m => simp [unitOf] at heq
    | cons a' l =>
      cases m with
      | nil => simp [unitOf] at heq
      | cons b m =>
        cases m with
        | nil => simp [unitOf] at heq
        | cons b' m => simpa [unitOf] using heq

theorem normal_nil (e : Env N) : Normal e [] := ⟨by simp [Sorted], by simp, by simp⟩

theorem unitOf_eq_none {e : Env N} {l : List (Atom N)} (h : Normal e l) : unitOf e l = .single ⟨e.noUnit, false⟩ ↔ l = [] := by
  constructor
  · intro hx; exact unitOf_inj h (normal_nil e) hx
  · rintro rfl; rfl

theorem expo_nil (n : N) : expo ([] : List (Atom N)) n = 0 := by simp [expo]

/-- Units and quantities are multiplied in the same way. -/
theorem mul_eq_valueProduct {e : Env N} (hu : Usual e) {l m : List (Atom N)} (h : Normal e l) (h' : Normal e m) :
    mul e (unitOf e l) (unitOf e m) = valueProduct e (unitOf e l) (unitOf e m) := by
  obtain ⟨k, hk, hx, heq⟩ := valueProduct_eq hu h h'
  unfold mul
  by_cases hm : m = []
  · subst hm
    rw [if_pos (show unitOf e [] = .single ⟨e.noUnit, false⟩ from rfl), heq]
    have : k = l := hk.unique hu.names h fun n => by rw [hx n, expo_nil]; omega
    subst this
    rw [if_neg]
    rintro ⟨rfl, hn⟩
    exact hn (by simp [asAtoms])
  · rw [if_neg (fun hh => hm ((unitOf_eq_none h').mp hh))]
    by_cases hl : l = []
    · subst hl
      rw [if_pos (show unitOf e [] = .single ⟨e.noUnit, false⟩ from rfl), heq]
      have : k = m := hk.unique hu.names h' fun n => by rw [hx n, expo_nil]; omega
      subst this
      rw [if_neg (fun hh => hm hh.1)]
    · rw [if_neg (fun hh => hl ((unitOf_eq_none h).mp hh))]

/-! ### Division -/

def flip (a : Atom N) : Atom N := ⟨a.name, !a.isDual⟩

theorem expo_flip (l : List (Atom N)) (n : N) : expo (l.map flip) n = - expo l n := by
  induction l with
  | nil => simp [expo]
  | cons a l ih =>
    have h1 : (a :: l).map flip = [flip a] ++ l.map flip := rfl
    have h2 : a :: l = [a] ++ l := rfl
    rw [h1, h2, expo_append, expo_append, ih, expo_single, expo_single]
    obtain ⟨m, b⟩ := a
    by_cases h : m = n
    · cases b <;> simp [flip, h] <;> omega
    · simp [flip, h]

theorem Normal.flip {e : Env N} (hl : UnitNames e.lt) {l : List (Atom N)} (h : Normal e l) : Normal e (l.map flip) := by
  refine ⟨?_, ?_, ?_⟩
  · rw [Sorted, List.pairwise_map]
    refine h.sorted.imp_of_mem ?_
    intro a b ha hb hab
    rw [cmp_eq hl] at hab ⊢
    by_cases hn : b.name = a.name
    · have := h.one b hb a ha hn
      subst this
      simp [Units.flip]
    · simpa [Units.flip, hn] using hab
  · intro a ha
    obtain ⟨b, hb, rfl⟩ := List.mem_map.mp ha
    exact h.unit b hb
  · intro a ha b hb hn
    obtain ⟨a', ha', rfl⟩ := List.mem_map.mp ha
    obtain ⟨b', hb', rfl⟩ := List.mem_map.mp hb
    rw [h.one a' ha' b' hb' hn]

theorem dualOf_flip {e : Env N} {a : Atom N} (h : a.name ≠ e.noUnit) : dualOf e a = flip a := by
  unfold dualOf
  rw [if_neg]
  · rfl
  · intro hh; exact h (by rw [hh])

theorem unitOf_dualOf {e : Env N} {l : List (Atom N)} (h : Normal e l) : (unitOf e l).dualOf e = unitOf e (l.map flip) := by
  cases l with
  | nil => simp [unitOf, Unit.dualOf, dualOf]
  | cons a l =>
    have hmap : (a :: l).map (dualOf e) = (a :: l).map flip := List.map_congr_left fun b hb => dualOf_flip (h.unit b hb)
    cases l with
    | nil => simp only [unitOf, Unit.dualOf, List.map_cons, List.map_nil]; rw [dualOf_flip (h.unit a (by simp))]
    | cons b l => exact congrArg Unit.composite hmap

theorem div_eq_mul {e : Env N} (hu : Usual e) {l m : List (Atom N)} (h' : Normal e m) :
    div e (unitOf e l) (unitOf e m) = mul e (unitOf e l) (unitOf e (m.map flip)) := by
  unfold div
  rw [unitOf_dualOf h', mul]
  by_cases hm : m = []
  · subst hm
    rfl
  · have hm' : ¬ unitOf e (m.map flip) = .single ⟨e.noUnit, false⟩ := by
      rw [unitOf_eq_none (h'.flip hu.names)]; simpa using hm
    rw [if_neg (fun hh => hm ((unitOf_eq_none h').mp hh)), if_neg hm']

/-! ### Units which are built -/

theorem built_normal {e : Env N} (hu : Usual e) {u : Unit N} {f : N → Int} (h : Built e u f) : ∃ l, Normal e l ∧ u = unitOf e l ∧ ∀ n, expo l n = f n := by
  have hprod : ∀ {l m : List (Atom N)} {w : Unit N}, Normal e l → Normal e m → mul e (unitOf e l) (unitOf e m) = some w →
      ∃ k, Normal e k ∧ w = unitOf e k ∧ ∀ n, expo k n = expo l n + expo m n := by
    intro l m w hl hm hw
    obtain ⟨k, hk, hx, heq⟩ := valueProduct_eq hu hl hm
    rw [mul_eq_valueProduct hu hl hm, heq] at hw
    split at hw
    · exact absurd hw (by simp)
    · exact ⟨k, hk, by injection hw with hw; exact hw.symm, hx⟩
  induction h with
  | none => exact ⟨[], normal_nil e, rfl, fun n => expo_nil n⟩
  | @base n hn =>
    refine ⟨[⟨n, false⟩], ⟨by simp [Sorted], by simpa using hn, by simp⟩, rfl, fun m => ?_⟩
    rw [expo_single]
    by_cases h : m = n
    · simp [h]
    · have h' : ¬ n = m := fun h' => h h'.symm
      simp [h, h']
  | mul _ _ hw ih1 ih2 =>
    obtain ⟨l, hl, rfl, h1⟩ := ih1
    obtain ⟨m, hm, rfl, h2⟩ := ih2
    obtain ⟨k, hk, rfl, h3⟩ := hprod hl hm hw
    exact ⟨k, hk, rfl, fun n => by rw [h3, h1, h2]⟩
  | div _ _ hw ih1 ih2 =>
    obtain ⟨l, hl, rfl, h1⟩ := ih1
    obtain ⟨m, hm, rfl, h2⟩ := ih2
    rw [div_eq_mul hu hm] at hw
    obtain ⟨k, hk, rfl, h3⟩ := hprod hl (hm.flip hu.names) hw
    exact ⟨k, hk, rfl, fun n => by rw [h3, h1, expo_flip, h2]; dsimp only; omega⟩

theorem normal_names {e : Env N} {l : List (Atom N)} (h : Normal e l) (n : N) : expo l n ≠ 0 ↔ ∃ a ∈ l, a.name = n := by
  constructor
  · intro hx
    by_cases hh : ∃ a ∈ l, a.name = n
    · exact hh
    · exact absurd (expo_none fun a ha han => hh ⟨a, ha, han⟩) hx
  · rintro ⟨a, ha, rfl⟩
    exact h.expo_ne ha

/-- When a product is ill-formed. -/
theorem mul_none_iff {e : Env N} (hu : Usual e) {l m : List (Atom N)} (h : Normal e l) (h' : Normal e m) :
    mul e (unitOf e l) (unitOf e m) = none ↔ (∀ n, expo l n + expo m n = 0) ∧ ∃ n n', n ≠ n' ∧ expo l n ≠ 0 ∧ expo l n' ≠ 0 := by
  obtain ⟨k, hk, hx, heq⟩ := valueProduct_eq hu h h'
  rw [mul_eq_valueProduct hu h h', heq]
  constructor
  · intro hn
    split at hn
    · rename_i hc
      obtain ⟨rfl, hna⟩ := hc
      have hsum : ∀ n, expo l n + expo m n = 0 := fun n => by rw [← hx n, expo_nil]
      refine ⟨hsum, ?_⟩
      by_cases hl : l = []
      · subst hl
        have : m = [] := h'.eq_nil fun n => by have := hsum n; rw [expo_nil] at this; omega
        subst this
        exact absurd (by simp [asAtoms]) hna
      · have hm : m ≠ [] := by
          rintro rfl
          exact hl (h.eq_nil fun n => by have := hsum n; rw [expo_nil] at this; omega)
        have hal : asAtoms e l = l := by cases l with
          | nil => exact absurd rfl hl
          | cons a l => rfl
        have ham : asAtoms e m = m := by cases m with
          | nil => exact absurd rfl hm
          | cons a m => rfl
        rw [hal, ham] at hna
        have hin : ∀ a ∈ l ++ m, expo l a.name ≠ 0 := by
          intro a ha
          rcases List.mem_append.mp ha with ha | ha
          · exact h.expo_ne ha
          · have h1 := h'.expo_ne ha
            have h2 := hsum a.name
            omega
        by_cases hh : ∃ n n', n ≠ n' ∧ expo l n ≠ 0 ∧ expo l n' ≠ 0
        · exact hh
        · exfalso
          refine hna fun a ha b hb => ?_
          by_cases hab : a.name = b.name
          · exact hab
          · exact absurd ⟨a.name, b.name, hab, hin a ha, hin b hb⟩ hh
    · exact absurd hn (by simp)
  · rintro ⟨hsum, n, n', hne, h1, h2⟩
    rw [if_pos]
    refine ⟨hk.eq_nil fun n => by rw [hx n, hsum n], fun hall => ?_⟩
    obtain ⟨a, ha, rfl⟩ := (normal_names h n).mp h1
    obtain ⟨b, hb, rfl⟩ := (normal_names h n').mp h2
    have hmem : ∀ {c : Atom N}, c ∈ l → c ∈ asAtoms e l ++ asAtoms e m := by
      intro c hc
      cases l with
      | nil => exact absurd hc (by simp)
      | cons x l => exact List.mem_append.mpr (.inl hc)
    exact hne (hall a (hmem ha) b (hmem hb))

end Verif.Units
