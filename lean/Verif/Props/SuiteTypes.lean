import Verif.Spec.SuiteTypes
/-
C114: the types of what is extracted from suites.
-/
namespace Verif.Props
open Verif.Suites Verif.SuiteTypes Verif.Spec.SuiteTypes

namespace SuiteTypes
variable {S L : Type}

theorem joinTuples_eq : ∀ l : List (List L), joinTuples l = l.flatten
  | [] => by rw [joinTuples]; rfl
  | [t] => by rw [joinTuples]; simp
  | t :: u :: vs => by
    rw [joinTuples, joinTuples_eq ((t ++ u) :: vs)]
    simp
termination_by l => l.length

mutual
theorem leafTypes_eq (path : List S) : ∀ s : Suite S L, leafTypes s = (Verif.Spec.Suites.located path s).map (·.1)
  | .flat s items => by simp [leafTypes, Verif.Spec.Suites.located, Function.comp_def]
  | .deep s subs => by
    rw [leafTypes, Verif.Spec.Suites.located, joinTuples_eq, leafTypesList_eq (path ++ [s]) subs]

theorem leafTypesList_eq (path : List S) : ∀ l : List (Suite S L), (leafTypesList l).flatten = (Verif.Spec.Suites.locatedList path l).map (·.1)
  | [] => rfl
  | s :: subs => by
    rw [leafTypesList, Verif.Spec.Suites.locatedList, List.flatten_cons, List.map_append, leafTypes_eq path s, leafTypesList_eq path subs]
end

theorem mem_leafTypes_deep {x : L} {s : S} : ∀ {subs : List (Suite S L)}, x ∈ leafTypes (.deep s subs) ↔ ∃ a ∈ subs, x ∈ leafTypes a := by
  intro subs
  rw [leafTypes, joinTuples_eq]
  induction subs with
  | nil => simp [leafTypesList]
  | cons a as ih => rw [leafTypesList, List.flatten_cons, List.mem_append, ih]; simp

mutual
theorem not_mem_self : ∀ (t : Ty) (l : List Ty), t ∈ l → t ≠ .variant l
  | .other _, _, _ => nofun
  | .variant k, l, h => by
    intro e
    cases e
    have := List.sizeOf_lt_of_mem h
    simp at this
    omega
end

theorem accepts_of_mem {s : Ty} {l : List Ty} (h : s ∈ l) : accepts s (.variant l) = decide (l.count s = 1) := by
  have h0 : l.count s ≠ 0 := by rw [Ne, List.count_eq_zero]; exact fun hn => hn h
  rw [accepts]
  simp only [h0, ne_eq, not_false_eq_true, if_true, decide_eq_false (not_mem_self s l h), Bool.false_or]

theorem accepts_self (t : Ty) : accepts t t = true := by cases t <;> simp [accepts]

theorem addType_nodup {v : List Ty} (h : v.Nodup) (t : Ty) : (addType v t).Nodup := by
  unfold addType
  split
  · exact h
  · rename_i hn
    rw [List.nodup_append]
    exact ⟨h, by simp, fun a ha b hb => by rw [List.mem_singleton.1 hb]; rintro rfl; exact hn ha⟩

theorem mem_addType {v : List Ty} {t x : Ty} : x ∈ addType v t ↔ x ∈ v ∨ x = t := by
  unfold addType
  split
  · rename_i h
    exact ⟨.inl, fun hx => hx.elim id (fun e => e ▸ h)⟩
  · simp

theorem fold_nodup {v : List Ty} (h : v.Nodup) (ts : List Ty) : (ts.foldl addType v).Nodup := by
  induction ts generalizing v with
  | nil => exact h
  | cons t ts ih => exact ih (addType_nodup h t)

theorem mem_fold {v : List Ty} {ts : List Ty} {x : Ty} : x ∈ ts.foldl addType v ↔ x ∈ v ∨ x ∈ ts := by
  induction ts generalizing v with
  | nil => simp
  | cons t ts ih => rw [List.foldl_cons, ih, mem_addType, List.mem_cons, or_assoc]

theorem fold_prefix (v ts : List Ty) : v <+: ts.foldl addType v := by
  induction ts generalizing v with
  | nil => exact List.prefix_refl _
  | cons t ts ih =>
    refine List.IsPrefix.trans ?_ (ih _)
    unfold addType
    split
    · exact List.prefix_refl _
    · exact List.prefix_append _ _

theorem fold_sublist (v ts : List Ty) : List.Sublist (ts.foldl addType v) (v ++ ts) := by
  induction ts generalizing v with
  | nil => simp
  | cons t ts ih =>
    refine (ih _).trans ?_
    unfold addType
    split
    · exact List.Sublist.append_left (List.sublist_cons_self _ _) _
    · simp

theorem faithful_other (n : Nat) (ts : List Ty) : faithful (.other n) ts = ts.foldl addType [.other n] := by
  cases ts <;> rfl

theorem count_one {l : List Ty} (h : l.Nodup) {a : Ty} (ha : a ∈ l) : l.count a = 1 := by
  have h1 := List.nodup_iff_count.1 h a
  have h2 := List.count_pos_iff.2 ha
  omega

/-- What is an alternative, of a list without repetitions, is accepted. -/
theorem accepts_collapse {v : List Ty} (h : v.Nodup) {x : Ty} (hx : x ∈ v) : accepts x (collapse v) = true := by
  have key : accepts x (.variant v) = true := by
    rw [accepts_of_mem hx, decide_eq_true_iff]
    exact count_one h hx
  match v, hx, key with
  | [t], hx, _ => rw [List.mem_singleton.1 hx]; exact accepts_self t
  | [], hx, _ => simp at hx
  | _ :: _ :: _, _, key => exact key

end SuiteTypes
open SuiteTypes
variable {S L : Type}

/-- **C114** The types of the leaves are those of all items in the suite and in the suites within it, in order. -/
theorem C114_leaf_types (s : Suite S L) : leafTypes s = (Verif.Spec.Suites.located [] s).map (·.1) := leafTypes_eq [] s

example : leafTypes (Suite.deep "a" [.flat "b" [1, 2], .deep "c" [.flat "d" [1], .flat "e" []], .flat "f" [3]]) = [1, 2, 1, 3] := by
  simp [leafTypes, leafTypesList, joinTuples]

/-- **C114 (part)** Leaves can be extracted exactly if there are some, and the types to which they are transformed are all the same or all different.  What is missing: some of them are the same, others
not (`C114_repeated_violated`), and suites without leaves. -/
theorem C114_container_partial (results : List Ty) : containerOk results = true ↔ results ≠ [] ∧ ((∀ a ∈ results, ∀ b ∈ results, a = b) ∨ results.Nodup) := by
  cases results with
  | nil => simp [containerOk, leavesType]
  | cons t ts =>
    unfold containerOk leavesType
    dsimp only
    by_cases h : ts.all (· = t) = true
    · rw [if_pos h]
      have h' : ∀ a ∈ t :: ts, a = t := by
        intro a ha
        rcases List.mem_cons.1 ha with rfl | ha
        · rfl
        · exact of_decide_eq_true (List.all_eq_true.1 h a ha)
      constructor
      · intro _
        exact ⟨by simp, .inl fun a ha b hb => (h' a ha).trans (h' b hb).symm⟩
      · intro _
        show (t :: ts).all (accepts · t) = true
        rw [List.all_eq_true]
        intro a ha
        rw [h' a ha]
        exact accepts_self t
    · rw [if_neg h]
      show (t :: ts).all (accepts · (.variant (t :: ts))) = true ↔ _
      rw [List.all_eq_true]
      constructor
      · intro hall
        refine ⟨by simp, .inr ?_⟩
        rw [List.nodup_iff_count]
        intro a
        by_cases ha : a ∈ t :: ts
        · have := hall a ha
          rw [accepts_of_mem ha, decide_eq_true_iff] at this
          omega
        · rw [List.count_eq_zero.2 ha]; omega
      · rintro ⟨-, h1 | h1⟩ a ha
        · exact absurd (List.all_eq_true.2 fun x hx => decide_eq_true (h1 x (List.mem_cons_of_mem _ hx) t (List.mem_cons_self))) h
        · rw [accepts_of_mem ha, decide_eq_true_iff]
          exact count_one h1 ha

example : containerOk [.other 1, .other 2, .other 3] = true ∧ containerOk [.other 1, .other 1] = true := by
  simp [C114_container_partial]

/-- **C114 (violated)** Leaves of two types, one of which occurs twice, cannot be extracted. -/
theorem C114_repeated_violated (a b : Ty) (h : a ≠ b) : containerOk [a, b, a] = false := by
  rw [Bool.eq_false_iff, Ne, C114_container_partial]
  rintro ⟨-, h1 | h1⟩
  · exact h (h1 a (by simp) b (by simp))
  · simp at h1

/-- **C114** The variant for a tree has each of the types once, in the order in which they occur first, unless the first of them is a variant. -/
theorem C114_faithful (n : Nat) (ts us : List Ty) :
    (faithful (.other n) ts).Nodup ∧ (∀ x, x ∈ faithful (.other n) ts ↔ x ∈ Ty.other n :: ts) ∧ List.Sublist (faithful (.other n) ts) (Ty.other n :: ts) ∧
    faithful (.other n) ts <+: faithful (.other n) (ts ++ us) := by
  simp only [faithful_other]
  refine ⟨fold_nodup (by simp) ts, fun x => by rw [mem_fold]; simp, fold_sublist _ _, ?_⟩
  rw [List.foldl_append]
  exact fold_prefix _ _

example : faithful (.other 0) [.other 1, .other 0, .other 2, .other 1] = [.other 0, .other 1, .other 2] := by decide

mutual
/-- **C114** If all suites and items are transformed to the same type, which is not a variant, then this is the type of the nodes of the tree. -/
theorem C114_tree_same (n : Nat) (rS : S → Ty) (rL : L → Ty) : ∀ s : Suite S L, (∀ x ∈ produced rS rL s, x = .other n) → treeType rS rL s = .other n
  | .flat s items, h => by
    have h0 : rS s = .other n := h _ (by simp [produced])
    have : (items.map rL).foldl addType [Ty.other n] = [.other n] := by
      have hall : ∀ x ∈ items.map rL, x = Ty.other n := fun x hx => h x (by simp only [produced, List.mem_cons]; exact .inr hx)
      generalize items.map rL = l at hall
      clear h
      induction l with
      | nil => rfl
      | cons a as ih => rw [List.foldl_cons, hall a (by simp), show addType [Ty.other n] (.other n) = [.other n] by simp [addType]]; exact ih fun x hx => hall x (List.mem_cons_of_mem _ hx)
    rw [treeType, h0, faithful_other, this]
    rfl
  | .deep s subs, h => by
    have h0 : rS s = .other n := h _ (by simp [produced])
    have hall := treeTypeList_same n rS rL subs (fun x hx => h x (by simp only [produced, List.mem_cons]; exact .inr hx))
    have : (treeTypeList rS rL subs).foldl addType [Ty.other n] = [.other n] := by
      generalize treeTypeList rS rL subs = l at hall
      clear h
      induction l with
      | nil => rfl
      | cons a as ih => rw [List.foldl_cons, hall a (by simp), show addType [Ty.other n] (.other n) = [.other n] by simp [addType]]; exact ih fun x hx => hall x (List.mem_cons_of_mem _ hx)
    rw [treeType, h0, faithful_other, this]
    rfl

/-- The suites within. -/
theorem treeTypeList_same (n : Nat) (rS : S → Ty) (rL : L → Ty) : ∀ l : List (Suite S L), (∀ x ∈ producedList rS rL l, x = .other n) → ∀ x ∈ treeTypeList rS rL l, x = .other n
  | [], _ => by simp [treeTypeList]
  | s :: subs, h => by
    intro x hx
    rw [treeTypeList] at hx
    rcases List.mem_cons.1 hx with rfl | hx
    · exact C114_tree_same n rS rL s fun x hx => h x (by rw [producedList]; exact List.mem_append_left _ hx)
    · exact treeTypeList_same n rS rL subs (fun x hx => h x (by rw [producedList]; exact List.mem_append_right _ hx)) x hx
end

/-- **C114** A tree can be extracted from a suite of items whatever they are transformed to, if the suite is not transformed to a variant. -/
theorem C114_tree_flat (rS : S → Ty) (rL : L → Ty) (s : S) (items : List L) (n : Nat) (h : rS s = .other n) : treeOk rS rL (.flat s items) = true := by
  unfold treeOk
  rw [List.all_eq_true]
  intro x hx
  rw [treeType, h, faithful_other]
  refine accepts_collapse (fold_nodup (by simp) _) ?_
  rw [mem_fold]
  rw [produced, h] at hx
  simpa using hx

example : treeOk (S := Unit) (L := Nat) (fun _ => .other 0) Ty.other (.flat () [1, 2, 1, 0]) = true := C114_tree_flat _ _ _ _ 0 rfl

namespace SuiteTypes

theorem mem_treeTypeList {rS : S → Ty} {rL : L → Ty} {subs : List (Suite S L)} {x : Ty} : x ∈ treeTypeList rS rL subs ↔ ∃ a ∈ subs, x = treeType rS rL a := by
  induction subs with
  | nil => simp [treeTypeList]
  | cons a as ih => simp [treeTypeList, ih]

theorem mem_producedList {rS : S → Ty} {rL : L → Ty} {subs : List (Suite S L)} {x : Ty} : x ∈ producedList rS rL subs ↔ ∃ a ∈ subs, x ∈ produced rS rL a := by
  induction subs with
  | nil => simp [producedList]
  | cons a as ih => simp [producedList, ih]

theorem separateList {rS : S → Ty} {rL : L → Ty} : ∀ {subs : List (Suite S L)}, SeparateList rS rL subs → ∀ a ∈ subs, Separate rS rL a
  | [], _, _, ha => by simp at ha
  | s :: subs, h, a, ha => by
    rcases List.mem_cons.1 ha with rfl | ha
    · exact h.1
    · exact separateList h.2 a ha

theorem accepting_zero {s : Ty} : ∀ {l : List Ty}, accepting s l = 0 ↔ ∀ t ∈ l, accepts s t = false
  | [] => by simp [accepting]
  | t :: l => by
    rw [accepting]
    have ih := accepting_zero (s := s) (l := l)
    by_cases h : accepts s t = true
    · simp [h]
    · simp [h, ih]

theorem accepting_one {s t : Ty} : ∀ {l : List Ty}, l.Nodup → t ∈ l → accepts s t = true → (∀ u ∈ l, u ≠ t → accepts s u = false) → accepting s l = 1
  | [], _, h, _, _ => by simp at h
  | u :: l, hn, hm, ha, ho => by
    rw [List.nodup_cons] at hn
    rw [accepting]
    by_cases e : u = t
    · subst e
      have : accepting s l = 0 := accepting_zero.2 fun v hv => ho v (List.mem_cons_of_mem _ hv) (by rintro rfl; exact hn.1 hv)
      simp [ha, this]
    · have h1 : accepts s u = false := ho u (List.mem_cons_self) e
      have h2 := accepting_one hn.2 ((List.mem_cons.1 hm).resolve_left fun h => e h.symm) ha fun v hv => ho v (List.mem_cons_of_mem _ hv)
      simp [h1, h2]

theorem accepts_collapse_via {v : List Ty} (hv : v.Nodup) {x t : Ty} (hx : x ∉ v) (ht : t ∈ v) (ha : accepts x t = true) (ho : ∀ u ∈ v, u ≠ t → accepts x u = false) :
    accepts x (collapse v) = true := by
  have key : accepts x (.variant v) = true := by
    rw [accepts]
    have h0 : v.count x = 0 := List.count_eq_zero.2 hx
    simp only [h0, accepting_one hv ht ha ho]
    simp
  match v, ht, key with
  | [u], ht, _ => rw [List.mem_singleton.1 ht] at ha; exact ha
  | [], ht, _ => simp at ht
  | _ :: _ :: _, _, key => exact key

/-- What is not a variant and is accepted by a variant is an alternative or accepted by one. -/
theorem accepts_inv {m : Nat} {v : List Ty} (h : accepts (.other m) (collapse v) = true) : ∃ t ∈ v, accepts (.other m) t = true := by
  have key : accepts (.other m) (.variant v) = true → ∃ t ∈ v, accepts (.other m) t = true := by
    intro h
    rw [accepts] at h
    have e : decide (Ty.other m = Ty.variant v) = false := decide_eq_false nofun
    rw [e, Bool.false_or] at h
    by_cases hc : v.count (.other m) = 0
    · simp only [hc, ne_eq, not_true_eq_false, if_false, decide_eq_true_eq] at h
      by_cases hn : ∀ t ∈ v, accepts (.other m) t = false
      · rw [accepting_zero.2 hn] at h; cases h
      · obtain ⟨t, ht⟩ := Classical.not_forall.1 hn
        obtain ⟨ht, h2⟩ := Classical.not_imp.1 ht
        exact ⟨t, ht, by simpa using h2⟩
    · have hm : Ty.other m ∈ v := by
        rw [List.count_eq_zero] at hc
        exact Classical.not_not.1 hc
      exact ⟨_, hm, accepts_self _⟩
  match v, h, key with
  | [u], h, _ => exact ⟨u, by simp, h⟩
  | [], h, key => exact key h
  | _ :: _ :: _, h, key => exact key h

mutual
theorem produced_of_accepts {rS : S → Ty} {rL : L → Ty} {n : Nat} (hS : ∀ s, rS s = .other n) (hL : ∀ l, ∃ k, rL l = .other k) {m : Nat} :
    ∀ s : Suite S L, accepts (.other m) (treeType rS rL s) = true → m = n ∨ ∃ l ∈ leafTypes s, rL l = .other m
  | .flat s items, h => by
    rw [treeType, hS, faithful_other] at h
    obtain ⟨t, ht, ha⟩ := accepts_inv h
    rcases mem_fold.1 ht with h1 | h1
    · rw [List.mem_singleton.1 h1, accepts, decide_eq_true_iff] at ha
      exact .inl (Ty.other.inj ha)
    · obtain ⟨l, hl, rfl⟩ := List.mem_map.1 h1
      obtain ⟨k, hk⟩ := hL l
      rw [hk, accepts, decide_eq_true_iff] at ha
      exact .inr ⟨l, by rw [leafTypes]; exact hl, by rw [hk, ha]⟩
  | .deep s subs, h => by
    rw [treeType, hS, faithful_other] at h
    obtain ⟨t, ht, ha⟩ := accepts_inv h
    rcases mem_fold.1 ht with h1 | h1
    · rw [List.mem_singleton.1 h1, accepts, decide_eq_true_iff] at ha
      exact .inl (Ty.other.inj ha)
    · obtain ⟨a, hm, rfl⟩ := mem_treeTypeList.1 h1
      rcases producedList_of_accepts hS hL subs a hm ha with h2 | ⟨l, hl, he⟩
      · exact .inl h2
      · exact .inr ⟨l, mem_leafTypes_deep.2 ⟨a, hm, hl⟩, he⟩

theorem producedList_of_accepts {rS : S → Ty} {rL : L → Ty} {n : Nat} (hS : ∀ s, rS s = .other n) (hL : ∀ l, ∃ k, rL l = .other k) {m : Nat} :
    ∀ (subs : List (Suite S L)), ∀ a ∈ subs, accepts (.other m) (treeType rS rL a) = true → m = n ∨ ∃ l ∈ leafTypes a, rL l = .other m
  | [], _, ha => by simp at ha
  | b :: subs, a, ha => by
    intro h
    by_cases e : a = b
    · rw [e] at h ⊢
      exact produced_of_accepts hS hL b h
    · exact producedList_of_accepts hS hL subs a ((List.mem_cons.1 ha).resolve_left e) h
end

mutual
theorem produced_cases {rS : S → Ty} {rL : L → Ty} {n : Nat} (hS : ∀ s, rS s = .other n) {x : Ty} :
    ∀ s : Suite S L, x ∈ produced rS rL s → x = .other n ∨ ∃ l ∈ leafTypes s, rL l = x
  | .flat s items, h => by
    rw [produced, hS] at h
    rcases List.mem_cons.1 h with h | h
    · exact .inl h
    · obtain ⟨l, hl, he⟩ := List.mem_map.1 h
      exact .inr ⟨l, by rw [leafTypes]; exact hl, he⟩
  | .deep s subs, h => by
    rw [produced, hS] at h
    rcases List.mem_cons.1 h with h | h
    · exact .inl h
    · rcases producedList_cases hS subs h with h | ⟨a, ha, l, hl, he⟩
      · exact .inl h
      · exact .inr ⟨l, mem_leafTypes_deep.2 ⟨a, ha, hl⟩, he⟩

theorem producedList_cases {rS : S → Ty} {rL : L → Ty} {n : Nat} (hS : ∀ s, rS s = .other n) {x : Ty} :
    ∀ subs : List (Suite S L), x ∈ producedList rS rL subs → x = .other n ∨ ∃ a ∈ subs, ∃ l ∈ leafTypes a, rL l = x
  | [], h => by simp [producedList] at h
  | s :: subs, h => by
    rw [producedList] at h
    rcases List.mem_append.1 h with h | h
    · rcases produced_cases hS s h with h | h
      · exact .inl h
      · exact .inr ⟨s, by simp, h⟩
    · rcases producedList_cases hS subs h with h | ⟨a, ha, h⟩
      · exact .inl h
      · exact .inr ⟨a, List.mem_cons_of_mem _ ha, h⟩
end

end SuiteTypes

mutual
/-- **C114 (part)** A tree can be extracted from a suite if suites are transformed to one type, items to others, none of them variants, and, within each suite, any two suites have trees of the same type or no type of
leaves in common.  What is missing: see `C114_shared_violated` and `C114_variant_violated`. -/
theorem C114_tree_partial (rS : S → Ty) (rL : L → Ty) (n : Nat) (hS : ∀ s, rS s = .other n) (hL : ∀ l, ∃ k, rL l = .other k ∧ k ≠ n) : ∀ s : Suite S L, Separate rS rL s → treeOk rS rL s = true
  | .flat s items, _ => C114_tree_flat rS rL s items n (hS s)
  | .deep s subs, h => by
    have hok := treeList_ok rS rL n hS hL subs (by rw [Separate] at h; exact h.1)
    rw [Separate] at h
    unfold treeOk
    rw [List.all_eq_true]
    intro x hx
    rw [treeType, hS, faithful_other]
    have hv : ((treeTypeList rS rL subs).foldl addType [Ty.other n]).Nodup := fold_nodup (by simp) _
    by_cases hm : x ∈ (treeTypeList rS rL subs).foldl addType [Ty.other n]
    · exact accepts_collapse hv hm
    · rw [produced, hS] at hx
      have hxn : x ≠ .other n := by rintro rfl; exact hm (mem_fold.2 (.inl (by simp)))
      obtain ⟨a, ha, hxa⟩ := mem_producedList.1 ((List.mem_cons.1 hx).resolve_left hxn)
      obtain ⟨l, hl, rfl⟩ := (produced_cases hS a hxa).resolve_left hxn
      obtain ⟨k, hk, hkn⟩ := hL l
      refine accepts_collapse_via hv hm (t := treeType rS rL a) (mem_fold.2 (.inr (mem_treeTypeList.2 ⟨a, ha, rfl⟩))) (List.all_eq_true.1 (hok a ha) _ hxa) fun u hu hne => ?_
      rw [Bool.eq_false_iff]
      intro hacc
      rw [hk] at hacc
      rcases mem_fold.1 hu with h1 | h1
      · rw [List.mem_singleton.1 h1, accepts, decide_eq_true_iff] at hacc
        exact hkn (Ty.other.inj hacc)
      · obtain ⟨b, hb, rfl⟩ := mem_treeTypeList.1 h1
        rcases produced_of_accepts hS (fun l => (hL l).imp fun k h => h.1) b hacc with h2 | ⟨l', hl', he⟩
        · exact hkn h2
        · exact h.2 a ha b hb (fun e => hne e.symm) l hl l' hl' (by rw [hk, he])

/-- The suites within. -/
theorem treeList_ok (rS : S → Ty) (rL : L → Ty) (n : Nat) (hS : ∀ s, rS s = .other n) (hL : ∀ l, ∃ k, rL l = .other k ∧ k ≠ n) :
    ∀ subs : List (Suite S L), SeparateList rS rL subs → ∀ a ∈ subs, treeOk rS rL a = true
  | [], _, _, ha => by simp at ha
  | b :: subs, h, a, ha => by
    rw [SeparateList] at h
    by_cases e : a = b
    · rw [e]; exact C114_tree_partial rS rL n hS hL b h.1
    · exact treeList_ok rS rL n hS hL subs h.2 a ((List.mem_cons.1 ha).resolve_left e)
end

/-- A suite of this kind: two suites with the same leaves, and one with another. -/
example : Separate (S := Unit) (L := Nat) (fun _ => Ty.other 0) (fun l => .other (l + 1)) (.deep () [.flat () [0, 1], .flat () [0, 1], .flat () [2]]) := by
  refine ⟨⟨trivial, trivial, trivial, trivial⟩, ?_⟩
  intro a ha b hb hne x hx y hy
  simp only [List.mem_cons, List.not_mem_nil, or_false] at ha hb
  rcases ha with rfl | rfl | rfl <;> rcases hb with rfl | rfl | rfl <;>
    first
    | exact absurd rfl hne
    | (simp only [leafTypes, List.mem_cons, List.not_mem_nil, or_false] at hx hy
       rcases hx with rfl | rfl <;> subst hy <;> decide)
    | (simp only [leafTypes, List.mem_cons, List.not_mem_nil, or_false] at hx hy
       subst hx; rcases hy with rfl | rfl <;> decide)

/-- **C114 (violated)** A tree cannot be extracted if two suites of a suite, with different leaves, have a leaf of the same type. -/
theorem C114_shared_violated : treeOk (S := Unit) (L := Nat) (fun _ => Ty.other 0) Ty.other (.deep () [.flat () [1, 2], .flat () [1]]) = false := by decide

/-- **C114 (violated)** If suites are transformed to a variant, then this is not an alternative of the type of the nodes, and a tree cannot be extracted; and if everything is transformed to one and the same variant, then this
is not the type of the nodes. -/
theorem C114_variant_violated :
    treeOk (S := Unit) (L := Nat) (fun _ => Ty.variant [.other 0, .other 1]) Ty.other (.flat () [2]) = false ∧
    treeType (S := Unit) (L := Nat) (fun _ => Ty.variant [.other 0, .other 1]) (fun _ => Ty.variant [.other 0, .other 1]) (.flat () [2]) ≠ Ty.variant [.other 0, .other 1] := by
  decide

end Verif.Props
