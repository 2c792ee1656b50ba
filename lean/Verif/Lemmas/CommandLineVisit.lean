import Verif.Lemmas.CommandLine

/-! The traversal of a tree of operations. -/
namespace Verif.Cmd
open Verif.Spec

mutual
  def OpTree.size : OpTree → Nat
    | .node _ _ _ below => 1 + sizeL below
  def sizeL : List OpTree → Nat
    | [] => 0
    | t :: ts => OpTree.size t + sizeL ts
end

/-- The first nodes of the trees of a forest in its list. -/
def rootsL (n : Nat) : List OpTree → List Nat
  | [] => []
  | t :: ts => n :: rootsL (n + OpTree.size t) ts

mutual
  theorem length_flat (p : Option Nat) (n : Nat) : ∀ t, (flat p n t).length = OpTree.size t
    | .node e l args below => by simp [flat, OpTree.size, length_flatL (some n) (n + 1) below]; omega
  theorem length_flatL (p : Option Nat) (n : Nat) : ∀ ts, (flatL p n ts).length = sizeL ts
    | [] => rfl
    | t :: ts => by simp [flatL, sizeL, length_flat p n t, length_flatL p _ ts]
end

mutual
  /-- The parents of the nodes of a tree are the given one, for the root, and nodes of the tree. -/
  theorem flat_parent (p : Option Nat) (n : Nat) : ∀ t, ∀ op ∈ (flat p n t).tail, ∃ m, op.parent = some m ∧ n ≤ m ∧ m < n + OpTree.size t
    | .node e l args below => by
      intro op hop
      simp only [flat, List.tail_cons] at hop
      rcases flatL_parent (some n) (n + 1) below op hop with h | ⟨m, h1, h2, h3⟩
      · exact ⟨n, h, Nat.le_refl _, by simp [OpTree.size]; omega⟩
      · exact ⟨m, h1, by omega, by simp [OpTree.size]; omega⟩
  theorem flatL_parent (p : Option Nat) (n : Nat) : ∀ ts, ∀ op ∈ flatL p n ts, op.parent = p ∨ ∃ m, op.parent = some m ∧ n ≤ m ∧ m < n + sizeL ts
    | [] => by intro op hop; simp [flatL] at hop
    | t :: ts => by
      intro op hop
      rw [flatL, length_flat] at hop
      rcases List.mem_append.1 hop with h | h
      · cases t with
        | node e l args below =>
          rw [flat] at h
          rcases List.mem_cons.1 h with rfl | h
          · exact .inl rfl
          · obtain ⟨m, h1, h2, h3⟩ := flat_parent p n (.node e l args below) op (by simpa [flat] using h)
            exact .inr ⟨m, h1, h2, by simp [sizeL]; omega⟩
      · rcases flatL_parent p _ ts op h with h | ⟨m, h1, h2, h3⟩
        · exact .inl h
        · exact .inr ⟨m, h1, by omega, by simp [sizeL]; omega⟩
end

/-- The list `xs` occupies the places from `n` of `N`. -/
def At (N : List Op) (n : Nat) (xs : List Op) : Prop := ∀ j, j < xs.length → N[n + j]? = xs[j]?

theorem At.append {N : List Op} {n : Nat} {xs ys : List Op} (h : At N n (xs ++ ys)) : At N n xs ∧ At N (n + xs.length) ys := by
  constructor
  · intro j hj
    rw [h j (by simp; omega), List.getElem?_append_left hj]
  · intro j hj
    rw [Nat.add_assoc, h (xs.length + j) (by simp; omega), List.getElem?_append_right (by omega)]
    congr 1
    omega

/-- The nodes from `n` on whose parent is `p`. -/
def kidsFrom (N : List Op) (p : Nat) (n len : Nat) : List Nat := (List.range' n len).filter fun q => decide ((N[q]?.bind fun op => op.parent) = some p)

theorem kidsFrom_append (N : List Op) (p n a b : Nat) : kidsFrom N p n (a + b) = kidsFrom N p n a ++ kidsFrom N p (n + a) b := by
  unfold kidsFrom
  rw [← List.filter_append, ← List.range'_append]
  simp

theorem kidsFrom_none {N : List Op} {p n len : Nat} (h : ∀ q, n ≤ q → q < n + len → ∀ op, N[q]? = some op → op.parent ≠ some p) : kidsFrom N p n len = [] := by
  unfold kidsFrom
  rw [List.filter_eq_nil_iff]
  intro q hq
  rw [List.mem_range'_1] at hq
  cases hop : N[q]? with
  | none => simp
  | some op => simpa using h q hq.1 hq.2 op hop

theorem kidsOf_eq (N : List Op) (p : Nat) : kidsOf N p = kidsFrom N p 0 N.length := by
  unfold kidsOf kidsFrom
  rw [List.range_eq_range']

/-- The children of a node are the roots of the trees below it. -/
theorem kids_roots {N : List Op} {p : Nat} : ∀ (ts : List OpTree) (n : Nat), p < n → At N n (flatL (some p) n ts) → kidsFrom N p n (sizeL ts) = rootsL n ts := by
  intro ts
  induction ts with
  | nil => intro n _ _; simp [kidsFrom, sizeL, rootsL]
  | cons t ts ih =>
    intro n hp hat
    rw [flatL] at hat
    obtain ⟨h1, h2⟩ := hat.append
    rw [length_flat] at h2
    rw [sizeL, kidsFrom_append, rootsL, ih (n + OpTree.size t) (by omega) h2]
    have : kidsFrom N p n (OpTree.size t) = [n] := by
      cases t with
      | node e l args below =>
        rw [show OpTree.size (.node e l args below) = 1 + sizeL below by simp [OpTree.size], kidsFrom_append]
        have h3 : kidsFrom N p n 1 = [n] := by
          have := h1 0 (by simp [flat])
          simp only [flat, Nat.add_zero, List.getElem?_cons_zero] at this
          simp [kidsFrom, List.range'_one, this]
        rw [h3, kidsFrom_none]
        · rfl
        · intro q hq1 hq2 op hop
          have h4 := h1 (q - n) (by rw [length_flat]; simp [OpTree.size]; omega)
          rw [show n + (q - n) = q by omega, hop] at h4
          have h5 : op ∈ (flat (some p) n (.node e l args below)).tail := by
            rw [List.mem_iff_getElem?]
            exact ⟨q - n - 1, by rw [List.getElem?_tail, show q - n - 1 + 1 = q - n by omega]; exact h4.symm⟩
          obtain ⟨m, h6, h7, h8⟩ := flat_parent _ _ _ op h5
          rw [h6]
          intro hh
          have : m = p := by simpa using hh
          omega
    rw [this]
    rfl

mutual
  /-- A node comes after its parent. -/
  theorem flat_lt (p : Option Nat) (n : Nat) : ∀ t, (∀ m, p = some m → m < n) → ∀ j op, (flat p n t)[j]? = some op → ∀ m, op.parent = some m → m < n + j
    | .node e l args below => by
      intro hp j op hop m hm
      rw [flat] at hop
      cases j with
      | zero =>
        simp only [List.getElem?_cons_zero, Option.some.injEq] at hop
        subst hop
        exact hp m hm
      | succ j =>
        have := flatL_lt (some n) (n + 1) below (by simp) j op (by simpa using hop) m hm
        omega
  theorem flatL_lt (p : Option Nat) (n : Nat) : ∀ ts, (∀ m, p = some m → m < n) → ∀ j op, (flatL p n ts)[j]? = some op → ∀ m, op.parent = some m → m < n + j
    | [] => by intro _ j op hop; simp [flatL] at hop
    | t :: ts => by
      intro hp j op hop m hm
      rw [flatL, length_flat] at hop
      by_cases hj : j < OpTree.size t
      · rw [List.getElem?_append_left (by rw [length_flat]; exact hj)] at hop
        exact flat_lt p n t hp j op hop m hm
      · rw [List.getElem?_append_right (by rw [length_flat]; omega), length_flat] at hop
        have := flatL_lt p _ ts (fun m h => by have := hp m h; omega) _ op hop m hm
        omega
end

/-- Parents come before their children. -/
def Up (N : List Op) : Prop := ∀ (q : Nat) (op : Op), N[q]? = some op → ∀ m, op.parent = some m → m < q

/-- No node behind the places from `n` to `n + len` has its parent there. -/
def Shut (N : List Op) (n len : Nat) : Prop := ∀ q, n + len ≤ q → ∀ op, N[q]? = some op → ∀ m, op.parent = some m → ¬ (n ≤ m ∧ m < n + len)

mutual
  theorem visit_tree {N : List Op} (hup : Up N) (p : Option Nat) (n f : Nat) : ∀ t : OpTree, OpTree.size t ≤ f → n + OpTree.size t ≤ N.length →
      At N n (flat p n t) → Shut N n (OpTree.size t) → visit f N n = t.run
    | .node e l args below => by
      intro hf hN hat hafter
      match f, hf with
      | 0, hf => simp [OpTree.size] at hf
      | f + 1, hf =>
        simp only [OpTree.size] at hf hN hafter
        rw [flat] at hat
        have h0 : N[n]? = some ⟨p, e, l, args⟩ := by simpa using hat 0 (by simp)
        have h1 : At N (n + 1) (flatL (some n) (n + 1) below) := by
          have := (At.append (xs := [⟨p, e, l, args⟩]) (by simpa using hat)).2
          simpa using this
        have hk : kidsOf N n = rootsL (n + 1) below := by
          rw [kidsOf_eq, show N.length = (n + 1) + (sizeL below + (N.length - (n + 1) - sizeL below)) by omega,
            kidsFrom_append N n 0 (n + 1), kidsFrom_append N n (0 + (n + 1)),
            Nat.zero_add, kids_roots below (n + 1) (by omega) h1, kidsFrom_none, kidsFrom_none]
          · simp
          · intro q hq1 hq2 op hop hpar
            exact hafter q (by omega) op hop n hpar ⟨Nat.le_refl _, by omega⟩
          · intro q _ hq2 op hop hpar
            have := hup q op hop n hpar
            omega
        have h2 := visit_forest hup (n + 1) f below (some n) (by simp) (by omega) (by omega) h1 (by
          intro q hq op hop m hm
          have := hafter q (by omega) op hop m hm
          omega)
        rw [visit, h0]
        simp only [OpTree.run, hk, h2]
        cases e <;> cases l <;> rfl
  theorem visit_forest {N : List Op} (hup : Up N) (n f : Nat) : ∀ (ts : List OpTree) (p : Option Nat), (∀ m, p = some m → m < n) → sizeL ts ≤ f →
      n + sizeL ts ≤ N.length → At N n (flatL p n ts) → Shut N n (sizeL ts) → (rootsL n ts).flatMap (visit f N) = runAll ts
    | [], _ => by intro _ _ _ _ _; rfl
    | t :: ts, p => by
      intro hp hf hN hat hafter
      rw [flatL] at hat
      simp only [sizeL] at hf hN hafter
      obtain ⟨h1, h2⟩ := hat.append
      rw [length_flat] at h2
      rw [rootsL, List.flatMap_cons, runAll]
      congr 1
      · refine visit_tree hup p n f t (by omega) (by omega) h1 ?_
        intro q hq op hop m hm
        by_cases hq' : q < n + (OpTree.size t + sizeL ts)
        · have h3 := h2 (q - (n + OpTree.size t)) (by rw [length_flatL]; omega)
          rw [show n + OpTree.size t + (q - (n + OpTree.size t)) = q by omega, hop] at h3
          rcases flatL_parent p _ ts op (List.mem_iff_getElem?.2 ⟨_, h3.symm⟩) with h4 | ⟨m', h4, h5, h6⟩
          · have := hp m (h4 ▸ hm)
            omega
          · rw [hm] at h4
            obtain rfl := Option.some.inj h4
            omega
        · have := hafter q (by omega) op hop m hm
          omega
      · refine visit_forest hup (n + OpTree.size t) f ts p (fun m h => by have := hp m h; omega) (by omega) (by omega) h2 ?_
        intro q hq op hop m hm
        have := hafter q (by omega) op hop m hm
        omega
end

/-- The traversal of a tree of operations invokes what it stands for. -/
theorem visit_flat (t : OpTree) : visit (flat none 0 t).length (flat none 0 t) 0 = t.run := by
  refine visit_tree ?_ none 0 _ t (by rw [length_flat]; exact Nat.le_refl _) (by rw [length_flat]; omega) ?_ ?_
  · intro q op hop m hm
    have := flat_lt none 0 t (by simp) q op hop m hm
    omega
  · intro j _; rw [Nat.zero_add]
  · intro q hq op hop
    have := (List.getElem?_eq_some_iff.1 hop).1
    rw [length_flat] at this
    omega

theorem flatMap_visit (ts : List OpTree) : (ts.map (flat none 0)).flatMap (fun N => visit N.length N 0) = runAll ts := by
  induction ts with
  | nil => rfl
  | cons t ts ih => simp only [List.map_cons, List.flatMap_cons, ih, visit_flat, runAll]

end Verif.Cmd
