import Verif.Lemmas.SharedWeights
/-
Lemmas on copying graphs with shared weights.
-/
set_option linter.unusedSectionVars false

namespace Verif.Graph
open Verif.Spec EdgeLike

/-- Half edges whose address can be replaced. -/
class SetAddr (E : Type) extends HasAddr E where
  setAddr : E → Nat → E
  addr_setAddr : ∀ e a, addr (setAddr e a) = a

instance (M : Type) : SetAddr (Edge Nat M) := ⟨fun e a => { e with weight := a }, fun _ _ => rfl⟩
instance (M : Type) : SetAddr (EEdge Nat M) := ⟨fun e a => { e with weight := a }, fun _ _ => rfl⟩

section
variable {W E : Type} [SetAddr E]

/-- The weights of the half edges replaced. -/
def withAddr (φ : Nat → Nat) (s : Edges E) : Edges E := s.map (·.map fun e => SetAddr.setAddr e (φ (addr e)))

/-- Some half edge refers to the weight at this address. -/
def Used (s : Edges E) (a : Nat) : Prop := ∃ n k e, edgeAt s n k = some e ∧ addr e = a

/-- `out`, in memory `mem`, is a copy of the half edges `done`, in memory `m`. -/
structure Copied (m mem : Mem W) (done out : Edges E) (φ : Nat → Nat) : Prop where
  eq : out = withAddr φ done
  inj : ∀ a b, Used done a → Used done b → φ a = φ b → a = b
  fresh : ∀ a, Used done a → m.next ≤ φ a ∧ φ a < mem.next ∧ mem.cell (φ a) = m.cell a
  old : ∀ a, a < m.next → mem.cell a = m.cell a
  next : m.next ≤ mem.next

theorem edgeAt_withAddr (φ : Nat → Nat) (s : Edges E) (n k : Nat) :
    edgeAt (withAddr φ s) n k = (edgeAt s n k).map fun e => SetAddr.setAddr e (φ (addr e)) := by
  unfold edgeAt withAddr
  rw [List.getElem?_map]
  cases s[n]? <;> simp

theorem length_withAddr (φ : Nat → Nat) (s : Edges E) : (withAddr φ s).length = s.length := by simp [withAddr]

theorem withAddr_congr {φ ψ : Nat → Nat} {s : Edges E} (h : ∀ a, Used s a → φ a = ψ a) : withAddr φ s = withAddr ψ s := by
  apply edges_ext
  · rw [length_withAddr, length_withAddr]
  · intro i x
    rw [edgeAt_withAddr, edgeAt_withAddr]
    cases hx : edgeAt s i x with
    | none => rfl
    | some e => simp only [Option.map_some]; rw [h (addr e) ⟨i, x, e, hx, rfl⟩]

theorem withAddr_onNode (φ : Nat → Nat) (s : Edges E) (n : Nat) (e : E) :
    withAddr φ (onNode s n (· ++ [e])) = onNode (withAddr φ s) n (· ++ [SetAddr.setAddr e (φ (addr e))]) := by
  apply List.ext_getElem?
  intro i
  unfold withAddr
  rw [List.getElem?_map, getElem?_onNode, getElem?_onNode, List.getElem?_map]
  split
  · cases s[i]? <;> simp
  · rfl

theorem edgeAt_onNode_append {E : Type} {s : Edges E} {n : Nat} {e f : E} {i k : Nat}
    (h : edgeAt (onNode s n (· ++ [e])) i k = some f) : edgeAt s i k = some f ∨ (i = n ∧ k = degree s n ∧ f = e) := by
  unfold edgeAt at h ⊢
  rw [getElem?_onNode] at h
  split at h
  · rename_i hi
    subst hi
    cases hl : s[i]? with
    | none => rw [hl] at h; simp at h
    | some l =>
      rw [hl] at h
      simp only [Option.map_some, Option.bind_some] at h ⊢
      by_cases hk : k < l.length
      · rw [List.getElem?_append_left hk] at h; exact .inl h
      · rw [List.getElem?_append_right (by omega)] at h
        have : k - l.length = 0 := by
          by_contra hc
          rw [List.getElem?_eq_none (by simp; omega)] at h
          cases h
        rw [this] at h
        simp at h
        exact .inr ⟨trivial, by rw [degree_of_getElem? hl]; omega, h.symm⟩
  · exact .inl h

theorem used_onNode {s : Edges E} {n : Nat} {e : E} {a : Nat} (h : Used (onNode s n (· ++ [e])) a) : Used s a ∨ a = addr e := by
  obtain ⟨i, k, f, hf, rfl⟩ := h
  rcases edgeAt_onNode_append hf with h | ⟨_, _, rfl⟩
  · exact .inl ⟨i, k, f, h, rfl⟩
  · exact .inr rfl

variable {m mem : Mem W} {done out : Edges E} {φ : Nat → Nat}

/-- Copying a half edge whose weight has not been encountered. -/
theorem Copied.alloc (h : Copied m mem done out φ) (n : Nat) (e : E) (hu : ¬ Used done (addr e)) (ha : addr e < m.next) :
    Copied m (mem.alloc (mem.cell (addr e))) (onNode done n (· ++ [e]))
      (onNode out n (· ++ [SetAddr.setAddr e mem.next])) (fun a => if a = addr e then mem.next else φ a) := by
  have hne : ∀ a, Used done a → a ≠ addr e := fun a ha hc => hu (hc ▸ ha)
  refine ⟨?_, ?_, ?_, ?_, ?_⟩
  · rw [withAddr_onNode, if_pos rfl, h.eq, withAddr_congr]
    intro a ha
    rw [if_neg (hne a ha)]
  · intro a b ha hb hab
    rcases used_onNode ha with ha | rfl <;> rcases used_onNode hb with hb | rfl
    · simp only [if_neg (hne a ha), if_neg (hne b hb)] at hab
      exact h.inj a b ha hb hab
    · simp only [if_neg (hne a ha), if_true] at hab
      have := (h.fresh a ha).2.1
      omega
    · simp only [if_neg (hne b hb), if_true] at hab
      have := (h.fresh b hb).2.1
      omega
    · rfl
  · intro a ha'
    have hn := h.next
    rcases used_onNode ha' with ha' | rfl
    · simp only [if_neg (hne a ha'), Mem.alloc]
      obtain ⟨h1, h2, h3⟩ := h.fresh a ha'
      refine ⟨h1, by omega, ?_⟩
      rw [if_neg (by omega)]; exact h3
    · simp only [if_true, Mem.alloc]
      exact ⟨by omega, by omega, h.old _ ha⟩
  · intro a ha'
    have hn := h.next
    simp only [Mem.alloc]
    rw [if_neg (by omega)]; exact h.old a ha'
  · have hn := h.next
    simp only [Mem.alloc]; omega

/-- Copying a half edge whose weight has been encountered. -/
theorem Copied.reuse (h : Copied m mem done out φ) (n : Nat) (e : E) {t c : Nat} {e' : E} (he' : edgeAt done t c = some e')
    (ha : addr e' = addr e) :
    ∃ e'', edgeAt out t c = some e'' ∧
      Copied m mem (onNode done n (· ++ [e])) (onNode out n (· ++ [SetAddr.setAddr e (addr e'')])) φ := by
  have hu : Used done (addr e) := ⟨t, c, e', he', ha⟩
  have hU : ∀ a, Used (onNode done n (· ++ [e])) a → Used done a := by
    intro a ha
    rcases used_onNode ha with ha | rfl
    · exact ha
    · exact hu
  refine ⟨SetAddr.setAddr e' (φ (addr e')), ?_, ?_, ?_, ?_, h.old, h.next⟩
  · rw [h.eq, edgeAt_withAddr, he']; rfl
  · rw [withAddr_onNode, SetAddr.addr_setAddr, h.eq, ha]
  · intro a b ha hb
    exact h.inj a b (hU a ha) (hU b hb)
  · intro a ha
    exact h.fresh a (hU a ha)

theorem Copied.slot (h : Copied m mem done out φ) : Copied m mem (done ++ [[]]) (out ++ [[]]) φ := by
  have hU : ∀ a, Used (done ++ [[]]) a → Used done a := by
    rintro a ⟨n, k, e, he, rfl⟩
    refine ⟨n, k, e, ?_, rfl⟩
    unfold edgeAt at he ⊢
    by_cases hn : n < done.length
    · rwa [List.getElem?_append_left hn] at he
    · rw [List.getElem?_append_right (by omega)] at he
      cases hd : n - done.length with
      | zero => rw [hd] at he; simp at he
      | succ _ => rw [hd] at he; simp at he
  refine ⟨?_, ?_, ?_, h.old, h.next⟩
  · rw [h.eq]; simp [withAddr]
  · intro a b ha hb
    exact h.inj a b (hU a ha) (hU b hb)
  · intro a ha
    exact h.fresh a (hU a ha)

/-- The loops of `copy_edges`, for processors which copy correctly when the half edges before have been copied.  `Q` is
what they need to know. -/
theorem copyNode_spec (proc : Copying W E → Nat → Nat → E → Res (Copying W E)) (Q : Edges E → Copying W E → Prop) (n : Nat) :
    ∀ (l pre : List E) (done : Edges E) (c : Copying W E), done.length = n → Q (done ++ [pre]) c →
      (∀ (x y : List E) (e : E) (c : Copying W E), pre ++ l = x ++ e :: y → Q (done ++ [x]) c →
        ∃ c', proc c n x.length e = .ok c' ∧ Q (done ++ [x ++ [e]]) c') →
      ∃ c', copyNode proc n pre.length l c = .ok c' ∧ Q (done ++ [pre ++ l]) c' := by
  intro l
  induction l with
  | nil => intro pre done c _ hq _; exact ⟨c, rfl, by rw [List.append_nil]; exact hq⟩
  | cons e l ih =>
    intro pre done c hn hq hp
    obtain ⟨c₁, h1, h2⟩ := hp pre l e c rfl hq
    obtain ⟨c₂, h3, h4⟩ := ih (pre ++ [e]) done c₁ hn h2 (by
      intro x y f c hx
      exact hp x y f c (by rw [← hx]; simp))
    refine ⟨c₂, ?_, by simpa using h4⟩
    unfold copyNode
    rw [h1]
    simpa [Res.bind] using h3

theorem copyNodes_spec (proc : Copying W E → Nat → Nat → E → Res (Copying W E)) (Q : Edges E → Copying W E → Prop) :
    ∀ (s done : Edges E) (c : Copying W E), Q done c →
      (∀ (d : Edges E) (c : Copying W E), Q d c → Q (d ++ [[]]) { c with out := c.out ++ [[]] }) →
      (∀ (d r : Edges E) (x y : List E) (e : E) (c : Copying W E), done ++ s = d ++ (x ++ e :: y) :: r → Q (d ++ [x]) c →
        ∃ c', proc c d.length x.length e = .ok c' ∧ Q (d ++ [x ++ [e]]) c') →
      ∃ c', copyNodes proc done.length s c = .ok c' ∧ Q (done ++ s) c' := by
  intro s
  induction s with
  | nil => intro done c hq _ _; exact ⟨c, rfl, by rw [List.append_nil]; exact hq⟩
  | cons l s ih =>
    intro done c hq hslot hp
    obtain ⟨c₁, h1, h2⟩ := copyNode_spec proc Q done.length l [] done _ rfl (hslot done c hq) (by
      intro x y e c hx hq'
      exact hp done s x y e c (by rw [← hx]; simp) hq')
    obtain ⟨c₂, h3, h4⟩ := ih (done ++ [l]) c₁ h2 hslot (by
      intro d r x y e c hd
      exact hp d r x y e c (by rw [← hd]; simp))
    refine ⟨c₂, ?_, by simpa using h4⟩
    unfold copyNodes
    have h1' : copyNode proc done.length 0 l { c with out := c.out ++ [[]] } = .ok c₁ := h1
    rw [h1']
    simpa [Res.bind] using h3

theorem onNode_last {E : Type} (d : Edges E) (x : List E) (e : E) : onNode (d ++ [x]) d.length (· ++ [e]) = d ++ [x ++ [e]] := by
  apply List.ext_getElem?
  intro i
  rw [getElem?_onNode]
  by_cases hi : i < d.length
  · rw [if_neg (by omega), List.getElem?_append_left hi, List.getElem?_append_left hi]
  · by_cases he : i = d.length
    · subst he; simp
    · rw [if_neg he, List.getElem?_append_right (by omega), List.getElem?_append_right (by omega)]
      have : i - d.length ≠ 0 := by omega
      cases hd : i - d.length with
      | zero => omega
      | succ _ => simp

theorem used_prefix {d r : Edges E} {x y : List E} {a : Nat} (h : Used (d ++ [x]) a) : Used (d ++ (x ++ y) :: r) a := by
  obtain ⟨n, k, e, he, rfl⟩ := h
  refine ⟨n, k, e, ?_, rfl⟩
  unfold edgeAt at he ⊢
  by_cases hn : n < d.length
  · rw [List.getElem?_append_left hn] at he ⊢; exact he
  · rw [List.getElem?_append_right (by omega)] at he ⊢
    cases hd : n - d.length with
    | zero =>
      rw [hd] at he
      simp only [List.getElem?_cons_zero, Option.bind_some] at he ⊢
      obtain ⟨hk, _⟩ := List.getElem?_eq_some_iff.1 he
      rw [List.getElem?_append_left hk]; exact he
    | succ j => rw [hd] at he; simp at he

end

/-! ### Undirected graphs -/
section undirected
variable {W M : Type}

/-- What `edge_maker` knows: its map lists, sorted by address, the weights encountered and where. -/
structure MapOk (done : Edges (Edge Nat M)) (map : List WeightEntry) : Prop where
  sorted : map.Pairwise fun d d' => d.ptr < d'.ptr
  sound : ∀ d ∈ map, ∃ e, edgeAt done d.node d.idx = some e ∧ e.weight = d.ptr
  complete : ∀ a, Used done a → ∃ d ∈ map, d.ptr = a

theorem sorted_insertIdx (map : List WeightEntry) (d : WeightEntry) (h : map.Pairwise fun d d' => d.ptr < d'.ptr)
    (hd : ∀ d' ∈ map, d'.ptr ≠ d.ptr) :
    (map.insertIdx (map.findIdx fun d' => !decide (d'.ptr < d.ptr)) d).Pairwise fun d d' => d.ptr < d'.ptr := by
  induction map with
  | nil => simp
  | cons x map ih =>
    rw [List.findIdx_cons]
    by_cases hx : x.ptr < d.ptr
    · simp only [hx, decide_true, Bool.not_true, cond_false, List.insertIdx_succ_cons]
      rw [List.pairwise_cons] at h ⊢
      refine ⟨?_, ih h.2 fun d' hd' => hd d' (by simp [hd'])⟩
      intro y hy
      rcases (List.mem_insertIdx List.findIdx_le_length).1 hy with rfl | hy
      · exact hx
      · exact h.1 y hy
    · simp only [hx, decide_false, Bool.not_false, cond_true, List.insertIdx_zero]
      rw [List.pairwise_cons]
      refine ⟨?_, h⟩
      rw [List.pairwise_cons] at h
      have hne := hd x (by simp)
      intro y hy
      rcases List.mem_cons.1 hy with rfl | hy
      · omega
      · have := h.1 y hy; omega

theorem lowerBound_spec (map : List WeightEntry) (a : Nat) (h : map.Pairwise fun d d' => d.ptr < d'.ptr) :
    (∃ d, map[map.findIdx fun d' => !decide (d'.ptr < a)]? = some d ∧ d.ptr = a ∧ d ∈ map) ∨
    ((∀ d ∈ map, d.ptr ≠ a) ∧ ∀ d, map[map.findIdx fun d' => !decide (d'.ptr < a)]? = some d → d.ptr ≠ a) := by
  induction map with
  | nil => right; simp
  | cons x map ih =>
    rw [List.findIdx_cons]
    rw [List.pairwise_cons] at h
    by_cases hx : x.ptr < a
    · simp only [hx, decide_true, Bool.not_true, cond_false, List.getElem?_cons_succ]
      rcases ih h.2 with ⟨d, h1, h2, h3⟩ | ⟨h1, h2⟩
      · exact .inl ⟨d, h1, h2, by simp [h3]⟩
      · right
        refine ⟨?_, h2⟩
        intro d hd
        rcases List.mem_cons.1 hd with rfl | hd
        · omega
        · exact h1 d hd
    · simp only [hx, decide_false, Bool.not_false, cond_true, List.getElem?_cons_zero]
      by_cases he : x.ptr = a
      · exact .inl ⟨x, rfl, he, by simp⟩
      · right
        refine ⟨?_, ?_⟩
        · intro d hd
          rcases List.mem_cons.1 hd with rfl | hd
          · exact he
          · have := h.1 d hd; omega
        · intro d hd; cases hd; exact he

theorem edgeAt_append_keep {E : Type} {d : Edges E} {x : List E} {e f : E} {i k : Nat} (h : edgeAt (d ++ [x]) i k = some f) :
    edgeAt (d ++ [x ++ [e]]) i k = some f := by
  unfold edgeAt at h ⊢
  by_cases hn : i < d.length
  · rw [List.getElem?_append_left hn] at h ⊢; exact h
  · rw [List.getElem?_append_right (by omega)] at h ⊢
    cases hd : i - d.length with
    | zero =>
      rw [hd] at h
      simp only [List.getElem?_cons_zero, Option.bind_some] at h ⊢
      obtain ⟨hk, _⟩ := List.getElem?_eq_some_iff.1 h
      rw [List.getElem?_append_left hk]; exact h
    | succ j => rw [hd] at h; simp at h

theorem edgeAt_append_last {E : Type} (d : Edges E) (x : List E) (e : E) : edgeAt (d ++ [x ++ [e]]) d.length x.length = some e := by
  unfold edgeAt
  simp

theorem copyShared_spec (m : Mem W) (s : Edges (Edge Nat M)) (hb : ∀ a, Used s a → a < m.next) :
    ∃ m' s' φ, copyShared m s = .ok (m', s') ∧ Copied m m' s s' φ := by
  obtain ⟨c, h1, φ, h2, h3⟩ := copyNodes_spec edgeMaker
    (fun d c => ∃ φ, Copied m c.mem d c.out φ ∧ MapOk d c.map) s [] ⟨m, [], []⟩
    ⟨id, ⟨rfl, (by rintro a b ⟨n, k, e, he, _⟩; simp [edgeAt] at he), (by rintro a ⟨n, k, e, he, _⟩; simp [edgeAt] at he),
      fun _ _ => rfl, Nat.le_refl _⟩, ⟨List.Pairwise.nil, by simp, by rintro a ⟨n, k, e, he, _⟩; simp [edgeAt] at he⟩⟩
    (by
      rintro d c ⟨φ, h1, h2⟩
      refine ⟨φ, h1.slot, h2.sorted, ?_, ?_⟩
      · intro x hx
        obtain ⟨e, he, hw⟩ := h2.sound x hx
        refine ⟨e, ?_, hw⟩
        unfold edgeAt at he ⊢
        obtain ⟨l, hl, _⟩ := Option.bind_eq_some_iff.1 he
        rw [List.getElem?_append_left (List.getElem?_eq_some_iff.1 hl).1]
        exact he
      · intro a ha
        obtain ⟨n, k, e, he, rfl⟩ := ha
        refine h2.complete _ ⟨n, k, e, ?_, rfl⟩
        unfold edgeAt at he ⊢
        by_cases hn : n < d.length
        · rwa [List.getElem?_append_left hn] at he
        · rw [List.getElem?_append_right (by omega)] at he
          cases hd : n - d.length with
          | zero => rw [hd] at he; simp at he
          | succ _ => rw [hd] at he; simp at he)
    (by
      rintro d r x y e c hs ⟨φ, h1, h2⟩
      have hlt : e.weight < m.next := by
        apply hb
        refine ⟨d.length, x.length, e, ?_, rfl⟩
        have hs : s = d ++ (x ++ e :: y) :: r := by simpa using hs
        rw [hs]
        unfold edgeAt
        simp
      have hlast := onNode_last d x e
      unfold edgeMaker
      simp only
      rcases lowerBound_spec c.map e.weight h2.sorted with ⟨f, g1, g2, g3⟩ | ⟨g1, g2⟩
      · rw [g1]
        simp only
        rw [if_neg (by simpa using g2)]
        obtain ⟨e₁, k1, k2⟩ := h2.sound f g3
        obtain ⟨e'', k3, k4⟩ := h1.reuse d.length e k1 (show e₁.weight = e.weight by rw [k2, g2])
        have k3' : c.out[f.node]?.bind (·[f.idx]?) = some e'' := k3
        rw [k3']
        refine ⟨_, rfl, φ, ?_, h2.sorted, ?_, ?_⟩
        · rw [hlast] at k4; exact k4
        · intro z hz
          obtain ⟨e₂, k5, k6⟩ := h2.sound z hz
          exact ⟨e₂, edgeAt_append_keep k5, k6⟩
        · intro a ha
          rw [← hlast] at ha
          rcases used_onNode ha with ha | rfl
          · exact h2.complete a ha
          · exact ⟨f, g3, g2⟩
      · have hnew : ¬ Used (d ++ [x]) (addr e) := by
          intro hu
          obtain ⟨z, hz, hz'⟩ := h2.complete _ hu
          exact g1 z hz hz'
        have k4 := h1.alloc d.length e hnew hlt
        rw [hlast] at k4
        have hmap : MapOk (d ++ [x ++ [e]])
            (c.map.insertIdx (c.map.findIdx fun d' => !decide (d'.ptr < e.weight)) ⟨e.weight, d.length, x.length⟩) := by
          refine ⟨sorted_insertIdx c.map ⟨e.weight, d.length, x.length⟩ h2.sorted g1, ?_, ?_⟩
          · intro z hz
            rcases (List.mem_insertIdx List.findIdx_le_length).1 hz with rfl | hz
            · exact ⟨e, edgeAt_append_last d x e, rfl⟩
            · obtain ⟨e₂, k5, k6⟩ := h2.sound z hz
              exact ⟨e₂, edgeAt_append_keep k5, k6⟩
          · intro a ha
            rw [← hlast] at ha
            have hle := List.findIdx_le_length (xs := c.map) (p := fun d' => !decide (d'.ptr < e.weight))
            rcases used_onNode ha with ha | rfl
            · obtain ⟨z, hz, hz'⟩ := h2.complete a ha
              exact ⟨z, (List.mem_insertIdx hle).2 (.inr hz), hz'⟩
            · exact ⟨⟨e.weight, d.length, x.length⟩, (List.mem_insertIdx hle).2 (.inl rfl), rfl⟩
        cases hf : c.map[c.map.findIdx fun d' => !decide (d'.ptr < e.weight)]? with
        | none => exact ⟨_, rfl, _, k4, hmap⟩
        | some f =>
          simp only
          rw [if_pos (g2 f hf)]
          exact ⟨_, rfl, _, k4, hmap⟩)
  refine ⟨c.mem, c.out, φ, ?_, by simpa using h2⟩
  unfold copyShared
  have h1' : copyNodes edgeMaker 0 s ⟨m, [], []⟩ = .ok c := h1
  rw [h1']
  rfl

end undirected

/-! ### Embedded graphs -/
section embedded
variable {W M : Type}

theorem edgeAt_before {E : Type} {d r : Edges E} {x y : List E} {i k : Nat} (h : i < d.length ∨ (i = d.length ∧ k < x.length)) :
    edgeAt (d ++ [x]) i k = edgeAt (d ++ (x ++ y) :: r) i k := by
  unfold edgeAt
  rcases h with hi | ⟨rfl, hk⟩
  · rw [List.getElem?_append_left hi, List.getElem?_append_left hi]
  · simp [List.getElem?_append_left hk]

theorem edgeAt_lt_of {E : Type} {d : Edges E} {x : List E} {i k : Nat} {e : E} (h : edgeAt (d ++ [x]) i k = some e) :
    i < d.length ∨ (i = d.length ∧ k < x.length) := by
  unfold edgeAt at h
  by_cases hi : i < d.length
  · exact .inl hi
  · rw [List.getElem?_append_right (by omega)] at h
    cases hd : i - d.length with
    | zero =>
      rw [hd] at h
      simp only [List.getElem?_cons_zero, Option.bind_some] at h
      exact .inr ⟨by omega, (List.getElem?_eq_some_iff.1 h).1⟩
    | succ j => rw [hd] at h; simp at h

theorem copySharedEmbedded_spec (m : Mem W) (s : Edges (EEdge Nat M)) (hs : SharedOkE m.next s) :
    ∃ m' s' φ, copySharedEmbedded m s = .ok (m', s') ∧ Copied m m' s s' φ := by
  have hb : ∀ a, Used s a → a < m.next := by
    rintro a ⟨n, k, e, he, rfl⟩
    have h1 := uses_pos he
    by_contra hc
    have := (hs.2 (addr e)).2 (by omega)
    omega
  obtain ⟨c, h1, φ, h2⟩ := copyNodes_spec embeddedProcessor
    (fun d c => ∃ φ, Copied m c.mem d c.out φ) s [] ⟨m, [], []⟩
    ⟨id, ⟨rfl, (by rintro a b ⟨n, k, e, he, _⟩; simp [edgeAt] at he), (by rintro a ⟨n, k, e, he, _⟩; simp [edgeAt] at he),
      fun _ _ => rfl, Nat.le_refl _⟩⟩
    (by rintro d c ⟨φ, h1⟩; exact ⟨φ, h1.slot⟩)
    (by
      rintro d r x y e c hsd ⟨φ, h1⟩
      have hsd : s = d ++ (x ++ e :: y) :: r := by simpa using hsd
      have he : edgeAt s d.length x.length = some e := by rw [hsd]; unfold edgeAt; simp
      obtain ⟨hne, e', k1, k2, k3, k4⟩ := hs.1 _ _ e he
      unfold embeddedProcessor
      by_cases hc : e.target < d.length ∨ (e.target = d.length ∧ e.comp < x.length)
      · rw [if_pos hc]
        have k5 : edgeAt (d ++ [x]) e.target e.comp = some e' := by
          rw [edgeAt_before (r := r) (y := e :: y) hc, ← hsd]; exact k1
        obtain ⟨e'', k6, k7⟩ := h1.reuse d.length e k5 k4
        have k6' : c.out[e.target]?.bind (·[e.comp]?) = some e'' := k6
        rw [k6']
        rw [onNode_last] at k7
        exact ⟨_, rfl, φ, k7⟩
      · rw [if_neg hc]
        have hnew : ¬ Used (d ++ [x]) (addr e) := by
          rintro ⟨i, k, f, hf, hfa⟩
          have hlt := edgeAt_lt_of hf
          rw [edgeAt_before (r := r) (y := e :: y) hlt, ← hsd] at hf
          rcases no_third he k1 hne k4 hf hfa (hs.2 _).1 with h | h
          · cases h; omega
          · cases h; exact hc hlt
        have k4 := h1.alloc d.length e hnew (hb _ ⟨_, _, e, he, rfl⟩)
        rw [onNode_last] at k4
        exact ⟨_, rfl, _, k4⟩)
  refine ⟨c.mem, c.out, φ, ?_, by simpa using h2⟩
  unfold copySharedEmbedded
  have h1' : copyNodes embeddedProcessor 0 s ⟨m, [], []⟩ = .ok c := h1
  rw [h1']
  rfl

end embedded

end Verif.Graph
