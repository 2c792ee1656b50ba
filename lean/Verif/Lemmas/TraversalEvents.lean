import Verif.Lemmas.TraversalSim

/-! Which calls traversals make for edges. -/
namespace Verif.Graph
open Verif.Spec EdgeLike

section
variable {E : Type} [EdgeLike E]

def isEdgeCallOf (n : Nat) : Event → Bool
  | .first m _ => m == n
  | .second m _ => m == n
  | _ => false

def posOf : Event → Nat
  | .first _ k => k
  | .second _ k => k
  | _ => 0

theorem edgeCalls_mem {rule : LoopRule E} {n : Nat} {proc : List Nat} {es : List (E × Nat)} {dist : Nat} {m : Bool} {ev : Event}
    (h : ev ∈ edgeCalls rule n proc dist m es) : ∃ p ∈ es, ev = .first n p.2 ∨ ev = .second n p.2 := by
  induction es generalizing dist m with
  | nil => simp [edgeCalls] at h
  | cons p es ih =>
    obtain ⟨e, k⟩ := p
    unfold edgeCalls at h
    rcases List.mem_cons.1 h with h | h
    · refine ⟨(e, k), by simp, ?_⟩
      split at h
      · exact .inr h
      · exact .inl h
    · obtain ⟨p, hp, h⟩ := ih h
      exact ⟨p, by simp [hp], h⟩

theorem edgeCalls_map_pos {rule : LoopRule E} {n : Nat} {proc : List Nat} {es : List (E × Nat)} {dist : Nat} {m : Bool} :
    (edgeCalls rule n proc dist m es).map posOf = es.map (·.2) := by
  induction es generalizing dist m with
  | nil => simp [edgeCalls]
  | cons p es ih =>
    obtain ⟨e, k⟩ := p
    unfold edgeCalls
    rw [List.map_cons, ih, List.map_cons]
    congr 1
    split <;> rfl

omit [EdgeLike E] in
theorem edgesOf_pos_nodup (rev : Bool) (s : Edges E) (n : Nat) : ((edgesOf rev s n).map (·.2)).Nodup := by
  unfold edgesOf
  cases s[n]? with
  | none => simp
  | some l =>
    simp only [iteration]
    split
    · rw [List.map_reverse, List.nodup_reverse, List.zipIdx_map_snd]
      exact List.nodup_range' _
    · rw [List.zipIdx_map_snd]
      exact List.nodup_range' _

theorem edgeCalls_nodup {rule : LoopRule E} {n : Nat} {proc : List Nat} {rev : Bool} {s : Edges E} {dist : Nat} {m : Bool} :
    (edgeCalls rule n proc dist m (edgesOf rev s n)).Nodup := by
  apply List.Nodup.of_map posOf
  rw [edgeCalls_map_pos]
  exact edgesOf_pos_nodup rev s n

theorem mem_block {rule : LoopRule E} {rev : Bool} {s : Edges E} {proc : List Nat} {n : Nat} {ev : Event} :
    ev ∈ block rule rev s proc n ↔ ev = .before n ∨ ev ∈ edgeCalls rule n proc 0 true (edgesOf rev s n) ∨ ev = .after n := by
  unfold block
  simp

/-- The node a call belongs to. -/
def nodeOf : Event → Nat
  | .before n => n
  | .after n => n
  | .first n _ => n
  | .second n _ => n

theorem block_nodeOf {rule : LoopRule E} {rev : Bool} {s : Edges E} {proc : List Nat} {n : Nat} {ev : Event}
    (h : ev ∈ block rule rev s proc n) : nodeOf ev = n := by
  rcases mem_block.1 h with rfl | h | rfl
  · rfl
  · obtain ⟨p, _, rfl | rfl⟩ := edgeCalls_mem h <;> rfl
  · rfl

theorem blocks_nodeOf {rule : LoopRule E} {rev : Bool} {s : Edges E} {proc seg : List Nat} {ev : Event}
    (h : ev ∈ blocks rule rev s proc seg) : nodeOf ev ∈ seg := by
  induction seg generalizing proc with
  | nil => simp [blocks] at h
  | cons a seg ih =>
    unfold blocks at h
    rcases List.mem_append.1 h with h | h
    · rw [block_nodeOf h]; simp
    · exact List.mem_cons_of_mem _ (ih h)

theorem block_nodup {rule : LoopRule E} {rev : Bool} {s : Edges E} {proc : List Nat} {n : Nat} :
    (block rule rev s proc n).Nodup := by
  unfold block
  have h : ∀ ev ∈ edgeCalls rule n proc 0 true (edgesOf rev s n), ev ≠ .before n ∧ ev ≠ .after n := by
    intro ev hev
    obtain ⟨p, _, rfl | rfl⟩ := edgeCalls_mem hev <;> simp
  rw [List.cons_append, List.nodup_cons, List.nodup_append]
  refine ⟨?_, edgeCalls_nodup, by simp, ?_⟩
  · intro hm
    rcases List.mem_append.1 hm with hm | hm
    · exact (h _ hm).1 rfl
    · simp at hm
  · rintro a ha b hb rfl
    simp at hb
    exact (h _ ha).2 hb

theorem blocks_nodup {rule : LoopRule E} {rev : Bool} {s : Edges E} {proc seg : List Nat} (hn : seg.Nodup) :
    (blocks rule rev s proc seg).Nodup := by
  induction seg generalizing proc with
  | nil => simp [blocks]
  | cons a seg ih =>
    unfold blocks
    rw [List.nodup_cons] at hn
    rw [List.nodup_append]
    refine ⟨block_nodup, ih hn.2, ?_⟩
    rintro x hx y hy rfl
    have h1 := block_nodeOf hx
    have h2 := blocks_nodeOf hy
    rw [h1] at h2
    exact hn.1 h2

/-- The calls for the edges of a visited node. -/
theorem mem_blocks_iff {rule : LoopRule E} {rev : Bool} {s : Edges E} {proc p q : List Nat} {n : Nat}
    (hn : (p ++ n :: q).Nodup) {ev : Event} (hev : nodeOf ev = n) :
    ev ∈ blocks rule rev s proc (p ++ n :: q) ↔ ev ∈ block rule rev s (proc ++ p) n := by
  rw [blocks_append]
  conv => lhs; rw [blocks]
  rw [List.nodup_append, List.nodup_cons] at hn
  simp only [List.mem_append]
  constructor
  · rintro (h | h | h)
    · have := blocks_nodeOf h
      rw [hev] at this
      exact absurd rfl (hn.2.2 n this n (by simp))
    · exact h
    · have := blocks_nodeOf h
      rw [hev] at this
      exact absurd this hn.2.1.1
  · exact fun h => .inr (.inl h)

theorem nodeCalls_blocks {rule : LoopRule E} {rev : Bool} {s : Edges E} {proc seg : List Nat} :
    NodeCalls (blocks rule rev s proc seg) seg := by
  unfold NodeCalls
  induction seg generalizing proc with
  | nil => rfl
  | cons a seg ih =>
    unfold blocks
    rw [List.filter_append, ih, List.flatMap_cons]
    congr 1
    unfold block
    have : (edgeCalls rule a proc 0 true (edgesOf rev s a)).filter isNodeCall = [] := by
      rw [List.filter_eq_nil_iff]
      intro ev hev
      obtain ⟨p, _, rfl | rfl⟩ := edgeCalls_mem hev <;> simp [isNodeCall]
    rw [List.cons_append, List.filter_cons, List.filter_append, this]
    simp [isNodeCall]

/-- Every half edge of a visited node is reported once, as traversed for the first or for the second time. -/
theorem edgeCalls_either {rule : LoopRule E} {n : Nat} {proc : List Nat} {es : List (E × Nat)} {dist : Nat} {m : Bool}
    {p : E × Nat} (hp : p ∈ es) : .first n p.2 ∈ edgeCalls rule n proc dist m es ∨ .second n p.2 ∈ edgeCalls rule n proc dist m es := by
  induction es generalizing dist m with
  | nil => simp at hp
  | cons x es ih =>
    obtain ⟨e, k⟩ := x
    unfold edgeCalls
    rcases List.mem_cons.1 hp with rfl | hp
    · simp only
      by_cases h : (isSecond rule n dist m e (decide (target e ∈ proc))).1 = true
      · rw [if_pos h]; exact .inr (by simp)
      · rw [if_neg h]; exact .inl (by simp)
    · exact (ih (dist := dist + 1) hp).imp (List.mem_cons_of_mem _) (List.mem_cons_of_mem _)

theorem edgeCalls_excl {rule : LoopRule E} {n : Nat} {proc : List Nat} {es : List (E × Nat)} {dist : Nat} {m : Bool}
    (hes : (es.map (·.2)).Nodup) {k : Nat} (h1 : .first n k ∈ edgeCalls rule n proc dist m es)
    (h2 : .second n k ∈ edgeCalls rule n proc dist m es) : False := by
  have h3 : ((edgeCalls rule n proc dist m es).map posOf).Nodup := by rw [edgeCalls_map_pos]; exact hes
  have := List.inj_on_of_nodup_map h3 h1 h2 rfl
  cases this

theorem edgeCalls_directed {n : Nat} {proc : List Nat} {es : List (E × Nat)} {dist : Nat} {m : Bool} :
    edgeCalls .directed n proc dist m es = es.map fun p => .first n p.2 := by
  induction es generalizing dist m with
  | nil => rfl
  | cons x es ih =>
    obtain ⟨e, k⟩ := x
    unfold edgeCalls
    simp [isSecond, ih]

theorem edgeCalls_embedded {comp : E → Nat} {n : Nat} {proc : List Nat} {l : List E} {dist : Nat} {m : Bool} :
    edgeCalls (.embedded comp) n proc dist m (l.zipIdx dist) = (l.zipIdx dist).map fun p =>
      if decide (target p.1 ∈ proc) || (decide (target p.1 = n) && decide (comp p.1 < p.2)) then .second n p.2 else .first n p.2 := by
  induction l generalizing dist m with
  | nil => rfl
  | cons e l ih =>
    rw [List.zipIdx_cons]
    unfold edgeCalls
    simp only [isSecond, List.map_cons, ih]
    rfl

/-- Edges between different nodes: traversed for the second time precisely if the target has been processed. -/
theorem edgeCalls_link {rule : LoopRule E} (hrule : rule ≠ .directed) {n : Nat} {proc : List Nat} {es : List (E × Nat)}
    (hes : (es.map (·.2)).Nodup) {dist : Nat} {m : Bool}
    {p : E × Nat} (hp : p ∈ es) (ht : target p.1 ≠ n) :
    (.second n p.2 ∈ edgeCalls rule n proc dist m es ↔ target p.1 ∈ proc) := by
  have key : ∀ (es : List (E × Nat)) dist m, p ∈ es → (es.map (·.2)).Nodup →
      (if target p.1 ∈ proc then Event.second n p.2 else .first n p.2) ∈ edgeCalls rule n proc dist m es := by
    intro es
    induction es with
    | nil => intro _ _ h; simp at h
    | cons x es ih =>
      obtain ⟨e, k⟩ := x
      intro dist m hp hnd
      unfold edgeCalls
      rcases List.mem_cons.1 hp with rfl | hp
      · apply List.mem_cons.2
        left
        cases rule with
        | directed => exact (hrule rfl).elim
        | undirected => simp only [isSecond]; simp at ht; simp [ht]
        | embedded comp => simp only [isSecond]; simp at ht; simp [ht]
      · exact List.mem_cons_of_mem _ (ih _ _ hp (List.nodup_cons.1 hnd).2)
  have hk := key es dist m hp hes
  constructor
  · intro h
    by_contra hc
    rw [if_neg hc] at hk
    exact edgeCalls_excl hes hk h
  · intro h
    rwa [if_pos h] at hk

/-- The positions of the loops of a node in order of consideration. -/
def loopPos (n : Nat) (es : List (E × Nat)) : List Nat := (es.filter fun p => decide (target p.1 = n)).map (·.2)

/-- Loops of undirected graphs: traversed for the first and second time in turn. -/
theorem edgeCalls_loops {n : Nat} {proc : List Nat} (hn : n ∉ proc) {es : List (E × Nat)} {dist : Nat} {m : Bool} {i k : Nat}
    (hi : (loopPos n es)[i]? = some k) :
    (if m == (i % 2 == 0) then Event.first n k else .second n k) ∈ edgeCalls .undirected n proc dist m es := by
  induction es generalizing dist m i with
  | nil => simp [loopPos] at hi
  | cons x es ih =>
    obtain ⟨e, k'⟩ := x
    unfold edgeCalls
    unfold loopPos at hi
    rw [List.filter_cons] at hi
    by_cases ht : target e = n
    · simp only [ht, decide_true, if_true, List.map_cons] at hi
      cases i with
      | zero =>
        simp at hi
        subst hi
        apply List.mem_cons.2
        left
        cases m <;> simp [isSecond, ht, hn]
      | succ i =>
        apply List.mem_cons_of_mem
        have := ih (dist := dist + 1) (m := !m) (i := i) hi
        simp only [isSecond, ht, if_true]
        have h2 : (m == ((i + 1) % 2 == 0)) = ((!m) == (i % 2 == 0)) := by
          rcases Nat.mod_two_eq_zero_or_one i with h | h
          · rw [show (i + 1) % 2 = 1 by omega, h]; cases m <;> rfl
          · rw [show (i + 1) % 2 = 0 by omega, h]; cases m <;> rfl
        rw [h2]
        exact this
    · simp only [ht, decide_false, Bool.false_eq_true, if_false] at hi
      apply List.mem_cons_of_mem
      have := ih (dist := dist + 1) (m := m) (i := i) hi
      simp only [isSecond, ht, if_false]
      exact this

/-! ### Sets of visited nodes -/

theorem searches_all {s : Edges E} (hs : InRange s) {Ord : List Nat → Nat → List Nat → Prop} {done : List Nat} {r : Nat}
    {segs : List (List Nat)} (h : Searches s Ord done r segs) (hr : r < s.length) (hnd : done.Nodup)
    (hlt : ∀ x ∈ done, x < s.length) :
    (done ++ segs.flatten).Nodup ∧ ∀ n, n ∈ done ++ segs.flatten ↔ n < s.length := by
  induction segs generalizing done r with
  | nil => exact h.elim
  | cons seg segs ih =>
    obtain ⟨h1, h2⟩ := h
    have hlt' : ∀ x ∈ done ++ seg, x < s.length := by
      intro x hx
      rcases List.mem_append.1 hx with hx | hx
      · exact hlt x hx
      · obtain ⟨⟨d, hd⟩, _⟩ := (h1.2.2.1 x).1 hx
        exact walk_lt hs hr hd
    have hnd' : (done ++ seg).Nodup := by
      rw [List.nodup_append]
      refine ⟨hnd, h1.2.1, ?_⟩
      rintro a ha b hb rfl
      exact ((h1.2.2.1 a).1 hb).2 ha
    rcases h2 with ⟨h2, rfl⟩ | ⟨r', h3, h4, h5, h6⟩
    · simp only [List.flatten_cons, List.flatten_nil, List.append_nil]
      exact ⟨hnd', fun n => ⟨hlt' n, h2 n⟩⟩
    · have := ih h6 h3 hnd' hlt'
      simpa using this

end
end Verif.Graph
