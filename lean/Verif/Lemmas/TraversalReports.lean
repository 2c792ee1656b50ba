import Verif.Lemmas.TraversalContainers

/-! Which traversals of an edge are reported. -/
namespace Verif.Graph
open Verif.Spec EdgeLike

section
variable {E : Type} [EdgeLike E] {Q : Type}

theorem bestBag (best : Nat → List Nat → Prop) :
    Discipline.Bag ⟨fun l a l' => l'.Perm (a :: l), fun l a l' => l.Perm (a :: l') ∧ best a l⟩ := ⟨fun h => h, fun h => h.1⟩

/-- What is visited, whatever the container. -/
theorem traverse_any {c : Container Q} {best : Nat → List Nat → Prop} (rule : LoopRule E) (rev findAll : Bool) {s : Edges E}
    (hc : Serves best c s.length) (hs : InRange s) {start : Nat} (hstart : start < s.length) {fuel : Nat} (hf : s.length ≤ fuel) :
    ∃ order, traverse c rule rev findAll s start fuel = .ok (some (blocks rule rev s [] order)) ∧ order.Nodup ∧
      (∀ n, n ∈ order ↔ if findAll then n < s.length else Reach s start n) ∧
      (∀ i ∈ order, ∀ j, Leads s i j → j ∈ order) := by
  obtain ⟨R, hR⟩ := obeys_of_serves hc
  cases findAll with
  | false =>
    obtain ⟨seg, h1, h2, _⟩ := traverse_spec hR (bestBag best) rule rev rfl hs (orders_any _ rev s) start hstart fuel hf
    obtain ⟨_, h3, h4, _⟩ := h2
    have h5 : ∀ n, n ∈ seg ↔ Reach s start n := by simpa using h4
    refine ⟨seg, h1, h3, by simpa using h5, ?_⟩
    intro i hi j hij
    obtain ⟨d, hd⟩ := (h5 i).1 hi
    exact (h5 j).2 ⟨d + 1, .snoc hd hij⟩
  | true =>
    obtain ⟨segs, h1, h2⟩ := traverse_all_spec hR (bestBag best) rule rev rfl hs (orders_any _ rev s) start hstart fuel hf
    have h3 := searches_all hs h2 hstart (by simp) (by simp)
    simp only [List.nil_append] at h3
    refine ⟨segs.flatten, h1, h3.1, by simpa using h3.2, ?_⟩
    intro i _ j hij
    exact (h3.2 j).2 (leads_lt hs hij)

theorem count_of_nodup {α : Type} [DecidableEq α] {l : List α} (h : l.Nodup) {a : α} (ha : a ∈ l) : l.count a = 1 :=
  List.count_eq_one_of_mem h ha

theorem reported_first {rule : LoopRule E} {rev : Bool} {s : Edges E} {p q : List Nat} {n k : Nat} (hn : (p ++ n :: q).Nodup)
    (h : .first n k ∈ edgeCalls rule n p 0 true (edgesOf rev s n)) :
    ReportedFirst (blocks rule rev s [] (p ++ n :: q)) n k := by
  constructor
  · apply count_of_nodup (blocks_nodup hn)
    rw [mem_blocks_iff hn rfl, mem_block]
    exact .inr (.inl (by simpa using h))
  · rw [List.count_eq_zero, mem_blocks_iff hn rfl, mem_block]
    rintro (h' | h' | h')
    · cases h'
    · exact edgeCalls_excl (edgesOf_pos_nodup rev s n) h (by simpa using h')
    · cases h'

theorem reported_second {rule : LoopRule E} {rev : Bool} {s : Edges E} {p q : List Nat} {n k : Nat} (hn : (p ++ n :: q).Nodup)
    (h : .second n k ∈ edgeCalls rule n p 0 true (edgesOf rev s n)) :
    ReportedSecond (blocks rule rev s [] (p ++ n :: q)) n k := by
  constructor
  · rw [List.count_eq_zero, mem_blocks_iff hn rfl, mem_block]
    rintro (h' | h' | h')
    · cases h'
    · exact edgeCalls_excl (edgesOf_pos_nodup rev s n) (by simpa using h') h
    · cases h'
  · apply count_of_nodup (blocks_nodup hn)
    rw [mem_blocks_iff hn rfl, mem_block]
    exact .inr (.inl (by simpa using h))

/-- Of two linked nodes, the edges of the one visited earlier are reported first and those of the other one second. -/
theorem reported_links {rule : LoopRule E} (hrule : rule ≠ .directed) {rev : Bool} {s : Edges E} {order : List Nat}
    (hn : order.Nodup) {i j : Nat} (hij : i ≠ j) (hi : i ∈ order) (hj : j ∈ order) :
    ∃ a b, ((a = i ∧ b = j) ∨ (a = j ∧ b = i)) ∧
      (∀ k e, edgeAt s a k = some e → target e = b → ReportedFirst (blocks rule rev s [] order) a k) ∧
      (∀ k e, edgeAt s b k = some e → target e = a → ReportedSecond (blocks rule rev s [] order) b k) := by
  have key : ∀ a b, a ≠ b → (∃ p q, order = p ++ a :: q ∧ b ∈ q) →
      (∀ k e, edgeAt s a k = some e → target e = b → ReportedFirst (blocks rule rev s [] order) a k) ∧
      (∀ k e, edgeAt s b k = some e → target e = a → ReportedSecond (blocks rule rev s [] order) b k) := by
    rintro a b hab ⟨p, q, rfl, hb⟩
    constructor
    · intro k e he ht
      have hm : (e, k) ∈ edgesOf rev s a := mem_edgesOf.2 he
      apply reported_first hn
      rcases edgeCalls_either (rule := rule) (n := a) (proc := p) (dist := 0) (m := true) hm with h | h
      · exact h
      · have := (edgeCalls_link hrule (edgesOf_pos_nodup rev s a) hm (by simpa [ht] using hab.symm)).1 h
        simp only [ht] at this
        exact absurd rfl ((List.nodup_append.1 hn).2.2 b this b (List.mem_cons_of_mem _ hb))
    · intro k e he ht
      obtain ⟨q₁, q₂, rfl⟩ := List.append_of_mem hb
      have hm : (e, k) ∈ edgesOf rev s b := mem_edgesOf.2 he
      have e1 : p ++ a :: (q₁ ++ b :: q₂) = (p ++ a :: q₁) ++ b :: q₂ := by simp
      rw [e1] at hn ⊢
      apply reported_second hn
      exact (edgeCalls_link hrule (edgesOf_pos_nodup rev s b) hm (by simpa [ht] using hab)).2 (by simp [ht])
  obtain ⟨p, q, rfl⟩ := List.append_of_mem hi
  rcases List.mem_append.1 hj with h | h
  · obtain ⟨p₁, p₂, rfl⟩ := List.append_of_mem h
    exact ⟨j, i, .inr ⟨rfl, rfl⟩, key j i hij.symm ⟨p₁, p₂ ++ i :: q, by simp, by simp⟩⟩
  · exact ⟨i, j, .inl ⟨rfl, rfl⟩, key i j hij ⟨p, q, rfl, by
      rcases List.mem_cons.1 h with h | h
      · exact absurd h.symm hij
      · exact h⟩⟩

theorem loopPos_edgesOf (rev : Bool) (s : Edges E) (n : Nat) : loopPos n (edgesOf rev s n) = inOrder rev (loopsAt s n) := by
  have key : loopPos n (edgesOf false s n) = loopsAt s n := by
    unfold loopPos edgesOf loopsAt Spec.degree edgeAt
    cases s[n]? with
    | none => simp
    | some l =>
      simp only [iteration, Bool.false_eq_true, if_false, Option.bind_some]
      rw [List.range_eq_range', ← List.zipIdx_map_snd 0 l, List.filter_map]
      · congr 1
        apply List.filter_congr
        rintro ⟨e, k⟩ hm
        rw [List.mem_zipIdx_iff_getElem?] at hm
        simp [hm]
  cases rev with
  | false => exact key
  | true =>
    rw [inOrder, if_pos rfl, ← key]
    unfold loopPos edgesOf
    cases s[n]? with
    | none => simp
    | some l => simp [iteration, List.filter_reverse]

end
end Verif.Graph
