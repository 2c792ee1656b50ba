import Verif.Lemmas.TraversalEvents

/-! Depth first search. -/
namespace Verif.Graph
open Verif.Spec EdgeLike

section
variable {E : Type} [EdgeLike E] {N : Nat}

theorem nothingMissed_append {s : Edges E} {ev : List Event} {ns : List Nat} (h : NothingMissed s ev ns) (ev' : List Event) :
    NothingMissed s (ev ++ ev') ns := by
  intro x hx t ht
  obtain ⟨p, q, rfl, hp⟩ := h x hx t ht
  exact ⟨p, q ++ ev', by simp, hp⟩

/-- What a visit of `n` achieves, `K` having been discovered. -/
def DfsOk (s : Edges E) (N : Nat) (n : Nat) (st : Trav Unit) (K : List Nat) (r : Res (Option (Trav Unit))) : Prop :=
  ∃ (f : Forest) (P : List Bool), 
    r = .ok (some { st with discovered := bits N (K ++ f.nodes), processed := P, num := (K ++ f.nodes).length,
                            events := st.events ++ .before n :: f.calls n ++ [.after n] }) ∧
    P.length = N ∧ f.Valid s n 0 ∧ (K ++ f.nodes).Nodup ∧ (∀ x ∈ K ++ f.nodes, x < N) ∧
    NothingMissed s (st.events ++ .before n :: f.calls n ++ [.after n]) (n :: f.nodes)

theorem mem_calls_before {f : Forest} {n t : Nat} : .before t ∈ f.calls n ↔ t ∈ f.nodes := by
  induction f generalizing n with
  | nil => simp [Forest.calls, Forest.nodes]
  | cons k r ch rest ih1 ih2 => simp [Forest.calls, Forest.nodes, ih1, ih2]

theorem dfsEdges_spec {s : Edges E} (hs : InRange s) (hN : s.length = N) (visit : Nat → Trav Unit → Res (Option (Trav Unit)))
    (b : Nat)
    (hv : ∀ n st K, n < N → n ∈ K → (∀ t ∈ K, t = n ∨ .before t ∈ st.events) → st.discovered = bits N K →
      st.processed.length = N → st.num = K.length → K.Nodup → (∀ x ∈ K, x < N) → b ≤ K.length → DfsOk s N n st K (visit n st))
    (n : Nat) (l : List E) (hl : s[n]? = some l) (m lo : Nat) (hlo : lo + m = l.length) (st : Trav Unit) (K : List Nat)
    (hK : ∀ t ∈ K, .before t ∈ st.events) (hd : st.discovered = bits N K) (hp : st.processed.length = N)
    (hnum : st.num = K.length) (hnd : K.Nodup) (hlt : ∀ x ∈ K, x < N) (hb : b ≤ K.length + 1) :
    ∃ (f : Forest) (P : List Bool), dfsEdges visit n ((l.drop lo).zipIdx lo) st =
        .ok (some { st with discovered := bits N (K ++ f.nodes), processed := P, num := (K ++ f.nodes).length,
                            events := st.events ++ f.calls n }) ∧
      P.length = N ∧ f.Valid s n lo ∧ (K ++ f.nodes).Nodup ∧ (∀ x ∈ K ++ f.nodes, x < N) ∧
      NothingMissed s (st.events ++ f.calls n) f.nodes ∧ (∀ k e, lo ≤ k → l[k]? = some e → target e ∈ K ++ f.nodes) := by
  induction m generalizing lo st K with
  | zero =>
    rw [List.drop_eq_nil_of_le (by omega)]
    refine ⟨.nil, st.processed, ?_, hp, trivial, by simpa [Forest.nodes] using hnd, by simpa [Forest.nodes] using hlt,
      by intro x hx; simp [Forest.nodes] at hx, ?_⟩
    · cases st
      simp [dfsEdges, Forest.calls, Forest.nodes] at hd hnum ⊢
      exact ⟨hd, hnum⟩
    · intro k e hk he
      rw [List.getElem?_eq_none (by omega)] at he
      cases he
  | succ m ih =>
    have hlol : lo < l.length := by omega
    rw [List.drop_eq_getElem_cons hlol, List.zipIdx_cons]
    unfold dfsEdges
    have he : edgeAt s n lo = some l[lo] := by unfold edgeAt; rw [hl]; simp [hlol]
    have ht : target l[lo] < N := by rw [← hN]; exact leads_lt hs ⟨lo, _, he, rfl⟩
    have h1 : st.discovered[target l[lo]]? = some (decide (target l[lo] ∈ K)) := by rw [hd, bits_get N _ ht]
    by_cases hk : target l[lo] ∈ K
    · rw [show decide (target l[lo] ∈ K) = true by simpa using hk] at h1
      simp only [h1]
      obtain ⟨f, P, e1, e2, e3, e4, e5, e6, e7⟩ := ih (lo + 1) (by omega) st K hK hd hp hnum hnd hlt hb
      refine ⟨f, P, e1, e2, ?_, e4, e5, e6, ?_⟩
      · cases f with
        | nil => trivial
        | cons k r ch rest => exact ⟨by have := e3.1; omega, e3.2⟩
      · intro k e hk' hke
        by_cases hkl : k = lo
        · subst hkl
          rw [List.getElem?_eq_getElem hlol] at hke
          cases hke
          exact List.mem_append_left _ hk
        · exact e7 k e (by omega) hke
    · rw [show decide (target l[lo] ∈ K) = false by simpa using hk] at h1
      simp only [h1]
      have hnd1 : (K ++ [target l[lo]]).Nodup := by
        rw [List.nodup_append]
        exact ⟨hnd, by simp, by rintro a ha b hb rfl; simp at hb; subst hb; exact hk ha⟩
      have hlt1 : ∀ x ∈ K ++ [target l[lo]], x < N := by
        intro x hx
        rcases List.mem_append.1 hx with hx | hx
        · exact hlt x hx
        · simp at hx; omega
      obtain ⟨ch, P₁, f1, f2, f3, f4, f5, f6⟩ := hv (target l[lo])
        { st with events := st.events ++ [.first n lo], discovered := st.discovered.set (target l[lo]) true, num := st.num + 1 }
        (K ++ [target l[lo]]) ht (by simp)
        (by
          intro t h
          rcases List.mem_append.1 h with h | h
          · exact .inr (List.mem_append_left _ (hK t h))
          · simp at h; exact .inl h)
        (by simp only [hd]; exact bits_set _ _ _) hp (by simp [hnum]) hnd1 hlt1 (by simp; omega)
      rw [f1]
      simp only [Res.bind]
      obtain ⟨rest, P, e1, e2, e3, e4, e5, e6, e7⟩ := ih (lo + 1) (by omega)
        { st with
          discovered := bits N (K ++ [target l[lo]] ++ ch.nodes), processed := P₁,
          num := (K ++ [target l[lo]] ++ ch.nodes).length,
          events := st.events ++ [.first n lo] ++ .before (target l[lo]) :: ch.calls (target l[lo]) ++ [.after (target l[lo])] }
        (K ++ [target l[lo]] ++ ch.nodes)
        (by
          intro t h
          rcases List.mem_append.1 h with h | h
          · rcases List.mem_append.1 h with h | h
            · simp [hK t h]
            · simp at h; subst h; simp
          · simp [mem_calls_before.2 h])
        rfl f2 rfl f4 f5 (by simp; omega)
      refine ⟨.cons lo (target l[lo]) ch rest, P, ?_, e2, ⟨Nat.le_refl _, ⟨_, he, rfl⟩, f3, e3⟩, ?_, ?_, ?_, ?_⟩
      · rw [e1]
        simp [Forest.calls, Forest.nodes]
      · simpa [Forest.nodes] using e4
      · simpa [Forest.nodes] using e5
      · have h2 := nothingMissed_append f6 (rest.calls n)
        intro x hx t hxt
        simp only [Forest.nodes, List.cons_append, List.mem_cons, List.mem_append] at hx
        have : st.events ++ (Forest.cons lo (target l[lo]) ch rest).calls n = st.events ++ [.first n lo] ++
          .before (target l[lo]) :: ch.calls (target l[lo]) ++ [.after (target l[lo])] ++ rest.calls n := by
          simp [Forest.calls]
        rw [this]
        rcases hx with rfl | hx | hx
        · exact h2 _ (by simp) t hxt
        · exact h2 x (by simp [hx]) t hxt
        · exact e6 x hx t hxt
      · intro k e hk' hke
        by_cases hkl : k = lo
        · subst hkl
          rw [List.getElem?_eq_getElem hlol] at hke
          cases hke
          simp [Forest.nodes]
        · have := e7 k e (by omega) hke
          simpa [Forest.nodes] using this

theorem dfsNode_spec {s : Edges E} (hs : InRange s) (hN : s.length = N) (fuel : Nat) (n : Nat) (st : Trav Unit) (K : List Nat)
    (hn : n < N) (hnK : n ∈ K) (hK : ∀ t ∈ K, t = n ∨ .before t ∈ st.events) (hd : st.discovered = bits N K)
    (hp : st.processed.length = N) (hnum : st.num = K.length) (hnd : K.Nodup) (hlt : ∀ x ∈ K, x < N)
    (hfuel : N + 1 ≤ fuel + K.length) : DfsOk s N n st K (dfsNode s fuel n st) := by
  induction fuel generalizing n st K with
  | zero =>
    have h1 : K.length ≤ (List.range N).length :=
      List.Subperm.length_le (List.Nodup.subperm hnd fun x hx => List.mem_range.2 (hlt x hx))
    simp at h1
    omega
  | succ fuel ih =>
    unfold dfsNode
    have hsn : s[n]? = some (s[n]'(by omega)) := List.getElem?_eq_getElem (by omega)
    simp only [hsn]
    obtain ⟨f, P, e1, e2, e3, e4, e5, e6, e7⟩ := dfsEdges_spec hs hN (dfsNode s fuel) (N + 1 - fuel)
      (fun n st K h1 h2 h3 h4 h5 h6 h7 h8 h9 => ih n st K h1 h2 h3 h4 h5 h6 h7 h8 (by omega)) n (s[n]'(by omega)) hsn
      (s[n]'(by omega)).length 0 (by omega) { st with events := st.events ++ [.before n] } K
      (by
        intro t ht
        rcases hK t ht with rfl | h
        · simp
        · exact List.mem_append_left _ h) hd hp hnum hnd hlt (by omega)
    rw [List.drop_zero] at e1
    rw [e1]
    simp only [Res.bind]
    rw [if_pos (by omega)]
    refine ⟨f, P.set n true, ?_, by simpa using e2, e3, e4, e5, ?_⟩
    · simp
    · intro x hx t hxt
      rcases List.mem_cons.1 hx with rfl | hx
      · refine ⟨st.events ++ .before x :: f.calls x, [], by simp, ?_⟩
        obtain ⟨k, e, he, rfl⟩ := hxt
        have : target e ∈ K ++ f.nodes := e7 k e (Nat.zero_le _) (by
          unfold edgeAt at he
          rw [hsn] at he
          exact he)
        rcases List.mem_append.1 this with h | h
        · rcases hK _ h with h | h
          · rw [h]; simp
          · simp [h]
        · simp [mem_calls_before.2 h]
      · have := (nothingMissed_append e6 [.after n]) x hx t hxt
        simpa using this

theorem forest_reach {s : Edges E} {f : Forest} {n lo r : Nat} (h : f.Valid s n lo) (hr : Reach s r n) :
    ∀ x ∈ f.nodes, Reach s r x := by
  induction f generalizing n lo with
  | nil => intro x hx; simp [Forest.nodes] at hx
  | cons k m ch rest ih1 ih2 =>
    obtain ⟨_, ⟨e, he, ht⟩, h1, h2⟩ := h
    have hm : Reach s r m := by
      obtain ⟨d, hd⟩ := hr
      exact ⟨d + 1, .snoc hd ⟨k, e, he, ht⟩⟩
    intro x hx
    simp only [Forest.nodes, List.cons_append, List.mem_cons, List.mem_append] at hx
    rcases hx with rfl | hx | hx
    · exact hm
    · exact ih1 h1 hm x hx
    · exact ih2 h2 hr x hx

/-- A visit to a node which was not discovered is a search. -/
theorem dfs_search {s : Edges E} {K : List Nat} {r : Nat} {f : Forest} {ev : List Event} (hr : r ∉ K)
    (hK : Closed s K) (hv : f.Valid s r 0) (hnd : (K ++ [r] ++ f.nodes).Nodup)
    (hnm : NothingMissed s ev (r :: f.nodes)) (hev : ∀ t, .before t ∈ ev → t ∈ K ++ (r :: f.nodes)) :
    SearchFrom s AnyOrder K r (r :: f.nodes) ∧ Closed s (K ++ (r :: f.nodes)) := by
  have hnd' : (K ++ (r :: f.nodes)).Nodup := by simpa using hnd
  have hcl : Closed s (K ++ (r :: f.nodes)) := by
    intro a ha b hb
    rcases List.mem_append.1 ha with ha | ha
    · exact List.mem_append_left _ (hK a ha b hb)
    · obtain ⟨p, q, he, hp⟩ := hnm a ha b hb
      exact hev b (by rw [he]; exact List.mem_append_left _ hp)
  refine ⟨⟨rfl, (List.nodup_append.1 hnd').2.1, ?_, trivial⟩, hcl⟩
  intro n
  constructor
  · intro hm
    refine ⟨?_, fun hc => (List.nodup_append.1 hnd').2.2 n hc n hm rfl⟩
    rcases List.mem_cons.1 hm with rfl | hm
    · exact ⟨0, .refl⟩
    · exact forest_reach hv ⟨0, .refl⟩ n hm
  · rintro ⟨⟨d, hd⟩, hnK⟩
    have : n ∈ K ++ (r :: f.nodes) := by
      clear hnK
      induction hd with
      | refl => simp
      | snoc _ hl ih => exact hcl _ ih _ hl
    exact (List.mem_append.1 this).resolve_left hnK

/-- The calls for one tree. -/
def treeCalls (t : Nat × Forest) : List Event := .before t.1 :: t.2.calls t.1 ++ [.after t.1]
def treeNodes (t : Nat × Forest) : List Nat := t.1 :: t.2.nodes

theorem dfsPhase_spec {s : Edges E} (hs : InRange s) (hN : s.length = N) (findAll : Bool) (start r fuel : Nat) (hf : N ≤ fuel)
    (st : Trav Unit) (K : List Nat)
    (hr : restartIndex findAll start st = .ok r) (hrN : r < N) (hrK : r ∉ K) (hK : Closed s K) (hnd : K.Nodup)
    (hlt : ∀ x ∈ K, x < N) (hd : st.discovered = bits N K) (hp : st.processed.length = N)
    (hnum : st.num = K.length) (hev : ∀ t, .before t ∈ st.events ↔ t ∈ K) :
    ∃ (f : Forest) (P : List Bool), dfsPhase findAll s start fuel st =
        .ok (some { queue := (), discovered := bits N (K ++ (r :: f.nodes)), processed := P, num := (K ++ (r :: f.nodes)).length,
                    restart := if findAll && st.num != 0 then r else st.restart,
                    events := st.events ++ treeCalls (r, f) }) ∧
      P.length = N ∧ SearchFrom s AnyOrder K r (r :: f.nodes) ∧ f.Valid s r 0 ∧
      NothingMissed s (st.events ++ treeCalls (r, f)) (r :: f.nodes) ∧
      Closed s (K ++ (r :: f.nodes)) ∧ (K ++ (r :: f.nodes)).Nodup ∧ (∀ x ∈ K ++ (r :: f.nodes), x < N) ∧
      (∀ t, .before t ∈ st.events ++ treeCalls (r, f) ↔ t ∈ K ++ (r :: f.nodes)) := by
  unfold dfsPhase
  rw [hr]
  simp only [Res.bind]
  rw [if_pos (by rw [hd]; simpa using hrN)]
  obtain ⟨f, P, e1, e2, e3, e4, e5, e6⟩ := dfsNode_spec hs hN fuel r
    { st with discovered := st.discovered.set r true, num := st.num + 1,
              restart := if findAll && st.num != 0 then r else st.restart } (K ++ [r]) hrN (by simp)
    (by
      intro t ht
      rcases List.mem_append.1 ht with h | h
      · exact .inr ((hev t).2 h)
      · simp at h; exact .inl h)
    (by simp only [hd]; exact bits_set _ _ _) hp (by simp [hnum])
    (by
      rw [List.nodup_append]
      exact ⟨hnd, by simp, by rintro a ha b hb rfl; simp at hb; subst hb; exact hrK ha⟩)
    (by
      intro x hx
      rcases List.mem_append.1 hx with hx | hx
      · exact hlt x hx
      · simp at hx; omega) (by simp; omega)
  have hev' : ∀ t, .before t ∈ st.events ++ treeCalls (r, f) ↔ t ∈ K ++ (r :: f.nodes) := by
    intro t
    simp [treeCalls, hev, mem_calls_before]
  have hnm : NothingMissed s (st.events ++ treeCalls (r, f)) (r :: f.nodes) := by
    have := e6
    simp only [List.append_assoc] at this
    exact this
  obtain ⟨g1, g2⟩ := dfs_search hrK hK e3 e4 hnm fun t ht => (hev' t).1 ht
  refine ⟨f, P, ?_, e2, g1, e3, hnm, g2, by simpa using e4, by simpa using e5, hev'⟩
  rw [e1]
  simp [treeCalls]

theorem dfsLoop_all {s : Edges E} (hs : InRange s) (hN : s.length = N) (start r : Nat) (fuel : Nat) (hf : N ≤ fuel)
    (rounds : Nat) (st : Trav Unit) (K : List Nat) (hrounds : N ≤ rounds + K.length)
    (hr : restartIndex true start st = .ok r) (hrN : r < N) (hrK : r ∉ K) (hK : Closed s K) (hnd : K.Nodup)
    (hlt : ∀ x ∈ K, x < N) (hd : st.discovered = bits N K) (hp : st.processed.length = N)
    (hnum : st.num = K.length) (hev : ∀ t, .before t ∈ st.events ↔ t ∈ K)
    (hre : st.num ≠ 0 → ∀ i < r, i ∈ K) (hre0 : st.num = 0 → st.restart = 0) :
    ∃ (st' : Trav Unit) (trees : List (Nat × Forest)), dfsLoop true s start fuel rounds st = .ok (some st') ∧
      st'.events = st.events ++ trees.flatMap treeCalls ∧ Searches s AnyOrder K r (trees.map treeNodes) ∧
      (∀ t ∈ trees, t.2.Valid s t.1 0) ∧ NothingMissed s st'.events (trees.flatMap treeNodes) := by
  induction rounds generalizing st K r with
  | zero =>
    exfalso
    have := List.Subperm.length_le (List.Nodup.subperm (l₁ := K ++ [r]) (l₂ := List.range N) (by
      rw [List.nodup_append]
      exact ⟨hnd, by simp, by rintro a ha b hb rfl; simp at hb; subst hb; exact hrK ha⟩) (by
      intro x hx
      rw [List.mem_range]
      rcases List.mem_append.1 hx with hx | hx
      · exact hlt x hx
      · simp at hx; omega))
    simp at this
    omega
  | succ rounds ih =>
    obtain ⟨f, P, e1, e2, e3, e4, e5, e6, e7, e8, e9⟩ := dfsPhase_spec hs hN true start r fuel hf st K hr hrN
      hrK hK hnd hlt hd hp hnum hev
    unfold dfsLoop
    rw [e1]
    simp only [Res.bind]
    by_cases hfull : (K ++ (r :: f.nodes)).length = N
    · rw [if_pos (by simp only [hN, hfull]; simp)]
      refine ⟨_, [(r, f)], rfl, by simp, ⟨e3, .inl ⟨?_, rfl⟩⟩, ?_, ?_⟩
      · rw [hN]
        exact (full_of_length e7 e8).1 hfull
      · intro t ht; simp at ht; subst ht; exact e4
      · simpa [treeNodes] using e5
    · rw [if_neg (by simp only [hN]; simp at hfull ⊢; exact hfull)]
      have hex : ∃ i, i < N ∧ i ∉ K ++ (r :: f.nodes) := by
        by_contra hc'
        apply hfull
        rw [full_of_length e7 e8]
        intro n hn
        by_contra hn'
        exact hc' ⟨n, hn, hn'⟩
      have hnum' : (K ++ (r :: f.nodes)).length ≠ 0 := by simp
      obtain ⟨r', i1, i2, i3, i4⟩ := restart_spec (start := start)
        (st := { queue := (), discovered := bits N (K ++ (r :: f.nodes)), processed := P,
                 num := (K ++ (r :: f.nodes)).length, restart := if true && st.num != 0 then r else st.restart,
                 events := st.events ++ treeCalls (r, f) }) (findAll := true) rfl rfl hnum'
        (by
          intro i hi
          by_cases h0 : st.num = 0
          · simp [h0, hre0 h0] at hi
          · simp [h0] at hi
            exact List.mem_append_left _ (hre h0 i hi))
        hex
      obtain ⟨st', trees, j1, j2, j3, j4, j5⟩ := ih r' _ (K ++ (r :: f.nodes))
        (by rw [List.length_append, List.length_cons]; omega) i1 i2 i3 e6 e7 e8 rfl e2 rfl e9 (fun _ => i4)
        (fun h => absurd h hnum')
      refine ⟨st', (r, f) :: trees, j1, ?_, ⟨e3, .inr ⟨r', by omega, i3, i4, j3⟩⟩, ?_, ?_⟩
      · rw [j2]
        simp
      · intro t ht
        rcases List.mem_cons.1 ht with rfl | ht
        · exact e4
        · exact j4 t ht
      · intro x hx t hxt
        rw [List.flatMap_cons, List.mem_append] at hx
        rcases hx with hx | hx
        · rw [j2]
          exact nothingMissed_append e5 _ x hx t hxt
        · exact j5 x hx t hxt

end
end Verif.Graph
