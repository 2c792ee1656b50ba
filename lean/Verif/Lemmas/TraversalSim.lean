import Verif.Lemmas.Traversal

/-! The model of traversals performs abstract runs. -/
namespace Verif.Graph
open Verif.Spec EdgeLike

/-- The bits set at the given positions. -/
def bits (n : Nat) (K : List Nat) : List Bool := (List.range n).map fun i => decide (i ∈ K)

@[simp] theorem bits_length (n : Nat) (K : List Nat) : (bits n K).length = n := by simp [bits]

theorem bits_get (n : Nat) (K : List Nat) {i : Nat} (h : i < n) : (bits n K)[i]? = some (decide (i ∈ K)) := by
  simp [bits, h]

theorem bits_nil (n : Nat) : bits n [] = List.replicate n false := by
  simp [bits]

theorem bits_set (n : Nat) (K : List Nat) (t : Nat) : (bits n K).set t true = bits n (K ++ [t]) := by
  apply List.ext_getElem?
  intro i
  by_cases hi : i < n
  · rw [bits_get n (K ++ [t]) hi]
    by_cases h : t = i
    · subst h
      rw [List.getElem?_set_self (by simpa using hi)]; simp
    · rw [List.getElem?_set_ne h, bits_get n _ hi]
      have : i ≠ t := fun h' => h h'.symm
      simp [this]
  · rw [List.getElem?_eq_none (by simpa using hi), List.getElem?_eq_none (by simpa using hi)]

section
variable {E : Type} [EdgeLike E] {Q : Type}

/-- The calls made for the edges of a node when the nodes of `proc` have been processed. -/
def edgeCalls (rule : LoopRule E) (n : Nat) (proc : List Nat) : Nat → Bool → List (E × Nat) → List Event
  | _, _, [] => []
  | dist, m, (e, k) :: l =>
    let r := isSecond rule n dist m e (decide (target e ∈ proc))
    (if r.1 then .second n k else .first n k) :: edgeCalls rule n proc (dist + 1) r.2 l

/-- The edges of a node, in order of consideration. -/
def edgesOf (rev : Bool) (s : Edges E) (n : Nat) : List (E × Nat) := match s[n]? with
  | some l => iteration rev l
  | none => []

def tgtsOf (rev : Bool) (s : Edges E) (n : Nat) : List Nat := (edgesOf rev s n).map fun p => target p.1

/-- The calls made for a node. -/
def block (rule : LoopRule E) (rev : Bool) (s : Edges E) (proc : List Nat) (n : Nat) : List Event :=
  .before n :: edgeCalls rule n proc 0 true (edgesOf rev s n) ++ [.after n]

def blocks (rule : LoopRule E) (rev : Bool) (s : Edges E) : List Nat → List Nat → List Event
  | _, [] => []
  | proc, a :: seg => block rule rev s proc a ++ blocks rule rev s (proc ++ [a]) seg

omit [EdgeLike E] in
theorem mem_iteration {rev : Bool} {l : List E} {p : E × Nat} : p ∈ iteration rev l ↔ l[p.2]? = some p.1 := by
  unfold iteration
  split <;> simp [List.mem_zipIdx_iff_getElem?]

omit [EdgeLike E] in
theorem mem_edgesOf {rev : Bool} {s : Edges E} {n : Nat} {p : E × Nat} : p ∈ edgesOf rev s n ↔ edgeAt s n p.2 = some p.1 := by
  unfold edgesOf edgeAt
  cases s[n]? with
  | none => simp
  | some l => simp [mem_iteration]

theorem mem_tgtsOf {rev : Bool} {s : Edges E} {n t : Nat} : t ∈ tgtsOf rev s n ↔ Leads s n t := by
  unfold tgtsOf Leads
  simp only [List.mem_map, mem_edgesOf, Prod.exists]
  exact ⟨fun ⟨e, k, h⟩ => ⟨k, e, h⟩, fun ⟨k, e, h⟩ => ⟨e, k, h⟩⟩

theorem edgesOf_inRange {rev : Bool} {s : Edges E} (hs : InRange s) {n : Nat} {p : E × Nat} (hp : p ∈ edgesOf rev s n) :
    target p.1 < s.length := by
  rw [mem_edgesOf] at hp
  obtain ⟨l, hl, hk⟩ := Option.bind_eq_some_iff.1 hp
  exact hs l (List.mem_of_getElem? hl) _ (List.mem_of_getElem? hk)

theorem leads_lt {s : Edges E} (hs : InRange s) {a b : Nat} (h : Leads s a b) : b < s.length := by
  obtain ⟨k, e, he, rfl⟩ := h
  obtain ⟨l, hl, hk⟩ := Option.bind_eq_some_iff.1 he
  exact hs l (List.mem_of_getElem? hl) _ (List.mem_of_getElem? hk)

variable {c : Container Q} {D : Discipline} {R : Q → List Nat → Prop} {N : Nat}

theorem innerEdges_spec (hc : Obeys c N D R) (hD : D.Bag) (rule : LoopRule E) (n : Nat) (proc : List Nat)
    (es : List (E × Nat)) (hes : ∀ p ∈ es, target p.1 < N) (dist : Nat) (m : Bool) (st : Trav Q) (known l proc' : List Nat)
    (hq : R st.queue l) (hd : st.discovered = bits N known) (hp : st.processed = bits N proc) (hnum : st.num = known.length)
    (hperm : known.Perm (proc' ++ l)) (hnd : known.Nodup) (hlt : ∀ x ∈ known, x < N) :
    ∃ q l' known', innerEdges c rule n dist m es st =
        .ok { st with queue := q, discovered := bits N known', num := known'.length,
                      events := st.events ++ edgeCalls rule n proc dist m es } ∧
      PushT D known (es.map fun p => target p.1) l l' known' ∧ R q l' ∧ (∀ x ∈ known', x < N) := by
  induction es generalizing dist m st known l with
  | nil =>
    refine ⟨st.queue, l, known, ?_, .nil, hq, hlt⟩
    unfold innerEdges edgeCalls
    cases st
    simp at hd hnum ⊢
    exact ⟨hd, hnum⟩
  | cons p es ih =>
    obtain ⟨e, k⟩ := p
    have ht : target e < N := hes (e, k) (by simp)
    have hes' : ∀ p ∈ es, target p.1 < N := fun p hp => hes p (by simp [hp])
    unfold innerEdges
    have h1 : st.discovered[target e]? = some (decide (target e ∈ known)) := by rw [hd, bits_get N _ ht]
    have h2 : st.processed[target e]? = some (decide (target e ∈ proc)) := by rw [hp, bits_get N _ ht]
    simp only [h1, h2]
    by_cases hk : target e ∈ known
    · simp only [hk, decide_true, if_true]
      obtain ⟨q, l', known', e1, e2, e3, e4⟩ := ih hes' (dist + 1)
        (isSecond rule n dist m e (decide (target e ∈ proc))).2
        { st with events := st.events ++ [if (isSecond rule n dist m e (decide (target e ∈ proc))).1 = true then
            Event.second n k else Event.first n k] } known l hq hd hp hnum hperm hnd hlt
      refine ⟨q, l', known', ?_, .old hk e2, e3, e4⟩
      rw [e1]
      conv => rhs; unfold edgeCalls
      simp
    · simp only [hk, decide_false, Bool.false_eq_true, if_false]
      have hlen : l.length < N := by
        have h3 : (known ++ [target e]).Nodup := by
          rw [List.nodup_append]
          exact ⟨hnd, by simp, by rintro a ha b hb rfl; simp at hb; subst hb; exact hk ha⟩
        have h4 : (known ++ [target e]).length ≤ (List.range N).length := by
          apply List.Subperm.length_le
          apply List.Nodup.subperm h3
          intro x hx
          rw [List.mem_range]
          rcases List.mem_append.1 hx with hx | hx
          · exact hlt x hx
          · simp at hx; omega
        have h5 := hperm.length_eq
        simp at h4 h5
        omega
      obtain ⟨q₁, l₁, f1, f2, f3⟩ := hc.push (target e) hq hlen
      rw [f1]
      simp only [Res.bind]
      obtain ⟨q, l', known', e1, e2, e3, e4⟩ := ih hes' (dist + 1)
        (isSecond rule n dist m e (decide (target e ∈ proc))).2
        { st with
          queue := q₁, discovered := st.discovered.set (target e) true, num := st.num + 1,
          events := st.events ++ [if (isSecond rule n dist m e (decide (target e ∈ proc))).1 = true then
            Event.second n k else Event.first n k] } (known ++ [target e]) l₁ f3 (by simp only [hd]; exact bits_set _ _ _) hp
        (by simp [hnum])
        ((List.perm_append_singleton _ _).trans ((List.Perm.cons _ hperm).trans
          (List.perm_middle.symm.trans (List.Perm.append_left _ (hD.push f2).symm))))
        (by
          rw [List.nodup_append]
          exact ⟨hnd, by simp, by rintro a ha b hb rfl; simp at hb; subst hb; exact hk ha⟩)
        (by
          intro x hx
          rcases List.mem_append.1 hx with hx | hx
          · exact hlt x hx
          · simp at hx; omega)
      refine ⟨q, l', known', ?_, .new hk f2 e2, e3, e4⟩
      rw [e1]
      conv => rhs; unfold edgeCalls
      simp

theorem innerLoop_spec (hc : Obeys c N D R) (hD : D.Bag) (rule : LoopRule E) (rev : Bool) {s : Edges E} (hN : s.length = N)
    (hs : InRange s) (n : Nat) (hn : n < N) (proc : List Nat) (st : Trav Q) (known l proc' : List Nat)
    (hq : R st.queue l) (hd : st.discovered = bits N known) (hp : st.processed = bits N proc) (hnum : st.num = known.length)
    (hperm : known.Perm (proc' ++ l)) (hnd : known.Nodup) (hlt : ∀ x ∈ known, x < N) :
    ∃ q l' known', innerLoop c rule rev s n st =
        .ok { st with queue := q, discovered := bits N known', processed := bits N (proc ++ [n]), num := known'.length,
                      events := st.events ++ block rule rev s proc n } ∧
      PushT D known (tgtsOf rev s n) l l' known' ∧ R q l' ∧ (∀ x ∈ known', x < N) := by
  unfold innerLoop
  have hsn : s[n]? = some (s[n]'(by omega)) := List.getElem?_eq_getElem (by omega)
  have hed : edgesOf rev s n = iteration rev (s[n]'(by omega)) := by unfold edgesOf; rw [hsn]
  simp only [hsn]
  obtain ⟨q, l', known', e1, e2, e3, e4⟩ := innerEdges_spec hc hD rule n proc (iteration rev (s[n]'(by omega)))
    (by intro p hpp; rw [← hN]; exact edgesOf_inRange (rev := rev) (n := n) hs (by rw [hed]; exact hpp)) 0 true
    { st with events := st.events ++ [.before n] } known l proc' hq hd hp hnum hperm hnd hlt
  refine ⟨q, l', known', ?_, ?_, e3, e4⟩
  · rw [e1]
    simp only [Res.bind]
    rw [if_pos (by rw [hp]; simpa using hn)]
    simp only [hp, bits_set, block, hed]
    simp
  · unfold tgtsOf
    rw [hed]; exact e2

theorem whileLoop_spec (hc : Obeys c N D R) (hD : D.Bag) (rule : LoopRule E) (rev : Bool) {s : Edges E} (hN : s.length = N)
    (hs : InRange s) (fuel : Nat) (proc : List Nat) (st : Trav Q) (known l : List Nat)
    (hq : R st.queue l) (hd : st.discovered = bits N known) (hp : st.processed = bits N proc) (hnum : st.num = known.length)
    (hperm : known.Perm (proc ++ l)) (hnd : known.Nodup) (hlt : ∀ x ∈ known, x < N) (hfuel : N ≤ fuel + proc.length) :
    ∃ q seg known', whileLoop c rule rev s fuel st =
        .ok (some { st with queue := q, discovered := bits N known', processed := bits N (proc ++ seg), num := known'.length,
                            events := st.events ++ blocks rule rev s proc seg }) ∧
      Run D (tgtsOf rev s) known l seg known' ∧ R q [] ∧ (∀ x ∈ known', x < N) := by
  induction fuel generalizing proc st known l with
  | zero =>
    have h0 : l = [] := by
      have h1 : known.length ≤ (List.range N).length :=
        List.Subperm.length_le (List.Nodup.subperm hnd fun x hx => List.mem_range.2 (hlt x hx))
      have h2 := hperm.length_eq
      simp at h1 h2
      exact List.eq_nil_of_length_eq_zero (by omega)
    subst h0
    have he := (hc.isEmpty hq).2 rfl
    refine ⟨st.queue, [], known, ?_, .done, hq, hlt⟩
    unfold whileLoop
    rw [if_pos he]
    cases st
    simp [blocks] at hd hnum hp ⊢
    exact ⟨hd, hp, hnum⟩
  | succ fuel ih =>
    unfold whileLoop
    by_cases hl : l = []
    · subst hl
      have he := (hc.isEmpty hq).2 rfl
      refine ⟨st.queue, [], known, ?_, .done, hq, hlt⟩
      rw [if_pos he]
      cases st
      simp [blocks] at hd hnum hp ⊢
      exact ⟨hd, hp, hnum⟩
    · rw [if_neg (fun h => hl ((hc.isEmpty hq).1 h))]
      obtain ⟨a, q₁, l₁, g1, g2, g3, g4⟩ := hc.pop hq hl
      rw [g1]
      simp only [Res.bind]
      rw [g2]
      simp only
      have ha : a < N := hlt a (hperm.mem_iff.2 (by simp [(hD.pop g3).mem_iff]))
      have hperm' : known.Perm ((proc ++ [a]) ++ l₁) := by
        rw [List.append_assoc]
        exact hperm.trans (List.Perm.append_left _ (hD.pop g3))
      obtain ⟨q₂, l₂, known₁, e1, e2, e3, e4⟩ := innerLoop_spec hc hD rule rev hN hs a ha proc { st with queue := q₁ } known l₁
        (proc ++ [a]) g4 hd hp hnum hperm' hnd hlt
      rw [e1]
      simp only
      obtain ⟨q, seg, known', i1, i2, i3, i4⟩ := ih (proc ++ [a])
        { st with queue := q₂, discovered := bits N known₁, processed := bits N (proc ++ [a]), num := known₁.length,
                  events := st.events ++ block rule rev s proc a } known₁ l₂ e3 rfl rfl rfl (e2.perm hD hperm') (e2.nodup hnd) e4
        (by simp; omega)
      refine ⟨q, a :: seg, known', ?_, .step g3 e2 i2, i3, i4⟩
      rw [i1]
      simp [blocks]

/-- A set of nodes which no edge leaves. -/
def Closed (s : Edges E) (K : List Nat) : Prop := ∀ a ∈ K, ∀ b, Leads s a b → b ∈ K

theorem walk_lt {s : Edges E} (hs : InRange s) {r n d : Nat} (hr : r < s.length) (h : Walk s r n d) : n < s.length := by
  cases h with
  | refl => exact hr
  | snoc _ h => exact leads_lt hs h

/-- What an abstract run from a single node achieves. -/
theorem run_search (hD : D.Bag) {rev : Bool} {s : Edges E} {K seg known' : List Nat} {r : Nat} (hK : Closed s K)
    (hr : r ∉ K) (hnd : K.Nodup) (h : Run D (tgtsOf rev s) (K ++ [r]) [r] seg known') :
    SearchFrom s AnyOrder K r seg ∧ Closed s (K ++ seg) ∧ known'.Perm (K ++ seg) ∧ (K ++ seg).Nodup := by
  have hp : known'.Perm (K ++ seg) := h.perm hD (.refl _)
  have hnd0 : (K ++ [r]).Nodup := by
    rw [List.nodup_append]
    exact ⟨hnd, by simp, by rintro a ha b hb rfl; simp at hb; subst hb; exact hr ha⟩
  have hn : (K ++ seg).Nodup := hp.nodup_iff.1 (h.nodup hnd0)
  have hcl : Closed s (K ++ seg) := by
    intro a ha b hb
    rcases List.mem_append.1 ha with ha | ha
    · exact List.mem_append_left _ (hK a ha b hb)
    · exact hp.mem_iff.1 (h.closed a ha b (mem_tgtsOf.2 hb))
  have hrs : r ∈ seg := by
    have := hp.mem_iff.1 (h.mono r (by simp))
    exact (List.mem_append.1 this).resolve_left hr
  refine ⟨⟨?_, (List.nodup_append.1 hn).2.1, ?_, trivial⟩, hcl, hp, hn⟩
  · cases h with
    | step hpop _ _ =>
      have := hD.pop hpop
      rw [List.singleton_perm] at this
      cases this
      rfl
  · intro n
    constructor
    · intro hm
      refine ⟨h.forall hD (P := fun x => Reach s r x) ?_ ?_ n hm, fun hc => (List.nodup_append.1 hn).2.2 n hc n hm rfl⟩
      · intro x hx; simp at hx; subst hx; exact ⟨0, .refl⟩
      · rintro x ⟨d, hd⟩ t ht; exact ⟨d + 1, .snoc hd (mem_tgtsOf.1 ht)⟩
    · rintro ⟨⟨d, hd⟩, hnK⟩
      have : n ∈ K ++ seg := by
        clear hnK
        induction hd with
        | refl => exact List.mem_append_right _ hrs
        | snoc _ hl ih => exact hcl _ ih _ hl
      exact (List.mem_append.1 this).resolve_left hnK

theorem run_byDistance {rev : Bool} {s : Edges E} {K seg known' : List Nat} {r : Nat} (hK : Closed s K)
    (hr : r ∉ K) (hnd : K.Nodup) (h : Run fifo (tgtsOf rev s) (K ++ [r]) [r] seg known') : ByDistance s K r seg := by
  obtain ⟨hs, _, _, hn⟩ := run_search fifo_bag hK hr hnd h
  obtain ⟨lev, h1, h2, h3, h4, h5⟩ := h.levels (W := Walk s r) (fun a d t hw ht => .snoc hw (mem_tgtsOf.1 ht)) (· ∈ K)
    (fun _ => 0) (by simp) (by simp) (by simp) (by simpa using hr) (by intro x hx; simp [hx])
    (by intro x hx; simp at hx; subst hx; exact .refl)
  have key : ∀ b d, Walk s r b d → b ∉ K → b ∈ seg ∧ lev b ≤ d := by
    intro b d hw hb
    refine ⟨(hs.2.2.1 b).2 ⟨⟨d, hw⟩, hb⟩, ?_⟩
    induction hw with
    | refl => rw [h1 r (by simp)]; exact Nat.zero_le _
    | @snoc b c d hw hl ih =>
      have hb' : b ∉ K := fun hc => hb (hK b hc c hl)
      have := h4 b ((hs.2.2.1 b).2 ⟨⟨d, hw⟩, hb'⟩) c (mem_tgtsOf.2 hl) hb
      have := ih hb'
      omega
  refine List.Pairwise.imp_of_mem ?_ h2
  intro a b ha hb hab d hw
  have := (key b d hw ((hs.2.2.1 b).1 hb).2).2
  exact ⟨lev a, by omega, h5 a ha⟩

theorem run_byPriority {lt : Nat → Nat → Bool} {rev : Bool} {s : Edges E} {K seg known' : List Nat} {r : Nat}
    (h : Run (byPrio lt) (tgtsOf rev s) (K ++ [r]) [r] seg known') : ByPriority s lt K r seg := by
  intro p a q hq b hb hbr
  refine h.priority (.refl _) p a q hq b hb ?_
  rcases hbr with rfl | ⟨n, hn, hl⟩
  · simp
  · exact .inr ⟨n, hn, mem_tgtsOf.2 hl⟩

/-! ### Whole traversals -/

theorem skip_spec (l : List Bool) (i : Nat) (h : ∃ j : Nat, l[j]? = some false) :
    ∃ j, skip l i = .ok (i + j) ∧ l[j]? = some false ∧ ∀ k < j, l[k]? = some true := by
  induction l generalizing i with
  | nil => obtain ⟨j, hj⟩ := h; simp at hj
  | cons b l ih =>
    unfold skip
    cases b with
    | false => exact ⟨0, by simp, rfl, by omega⟩
    | true =>
      obtain ⟨j, hj⟩ := h
      cases j with
      | zero => simp at hj
      | succ j =>
        obtain ⟨j', h1, h2, h3⟩ := ih (i + 1) ⟨j, hj⟩
        refine ⟨j' + 1, by simp [h1]; omega, h2, ?_⟩
        intro k hk
        cases k with
        | zero => rfl
        | succ k => exact h3 k (by omega)

/-- A restart finds the first node not discovered. -/
theorem restart_spec {findAll : Bool} {start : Nat} {st : Trav Q} {known : List Nat}
    (hfa : findAll = true) (hd : st.discovered = bits N known) (h0 : st.num ≠ 0) (hre : ∀ i < st.restart, i ∈ known)
    (hN : ∃ i, i < N ∧ i ∉ known) :
    ∃ r, restartIndex findAll start st = .ok r ∧ r < N ∧ r ∉ known ∧ ∀ i < r, i ∈ known := by
  unfold restartIndex
  rw [if_pos (by simp [hfa, h0])]
  obtain ⟨i, hi, hik⟩ := hN
  have hir : st.restart ≤ i := by
    by_contra hc
    exact hik (hre i (by omega))
  have hget : ∀ j, (st.discovered.drop st.restart)[j]? = (bits N known)[st.restart + j]? := by
    intro j; rw [hd, List.getElem?_drop]
  obtain ⟨j, h1, h2, h3⟩ := skip_spec (st.discovered.drop st.restart) st.restart
    ⟨i - st.restart, by rw [hget, bits_get N _ (by omega)]; simp [show st.restart + (i - st.restart) = i by omega, hik]⟩
  rw [hget] at h2
  have hlt : st.restart + j < N := by
    by_contra hc
    rw [List.getElem?_eq_none (by simp; omega)] at h2
    cases h2
  rw [bits_get N _ hlt] at h2
  refine ⟨st.restart + j, h1, hlt, by simpa using h2, ?_⟩
  intro k hk
  by_cases hkr : k < st.restart
  · exact hre k hkr
  · have := h3 (k - st.restart) (by omega)
    rw [hget, bits_get N _ (by omega), show st.restart + (k - st.restart) = k by omega] at this
    simpa using this

theorem phase_spec (hc : Obeys c N D R) (hD : D.Bag) (rule : LoopRule E) (rev : Bool) {s : Edges E} (hN : s.length = N)
    (hs : InRange s) (findAll : Bool) (start r : Nat) (fuel : Nat) (hf : N ≤ fuel) (st : Trav Q) (K : List Nat)
    (hr : restartIndex findAll start st = .ok r) (hrN : r < N) (hrK : r ∉ K) (hK : Closed s K) (hnd : K.Nodup)
    (hlt : ∀ x ∈ K, x < N) (hq : R st.queue []) (hd : st.discovered = bits N K) (hp : st.processed = bits N K)
    (hnum : st.num = K.length) :
    ∃ q seg, phase c rule rev findAll s start fuel st =
        .ok (some { queue := q, discovered := bits N (K ++ seg), processed := bits N (K ++ seg), num := (K ++ seg).length,
                    restart := if findAll && st.num != 0 then r else st.restart,
                    events := st.events ++ blocks rule rev s K seg }) ∧
      (∃ known', Run D (tgtsOf rev s) (K ++ [r]) [r] seg known') ∧ SearchFrom s AnyOrder K r seg ∧ R q [] ∧
      Closed s (K ++ seg) ∧ (K ++ seg).Nodup ∧ (∀ x ∈ K ++ seg, x < N) := by
  unfold phase
  rw [hr]
  simp only [Res.bind]
  obtain ⟨q₁, l₁, f1, f2, f3⟩ := hc.push r hq (by simp; omega)
  have hl1 : l₁ = [r] := List.perm_singleton.1 (hD.push f2)
  subst hl1
  rw [f1]
  simp only
  rw [if_pos (by rw [hd]; simpa using hrN)]
  obtain ⟨q, seg, known', e1, e2, e3, e4⟩ := whileLoop_spec hc hD rule rev hN hs fuel K
    { st with queue := q₁, discovered := st.discovered.set r true, num := st.num + 1,
              restart := if findAll && st.num != 0 then r else st.restart } (K ++ [r]) [r] f3
    (by simp only [hd]; exact bits_set _ _ _) hp (by simp [hnum]) (.refl _)
    (by
      rw [List.nodup_append]
      exact ⟨hnd, by simp, by rintro a ha b hb rfl; simp at hb; subst hb; exact hrK ha⟩)
    (by
      intro x hx
      rcases List.mem_append.1 hx with hx | hx
      · exact hlt x hx
      · simp at hx; omega) (by omega)
  obtain ⟨g1, g2, g3, g4⟩ := run_search hD hK hrK hnd e2
  refine ⟨q, seg, ?_, ⟨known', e2⟩, g1, e3, g2, g4, fun x hx => e4 x (g3.mem_iff.2 hx)⟩
  rw [e1]
  have : bits N known' = bits N (K ++ seg) := by
    unfold bits
    apply List.map_congr_left
    intro i _
    simp only [g3.mem_iff]
  simp only [this, g3.length_eq]

theorem blocks_append (rule : LoopRule E) (rev : Bool) (s : Edges E) (K a b : List Nat) :
    blocks rule rev s K (a ++ b) = blocks rule rev s K a ++ blocks rule rev s (K ++ a) b := by
  induction a generalizing K with
  | nil => simp [blocks]
  | cons x a ih => simp [blocks, ih]

theorem full_of_length {K : List Nat} (hnd : K.Nodup) (hlt : ∀ x ∈ K, x < N) : K.length = N ↔ ∀ n, n < N → n ∈ K := by
  have h1 : K.Subperm (List.range N) := List.Nodup.subperm hnd fun x hx => List.mem_range.2 (hlt x hx)
  constructor
  · intro h n hn
    have := h1.perm_of_length_le (by simp [h])
    exact this.mem_iff.2 (List.mem_range.2 hn)
  · intro h
    have h2 : (List.range N).Subperm K := List.Nodup.subperm List.nodup_range fun x hx => h x (List.mem_range.1 hx)
    have a := h1.length_le
    have b := h2.length_le
    simp at a b
    omega

/-- The order of visits of abstract runs satisfies `Ord`. -/
def Orders (D : Discipline) (rev : Bool) (s : Edges E) (Ord : List Nat → Nat → List Nat → Prop) : Prop :=
  ∀ K seg known' r, Closed s K → r ∉ K → K.Nodup → Run D (tgtsOf rev s) (K ++ [r]) [r] seg known' → Ord K r seg

theorem doLoop_all (hc : Obeys c N D R) (hD : D.Bag) (rule : LoopRule E) (rev : Bool) {s : Edges E} (hN : s.length = N)
    (hs : InRange s) {Ord : List Nat → Nat → List Nat → Prop} (hOrd : Orders D rev s Ord)
    (start r : Nat) (fuel : Nat) (hf : N ≤ fuel) (rounds : Nat) (st : Trav Q) (K : List Nat) (hrounds : N ≤ rounds + K.length)
    (hr : restartIndex true start st = .ok r) (hrN : r < N) (hrK : r ∉ K) (hK : Closed s K) (hnd : K.Nodup)
    (hlt : ∀ x ∈ K, x < N) (hq : R st.queue []) (hd : st.discovered = bits N K) (hp : st.processed = bits N K)
    (hnum : st.num = K.length) (hre : st.num ≠ 0 → ∀ i < r, i ∈ K) (hre0 : st.num = 0 → st.restart = 0) :
    ∃ st' segs, doLoop c rule rev true s start fuel rounds st = .ok (some st') ∧
      st'.events = st.events ++ blocks rule rev s K segs.flatten ∧ Searches s Ord K r segs := by
  induction rounds generalizing st K r with
  | zero =>
    exfalso
    have := List.Subperm.length_le (List.Nodup.subperm (l₁ := K ++ [r]) (l₂ := List.range N) (by
      rw [List.nodup_append]
      exact ⟨hnd, by simp, by rintro a ha b hb rfl; simp at hb; subst hb; exact hrK ha⟩) (by
      intro x hx
      rw [List.mem_range]
      rcases List.mem_append.1 hx with hx | hx
      · exact hlt x hx
      · simp at hx; omega))
    simp at this
    omega
  | succ rounds ih =>
    obtain ⟨q, seg, e1, ⟨known', e2⟩, e3, e4, e5, e6, e7⟩ := phase_spec hc hD rule rev hN hs true start r fuel hf st K hr hrN
      hrK hK hnd hlt hq hd hp hnum
    have hS : SearchFrom s Ord K r seg := ⟨e3.1, e3.2.1, e3.2.2.1, hOrd K seg known' r hK hrK hnd e2⟩
    have hrs : r ∈ seg := (e3.2.2.1 r).2 ⟨⟨0, .refl⟩, hrK⟩
    unfold doLoop
    rw [e1]
    simp only [Res.bind]
    by_cases hfull : (K ++ seg).length = N
    · rw [if_pos (by simp only [hN, hfull]; simp)]
      refine ⟨_, [seg], rfl, by simp, hS, .inl ⟨?_, rfl⟩⟩
      rw [hN]
      exact (full_of_length e6 e7).1 hfull
    · rw [if_neg (by simp only [hN]; simp at hfull ⊢; exact hfull)]
      have hex : ∃ i, i < N ∧ i ∉ K ++ seg := by
        by_contra hc'
        apply hfull
        rw [full_of_length e6 e7]
        intro n hn
        by_contra hn'
        exact hc' ⟨n, hn, hn'⟩
      have hnum' : (K ++ seg).length ≠ 0 := by
        have := List.length_pos_of_mem hrs
        rw [List.length_append]; omega
      obtain ⟨r', i1, i2, i3, i4⟩ := restart_spec (start := start)
        (st := { queue := q, discovered := bits N (K ++ seg), processed := bits N (K ++ seg), num := (K ++ seg).length,
                 restart := if true && st.num != 0 then r else st.restart,
                 events := st.events ++ blocks rule rev s K seg }) (findAll := true) rfl rfl hnum'
        (by
          intro i hi
          by_cases h0 : st.num = 0
          · simp [h0, hre0 h0] at hi
          · simp [h0] at hi
            exact List.mem_append_left _ (hre h0 i hi))
        hex
      obtain ⟨st', segs, j1, j2, j3⟩ := ih r' _ (K ++ seg)
        (by have := List.length_pos_of_mem hrs; simp; omega) i1 i2 i3 e5 e6 e7 e4 rfl rfl rfl (fun _ => i4)
        (fun h => absurd h hnum')
      refine ⟨st', seg :: segs, j1, ?_, hS, .inr ⟨r', by omega, i3, i4, j3⟩⟩
      rw [j2]
      simp [blocks_append]

theorem traverse_spec (hc : Obeys c N D R) (hD : D.Bag) (rule : LoopRule E) (rev : Bool) {s : Edges E} (hN : s.length = N)
    (hs : InRange s) {Ord : List Nat → Nat → List Nat → Prop} (hOrd : Orders D rev s Ord)
    (start : Nat) (hstart : start < N) (fuel : Nat) (hf : N ≤ fuel) :
    ∃ seg, traverse c rule rev false s start fuel = .ok (some (blocks rule rev s [] seg)) ∧
      SearchFrom s Ord [] start seg ∧ ∃ known', Run D (tgtsOf rev s) [start] [start] seg known' := by
  have hcl : Closed s ([] : List Nat) := by intro a ha; simp at ha
  obtain ⟨q, seg, e1, ⟨known', e2⟩, e3, _⟩ := phase_spec hc hD rule rev hN hs false start start fuel hf
    ⟨c.init, List.replicate s.length false, List.replicate s.length false, 0, 0, []⟩ [] rfl hstart (by simp) hcl (by simp)
    (by simp) hc.init (by simp only [hN, bits_nil]) (by simp only [hN, bits_nil]) rfl
  refine ⟨seg, ?_, ⟨e3.1, e3.2.1, e3.2.2.1, hOrd _ _ _ _ hcl (by simp) (by simp) e2⟩, known', by simpa using e2⟩
  unfold traverse
  rw [if_pos (by omega)]
  cases fuel with
  | zero => omega
  | succ fuel =>
    unfold doLoop
    rw [e1]
    simp [Res.bind]

theorem traverse_all_spec (hc : Obeys c N D R) (hD : D.Bag) (rule : LoopRule E) (rev : Bool) {s : Edges E} (hN : s.length = N)
    (hs : InRange s) {Ord : List Nat → Nat → List Nat → Prop} (hOrd : Orders D rev s Ord)
    (start : Nat) (hstart : start < N) (fuel : Nat) (hf : N ≤ fuel) :
    ∃ segs, traverse c rule rev true s start fuel = .ok (some (blocks rule rev s [] segs.flatten)) ∧
      Searches s Ord [] start segs := by
  have hcl : Closed s ([] : List Nat) := by intro a ha; simp at ha
  obtain ⟨st', segs, e1, e2, e3⟩ := doLoop_all hc hD rule rev hN hs hOrd start start fuel hf fuel
    ⟨c.init, List.replicate s.length false, List.replicate s.length false, 0, 0, []⟩ [] (by simpa using hf) rfl hstart (by simp)
    hcl (by simp) (by simp) hc.init (by simp only [hN, bits_nil]) (by simp only [hN, bits_nil]) rfl (by simp) (fun _ => rfl)
  refine ⟨segs, ?_, e3⟩
  unfold traverse
  rw [if_pos (by omega), e1]
  simp [Res.bind, e2]

end

end Verif.Graph
