import Verif.Lemmas.TraversalDfs
import Verif.Lemmas.StaticContainers

/-! The containers used for traversals. -/
namespace Verif.Graph
open Verif.Spec EdgeLike Verif.Static

theorem stdQueue_obeys (N : Nat) : Obeys stdQueue N fifo Eq where
  init := rfl
  isEmpty := by rintro q _ rfl; cases q <;> simp [stdQueue]
  push := by rintro q _ a rfl _; exact ⟨_, _, rfl, rfl, rfl⟩
  pop := by
    rintro q _ rfl h
    cases q with
    | nil => exact absurd rfl h
    | cons a q => exact ⟨a, q, q, rfl, rfl, rfl, rfl⟩

theorem stdStack_obeys (N : Nat) : Obeys stdStack N lifo Eq where
  init := rfl
  isEmpty := by rintro q _ rfl; cases q <;> simp [stdStack]
  push := by rintro q _ a rfl _; exact ⟨_, _, rfl, rfl, rfl⟩
  pop := by
    rintro q _ rfl h
    cases q with
    | nil => exact absurd rfl h
    | cons a q => exact ⟨a, q, q, rfl, rfl, rfl, rfl⟩

theorem outRel_ret {σ τ β : Type} {R : σ → τ → Prop} {x : Outcome σ β} {t : τ} {b : β} (h : OutRel R x (.ret t b)) :
    ∃ s, x = .ret s b ∧ R s t := by
  cases x with
  | ret s c => obtain ⟨h1, rfl⟩ := h; exact ⟨s, rfl, h1⟩
  | threw s => exact h.elim
  | ub => exact h.elim

theorem staticQueue_obeys (N : Nat) : Obeys (staticQueue N) N fifo QueueR where
  init := .inl ⟨rfl, rfl, rfl⟩
  isEmpty := by
    intro q l h
    simp only [staticQueue, beq_iff_eq]
    rcases h with ⟨rfl, h, _⟩ | ⟨h0, _, h, _⟩
    · simp [h]
    · constructor
      · intro h'; omega
      · rintro rfl; simp at h0
  push := by
    intro q l a h hl
    have := Queue.sim q l (.push a) h
    simp only [queueStep] at this
    rw [if_neg (by omega)] at this
    obtain ⟨q', h1, h2⟩ := outRel_ret this
    exact ⟨q', _, by simp [staticQueue, h1, stateOf], rfl, h2⟩
  pop := by
    intro q l h hl
    cases l with
    | nil => exact absurd rfl hl
    | cons a l =>
      obtain ⟨q₁, h1, _⟩ := outRel_ret (R := QueueR) (t := a :: l) (b := Static.Val.elem a) (Queue.sim q (a :: l) .front h)
      obtain ⟨q₂, h3, h4⟩ := outRel_ret (R := QueueR) (t := l) (b := (Static.Val.unit : Static.Val Nat)) (Queue.sim q (a :: l) .pop h)
      exact ⟨a, q₂, l, by simp [staticQueue, h1, elemOf], by simp [staticQueue, h3, stateOf], rfl, h4⟩

theorem staticStack_obeys (N : Nat) : Obeys (staticStack N) N lifo (fun q l => StackR q l.reverse) where
  init := ⟨Nat.zero_le _, by simp [staticStack, Stack.contents]⟩
  isEmpty := by
    rintro q l ⟨h1, h2⟩
    simp only [staticStack, beq_iff_eq]
    have : q.contents.length = q.e := by simp [Stack.contents]; omega
    rw [h2] at this
    simp at this
    rw [← this]
    simp
  push := by
    intro q l a h hl
    have := Stack.sim q _ (.push a) h
    simp only [stackStep, List.length_reverse] at this
    rw [if_neg (by omega)] at this
    obtain ⟨q', h1, h2⟩ := outRel_ret this
    exact ⟨q', _, by simp [staticStack, h1, stateOf], rfl, by simpa using h2⟩
  pop := by
    intro q l h hl
    cases l with
    | nil => exact absurd rfl hl
    | cons a l =>
      have e1 := Stack.sim q _ .top h
      have e2 := Stack.sim q _ .pop h
      simp only [stackStep] at e1 e2
      rw [if_neg (by simp)] at e2
      simp only [List.reverse_cons, List.getLast?_append, List.getLast?_singleton, Option.some_or, List.dropLast_concat] at e1 e2
      obtain ⟨q₁, h1, _⟩ := outRel_ret e1
      obtain ⟨q₂, h3, h4⟩ := outRel_ret e2
      exact ⟨a, q₂, l, by simp [staticStack, h1, elemOf], by simp [staticStack, h3, stateOf], rfl, h4⟩

theorem staticPQ_obeys (N : Nat) {lt : Nat → Nat → Bool} (hlt : StrictWeak lt) :
    Obeys (staticPQ lt N) N (byPrio lt) (fun q l => q.Inv lt ∧ l = q.contents) where
  init := ⟨PQ.init_inv 0, by simp [staticPQ, PQ.init, PQ.contents]⟩
  isEmpty := by
    rintro q l ⟨h1, rfl⟩
    have : q.contents.length = q.e := by have := h1.1; simp [PQ.contents]; omega
    simp only [staticPQ, beq_iff_eq, ← this]
    exact List.length_eq_zero_iff
  push := by
    rintro q l a ⟨h1, rfl⟩ hl
    have : q.contents.length = q.e := by have := h1.1; simp [PQ.contents]; omega
    obtain ⟨q', e1, e2, _, e3⟩ := PQ.push_spec hlt q h1 a (by omega)
    exact ⟨q', _, by simp [staticPQ, e1, stateOf], e3, e2, rfl⟩
  pop := by
    rintro q l ⟨h1, rfl⟩ hl
    have : q.contents.length = q.e := by have := h1.1; simp [PQ.contents]; omega
    have h0 : 0 < q.e := by
      rw [← this]
      exact List.length_pos_iff.2 hl
    obtain ⟨q', a, e1, e2, _, e3, e4⟩ := PQ.pop_spec hlt q h1 h0
    obtain ⟨b, f1, _, f3⟩ := PQ.top_spec hlt q h1 h0
    rw [e3] at f1
    cases f1
    exact ⟨a, q', _, by simp [staticPQ, e3, elemOf], by simp [staticPQ, e1, stateOf], ⟨e4, f3⟩, e2, rfl⟩

theorem obeys_of_serves {Q : Type} {c : Container Q} {N : Nat} {best : Nat → List Nat → Prop} (h : Serves best c N) :
    ∃ R, Obeys c N ⟨fun l a l' => l'.Perm (a :: l), fun l a l' => l.Perm (a :: l') ∧ best a l⟩ R := by
  obtain ⟨R, h1, h2, h3, h4⟩ := h
  exact ⟨R, h1, fun {q l} => h2 q l, fun {q l} a hr hl => h3 q l a hr hl, fun {q l} hr hl => by
    obtain ⟨a, q', l', e1, e2, e3, e4, e5⟩ := h4 q l hr hl
    exact ⟨a, q', l', e1, e2, ⟨e3, e4⟩, e5⟩⟩

theorem serves_of_obeys {Q : Type} {c : Container Q} {N : Nat} {D : Discipline} {R : Q → List Nat → Prop} (hD : D.Bag)
    (h : Obeys c N D R) : Serves (fun _ _ => True) c N :=
  ⟨R, h.init, fun _ _ hr => h.isEmpty hr, fun _ _ a hr hl => by
    obtain ⟨q', l', h1, h2, h3⟩ := h.push a hr hl
    exact ⟨q', l', h1, hD.push h2, h3⟩, fun _ _ hr hl => by
    obtain ⟨a, q', l', h0, h1, h2, h3⟩ := h.pop hr hl
    exact ⟨a, q', l', h0, h1, hD.pop h2, trivial, h3⟩⟩

/-! ### Determinism -/

theorem fifo_det : (∀ l a l₁ l₂, fifo.push l a l₁ → fifo.push l a l₂ → l₁ = l₂) ∧
    (∀ l a₁ l₁ a₂ l₂, fifo.pop l a₁ l₁ → fifo.pop l a₂ l₂ → a₁ = a₂ ∧ l₁ = l₂) := by
  refine ⟨fun l a l₁ l₂ h1 h2 => h1.trans h2.symm, fun l a₁ l₁ a₂ l₂ h1 h2 => ?_⟩
  have := h1.symm.trans h2
  exact ⟨(List.cons.inj this).1, (List.cons.inj this).2⟩

theorem lifo_det : (∀ l a l₁ l₂, lifo.push l a l₁ → lifo.push l a l₂ → l₁ = l₂) ∧
    (∀ l a₁ l₁ a₂ l₂, lifo.pop l a₁ l₁ → lifo.pop l a₂ l₂ → a₁ = a₂ ∧ l₁ = l₂) := by
  refine ⟨fun l a l₁ l₂ h1 h2 => h1.trans h2.symm, fun l a₁ l₁ a₂ l₂ h1 h2 => ?_⟩
  have := h1.symm.trans h2
  exact ⟨(List.cons.inj this).1, (List.cons.inj this).2⟩

section
variable {E : Type} [EdgeLike E]

/-- The order is that of an abstract run. -/
def ByRun (D : Discipline) (rev : Bool) (s : Edges E) (K : List Nat) (r : Nat) (seg : List Nat) : Prop :=
  ∃ known', Run D (tgtsOf rev s) (K ++ [r]) [r] seg known'

theorem orders_byRun (D : Discipline) (rev : Bool) (s : Edges E) : Orders D rev s (ByRun D rev s) :=
  fun _ _ known' _ _ _ _ h => ⟨known', h⟩

theorem byRun_unique {D : Discipline} (hD : D.Bag)
    (hdet : (∀ l a l₁ l₂, D.push l a l₁ → D.push l a l₂ → l₁ = l₂) ∧
      (∀ l a₁ l₁ a₂ l₂, D.pop l a₁ l₁ → D.pop l a₂ l₂ → a₁ = a₂ ∧ l₁ = l₂)) {rev : Bool} {s : Edges E} {K : List Nat}
    {r : Nat} {seg seg' : List Nat} (h : ByRun D rev s K r seg) (h' : ByRun D rev s K r seg') : seg = seg' := by
  obtain ⟨k, h⟩ := h
  obtain ⟨k', h'⟩ := h'
  exact (h.unique hdet.1 hdet.2 hD h').1

theorem searches_unique {D : Discipline} (hD : D.Bag)
    (hdet : (∀ l a l₁ l₂, D.push l a l₁ → D.push l a l₂ → l₁ = l₂) ∧
      (∀ l a₁ l₁ a₂ l₂, D.pop l a₁ l₁ → D.pop l a₂ l₂ → a₁ = a₂ ∧ l₁ = l₂)) {rev : Bool} {s : Edges E} {K : List Nat}
    {r : Nat} {segs segs' : List (List Nat)} (h : Searches s (ByRun D rev s) K r segs) (h' : Searches s (ByRun D rev s) K r segs') :
    segs = segs' := by
  induction segs generalizing K r segs' with
  | nil => exact h.elim
  | cons seg segs ih =>
    cases segs' with
    | nil => exact h'.elim
    | cons seg' segs' =>
      obtain ⟨h1, h2⟩ := h
      obtain ⟨h1', h2'⟩ := h'
      have := byRun_unique hD hdet h1.2.2.2 h1'.2.2.2
      subst this
      rcases h2 with ⟨ha, rfl⟩ | ⟨r₁, hr, hm, hall, h3⟩
      · rcases h2' with ⟨_, rfl⟩ | ⟨r₂, hr', hm', _⟩
        · rfl
        · exact absurd (ha r₂ hr') hm'
      · rcases h2' with ⟨ha, rfl⟩ | ⟨r₂, hr', hm', hall', h3'⟩
        · exact absurd (ha r₁ hr) hm
        · have : r₁ = r₂ := by
            rcases Nat.lt_trichotomy r₁ r₂ with h | h | h
            · exact absurd (hall' _ h) hm
            · exact h
            · exact absurd (hall _ h) hm'
          subst this
          rw [ih h3 h3']

/-- The traversals with two containers following the same deterministic discipline are the same. -/
theorem traverse_congr {Q Q' : Type} {c : Container Q} {c' : Container Q'} {D : Discipline} {R : Q → List Nat → Prop}
    {R' : Q' → List Nat → Prop} (hD : D.Bag)
    (hdet : (∀ l a l₁ l₂, D.push l a l₁ → D.push l a l₂ → l₁ = l₂) ∧
      (∀ l a₁ l₁ a₂ l₂, D.pop l a₁ l₁ → D.pop l a₂ l₂ → a₁ = a₂ ∧ l₁ = l₂)) (rule : LoopRule E) (rev findAll : Bool) {s : Edges E}
    (hs : InRange s) (hc : Obeys c s.length D R) (hc' : Obeys c' s.length D R') (start fuel : Nat) (hf : s.length ≤ fuel) :
    traverse c rule rev findAll s start fuel = traverse c' rule rev findAll s start fuel := by
  by_cases hstart : start < s.length
  · cases findAll with
    | false =>
      obtain ⟨seg, h1, _, k, h2⟩ := traverse_spec hc hD rule rev rfl hs (orders_byRun D rev s) start hstart fuel hf
      obtain ⟨seg', h1', _, k', h2'⟩ := traverse_spec hc' hD rule rev rfl hs (orders_byRun D rev s) start hstart fuel hf
      rw [h1, h1', (h2.unique hdet.1 hdet.2 hD h2').1]
    | true =>
      obtain ⟨seg, h1, h2⟩ := traverse_all_spec hc hD rule rev rfl hs (orders_byRun D rev s) start hstart fuel hf
      obtain ⟨seg', h1', h2'⟩ := traverse_all_spec hc' hD rule rev rfl hs (orders_byRun D rev s) start hstart fuel hf
      rw [h1, h1', searches_unique hD hdet h2 h2']
  · unfold traverse
    rw [if_neg hstart, if_neg hstart]

/-! ### Recency -/

theorem PushT.lifo_eq {known ts l l' known' : List Nat} (h : PushT lifo known ts l l' known') :
    ∃ new, l' = new ++ l ∧ (∀ x ∈ new, x ∈ ts ∧ x ∉ known) := by
  induction h with
  | nil => exact ⟨[], by simp⟩
  | old _ _ ih =>
    obtain ⟨new, h1, h2⟩ := ih
    exact ⟨new, h1, fun x hx => ⟨List.mem_cons_of_mem _ (h2 x hx).1, (h2 x hx).2⟩⟩
  | @new known t ts l l₁ l' known' ht hp _ ih =>
    obtain ⟨new, h1, h2⟩ := ih
    subst hp
    refine ⟨new ++ [t], by simp [h1], ?_⟩
    intro x hx
    rcases List.mem_append.1 hx with hx | hx
    · exact ⟨List.mem_cons_of_mem _ (h2 x hx).1, fun h => (h2 x hx).2 (List.mem_append_left _ h)⟩
    · simp at hx
      subst hx
      exact ⟨by simp, ht⟩

theorem run_recency {rev : Bool} {s : Edges E} {K : List Nat} {r : Nat} {known l seg known' p₀ : List Nat}
    (h : Run lifo (tgtsOf rev s) known l seg known') (hperm : known.Perm ((K ++ p₀) ++ l))
    (hdis : ∀ x, Discovered s r p₀ x → x ∈ known) (hl : ∀ x ∈ l, Discovered s r p₀ x)
    (hpw : ∀ p₁, p₁ <+: p₀ → l.Pairwise fun x y => Discovered s r p₁ x → Discovered s r p₁ y) :
    ∀ p a q, seg = p ++ a :: q → ∀ b, b ∉ K ++ (p₀ ++ p) → Discovered s r (p₀ ++ p) b →
      ∀ p₁, p₁ <+: p₀ ++ p → Discovered s r p₁ a → Discovered s r p₁ b := by
  induction h generalizing p₀ with
  | done => intro p a q h; simp at h
  | @step known l a l₁ l₂ known₁ seg known₂ hpop hpush hr ih =>
    have hla : l = a :: l₁ := hpop
    subst hla
    have h1 : known.Perm ((K ++ (p₀ ++ [a])) ++ l₁) := by simpa using hperm
    obtain ⟨new, hnew, hn⟩ := hpush.lifo_eq
    have hnd : ∀ x ∈ new, ∀ p₁, p₁ <+: p₀ → ¬ Discovered s r p₁ x := by
      intro x hx p₁ hp hd
      refine (hn x hx).2 (hdis x ?_)
      rcases hd with h | ⟨n, hn', hl'⟩
      · exact .inl h
      · exact .inr ⟨n, hp.subset hn', hl'⟩
    have hmono : ∀ x, Discovered s r p₀ x → Discovered s r (p₀ ++ [a]) x := by
      rintro x (h | ⟨n, hn', hl'⟩)
      · exact .inl h
      · exact .inr ⟨n, List.mem_append_left _ hn', hl'⟩
    have hl2 : ∀ x ∈ l₂, Discovered s r (p₀ ++ [a]) x := by
      intro x hx
      rw [hnew, List.mem_append] at hx
      rcases hx with hx | hx
      · exact .inr ⟨a, by simp, mem_tgtsOf.1 (hn x hx).1⟩
      · exact hmono x (hl x (List.mem_cons_of_mem _ hx))
    have ih := ih (p₀ := p₀ ++ [a]) (hpush.perm lifo_bag h1) (by
      rintro x (h | ⟨n, hn', hl'⟩)
      · exact (hpush.mem x).2 (.inl (hdis x (.inl h)))
      · rcases List.mem_append.1 hn' with hn' | hn'
        · exact (hpush.mem x).2 (.inl (hdis x (.inr ⟨n, hn', hl'⟩)))
        · simp at hn'
          subst hn'
          exact (hpush.mem x).2 (.inr (mem_tgtsOf.2 hl'))) hl2 (by
      intro p₁ hp
      rcases List.prefix_concat_iff.1 hp with rfl | hp
      · refine List.Pairwise.imp_of_mem (R := fun _ _ => True) (fun {x y} _ hy _ _ => hl2 y hy) ?_
        exact List.pairwise_of_forall fun _ _ => trivial
      · rw [hnew, List.pairwise_append]
        refine ⟨?_, (List.pairwise_cons.1 (hpw p₁ hp)).2, ?_⟩
        · refine List.Pairwise.imp_of_mem (R := fun _ _ => True) (fun {x y} hx _ _ hd => absurd hd (hnd x hx p₁ hp)) ?_
          exact List.pairwise_of_forall fun _ _ => trivial
        · intro x hx y _ hd
          exact absurd hd (hnd x hx p₁ hp))
    intro p x q hq b hb hbd p₁ hp₁ hd
    cases p with
    | nil =>
      simp only [List.nil_append, List.cons.injEq] at hq
      obtain ⟨rfl, rfl⟩ := hq
      simp only [List.append_nil] at hb hbd hp₁
      have hbl := (List.mem_append.1 (hperm.mem_iff.1 (hdis b hbd))).resolve_left hb
      rcases List.mem_cons.1 hbl with rfl | hbl
      · exact hd
      · exact (List.pairwise_cons.1 (hpw p₁ hp₁)).1 b hbl hd
    | cons y p =>
      simp only [List.cons_append, List.cons.injEq] at hq
      obtain ⟨rfl, rfl⟩ := hq
      exact ih p x q rfl b (by simpa using hb) (by simpa using hbd) p₁ (by simpa using hp₁) hd

theorem orders_byRecency (rev : Bool) (s : Edges E) : Orders lifo rev s (ByRecency s) := by
  intro K seg known' r _ _ _ h p a q hq b hb hbd p₁ hp₁
  refine run_recency (K := K) (p₀ := []) (r := r) h (by simp) ?_ ?_ ?_ p a q hq b (by simpa using hb) (by simpa using hbd) p₁
    (by simpa using hp₁)
  · rintro x (rfl | ⟨n, hn, _⟩)
    · simp
    · simp at hn
  · intro x hx
    simp at hx
    exact .inl hx
  · intro p₁ _
    simp

theorem orders_byDistance (rev : Bool) (s : Edges E) : Orders fifo rev s (ByDistance s) :=
  fun _ _ _ _ hK hr hnd h => run_byDistance hK hr hnd h

theorem orders_byPriority (lt : Nat → Nat → Bool) (rev : Bool) (s : Edges E) : Orders (byPrio lt) rev s (ByPriority s lt) :=
  fun _ _ _ _ _ _ _ h => run_byPriority h

theorem orders_any (D : Discipline) (rev : Bool) (s : Edges E) : Orders D rev s AnyOrder := fun _ _ _ _ _ _ _ _ => trivial

/-! ### Depth first -/

theorem traverseDfs_spec {s : Edges E} (hs : InRange s) {start : Nat} (hstart : start < s.length) {fuel : Nat}
    (hf : s.length < fuel) :
    ∃ f : Forest, traverseDfs false s start fuel = .ok (some (treeCalls (start, f))) ∧
      SearchFrom s AnyOrder [] start (treeNodes (start, f)) ∧ f.Valid s start 0 ∧
      NothingMissed s (treeCalls (start, f)) (treeNodes (start, f)) := by
  obtain ⟨f, P, e1, _, e3, e4, e5, _⟩ := dfsPhase_spec (N := s.length) hs rfl false start start fuel (by omega)
    ⟨(), List.replicate s.length false, List.replicate s.length false, 0, 0, []⟩ [] (by simp [restartIndex]) hstart (by simp)
    (by intro a ha; simp at ha) (by simp) (by simp) (by rw [bits_nil]) (by simp) (by simp) (by simp)
  refine ⟨f, ?_, e3, e4, by simpa [treeNodes] using e5⟩
  unfold traverseDfs
  rw [if_pos hstart]
  cases fuel with
  | zero => omega
  | succ k =>
    unfold dfsLoop
    rw [e1]
    simp [Res.bind]

theorem traverseDfs_all_spec {s : Edges E} (hs : InRange s) {start : Nat} (hstart : start < s.length) {fuel : Nat}
    (hf : s.length ≤ fuel) :
    ∃ trees : List (Nat × Forest), traverseDfs true s start fuel = .ok (some (trees.flatMap treeCalls)) ∧
      Searches s AnyOrder [] start (trees.map treeNodes) ∧ (∀ t ∈ trees, t.2.Valid s t.1 0) ∧
      NothingMissed s (trees.flatMap treeCalls) (trees.flatMap treeNodes) := by
  obtain ⟨st', trees, e1, e2, e3, e4, e5⟩ := dfsLoop_all (N := s.length) hs rfl start start fuel hf fuel
    ⟨(), List.replicate s.length false, List.replicate s.length false, 0, 0, []⟩ [] (by simpa using hf) (by simp [restartIndex]) hstart
    (by simp) (by intro a ha; simp at ha) (by simp) (by simp) (by rw [bits_nil]) (by simp) (by simp) (by simp)
    (fun h => absurd rfl h) (fun _ => rfl)
  simp only [List.nil_append] at e2
  rw [e2] at e5
  refine ⟨trees, ?_, e3, e4, e5⟩
  unfold traverseDfs
  rw [if_pos hstart, e1]
  simp [Res.bind, e2]

end
end Verif.Graph
