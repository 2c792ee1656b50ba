import Verif.Spec.EdgeObjects
/-! Edges as objects: the pointers refine the relation of having a weight in common. -/
namespace Verif.EdgeObjects
open Verif.Graph (Mem)
open Verif.Spec.EdgeObjects (View State alone joins assignAll)

variable {W M : Type}

/-- What a user sees of an edge. -/
def view (m : Mem W) (o : Obj M) : View W M := ⟨o.target, o.md, o.ptr.map m.cell⟩

/-- Whether two edges point to the same weight. -/
def tog (l : List (Obj M)) (i j : Nat) : Prop :=
  i = j ∨ ∃ o p a, l[i]? = some o ∧ l[j]? = some p ∧ o.ptr = some a ∧ p.ptr = some a

/-- The relation between the memory and what is expected. -/
structure R (w : World W M) (s : State W M) : Prop where
  edges : s.edges = w.objs.map (view w.mem)
  bound : ∀ (i : Nat) (o : Obj M) (a : Nat), w.objs[i]? = some o → o.ptr = some a → a < w.mem.next
  rel : ∀ i j : Nat, i < w.objs.length → j < w.objs.length → (s.together i j = true ↔ tog w.objs i j)

theorem R.length {w : World W M} {s : State W M} (h : R w s) : s.edges.length = w.objs.length := by rw [h.edges, List.length_map]

theorem R.get {w : World W M} {s : State W M} (h : R w s) (i : Nat) : s.edges[i]? = (w.objs[i]?).map (view w.mem) := by
  rw [h.edges, List.getElem?_map]

theorem view_alloc {m : Mem W} {w : W} {o : Obj M} (h : ∀ a, o.ptr = some a → a < m.next) : view (m.alloc w) o = view m o := by
  unfold view
  cases hp : o.ptr with
  | none => rfl
  | some a =>
    have := h a hp
    simp [Mem.alloc, Nat.ne_of_lt this]

theorem map_alloc {m : Mem W} {l : List (Obj M)} (w : W) (h : ∀ (i : Nat) (o : Obj M) (a : Nat), l[i]? = some o → o.ptr = some a → a < m.next) :
    l.map (view (m.alloc w)) = l.map (view m) := by
  apply List.map_congr_left
  intro o ho
  obtain ⟨i, hi⟩ := List.mem_iff_getElem?.1 ho
  exact view_alloc fun a ha => h i o a hi ha

theorem tog_symm {l : List (Obj M)} {i j : Nat} (h : tog l i j) : tog l j i := by
  rcases h with rfl | ⟨o, p, a, h1, h2, h3, h4⟩
  · exact .inl rfl
  · exact .inr ⟨p, o, a, h2, h1, h4, h3⟩

theorem tog_ne {l : List (Obj M)} {i j : Nat} (hij : i ≠ j) : tog l i j ↔ ∃ o p a, l[i]? = some o ∧ l[j]? = some p ∧ o.ptr = some a ∧ p.ptr = some a :=
  ⟨fun h => h.resolve_left hij, .inr⟩

/-- A list in which nothing but the pointers of edge `n` may be different. -/
theorem tog_of_same {l k : List (Obj M)} {i j : Nat} (h : ∀ x, x = i ∨ x = j → (l[x]?).map Obj.ptr = (k[x]?).map Obj.ptr) : tog l i j ↔ tog k i j := by
  have key : ∀ {l k : List (Obj M)}, (∀ x, x = i ∨ x = j → (l[x]?).map Obj.ptr = (k[x]?).map Obj.ptr) → tog l i j → tog k i j := by
    intro l k h ht
    rcases ht with rfl | ⟨o, p, a, h1, h2, h3, h4⟩
    · exact .inl rfl
    · have e1 := h i (.inl rfl)
      have e2 := h j (.inr rfl)
      rw [h1] at e1; rw [h2] at e2
      obtain ⟨o', ho, ho'⟩ := Option.map_eq_some_iff.1 e1.symm
      obtain ⟨p', hp, hp'⟩ := Option.map_eq_some_iff.1 e2.symm
      exact .inr ⟨o', p', a, ho, hp, by rw [ho', h3], by rw [hp', h4]⟩
  exact ⟨key h, key fun x hx => (h x hx).symm⟩

/-- An edge with a pointer which no other has is on its own. -/
theorem tog_fresh {l : List (Obj M)} {n : Nat} (h : ∀ (o p : Obj M) (a i : Nat), i ≠ n → l[n]? = some o → o.ptr = some a → l[i]? = some p → p.ptr ≠ some a) {i j : Nat} (hij : i = n ∨ j = n) : tog l i j ↔ i = j := by
  constructor
  · rintro (h0 | ⟨o, p, a, h1, h2, h3, h4⟩)
    · exact h0
    · refine Decidable.byContradiction fun hne => ?_
      rcases hij with rfl | rfl
      · exact h o p a j (Ne.symm hne) h1 h3 h2 h4
      · exact h p o a i hne h2 h4 h1 h3
  · exact fun h => .inl h

theorem alone_iff {r : Nat → Nat → Bool} {n i j : Nat} {P : Prop} (h1 : i = n ∨ j = n → (P ↔ i = j)) (h2 : i ≠ n → j ≠ n → (r i j = true ↔ P)) : alone r n i j = true ↔ P := by
  unfold alone
  by_cases h : i = n ∨ j = n
  · rw [if_pos h, beq_iff_eq, h1 h]
  · rw [if_neg h]
    exact h2 (fun e => h (.inl e)) (fun e => h (.inr e))

/-- Adding an edge whose weight is new. -/
theorem R.add {w : World W M} {s : State W M} (h : R w s) (t : Nat) (m : M) (v : W) :
    R ⟨w.mem.alloc v, w.objs ++ [⟨t, m, some w.mem.next⟩]⟩ ⟨s.edges ++ [⟨t, m, some v⟩], alone s.together s.edges.length⟩ := by
  have hl := h.length
  refine ⟨?_, ?_, ?_⟩
  · simp only [List.map_append, List.map_cons, List.map_nil]
    rw [map_alloc v h.bound, h.edges]
    congr 1
    simp [view, Mem.alloc]
  · intro i o a hi ha
    simp only [Mem.alloc]
    rcases Nat.lt_or_ge i w.objs.length with hlt | hge
    · rw [List.getElem?_append_left hlt] at hi
      have := h.bound i o a hi ha; omega
    · rw [List.getElem?_append_right hge] at hi
      rcases hk : i - w.objs.length with _ | k
      · rw [hk] at hi; simp at hi; subst hi; simp at ha; omega
      · rw [hk] at hi; simp at hi
  · intro i j hi hj
    simp only [List.length_append, List.length_cons, List.length_nil] at hi hj
    rw [hl]
    apply alone_iff
    · intro hij
      apply tog_fresh (n := w.objs.length) _ hij
      intro o p a k hk h1 h2 h3 h4
      rw [List.getElem?_append_right (Nat.le_refl _)] at h1
      simp at h1; subst h1; simp at h2; subst h2
      rcases Nat.lt_or_ge k w.objs.length with hlt | hge
      · rw [List.getElem?_append_left hlt] at h3
        have := h.bound k p _ h3 h4; omega
      · rw [List.getElem?_append_right hge] at h3
        have : k - w.objs.length ≠ 0 := by omega
        rcases hk' : k - w.objs.length with _ | k'
        · omega
        · rw [hk'] at h3; simp at h3
    · intro hi' hj'
      rw [h.rel i j (by omega) (by omega)]
      apply tog_of_same
      rintro x (rfl | rfl) <;> rw [List.getElem?_append_left (by omega)]

/-- Assigning to a weight. -/
theorem R.assign {w : World W M} {s : State W M} (h : R w s) {i : Nat} {o : Obj M} {a : Nat} (hi : w.objs[i]? = some o) (ha : o.ptr = some a) (v : W) :
    R ⟨w.mem.write a v, w.objs⟩ (assignAll s i v) := by
  refine ⟨?_, ?_, ?_⟩
  · unfold assignAll
    apply List.ext_getElem?
    intro k
    rw [List.getElem?_mapIdx, h.get, List.getElem?_map]
    cases hk : w.objs[k]? with
    | none => rfl
    | some p =>
      have hlt : i < w.objs.length := (List.getElem?_eq_some_iff.1 hi).1
      have hlt' : k < w.objs.length := (List.getElem?_eq_some_iff.1 hk).1
      have hr := h.rel i k hlt hlt'
      simp only [Option.map_some]
      congr 1
      by_cases hp : p.ptr = some a
      · rw [if_pos (hr.2 (.inr ⟨o, p, a, hi, hk, ha, hp⟩))]
        simp [view, hp, Mem.write]
      · have : ¬ tog w.objs i k := by
          rintro (rfl | ⟨o', p', b, h1, h2, h3, h4⟩)
          · rw [hi] at hk; cases hk; exact hp ha
          · rw [hi] at h1; cases h1; rw [hk] at h2; cases h2
            rw [ha] at h3; cases h3; exact hp h4
        rw [if_neg (by rw [hr]; exact this)]
        unfold view
        cases hq : p.ptr with
        | none => rfl
        | some b =>
          have : b ≠ a := by rintro rfl; exact hp hq
          simp [Mem.write, this]
  · exact h.bound
  · exact h.rel

/-- Changing what is not the pointer of an edge. -/
theorem R.put {w : World W M} {s : State W M} (h : R w s) {i : Nat} {o : Obj M} (hi : w.objs[i]? = some o) (o' : Obj M) (ho : o'.ptr = o.ptr) :
    R ⟨w.mem, w.objs.set i o'⟩ ⟨s.edges.set i (view w.mem o'), s.together⟩ := by
  have hlt : i < w.objs.length := (List.getElem?_eq_some_iff.1 hi).1
  have hp : ∀ x : Nat, ((w.objs.set i o')[x]?).map Obj.ptr = (w.objs[x]?).map Obj.ptr := by
    intro x
    rw [List.getElem?_set]
    split
    · rename_i hx; subst hx; rw [hi]; simp [ho]
    · rfl
  refine ⟨?_, ?_, ?_⟩
  · simp only [h.edges, List.map_set]
  · intro k p a hk ha
    have := hp k
    rw [hk] at this
    obtain ⟨q, hq, hq'⟩ := Option.map_eq_some_iff.1 this.symm
    exact h.bound k q a hq (by rw [hq', ha])
  · intro j k hj hk
    simp only [List.length_set] at hj hk
    rw [h.rel j k hj hk]
    exact tog_of_same fun x _ => (hp x).symm

/-- An edge which uses the weight of another one. -/
theorem R.join {w : World W M} {s : State W M} (h : R w s) {i : Nat} {o : Obj M} (hi : w.objs[i]? = some o) (ho : o.ptr.isSome) (t : Nat) (m : M) :
    R ⟨w.mem, w.objs ++ [⟨t, m, o.ptr⟩]⟩ ⟨s.edges ++ [⟨t, m, (view w.mem o).weight⟩], joins s.together s.edges.length i⟩ := by
  have hl := h.length
  have hlt : i < w.objs.length := (List.getElem?_eq_some_iff.1 hi).1
  refine ⟨?_, ?_, ?_⟩
  · simp only [List.map_append, List.map_cons, List.map_nil, h.edges]
    rfl
  · intro k p a hk ha
    rcases Nat.lt_or_ge k w.objs.length with hlt | hge
    · rw [List.getElem?_append_left hlt] at hk
      exact h.bound k p a hk ha
    · rw [List.getElem?_append_right hge] at hk
      rcases hk' : k - w.objs.length with _ | k'
      · rw [hk'] at hk; simp at hk; subst hk; exact h.bound i o a hi ha
      · rw [hk'] at hk; simp at hk
  · intro j k hj hk
    simp only [List.length_append, List.length_cons, List.length_nil] at hj hk
    unfold joins
    rw [hl]
    have hnew : ((w.objs ++ [⟨t, m, o.ptr⟩] : List (Obj M))[w.objs.length]?).map Obj.ptr = some o.ptr := by simp
    have hp : ∀ x, x < w.objs.length + 1 → ((w.objs ++ [⟨t, m, o.ptr⟩] : List (Obj M))[x]?).map Obj.ptr = (w.objs[if x = w.objs.length then i else x]?).map Obj.ptr := by
      intro x hx
      split
      · rename_i hx; subst hx; rw [hnew, hi]; rfl
      · rw [List.getElem?_append_left (by omega)]
    rw [h.rel _ _ (by split <;> omega) (by split <;> omega)]
    obtain ⟨a, ha⟩ := Option.isSome_iff_exists.1 ho
    constructor
    · rintro (he | ⟨p, q, b, h1, h2, h3, h4⟩)
      · by_cases hjk : j = k
        · exact .inl hjk
        · have hj' := hp j hj
          have hk' := hp k hk
          have hio : (if j = w.objs.length then i else j) = i ∧ (if k = w.objs.length then i else k) = i := by
            split at he <;> split at he <;> (try omega) <;> simp_all
          rw [hio.1, hi] at hj'; rw [hio.2, hi] at hk'
          obtain ⟨p, hp1, hp2⟩ := Option.map_eq_some_iff.1 hj'
          obtain ⟨q, hq1, hq2⟩ := Option.map_eq_some_iff.1 hk'
          exact .inr ⟨p, q, a, hp1, hq1, by rw [hp2, ha], by rw [hq2, ha]⟩
      · have hj' := hp j hj
        have hk' := hp k hk
        rw [h1] at hj'; rw [h2] at hk'
        obtain ⟨p', hp1, hp2⟩ := Option.map_eq_some_iff.1 hj'
        obtain ⟨q', hq1, hq2⟩ := Option.map_eq_some_iff.1 hk'
        exact .inr ⟨p', q', b, hp1, hq1, by rw [hp2, h3], by rw [hq2, h4]⟩
    · rintro (rfl | ⟨p, q, b, h1, h2, h3, h4⟩)
      · exact .inl rfl
      · have hj' := hp j hj
        have hk' := hp k hk
        rw [h1] at hj'; rw [h2] at hk'
        obtain ⟨p', hp1, hp2⟩ := Option.map_eq_some_iff.1 hj'.symm
        obtain ⟨q', hq1, hq2⟩ := Option.map_eq_some_iff.1 hk'.symm
        exact .inr ⟨p', q', b, hp1, hq1, by rw [hp2, h3], by rw [hq2, h4]⟩

/-- An edge takes over what another one points to, which is left with nothing: `f` says where what is now at a place was before, for all places but `i`, which is left with nothing. -/
theorem R.take {w : World W M} {s : State W M} (h : R w s) {i n : Nat} {l : List (Obj M)} {es : List (View W M)} (hi : i < w.objs.length) (hin : i ≠ n)
    (hlen : ∀ x, x < l.length → x = n ∨ x < w.objs.length)
    (hl : ∀ x, x < l.length → x ≠ i → (l[x]?).map Obj.ptr = (w.objs[if x = n then i else x]?).map Obj.ptr)
    (h0 : ∀ o, l[i]? = some o → o.ptr = none) (hes : es = l.map (view w.mem)) :
    R ⟨w.mem, l⟩ ⟨es, alone (joins s.together n i) i⟩ := by
  refine ⟨hes, ?_, ?_⟩
  · intro k p a hk ha
    by_cases hki : k = i
    · subst hki; rw [h0 p hk] at ha; cases ha
    · have := hl k (List.getElem?_eq_some_iff.1 hk).1 hki
      rw [hk] at this
      obtain ⟨q, hq, hq'⟩ := Option.map_eq_some_iff.1 this.symm
      exact h.bound _ q a hq (by rw [hq', ha])
  · intro j k hj hk
    apply alone_iff
    · intro hjk
      apply tog_fresh (n := i) _ hjk
      intro o p a x hx h1 h2 h3 h4
      rw [h0 o h1] at h2; cases h2
    · intro hji hki
      unfold joins
      have hb : ∀ x, x < l.length → (if x = n then i else x) < w.objs.length := by
        intro x hx
        have := hlen x hx
        split <;> omega
      rw [h.rel _ _ (hb j hj) (hb k hk)]
      have hinj : (if j = n then i else j) = (if k = n then i else k) ↔ j = k := by
        by_cases hj' : j = n <;> by_cases hk' : k = n <;> simp [hj', hk'] <;> omega
      have ej := hl j hj hji
      have ek := hl k hk hki
      constructor
      · rintro (he | ⟨p, q, b, h1, h2, h3, h4⟩)
        · exact .inl (hinj.1 he)
        · rw [h1] at ej; rw [h2] at ek
          obtain ⟨p', hp1, hp2⟩ := Option.map_eq_some_iff.1 ej
          obtain ⟨q', hq1, hq2⟩ := Option.map_eq_some_iff.1 ek
          exact .inr ⟨p', q', b, hp1, hq1, by rw [hp2, h3], by rw [hq2, h4]⟩
      · rintro (he | ⟨p, q, b, h1, h2, h3, h4⟩)
        · exact .inl (hinj.2 he)
        · rw [h1] at ej; rw [h2] at ek
          obtain ⟨p', hp1, hp2⟩ := Option.map_eq_some_iff.1 ej.symm
          obtain ⟨q', hq1, hq2⟩ := Option.map_eq_some_iff.1 ek.symm
          exact .inr ⟨p', q', b, hp1, hq1, by rw [hp2, h3], by rw [hq2, h4]⟩

/-- An edge gets a copy of a weight. -/
theorem R.replace {w : World W M} {s : State W M} (h : R w s) {i : Nat} (hi : i < w.objs.length) (t : Nat) (m : M) (v : W) :
    R ⟨w.mem.alloc v, w.objs.set i ⟨t, m, some w.mem.next⟩⟩ ⟨s.edges.set i ⟨t, m, some v⟩, alone s.together i⟩ := by
  have hl := h.length
  refine ⟨?_, ?_, ?_⟩
  · simp only [List.map_set]
    rw [map_alloc v h.bound, h.edges]
    congr 1
    simp [view, Mem.alloc]
  · intro k o a hk ha
    simp only [Mem.alloc]
    by_cases hik : i = k
    · subst hik
      rw [List.getElem?_set_self hi] at hk
      cases hk; simp at ha; omega
    · rw [List.getElem?_set_ne hik] at hk
      have := h.bound k o a hk ha; omega
  · intro j k hj hk
    simp only [List.length_set] at hj hk
    apply alone_iff
    · intro hjk
      apply tog_fresh (n := i) _ hjk
      intro o p a x hx h1 h2 h3 h4
      simp only [List.getElem?_set, hi] at h1
      simp at h1; subst h1; simp at h2; subst h2
      rw [List.getElem?_set_ne (Ne.symm hx)] at h3
      have := h.bound x p _ h3 h4; omega
    · intro hj' hk'
      rw [h.rel j k hj hk]
      apply tog_of_same
      rintro x (rfl | rfl)
      · rw [List.getElem?_set_ne (Ne.symm hj')]
      · rw [List.getElem?_set_ne (Ne.symm hk')]

section
variable [DecidableEq W] [DecidableEq M] (gone : M → M)

/-- Each call shows what is expected of it. -/
theorem shared_sim (w : World W M) (s : State W M) (op : Op W M) (h : R w s) :
    OutRef R (sharedStep gone w op) (Spec.EdgeObjects.step true gone s op) := by
  cases op with
  | create t m v => exact ⟨h.add t m v, rfl⟩
  | copy i =>
    simp only [sharedStep, Spec.EdgeObjects.step, h.get]
    cases hi : w.objs[i]? with
    | none => trivial
    | some o =>
      obtain ⟨t, m, p⟩ := o
      cases p with
      | none => trivial
      | some a => exact ⟨h.add t m _, rfl⟩
  | share t m i =>
    simp only [sharedStep, Spec.EdgeObjects.step, h.get]
    cases hi : w.objs[i]? with
    | none => trivial
    | some o =>
      obtain ⟨t', m', p⟩ := o
      cases p with
      | none => trivial
      | some a => exact ⟨h.join hi rfl t m, rfl⟩
  | move i =>
    simp only [sharedStep, Spec.EdgeObjects.step, h.get]
    cases hi : w.objs[i]? with
    | none => trivial
    | some o =>
      have hlt : i < w.objs.length := (List.getElem?_eq_some_iff.1 hi).1
      refine ⟨?_, rfl⟩
      rw [h.length]
      apply h.take hlt (by omega)
      · intro x hx; simp at hx; omega
      · intro x hx hxi
        simp at hx
        split
        · rename_i hx'; subst hx'
          rw [List.getElem?_append_right (by simp), hi]; simp
        · rw [List.getElem?_append_left (by simp; omega), List.getElem?_set_ne (Ne.symm hxi)]
      · intro o' ho'
        rw [List.getElem?_append_left (by simpa using hlt)] at ho'
        simp [List.getElem?_set, hlt] at ho'
        rw [← ho']
      · rw [h.edges]
        simp [view, List.map_set]
  | copyAssign i j =>
    simp only [sharedStep, Spec.EdgeObjects.step, h.get]
    cases hi : w.objs[i]? with
    | none => trivial
    | some o =>
      cases hj : w.objs[j]? with
      | none => trivial
      | some p =>
        have hlt : i < w.objs.length := (List.getElem?_eq_some_iff.1 hi).1
        simp only [Option.map_some]
        by_cases hij : i = j
        · simp only [if_pos hij]; exact ⟨h, rfl⟩
        · simp only [if_neg hij]
          obtain ⟨t, m, q⟩ := p
          cases q with
          | none => trivial
          | some a => exact ⟨h.replace hlt t m _, rfl⟩
  | moveAssign i j =>
    simp only [sharedStep, Spec.EdgeObjects.step, h.get]
    cases hi : w.objs[i]? with
    | none => trivial
    | some o =>
      cases hj : w.objs[j]? with
      | none => trivial
      | some p =>
        have hlt : i < w.objs.length := (List.getElem?_eq_some_iff.1 hi).1
        have hlj : j < w.objs.length := (List.getElem?_eq_some_iff.1 hj).1
        simp only [Option.map_some]
        by_cases hij : i = j
        · simp only [if_pos hij]; exact ⟨h, rfl⟩
        · simp only [if_neg hij]
          refine ⟨?_, rfl⟩
          apply h.take hlj (fun e => hij e.symm)
          · intro x hx; simp at hx; omega
          · intro x hx hxi
            split
            · rename_i hx'; subst hx'
              rw [hj]; simp [List.getElem?_set, hlt]
            · rename_i hx'
              rw [List.getElem?_set_ne (fun e => hx' e.symm), List.getElem?_set_ne (Ne.symm hxi)]
          · intro o' ho'
            rw [List.getElem?_set_ne hij] at ho'
            simp [List.getElem?_set, hlj] at ho'
            rw [← ho']
          · rw [h.edges, List.set_comm _ _ (fun e => hij e)]
            simp [view, List.map_set]
  | setWeight i v =>
    simp only [sharedStep, Spec.EdgeObjects.step, h.get]
    cases hi : w.objs[i]? with
    | none => trivial
    | some o =>
      obtain ⟨t, m, p⟩ := o
      cases p with
      | none => trivial
      | some a => exact ⟨h.assign hi rfl v, rfl⟩
  | mutateWeight i f =>
    simp only [sharedStep, Spec.EdgeObjects.step, h.get]
    cases hi : w.objs[i]? with
    | none => trivial
    | some o =>
      obtain ⟨t, m, p⟩ := o
      cases p with
      | none => trivial
      | some a => exact ⟨h.assign hi rfl _, rfl⟩
  | weight i =>
    simp only [sharedStep, Spec.EdgeObjects.step, h.get]
    cases hi : w.objs[i]? with
    | none => trivial
    | some o =>
      obtain ⟨t, m, p⟩ := o
      cases p with
      | none => trivial
      | some a => exact ⟨h, rfl⟩
  | setTarget i t =>
    simp only [sharedStep, Spec.EdgeObjects.step, h.get]
    cases hi : w.objs[i]? with
    | none => trivial
    | some o => exact ⟨h.put hi { o with target := t } rfl, rfl⟩
  | target i =>
    simp only [sharedStep, Spec.EdgeObjects.step, h.get]
    cases hi : w.objs[i]? with
    | none => trivial
    | some o => exact ⟨h, rfl⟩
  | setMeta i m =>
    simp only [sharedStep, Spec.EdgeObjects.step, h.get]
    cases hi : w.objs[i]? with
    | none => trivial
    | some o => exact ⟨h.put hi { o with md := m } rfl, rfl⟩
  | metaData i =>
    simp only [sharedStep, Spec.EdgeObjects.step, h.get]
    cases hi : w.objs[i]? with
    | none => trivial
    | some o => exact ⟨h, rfl⟩
  | equal i j =>
    simp only [sharedStep, Spec.EdgeObjects.step, h.get]
    cases hi : w.objs[i]? with
    | none => trivial
    | some o =>
      obtain ⟨t, m, p⟩ := o
      cases hj : w.objs[j]? with
      | none => cases p <;> trivial
      | some o' =>
        obtain ⟨u, n, q⟩ := o'
        cases p with
        | none => trivial
        | some a =>
          cases q with
          | none => trivial
          | some b =>
            refine ⟨h, ?_⟩
            simp only [Val.bool.injEq, Prod.mk.injEq, ← Bool.decide_and]
            exact decide_eq_decide.2 ⟨fun ⟨⟨a, b⟩, c⟩ => ⟨b, c, a⟩, fun ⟨b, c, a⟩ => ⟨⟨a, b⟩, c⟩⟩

end

/-! ### Weights which are members -/

/-- The edges agree, but for weights which have been moved; no two edges have their weight in common. -/
structure V (w : List (VObj W M)) (s : State W M) : Prop where
  len : s.edges.length = w.length
  get : ∀ (i : Nat) (e : View W M), s.edges[i]? = some e → ∃ o : VObj W M, w[i]? = some o ∧ o.target = e.target ∧ o.md = e.md ∧ ∀ v, e.weight = some v → o.weight = v
  rel : ∀ i j : Nat, i < w.length → j < w.length → (s.together i j = true ↔ i = j)

theorem V.none {w : List (VObj W M)} {s : State W M} (h : V w s) {i : Nat} (hi : w[i]? = Option.none) : s.edges[i]? = Option.none := by
  rw [List.getElem?_eq_none_iff] at hi ⊢; have := h.len; omega

theorem V.snoc {w : List (VObj W M)} {s : State W M} (h : V w s) {o : VObj W M} {e : View W M} (h1 : o.target = e.target) (h2 : o.md = e.md) (h3 : ∀ v, e.weight = some v → o.weight = v) :
    V (w ++ [o]) ⟨s.edges ++ [e], alone s.together s.edges.length⟩ := by
  have hl := h.len
  refine ⟨by simp [hl], ?_, ?_⟩
  · intro i e' hi
    rcases Nat.lt_or_ge i w.length with hlt | hge
    · rw [List.getElem?_append_left (by omega)] at hi ⊢
      exact h.get i e' hi
    · have : i = w.length := by
        have := (List.getElem?_eq_some_iff.1 hi).1; simp at this; omega
      subst this
      rw [← hl] at hi; simp at hi; subst hi
      exact ⟨o, by simp, h1, h2, h3⟩
  · intro i j hi hj
    simp at hi hj
    apply alone_iff (fun _ => Iff.rfl)
    intro h1 h2
    exact h.rel i j (by omega) (by omega)

theorem V.set {w : List (VObj W M)} {s : State W M} (h : V w s) (i : Nat) {o : VObj W M} {e : View W M} (h1 : o.target = e.target) (h2 : o.md = e.md) (h3 : ∀ v, e.weight = some v → o.weight = v)
    {r : Nat → Nat → Bool} (hr : ∀ j k : Nat, j < w.length → k < w.length → (r j k = true ↔ j = k)) :
    V (w.set i o) ⟨s.edges.set i e, r⟩ := by
  have hl := h.len
  refine ⟨by simp [hl], ?_, ?_⟩
  · intro k e' hk
    simp only [List.getElem?_set] at hk ⊢
    split
    · rename_i hik; subst hik
      rw [if_pos rfl] at hk
      split at hk
      · rename_i hlt
        rw [if_pos (by omega)]
        cases hk
        exact ⟨o, rfl, h1, h2, h3⟩
      · cases hk
    · rename_i hik
      rw [if_neg hik] at hk
      exact h.get k e' hk
  · intro j k hj hk
    simp at hj hk
    exact hr j k hj hk

theorem alone_rel {r : Nat → Nat → Bool} {n len : Nat} (h : ∀ i j : Nat, i < len → j < len → (r i j = true ↔ i = j)) : ∀ i j : Nat, i < len → j < len → (alone r n i j = true ↔ i = j) := by
  intro i j hi hj
  exact alone_iff (fun _ => Iff.rfl) fun _ _ => h i j hi hj

theorem moved_rel {r : Nat → Nat → Bool} {n i len len' : Nat} (hi : i < len) (hl : ∀ x, x < len' → x = n ∨ x < len) (h : ∀ i j : Nat, i < len → j < len → (r i j = true ↔ i = j)) :
    ∀ j k : Nat, j < len' → k < len' → (alone (joins r n i) i j k = true ↔ j = k) := by
  intro j k hj hk
  apply alone_iff (fun _ => Iff.rfl)
  intro hji hki
  unfold joins
  have hb : ∀ x, x < len' → (if x = n then i else x) < len := by
    intro x hx; have := hl x hx; split <;> omega
  rw [h _ _ (hb j hj) (hb k hk)]
  by_cases hj' : j = n <;> by_cases hk' : k = n <;> simp [hj', hk'] <;> omega

theorem V.assign {w : List (VObj W M)} {s : State W M} (h : V w s) {i : Nat} {o : VObj W M} {e : View W M} (he : s.edges[i]? = some e) (ho : w[i]? = some o) (h1 : o.target = e.target) (h2 : o.md = e.md) (v : W) :
    V (w.set i { o with weight := v }) (assignAll s i v) := by
  have hl := h.len
  have hlt : i < w.length := (List.getElem?_eq_some_iff.1 ho).1
  have hset := h.set i (o := { o with weight := v }) (e := { e with weight := some v }) h1 h2 (by rintro _ ⟨⟩; rfl) h.rel
  have : assignAll s i v = ⟨s.edges.set i { e with weight := some v }, s.together⟩ := by
    unfold assignAll
    congr 1
    apply List.ext_getElem?
    intro k
    rw [List.getElem?_mapIdx, List.getElem?_set]
    by_cases hik : i = k
    · subst hik
      rw [if_pos rfl, if_pos (by omega), he]
      simp only [Option.map_some]
      rw [if_pos ((h.rel i i hlt hlt).2 rfl)]
    · rw [if_neg hik]
      cases hk : s.edges[k]? with
      | none => rfl
      | some e' =>
        have hkl : k < w.length := by rw [← hl]; exact (List.getElem?_eq_some_iff.1 hk).1
        simp only [Option.map_some]
        rw [if_neg (by rw [h.rel i k hlt hkl]; exact hik)]
  rw [this]
  exact hset

theorem value_sim [DecidableEq W] [DecidableEq M] (gone : M → M) (goneW : W → W) (w : List (VObj W M)) (s : State W M) (op : Op W M) (h : V w s) :
    OutRef V (valueStep gone goneW w op) (Spec.EdgeObjects.step false gone s op) := by
  have hl := h.len
  cases op with
  | create t m v => exact ⟨h.snoc rfl rfl (by rintro v' ⟨⟩; rfl), rfl⟩
  | copy i =>
    simp only [valueStep, Spec.EdgeObjects.step]
    cases he : s.edges[i]? with
    | none => cases w[i]? <;> trivial
    | some e =>
      obtain ⟨o, h1, h2, h3, h4⟩ := h.get i e he
      obtain ⟨t, m, v⟩ := e
      rw [h1]
      cases v with
      | none => trivial
      | some v => exact ⟨h.snoc h2 h3 h4, rfl⟩
  | share t m i =>
    simp only [valueStep, Spec.EdgeObjects.step]
    cases he : s.edges[i]? with
    | none => cases w[i]? <;> trivial
    | some e =>
      obtain ⟨o, h1, h2, h3, h4⟩ := h.get i e he
      obtain ⟨t', m', v⟩ := e
      rw [h1]
      cases v with
      | none => trivial
      | some v => exact ⟨h.snoc rfl rfl h4, rfl⟩
  | move i =>
    simp only [valueStep, Spec.EdgeObjects.step]
    cases he : s.edges[i]? with
    | none => cases w[i]? <;> trivial
    | some e =>
      obtain ⟨o, h1, h2, h3, h4⟩ := h.get i e he
      have hlt : i < w.length := (List.getElem?_eq_some_iff.1 h1).1
      rw [h1]
      refine ⟨?_, rfl⟩
      have hset : V (w.set i { o with weight := goneW o.weight, md := gone o.md }) ⟨s.edges.set i { e with weight := none, md := gone e.md }, s.together⟩ :=
        h.set i (o := { o with weight := goneW o.weight, md := gone o.md }) (e := { e with weight := none, md := gone e.md }) h2 (by simp [h3]) (by simp) h.rel
      have := hset.snoc h2 h3 h4
      refine ⟨this.len, this.get, ?_⟩
      rw [hl]
      exact moved_rel hlt (by intro x hx; simp at hx; omega) h.rel
  | copyAssign i j =>
    simp only [valueStep, Spec.EdgeObjects.step]
    cases hei : s.edges[i]? with
    | none => cases w[i]? <;> cases w[j]? <;> trivial
    | some ei =>
      cases hej : s.edges[j]? with
      | none => cases w[i]? <;> cases w[j]? <;> trivial
      | some e =>
        obtain ⟨o, h1, _⟩ := h.get i ei hei
        obtain ⟨p, p1, p2, p3, p4⟩ := h.get j e hej
        simp only [h1, p1]
        by_cases hij : i = j
        · simp only [if_pos hij]; exact ⟨h, rfl⟩
        · simp only [if_neg hij]
          split
          · exact ⟨h.set i p2 p3 p4 (alone_rel h.rel), rfl⟩
          · trivial
  | moveAssign i j =>
    simp only [valueStep, Spec.EdgeObjects.step]
    cases hei : s.edges[i]? with
    | none => cases w[i]? <;> cases w[j]? <;> trivial
    | some ei =>
      cases hej : s.edges[j]? with
      | none => cases w[i]? <;> cases w[j]? <;> trivial
      | some e =>
        obtain ⟨o, h1, _⟩ := h.get i ei hei
        obtain ⟨p, p1, p2, p3, p4⟩ := h.get j e hej
        have hlt : i < w.length := (List.getElem?_eq_some_iff.1 h1).1
        have hlj : j < w.length := (List.getElem?_eq_some_iff.1 p1).1
        simp only [h1, p1]
        by_cases hij : i = j
        · simp only [if_pos hij]; exact ⟨h, rfl⟩
        · simp only [if_neg hij]
          refine ⟨?_, rfl⟩
          rw [List.set_comm _ _ hij]
          have ha : V (w.set j { p with weight := goneW p.weight, md := gone p.md }) ⟨s.edges.set j { e with weight := none, md := gone e.md }, s.together⟩ :=
            h.set j (o := { p with weight := goneW p.weight, md := gone p.md }) (e := { e with weight := none, md := gone e.md }) p2 (by simp [p3]) (by simp) h.rel
          have hb := ha.set i (o := p) (e := e) p2 p3 p4 (r := alone (joins s.together i j) j)
            (by simp only [List.length_set]; exact moved_rel hlj (by intro x hx; omega) h.rel)
          exact hb
  | setWeight i v =>
    simp only [valueStep, Spec.EdgeObjects.step]
    cases he : s.edges[i]? with
    | none => cases w[i]? <;> trivial
    | some e =>
      obtain ⟨o, h1, h2, h3, h4⟩ := h.get i e he
      obtain ⟨t', m', u⟩ := e
      rw [h1]
      cases u with
      | none => trivial
      | some u => exact ⟨V.assign h he h1 h2 h3 v, rfl⟩
  | mutateWeight i f =>
    simp only [valueStep, Spec.EdgeObjects.step]
    cases he : s.edges[i]? with
    | none => cases w[i]? <;> trivial
    | some e =>
      obtain ⟨o, h1, h2, h3, h4⟩ := h.get i e he
      obtain ⟨t', m', u⟩ := e
      rw [h1]
      cases u with
      | none => trivial
      | some u =>
        have := V.assign h he h1 h2 h3 (f u)
        rw [← h4 u rfl] at this ⊢
        exact ⟨this, rfl⟩
  | weight i =>
    simp only [valueStep, Spec.EdgeObjects.step]
    cases he : s.edges[i]? with
    | none => cases w[i]? <;> trivial
    | some e =>
      obtain ⟨o, h1, h2, h3, h4⟩ := h.get i e he
      obtain ⟨t', m', u⟩ := e
      rw [h1]
      cases u with
      | none => trivial
      | some u => exact ⟨h, by rw [h4 u rfl]⟩
  | setTarget i t =>
    simp only [valueStep, Spec.EdgeObjects.step]
    cases he : s.edges[i]? with
    | none => cases w[i]? <;> trivial
    | some e =>
      obtain ⟨o, h1, h2, h3, h4⟩ := h.get i e he
      rw [h1]
      exact ⟨h.set i (o := { o with target := t }) (e := { e with target := t }) rfl h3 h4 h.rel, rfl⟩
  | target i =>
    simp only [valueStep, Spec.EdgeObjects.step]
    cases he : s.edges[i]? with
    | none => cases w[i]? <;> trivial
    | some e =>
      obtain ⟨o, h1, h2, h3, h4⟩ := h.get i e he
      rw [h1]
      exact ⟨h, by rw [h2]⟩
  | setMeta i m =>
    simp only [valueStep, Spec.EdgeObjects.step]
    cases he : s.edges[i]? with
    | none => cases w[i]? <;> trivial
    | some e =>
      obtain ⟨o, h1, h2, h3, h4⟩ := h.get i e he
      rw [h1]
      exact ⟨h.set i (o := { o with md := m }) (e := { e with md := m }) h2 rfl h4 h.rel, rfl⟩
  | metaData i =>
    simp only [valueStep, Spec.EdgeObjects.step]
    cases he : s.edges[i]? with
    | none => cases w[i]? <;> trivial
    | some e =>
      obtain ⟨o, h1, h2, h3, h4⟩ := h.get i e he
      rw [h1]
      exact ⟨h, by rw [h3]⟩
  | equal i j =>
    simp only [valueStep, Spec.EdgeObjects.step]
    cases hei : s.edges[i]? with
    | none => cases w[i]? <;> cases w[j]? <;> trivial
    | some ei =>
      cases hej : s.edges[j]? with
      | none => obtain ⟨_, _, u⟩ := ei; cases u <;> cases w[i]? <;> cases w[j]? <;> trivial
      | some e =>
        obtain ⟨o, o1, o2, o3, o4⟩ := h.get i ei hei
        obtain ⟨p, p1, p2, p3, p4⟩ := h.get j e hej
        obtain ⟨t, m, u⟩ := ei
        obtain ⟨t', m', u'⟩ := e
        rw [o1, p1]
        cases u with
        | none => trivial
        | some u =>
          cases u' with
          | none => trivial
          | some u' =>
            refine ⟨h, ?_⟩
            rw [o2, o3, o4 u rfl, p2, p3, p4 u' rfl]
            simp only [Val.bool.injEq, Prod.mk.injEq, ← Bool.decide_and]
            exact decide_eq_decide.2 ⟨fun ⟨⟨a, b⟩, c⟩ => ⟨b, c, a⟩, fun ⟨b, c, a⟩ => ⟨⟨a, b⟩, c⟩⟩

end Verif.EdgeObjects
