import Verif.Spec.Containers
import Verif.Lemmas.Heap

namespace Verif.Static
open Verif.Spec
variable {α : Type} {N : Nat}

/-! ### stack -/

/-- The logical contents of a stack. -/
def Stack.contents (s : Stack α N) : List α := s.data.toList.take s.e

def StackR (s : Stack α N) (l : List α) : Prop := s.e ≤ N ∧ s.contents = l

theorem take_set_succ (l : List α) (k : Nat) (h : k < l.length) (a : α) : (l.set k a).take (k + 1) = l.take k ++ [a] := by
  rw [List.take_add_one, List.take_set_of_le (by omega)]
  simp [h]

theorem Stack.sim (s : Stack α N) (l : List α) (o : StackOp α) (h : StackR s l) :
    OutRel StackR (s.step o) (stackStep N l o) := by
  obtain ⟨he, rfl⟩ := h
  have hlen : s.contents.length = s.e := by simp [Stack.contents]; omega
  cases o with
  | push a =>
    simp only [Stack.step, stackStep, hlen]
    by_cases hN : s.e = N
    · rw [if_pos hN, if_pos hN]; exact ⟨he, rfl⟩
    · rw [if_neg hN, if_neg hN, dif_pos (by omega)]
      refine ⟨⟨by show s.e + 1 ≤ N; omega, ?_⟩, rfl⟩
      simp only [Stack.contents, Vector.toList_set]
      exact take_set_succ _ _ (by simp; omega) _
  | pop =>
    simp only [Stack.step, stackStep]
    by_cases hz : s.e = 0
    · rw [if_pos hz, if_pos (by apply List.eq_nil_of_length_eq_zero; omega)]; trivial
    · rw [if_neg hz, if_neg (by intro hc; rw [hc] at hlen; simp at hlen; omega)]
      refine ⟨⟨by show s.e - 1 ≤ N; omega, ?_⟩, rfl⟩
      simp only [Stack.contents, List.dropLast_eq_take, List.take_take]
      congr 1
      simp; omega
  | top =>
    simp only [Stack.step, stackStep]
    by_cases hz : s.e = 0
    · have : s.contents = [] := by apply List.eq_nil_of_length_eq_zero; omega
      rw [if_pos hz, this]; trivial
    · rw [if_neg hz, dif_pos (by omega)]
      have : s.contents.getLast? = some (s.data[s.e - 1]'(by omega)) := by
        rw [List.getLast?_eq_getElem?, hlen]
        simp only [Stack.contents, List.getElem?_take]
        rw [if_pos (by omega)]; simp
      rw [this]; exact ⟨⟨he, rfl⟩, rfl⟩
  | size => simp only [Stack.step, stackStep, hlen]; exact ⟨⟨he, rfl⟩, rfl⟩
  | empty =>
    simp only [Stack.step, stackStep]
    refine ⟨⟨he, rfl⟩, ?_⟩
    congr 1
    rw [Bool.eq_iff_iff]
    simp only [beq_iff_eq, List.isEmpty_iff, ← List.length_eq_zero_iff, hlen]

theorem toArray_ok (dflt : α) (l : List α) (h : l.length ≤ N) :
    ∃ v : Vector α N, toArray dflt N l = .ok v ∧ v.toList = l ++ List.replicate (N - l.length) dflt := by
  unfold toArray
  rw [if_neg (by omega)]
  refine ⟨_, rfl, ?_⟩
  apply List.ext_getElem?
  intro i
  by_cases hi : i < N
  · rw [List.getElem?_append]
    by_cases hl : i < l.length
    · simp [hi, hl]
    · simp only [hl, if_false]
      rw [List.getElem?_replicate, if_pos (by omega)]
      simp [hi, hl]
  · simp [hi]; omega

/-! ### queue -/

/-- The queue `q` represents the list `l`, oldest first. -/
def QueueR (q : Queue α N) (l : List α) : Prop :=
  (l = [] ∧ q.front = N ∧ q.back = N) ∨
  (0 < l.length ∧ l.length ≤ N ∧ q.front < N ∧ q.back = (q.front + (l.length - 1)) % N ∧
    ∀ i (hi : i < l.length) (h : (q.front + i) % N < N), q.data[(q.front + i) % N] = l[i])

theorem mod_cases (f k N : Nat) (hf : f < N) (hk : k < N) :
    (f + k < N ∧ (f + k) % N = f + k) ∨ (N ≤ f + k ∧ (f + k) % N = f + k - N) := by
  by_cases h : f + k < N
  · exact .inl ⟨h, Nat.mod_eq_of_lt h⟩
  · right
    refine ⟨by omega, ?_⟩
    rw [Nat.mod_eq_sub_mod (by omega), Nat.mod_eq_of_lt (by omega)]

theorem QueueR.size {q : Queue α N} {l : List α} (h : QueueR q l) : q.size = l.length := by
  unfold Queue.size
  rcases h with ⟨rfl, hf, hb⟩ | ⟨h0, hN, hf, hb, hd⟩
  · rw [if_pos hf]; rfl
  · rw [if_neg (by omega)]
    rcases mod_cases q.front (l.length - 1) N hf (by omega) with ⟨h1, h2⟩ | ⟨h1, h2⟩
    · rw [hb, h2, if_pos (by omega)]; omega
    · rw [hb, h2, if_neg (by omega)]; omega

theorem Queue.sim (q : Queue α N) (l : List α) (o : QueueOp α) (h : QueueR q l) :
    OutRel QueueR (q.step o) (queueStep N l o) := by
  have hsz := h.size
  cases o with
  | push a =>
    simp only [Queue.step, queueStep, Queue.push, hsz]
    by_cases hN0 : 0 < N
    · rw [if_pos hN0]
      by_cases hl : l.length = N
      · rw [if_pos hl, if_pos hl]; exact h
      · rw [if_neg hl, if_neg hl]
        rcases h with ⟨rfl, hf, hb⟩ | ⟨h0, hN, hf, hb, hd⟩
        · simp only [hf, if_true, dif_pos hN0]
          refine ⟨.inr ⟨by simp, by simp; omega, hN0, by simp, ?_⟩, rfl⟩
          intro i hi hh
          have : i = 0 := by simpa using hi
          subst this
          simp
        · have hfN : q.front ≠ N := by omega
          have hbb : (q.back + 1) % N = (q.front + l.length) % N := by
            rw [hb, Nat.mod_add_mod]; congr 1; omega
          have hlt : (q.back + 1) % N < N := Nat.mod_lt _ hN0
          simp only [hfN, if_false, dif_pos hlt]
          refine ⟨.inr ⟨by simp, by simp; omega, hf, ?_, ?_⟩, rfl⟩
          · simp [hbb]
          · intro i hi hh
            simp only [List.length_append, List.length_singleton] at hi
            simp only [Vector.getElem_set, hbb]
            rw [List.getElem_append]
            by_cases hil : i < l.length
            · rw [dif_pos hil, if_neg]
              · exact hd i hil hh
              · intro hc
                rcases mod_cases q.front i N hf (by omega) with ⟨h1, h2⟩ | ⟨h1, h2⟩ <;>
                rcases mod_cases q.front l.length N hf (by omega) with ⟨h3, h4⟩ | ⟨h3, h4⟩ <;> omega
            · have : i = l.length := by omega
              subst this
              simp
    · rw [if_neg hN0]
      rcases h with ⟨rfl, hf, hb⟩ | ⟨h0, hN, hf, hb, hd⟩
      · rw [if_pos (by simp; omega)]; exact .inl ⟨rfl, hf, hb⟩
      · omega
  | pop =>
    simp only [Queue.step, queueStep]
    rcases h with ⟨rfl, hf, hb⟩ | ⟨h0, hN, hf, hb, hd⟩
    · rw [if_pos (by omega)]; exact ⟨.inl ⟨rfl, rfl, rfl⟩, rfl⟩
    · by_cases h1 : l.length = 1
      · rw [if_pos (by rw [hb, h1]; simp [Nat.mod_eq_of_lt hf])]
        refine ⟨.inl ⟨?_, rfl, rfl⟩, rfl⟩
        apply List.eq_nil_of_length_eq_zero; simp; omega
      · have hne : q.front ≠ q.back := by
          rw [hb]
          rcases mod_cases q.front (l.length - 1) N hf (by omega) with ⟨h2, h3⟩ | ⟨h2, h3⟩ <;> omega
        rw [if_neg hne]
        have hlt : (q.front + 1) % N < N := Nat.mod_lt _ (by omega)
        refine ⟨.inr ⟨by simp; omega, by simp; omega, hlt, ?_, ?_⟩, rfl⟩
        · show q.back = ((q.front + 1) % N + _) % N
          rw [Nat.mod_add_mod, hb]; congr 1; simp; omega
        · intro i hi hh
          have he : ((q.front + 1) % N + i) % N = (q.front + (i + 1)) % N := by
            rw [Nat.mod_add_mod]; congr 1; omega
          simp only [he]
          rw [List.getElem_tail]
          have := List.length_tail (l := l)
          exact hd (i + 1) (by omega) (Nat.mod_lt _ (by omega))
  | front =>
    simp only [Queue.step, queueStep]
    rcases h with ⟨rfl, hf, hb⟩ | ⟨h0, hN, hf, hb, hd⟩
    · rw [dif_neg (by omega)]; trivial
    · rw [dif_pos hf]
      have he := hd 0 h0 (Nat.mod_lt _ (by omega))
      have hm : (q.front + 0) % N = q.front := Nat.mod_eq_of_lt hf
      simp only [hm] at he
      rw [List.head?_eq_getElem?, List.getElem?_eq_getElem h0]
      exact ⟨.inr ⟨h0, hN, hf, hb, hd⟩, by rw [he]⟩
  | back =>
    simp only [Queue.step, queueStep]
    rcases h with ⟨rfl, hf, hb⟩ | ⟨h0, hN, hf, hb, hd⟩
    · rw [dif_neg (by omega)]; trivial
    · have hlt : q.back < N := by rw [hb]; exact Nat.mod_lt _ (by omega)
      rw [dif_pos hlt]
      have he := hd (l.length - 1) (by omega) (Nat.mod_lt _ (by omega))
      simp only [← hb] at he
      rw [List.getLast?_eq_getElem?, List.getElem?_eq_getElem (by omega)]
      exact ⟨.inr ⟨h0, hN, hf, hb, hd⟩, by rw [he]⟩
  | size => simp only [Queue.step, queueStep, hsz]; exact ⟨h, rfl⟩
  | empty =>
    simp only [Queue.step, queueStep]
    refine ⟨h, ?_⟩
    congr 1
    rw [Bool.eq_iff_iff]
    simp only [beq_iff_eq, List.isEmpty_iff]
    rcases h with ⟨rfl, hf, hb⟩ | ⟨h0, hN, hf, hb, hd⟩
    · simp [hf]
    · constructor
      · intro; omega
      · intro hl; subst hl; simp at h0

theorem Queue.eqLoop_spec [BEq α] [LawfulBEq α] (p q : Queue α N) (f g : Nat) (l m : List α)
    (hl : ∀ i (hi : i < l.length) (h : (f + i) % N < N), p.data[(f + i) % N] = l[i])
    (hm : ∀ i (hi : i < m.length) (h : (g + i) % N < N), q.data[(g + i) % N] = m[i])
    (hlen : l.length = m.length) (hf : f < N) (hg : g < N) :
    Queue.eqLoop p q l.length f g = .ok (l == m) := by
  have hN : 0 < N := by omega
  induction l generalizing m f g with
  | nil =>
    cases m with
    | nil => rfl
    | cons => simp at hlen
  | cons a l ih =>
    cases m with
    | nil => simp at hlen
    | cons b m =>
      have h1 := hl 0 (by simp) (Nat.mod_lt _ hN)
      have h2 := hm 0 (by simp) (Nat.mod_lt _ hN)
      simp only [Nat.add_zero, Nat.mod_eq_of_lt hf, Nat.mod_eq_of_lt hg, List.getElem_cons_zero] at h1 h2
      simp only [List.length_cons, Queue.eqLoop, dif_pos hf, dif_pos hg, h1, h2]
      have hrec := ih ((f + 1) % N) ((g + 1) % N) m ?_ ?_ (by simpa using hlen) (Nat.mod_lt _ hN) (Nat.mod_lt _ hN)
      · rw [hrec]
        by_cases hab : a = b
        · subst hab; simp
        · simp [hab]
      · intro i hi h
        have he : ((f + 1) % N + i) % N = (f + (i + 1)) % N := by rw [Nat.mod_add_mod]; congr 1; omega
        simp only [he]
        exact hl (i + 1) (by simp; omega) (Nat.mod_lt _ hN)
      · intro i hi h
        have he : ((g + 1) % N + i) % N = (g + (i + 1)) % N := by rw [Nat.mod_add_mod]; congr 1; omega
        simp only [he]
        exact hm (i + 1) (by simp; omega) (Nat.mod_lt _ hN)

theorem Queue.eq_spec [BEq α] [LawfulBEq α] {p q : Queue α N} {l m : List α} (hp : QueueR p l) (hq : QueueR q m) :
    Queue.eq p q = .ok (l == m) := by
  unfold Queue.eq
  rw [hp.size, hq.size]
  by_cases hN : 0 < N
  · rw [if_pos hN]
    by_cases hlen : l.length = m.length
    · rw [if_neg (by simpa using hlen)]
      rcases hp with ⟨rfl, hf, hb⟩ | ⟨h0, hN', hf, hb, hd⟩
      · have : m = [] := List.eq_nil_of_length_eq_zero hlen.symm
        subst this; rfl
      · rcases hq with ⟨rfl, hf', hb'⟩ | ⟨h0', hN'', hf', hb', hd'⟩
        · simp at hlen; simp [hlen] at h0
        · exact Queue.eqLoop_spec p q _ _ l m hd hd' hlen hf hf'
    · rw [if_pos (by simpa using hlen)]
      congr 1
      symm
      rw [beq_eq_false_iff_ne]
      intro hc; exact hlen (by rw [hc])
  · rw [if_neg hN]
    have h1 : l = [] := by
      rcases hp with ⟨rfl, _⟩ | ⟨h0, hN', _⟩
      · rfl
      · omega
    have h2 : m = [] := by
      rcases hq with ⟨rfl, _⟩ | ⟨h0, hN', _⟩
      · rfl
      · omega
    subst h1 h2; rfl

theorem Stack.eq_spec [BEq α] [LawfulBEq α] {p q : Stack α N} {l m : List α} (hp : StackR p l) (hq : StackR q m) :
    Stack.eq p q = (l == m) := by
  obtain ⟨h1, rfl⟩ := hp
  obtain ⟨h2, rfl⟩ := hq
  unfold Stack.eq
  have e1 : p.contents.length = p.e := by simp [Stack.contents]; omega
  have e2 : q.contents.length = q.e := by simp [Stack.contents]; omega
  rw [Bool.eq_iff_iff]
  simp only [Bool.and_eq_true, beq_iff_eq]
  constructor
  · intro h; exact h.2
  · intro h; exact ⟨by rw [← e1, ← e2, h], h⟩

theorem Stack.mk'_spec (dflt : α) (l : List α) (h : l.length ≤ N) :
    ∃ s : Stack α N, Stack.mk' dflt l = .ok s ∧ StackR s l := by
  obtain ⟨v, hv, hl⟩ := toArray_ok (N := N) dflt l h
  refine ⟨⟨v, l.length⟩, by simp [Stack.mk', hv], h, ?_⟩
  simp [Stack.contents, hl]

theorem Queue.mk'_spec (dflt : α) (l : List α) (h : l.length ≤ N) :
    ∃ q : Queue α N, Queue.mk' dflt l = .ok q ∧ QueueR q l := by
  obtain ⟨v, hv, hl⟩ := toArray_ok (N := N) dflt l h
  refine ⟨_, by simp only [Queue.mk', hv]; rfl, ?_⟩
  by_cases h0 : l.length = 0
  · have : l = [] := List.eq_nil_of_length_eq_zero h0
    subst this
    exact .inl ⟨rfl, by simp, by simp⟩
  · refine .inr ⟨by omega, h, ?_, ?_, ?_⟩
    · simp only [h0, ne_eq, not_false_eq_true, if_true]; omega
    · simp only [h0, ne_eq, not_false_eq_true, if_true, Nat.zero_add]
      rw [Nat.mod_eq_of_lt (by omega)]
    · intro i hi hh
      have : i % N = i := Nat.mod_eq_of_lt (by omega)
      simp only [h0, ne_eq, not_false_eq_true, if_true, Nat.zero_add, this]
      rw [← Vector.getElem_toList (by simp; omega)]
      simp only [hl]
      rw [List.getElem_append_left hi]

/-! ### priority queue -/

/-- The logical contents of a priority queue (in heap order). -/
def PQ.contents (q : PQ α N) : List α := q.data.toList.take q.e

def PQ.Inv (lt : α → α → Bool) (q : PQ α N) : Prop := q.e ≤ N ∧ Heap.IsHeap lt q.data q.e

theorem take_perm {v w : Vector α N} (hp : w.Perm v) (e : Nat) (hs : ∀ k (hk : k < N), e ≤ k → w[k] = v[k]) :
    (w.toList.take e).Perm (v.toList.take e) := by
  have hlp : w.toList.Perm v.toList := Array.perm_iff_toList_perm.1 (Vector.perm_iff_toArray_perm.1 hp)
  have hd : w.toList.drop e = v.toList.drop e := by
    apply List.ext_getElem?
    intro i
    simp only [List.getElem?_drop]
    by_cases hi : e + i < N
    · simp [hi, hs (e + i) hi (by omega)]
    · simp [hi]
  rw [← List.take_append_drop e w.toList, ← List.take_append_drop e v.toList, hd] at hlp
  exact (List.perm_append_right_iff _).1 hlp

theorem PQ.push_spec {lt : α → α → Bool} (hlt : StrictWeak lt) (q : PQ α N) (h : q.Inv lt) (a : α) (hN : q.e < N) :
    ∃ q', q.step lt (.push a) = .ret q' .unit ∧ q'.Inv lt ∧ q'.e = q.e + 1 ∧ q'.contents.Perm (a :: q.contents) := by
  refine ⟨_, by simp only [PQ.step]; rw [if_neg (by omega), dif_pos hN], ⟨by show q.e + 1 ≤ N; omega, ?_⟩, rfl, ?_⟩
  · refine Heap.bubbleUp_heap hlt (Heap.agrees_valComp hlt) _ _ (q.e + 1) hN (by omega) ?_
    have hcp : ∀ i (hi : i < N), i < q.e → (q.data.set q.e a)[i] = q.data[i] := by
      intro i hi hie; rw [Vector.getElem_set, if_neg (by omega)]
    constructor
    · intro i hi hne hn h0
      rw [hcp i hn (by omega), hcp _ (by omega) (by omega)]
      exact h.2 i (by omega) hn h0
    · intro i hi hie h0 hc hi0 hp
      omega
  · refine (take_perm (Heap.bubbleUp_perm _ _ _) (q.e + 1) ?_).trans ?_
    · intro k hk hek; exact Heap.bubbleUp_high _ _ _ k hk (by omega)
    · simp only [Vector.toList_set]
      rw [take_set_succ _ _ (by simp; omega)]
      exact List.perm_append_comm

theorem PQ.push_full {lt : α → α → Bool} (q : PQ α N) (a : α) (hN : q.e = N) : q.step lt (.push a) = .threw q := by
  simp [PQ.step, hN]

theorem PQ.top_spec {lt : α → α → Bool} (hlt : StrictWeak lt) (q : PQ α N) (h : q.Inv lt) (h0 : 0 < q.e) :
    ∃ a, q.step lt .top = .ret q (.elem a) ∧ a ∈ q.contents ∧ ∀ b ∈ q.contents, lt a b = false := by
  have hN : 0 < N := by have := h.1; omega
  refine ⟨q.data[0], by simp only [PQ.step]; rw [dif_pos ⟨h0, hN⟩], ?_, ?_⟩
  · unfold PQ.contents
    rw [List.mem_take_iff_getElem]
    exact ⟨0, by simp; omega, by simp⟩
  · intro b hb
    unfold PQ.contents at hb
    rw [List.mem_take_iff_getElem] at hb
    obtain ⟨i, hi, rfl⟩ := hb
    simp only [Vector.length_toList] at hi
    simp only [Vector.getElem_toList]
    exact h.2.root hlt i (by omega) (by omega)

theorem PQ.pop_spec {lt : α → α → Bool} (hlt : StrictWeak lt) (q : PQ α N) (h : q.Inv lt) (h0 : 0 < q.e) :
    ∃ q' a, q.step lt .pop = .ret q' .unit ∧ q'.Inv lt ∧ q'.e = q.e - 1 ∧ q.step lt .top = .ret q (.elem a) ∧
      q.contents.Perm (a :: q'.contents) := by
  have hN : q.e ≤ N := h.1
  refine ⟨_, q.data[0], by simp only [PQ.step]; rw [dif_pos ⟨h0, hN⟩], ⟨by show q.e - 1 ≤ N; omega, ?_⟩, rfl,
    by simp only [PQ.step]; rw [dif_pos ⟨h0, by omega⟩], ?_⟩
  · exact Heap.makeHeap_heap hlt (Heap.agrees_valComp hlt) _ _ _
  · have hsw : ((q.data.swap 0 (q.e - 1) (by omega) (by omega)).toList.take q.e).Perm q.contents := by
      refine take_perm (Vector.swap_perm _ _) _ ?_
      intro k hk hek
      rw [Vector.getElem_swap, if_neg (by omega), if_neg (by omega)]
    refine hsw.symm.trans ?_
    have hlast : (q.data.swap 0 (q.e - 1) (by omega) (by omega)).toList.take q.e =
        (q.data.swap 0 (q.e - 1) (by omega) (by omega)).toList.take (q.e - 1) ++ [q.data[0]] := by
      have hg : (q.data.swap 0 (q.e - 1) (by omega) (by omega))[q.e - 1] = q.data[0] := Vector.getElem_swap_right ..
      generalize hw : q.data.swap 0 (q.e - 1) (by omega) (by omega) = w at hg
      obtain ⟨m, hm⟩ : ∃ m, q.e = m + 1 := ⟨q.e - 1, by omega⟩
      simp only [hm, Nat.add_sub_cancel] at hg ⊢
      rw [List.take_add_one]
      congr 1
      rw [List.getElem?_eq_getElem (by simp; omega)]
      simp only [Vector.getElem_toList, Option.toList_some, List.cons.injEq, and_true]
      exact hg
    rw [hlast]
    refine (List.perm_append_singleton _ _).trans (List.Perm.cons _ ?_)
    exact (take_perm (Heap.makeHeap_perm _ _ _) _ (fun k hk hek => Heap.makeHeap_high _ _ _ k hk hek)).symm

theorem PQ.init_inv {lt : α → α → Bool} (dflt : α) : (PQ.init dflt : PQ α N).Inv lt :=
  ⟨Nat.zero_le _, fun i hi => by simp [PQ.init] at hi⟩

theorem PQ.step_inv {lt : α → α → Bool} (hlt : StrictWeak lt) (q : PQ α N) (h : q.Inv lt) (o : PQOp α) :
    match q.step lt o with
    | .ret q' _ => q'.Inv lt
    | .threw q' => q' = q
    | .ub => (o = .pop ∨ o = .top) ∧ q.e = 0 := by
  cases o with
  | push a =>
    by_cases hN : q.e = N
    · rw [PQ.push_full q a hN]
    · obtain ⟨q', h1, h2, _⟩ := PQ.push_spec hlt q h a (by have := h.1; omega)
      rw [h1]; exact h2
  | pop =>
    by_cases h0 : 0 < q.e
    · obtain ⟨q', a, h1, h2, _⟩ := PQ.pop_spec hlt q h h0
      rw [h1]; exact h2
    · simp only [PQ.step]; rw [dif_neg (by omega)]; exact ⟨.inl trivial, by omega⟩
  | top =>
    by_cases h0 : 0 < q.e
    · obtain ⟨a, h1, h2⟩ := PQ.top_spec hlt q h h0
      rw [h1]; exact h
    · simp only [PQ.step]; rw [dif_neg (by omega)]; exact ⟨.inr trivial, by omega⟩
  | size => exact h
  | empty => exact h

/-- If no padding value is greater than a listed element, padding never moves. -/
theorem makeHeapLoop_padding {lt : α → α → Bool} (v : Vector α N) (m cur : Nat) (dflt : α)
    (hcm : m ≤ cur) (hcur : cur ≤ N)
    (hpad : ∀ k (hk : k < N), m ≤ k → v[k] = dflt) (hlo : ∀ k (hk : k < N), lt v[k] dflt = false) :
    Heap.makeHeapLoop (Heap.valComp lt) v cur N (Nat.le_refl N) = v := by
  induction hd : N - cur generalizing cur with
  | zero => unfold Heap.makeHeapLoop; rw [dif_neg (by omega)]
  | succ d ih =>
    unfold Heap.makeHeapLoop; rw [dif_pos (by omega)]
    have hb : Heap.bubbleUp (Heap.valComp lt) v cur (by omega) = v := by
      unfold Heap.bubbleUp
      split
      · rfl
      · rw [if_neg]
        simp only [Heap.valComp, Fin.getElem_fin, hpad cur (by omega) hcm]
        simp [hlo]
    rw [hb]
    exact ih _ (by omega) (by omega) (by omega)

theorem makeHeapLoop_split {comp : Heap.PosComp α N} (v : Vector α N) (cur m : Nat) (hcm : cur ≤ m) (hm : m ≤ N) :
    Heap.makeHeapLoop comp v cur N (Nat.le_refl N) =
      Heap.makeHeapLoop comp (Heap.makeHeapLoop comp v cur m hm) m N (Nat.le_refl N) := by
  induction hd : m - cur generalizing cur v with
  | zero =>
    have : cur = m := by omega
    subst this
    rw [show Heap.makeHeapLoop comp v cur cur hm = v by unfold Heap.makeHeapLoop; rw [dif_neg (by omega)]]
  | succ d ih =>
    rw [Heap.makeHeapLoop, dif_pos (by omega), ih _ _ (by omega) (by omega)]
    rw [show Heap.makeHeapLoop comp v cur m hm =
      Heap.makeHeapLoop comp (Heap.bubbleUp comp v cur (by omega)) (cur + 1) m hm by
        conv => lhs; unfold Heap.makeHeapLoop
        rw [dif_pos (by omega)]]

theorem PQ.mk'_spec {lt : α → α → Bool} (hlt : StrictWeak lt) (dflt : α) (l : List α) (h : l.length ≤ N)
    (hd : l.length = N ∨ ∀ a ∈ l, lt a dflt = false) :
    ∃ q : PQ α N, PQ.mk' lt dflt l = .ok q ∧ q.Inv lt ∧ q.contents.Perm l := by
  obtain ⟨v, hv, hl⟩ := toArray_ok (N := N) dflt l h
  refine ⟨_, by simp only [PQ.mk', hv]; rfl, ⟨h, ?_⟩, ?_⟩
  · intro i hi hn h0
    exact Heap.makeHeap_heap hlt (Heap.agrees_valComp hlt) v N (Nat.le_refl N) i hn hn h0
  · suffices hs : ((Heap.makeHeap (Heap.valComp lt) v N (Nat.le_refl N)).toList.take l.length).Perm
        (v.toList.take l.length) by
      simp only [hl, List.take_left'] at hs
      exact hs
    rcases hd with hd | hd
    · refine take_perm (Heap.makeHeap_perm _ _ _) _ ?_
      intro k hk hek; omega
    · refine take_perm (Heap.makeHeap_perm _ _ _) _ ?_
      have hirr : ∀ a, lt a a = false := by
        intro a
        cases e : lt a a with
        | false => rfl
        | true => exact absurd (hlt.asymm _ _ e) (by simp [e])
      have hvpad : ∀ k (hk : k < N), l.length ≤ k → v[k] = dflt := by
        intro k hk hek
        rw [← Vector.getElem_toList (by simpa using hk)]
        simp only [hl]
        rw [List.getElem_append_right hek]
        simp
      have hvlo : ∀ k (hk : k < N), lt v[k] dflt = false := by
        intro k hk
        by_cases hkl : k < l.length
        · have : v[k] = l[k] := by
            rw [← Vector.getElem_toList (by simpa using hk)]
            simp only [hl]
            rw [List.getElem_append_left hkl]
          rw [this]; exact hd _ (List.getElem_mem _)
        · rw [hvpad k hk (by omega)]; exact hirr _
      intro k hk hek
      unfold Heap.makeHeap
      split
      · rfl
      · by_cases hl1 : l.length ≤ 1
        · -- nothing moves at all
          have hall : Heap.makeHeapLoop (Heap.valComp lt) v 1 N (Nat.le_refl N) = v :=
            makeHeapLoop_padding v 1 1 dflt (by omega) (by omega)
              (fun k hk h1 => hvpad k hk (by omega)) hvlo
          rw [hall]
        · rw [makeHeapLoop_split v 1 l.length (by omega) h]
          have hpm := Heap.makeHeapLoop_perm (comp := Heap.valComp lt) v 1 l.length h
          have hhi := fun k hk hek => Heap.makeHeapLoop_high (comp := Heap.valComp lt) v 1 l.length h k hk hek
          rw [makeHeapLoop_padding _ l.length l.length dflt (by omega) h
            (fun k hk h1 => (hhi k hk h1).trans (hvpad k hk h1)) ?_]
          · exact hhi k hk hek
          · intro j hj
            have hmem : (Heap.makeHeapLoop (Heap.valComp lt) v 1 l.length h)[j] ∈ v.toList := by
              refine (Array.perm_iff_toList_perm.1 (Vector.perm_iff_toArray_perm.1 hpm)).mem_iff.1 ?_
              simp
            obtain ⟨i, hi, he⟩ := List.getElem_of_mem hmem
            rw [← he]
            simpa using hvlo i (by simpa using hi)

end Verif.Static
