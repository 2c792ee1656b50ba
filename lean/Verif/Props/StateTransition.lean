import Verif.Lemmas.StateTransition

/-! C82: checks of the transitions between the states of an object. -/
namespace Verif.Props
open Verif.Graph Verif.Text Verif.StateTransition Verif.Spec Verif.Spec.StateTransition

variable {T : Type}

/-- **C82** If no transition throws then the function given by the user is called exactly once for each transition, with the result of applying the transition to the object it starts from, the object it leads to, and a
message with both nodes.  Nodes are dealt with in order of their distance. -/
theorem C82_once {description : Str} {g : TransitionGraph T} (hg : WellFormed g) (hthrow : ∀ i k e p t, Leading g i k e p t → e.weight.fn p ≠ none) {fuel : Nat} (hf : g.edges.length ≤ fuel) :
    ∃ calls ps, check fuel description g = .ok (some (calls, true)) ∧ ps.Perm (transitions g) ∧ Each (fun p c => CallFor description g p.1 p.2 c) ps calls ∧
      (g.edges ≠ [] → ∃ segs, Searches g.edges (ByDistance g.edges) [] 0 segs ∧ ps = segs.flatten.flatMap fun i => (List.range (Spec.degree g.edges i)).map fun k => (i, k)) := by
  obtain ⟨calls, completed, ps, rest, h1, h2, h3, h4, h5, h6⟩ := check_spec (description := description) hg hf
  cases completed with
  | false =>
    obtain ⟨i, k, l, e, p, t, -, hl, hn⟩ := h5 rfl
    exact absurd hn (hthrow i k e p t hl)
  | true =>
    rw [h4 rfl, List.append_nil] at h2 h6
    exact ⟨calls, ps, h1, h2, h3, h6⟩

/-- **C82** The transitions are those of the graph, each of them listed once. -/
theorem C82_transitions (g : TransitionGraph T) : (transitions g).Nodup ∧ ∀ i k, (i, k) ∈ transitions g ↔ ∃ e, edgeAt g.edges i k = some e := by
  refine ⟨transitions_nodup g, fun i k => ?_⟩
  unfold transitions edgeAt Spec.degree
  simp only [List.mem_flatMap, List.mem_range, List.mem_map, Prod.mk.injEq]
  constructor
  · rintro ⟨a, ha, b, hb, rfl, rfl⟩
    rw [List.getElem?_eq_getElem ha] at hb ⊢
    exact ⟨_, List.getElem?_eq_getElem hb⟩
  · rintro ⟨e, he⟩
    cases h : g.edges[i]? with
    | none => rw [h] at he; simp at he
    | some l =>
      rw [h] at he
      obtain ⟨hi, hl⟩ := List.getElem?_eq_some_iff.1 h
      obtain ⟨hk, -⟩ := List.getElem?_eq_some_iff.1 he
      exact ⟨i, hi, k, by rw [h]; exact hk, rfl, rfl⟩

/-- **C82** A function which compares what is obtained with the prediction is content with all calls exactly if each transition leads from the object of its node to that of the node it is directed to. -/
theorem C82_sound {description : Str} {g : TransitionGraph T} (hg : WellFormed g) (hthrow : ∀ i k e p t, Leading g i k e p t → e.weight.fn p ≠ none) {fuel : Nat} (hf : g.edges.length ≤ fuel) :
    ∃ calls, check fuel description g = .ok (some (calls, true)) ∧ ((∀ c ∈ calls, c.obtained = c.prediction) ↔ ∀ i k e p t, Leading g i k e p t → e.weight.fn p = some t) := by
  obtain ⟨calls, ps, h1, h2, h3, -⟩ := C82_once (description := description) hg hthrow hf
  refine ⟨calls, h1, fun h i k e p t hl => ?_, fun h c hc => ?_⟩
  · have hm := h2.mem_iff.2 ((C82_transitions g).2 i k |>.2 ⟨e, hl.1⟩)
    obtain ⟨n, hn⟩ := List.getElem?_of_mem hm
    have hlen : n < calls.length := by rw [← h3.1]; exact (List.getElem?_eq_some_iff.1 hn).1
    obtain ⟨e', hl', hfn, -⟩ := h3.2 n _ _ hn (List.getElem?_eq_getElem hlen)
    have := h _ (List.getElem_mem hlen)
    obtain ⟨l1, l2, l3⟩ := hl
    obtain ⟨m1, m2, m3⟩ := hl'
    rw [l1] at m1; cases m1
    rw [l2] at m2; cases m2
    rw [l3] at m3; cases m3
    rw [hfn, this]
  · obtain ⟨n, hn⟩ := List.getElem?_of_mem hc
    have hlen : n < ps.length := by rw [h3.1]; exact (List.getElem?_eq_some_iff.1 hn).1
    obtain ⟨e, hl, hfn, -⟩ := h3.2 n _ _ (List.getElem?_eq_getElem hlen) hn
    have := h _ _ _ _ _ hl
    rw [hfn] at this
    exact Option.some.inj this

/-- **C82** If transitions throw then the first of them, in the order of traversal, ends the check; those before it have been checked. -/
theorem C82_exception {description : Str} {g : TransitionGraph T} (hg : WellFormed g) (hthrow : ∃ i k e p t, Leading g i k e p t ∧ e.weight.fn p = none) {fuel : Nat} (hf : g.edges.length ≤ fuel) :
    ∃ calls ps i k l e p t, check fuel description g = .ok (some (calls, false)) ∧ (ps ++ (i, k) :: l).Perm (transitions g) ∧ Each (fun p c => CallFor description g p.1 p.2 c) ps calls ∧
      Leading g i k e p t ∧ e.weight.fn p = none := by
  obtain ⟨calls, completed, ps, rest, h1, h2, h3, h4, h5, h6⟩ := check_spec (description := description) hg hf
  cases completed with
  | false =>
    obtain ⟨i, k, l, e, p, t, rfl, hl, hn⟩ := h5 rfl
    exact ⟨calls, ps, i, k, l, e, p, t, h1, h2, h3, hl, hn⟩
  | true =>
    exfalso
    rw [h4 rfl, List.append_nil] at h2
    obtain ⟨i, k, e, p, t, hl, hn⟩ := hthrow
    have hm := h2.mem_iff.2 ((C82_transitions g).2 i k |>.2 ⟨e, hl.1⟩)
    obtain ⟨n, hn'⟩ := List.getElem?_of_mem hm
    have hlen : n < calls.length := by rw [← h3.1]; exact (List.getElem?_eq_some_iff.1 hn').1
    obtain ⟨e', hl', hfn, -⟩ := h3.2 n _ _ hn' (List.getElem?_eq_getElem hlen)
    obtain ⟨l1, l2, -⟩ := hl
    obtain ⟨m1, m2, -⟩ := hl'
    rw [l1] at m1; cases m1
    rw [l2] at m2; cases m2
    rw [hn] at hfn
    exact absurd hfn (by simp)

/-- **C82** The message determines where a transition starts, where it leads and its description. -/
theorem C82_message {description : Str} {g : TransitionGraph T} {i k i' k' : Nat} {c c' : Call T} (h : CallFor description g i k c) (h' : CallFor description g i' k' c') (he : c.message = c'.message) :
    i = i' ∧ c.target = c'.target ∧ ∃ e e', edgeAt g.edges i k = some e ∧ edgeAt g.edges i' k' = some e' ∧ e.weight.description = e'.weight.description := by
  obtain ⟨e, hl, -, -, -, ht, hm⟩ := h
  obtain ⟨e', hl', -, -, -, ht', hm'⟩ := h'
  rw [hm, hm', lines3 _ _ _ (message_ne _ _), lines3 _ _ _ (message_ne _ _)] at he
  obtain ⟨h1, h2, h3⟩ := messageFor_inj he
  exact ⟨h1, by rw [ht, ht', h2], e, e', hl.1, hl'.1, h3⟩

/-- Three states of a number with four transitions, one of which is a loop; node 2 cannot be reached. -/
def transitionsExample : TransitionGraph Nat :=
  ⟨[0, 1, 5], [[⟨1, ⟨"increment".toList, fun n => some (n + 1), .lt⟩, ()⟩, ⟨0, ⟨[], fun n => some (2 * n), .eq⟩, ()⟩], [⟨0, ⟨"reset".toList, fun _ => some 0, .gt⟩, ()⟩], [⟨1, ⟨[], fun n => some (n - 4), .gt⟩, ()⟩]]⟩

example : WellFormed transitionsExample := ⟨rfl, by unfold InRange transitionsExample; simp [EdgeLike.target]⟩

example : ∀ i k e p t, Leading transitionsExample i k e p t → e.weight.fn p ≠ none := by
  rintro i k e p t ⟨h, -, -⟩
  unfold edgeAt transitionsExample at h
  match i, k with
  | 0, 0 => simp at h; subst h; simp
  | 0, 1 => simp at h; subst h; simp
  | 0, k + 2 => simp at h
  | 1, 0 => simp at h; subst h; simp
  | 1, k + 1 => simp at h
  | 2, 0 => simp at h; subst h; simp
  | 2, k + 1 => simp at h
  | i + 3, _ => simp at h

example : ∃ calls, check 3 "Number".toList transitionsExample = .ok (some (calls, true)) ∧ calls.map (fun c => (c.source, c.target, c.obtained, c.prediction, c.ordering)) =
      [(0, 1, 1, 1, .lt), (0, 0, 0, 0, .eq), (1, 0, 0, 0, .gt), (2, 1, 1, 1, .gt)] ∧ calls.map (·.message) =
      ["Number\nTransition from node 0 to 1\nincrement".toList, "Number\nTransition from node 0 to 0".toList, "Number\nTransition from node 1 to 0\nreset".toList, "Number\nTransition from node 2 to 1".toList] :=
  ⟨_, rfl, by decide +kernel, by decide +kernel⟩

end Verif.Props
