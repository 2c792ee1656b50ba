import Verif.Spec.StateTransition
import Verif.Props.Traversal

/- Lemmas on checks of transitions. -/
namespace Verif.StateTransition
open Verif.Graph Verif.Text Verif.Spec Verif.Spec.StateTransition

variable {T : Type}

theorem lines3 (d l w : Str) (hl : l ≠ []) : lines [d, l, w] = appendLines d l w := by
  unfold lines appendLines appendIndented Text.indent
  by_cases hd : d = [] <;> by_cases hw : w = [] <;> simp [hd, hw, hl, List.intercalate, List.intersperse]

theorem message_ne (i j : Nat) : "Transition from node ".toList ++ Nat.toDigits 10 i ++ " to ".toList ++ Nat.toDigits 10 j ≠ [] := by
  intro h
  have := congrArg List.head? h
  rw [show "Transition from node ".toList = 'T' :: "ransition from node ".toList from rfl] at this
  simp at this

theorem edgeFn_spec {description : Str} {g : TransitionGraph T} (hg : WellFormed g) {i k : Nat} (h : (i, k) ∈ transitions g) :
    ∃ e p t, Leading g i k e p t ∧ edgeFn description g i k = .ok ((e.weight.fn p).map fun o =>
      { message := messageFor description i e.target e.weight.description, obtained := o, prediction := t, parent := p, ordering := e.weight.ordering, source := i, target := e.target }) := by
  unfold transitions at h
  simp only [List.mem_flatMap, List.mem_range, List.mem_map, Prod.mk.injEq] at h
  obtain ⟨a, ha, b, hb, rfl, rfl⟩ := h
  unfold Spec.degree at hb
  rw [List.getElem?_eq_getElem ha] at hb
  simp only at hb
  have he : g.edges[a]?.bind (·[b]?) = some (g.edges[a][b]) := by
    rw [List.getElem?_eq_getElem ha]; simp [List.getElem?_eq_getElem hb]
  have ht : g.edges[a][b].target < g.edges.length := hg.2 _ (List.getElem_mem ha) _ (List.getElem_mem hb)
  have hp : g.nodes[a]? = some (g.nodes[a]'(by rw [hg.1]; exact ha)) := List.getElem?_eq_getElem _
  have hq : g.nodes[g.edges[a][b].target]? = some (g.nodes[g.edges[a][b].target]'(by rw [hg.1]; exact ht)) := List.getElem?_eq_getElem _
  refine ⟨_, _, _, ⟨he, hp, hq⟩, ?_⟩
  unfold edgeFn
  rw [he]
  dsimp only
  rw [hp, hq]

/-- The positions reported for edges. -/
def firsts : List Event → List (Nat × Nat)
  | [] => []
  | .first n k :: l => (n, k) :: firsts l
  | _ :: l => firsts l

theorem firsts_append (l m : List Event) : firsts (l ++ m) = firsts l ++ firsts m := by
  induction l with
  | nil => rfl
  | cons e l ih => cases e <;> simp [firsts, ih]

theorem firsts_map (n : Nat) (l : List Nat) : firsts (l.map (.first n ·)) = l.map fun k => (n, k) := by
  induction l with
  | nil => rfl
  | cons e l ih => simp [firsts, ih]

theorem firsts_order (s : Edges (Edge (Transition T) Unit)) (order : List Nat) :
    firsts (order.flatMap fun n => Event.before n :: (inOrder false (List.range (Spec.degree s n))).map (.first n ·) ++ [.after n]) = order.flatMap fun n => (List.range (Spec.degree s n)).map fun k => (n, k) := by
  induction order with
  | nil => rfl
  | cons n l ih =>
    rw [List.flatMap_cons, List.flatMap_cons, firsts_append, ih, firsts_append]
    simp [firsts, firsts_map, inOrder]

theorem each_cons {α β : Type} {R : α → β → Prop} {a : α} {b : β} {l : List α} {m : List β} (h : R a b) (hl : Each R l m) : Each R (a :: l) (b :: m) := by
  refine ⟨by simp [hl.1], fun i x y hx hy => ?_⟩
  cases i with
  | zero => simp at hx hy; subst hx; subst hy; exact h
  | succ i => exact hl.2 i x y (by simpa using hx) (by simpa using hy)

theorem invoke_spec {description : Str} {g : TransitionGraph T} (hg : WellFormed g) (events : List Event) (h : ∀ p ∈ firsts events, p ∈ transitions g) :
    ∃ calls completed ps rest, invoke description g events = .ok (calls, completed) ∧ firsts events = ps ++ rest ∧ Each (fun p c => CallFor description g p.1 p.2 c) ps calls ∧
      (completed = true → rest = []) ∧ (completed = false → ∃ i k l e p t, rest = (i, k) :: l ∧ Leading g i k e p t ∧ e.weight.fn p = none) := by
  induction events with
  | nil => exact ⟨[], true, [], [], rfl, rfl, ⟨rfl, by simp⟩, by simp, by simp⟩
  | cons ev l ih =>
    cases ev with
    | before n => exact ih h
    | after n => exact ih h
    | second n k => exact ih h
    | first n k =>
      obtain ⟨e, p, t, hl, he⟩ := edgeFn_spec (description := description) hg (h (n, k) (by simp [firsts]))
      rw [show firsts (Event.first n k :: l) = (n, k) :: firsts l from rfl]
      cases hfn : e.weight.fn p with
      | none =>
        refine ⟨[], false, [], (n, k) :: firsts l, ?_, rfl, ⟨rfl, by simp⟩, by simp, fun _ => ⟨n, k, _, e, p, t, rfl, hl, hfn⟩⟩
        simp [invoke, he, hfn, Res.bind]
      | some o =>
        obtain ⟨calls, completed, ps, rest, h1, h2, h3, h4, h5⟩ := ih (fun q hq => h q (by simp [firsts, hq]))
        refine ⟨{ message := messageFor description n e.target e.weight.description, obtained := o, prediction := t, parent := p, ordering := e.weight.ordering, source := n, target := e.target } :: calls, completed, (n, k) :: ps, rest, ?_, by rw [h2]; rfl, each_cons ?_ h3, h4, h5⟩
        · simp [invoke, he, hfn, h1, Res.bind]
        · exact ⟨e, hl, hfn, rfl, rfl, rfl, (lines3 _ _ _ (message_ne _ _)).symm⟩

theorem transitions_flat {g : TransitionGraph T} {order : List Nat} (h1 : order.Nodup) (h2 : ∀ n, n ∈ order ↔ n < g.edges.length) :
    (order.flatMap fun n => (List.range (Spec.degree g.edges n)).map fun k => (n, k)).Perm (transitions g) := by
  apply List.Perm.flatMap_right
  refine (List.perm_ext_iff_of_nodup h1 List.nodup_range).2 fun n => ?_
  rw [h2, List.mem_range]

theorem transitions_nodup (g : TransitionGraph T) : (transitions g).Nodup := by
  unfold transitions
  rw [List.nodup_flatMap]
  refine ⟨fun i _ => ?_, ?_⟩
  · rw [List.nodup_iff_pairwise_ne, List.pairwise_map]
    exact List.nodup_range.imp (fun h he => h (by simpa using he))
  · exact List.nodup_range.imp fun {a b} hne x hx hy => by
      simp only [List.mem_map] at hx hy
      obtain ⟨k, -, rfl⟩ := hx
      obtain ⟨k', -, h⟩ := hy
      exact hne (by simpa using (congrArg Prod.fst h).symm)

theorem order_eq {s : Edges (Edge (Transition T) Unit)} {events : List Event} {order segs : List Nat}
    (h : events = order.flatMap fun n => Event.before n :: (inOrder false (List.range (Spec.degree s n))).map (.first n ·) ++ [.after n]) (hn : NodeCalls events segs) : order = segs := by
  have e : events.filter isNodeCall = order.flatMap fun n => [.before n, .after n] := by
    subst h
    clear hn
    induction order with
    | nil => rfl
    | cons n l ih =>
      rw [List.flatMap_cons, List.filter_append, ih, List.flatMap_cons]
      congr 1
      have : ∀ m : List Nat, (m.map (Event.first n ·)).filter isNodeCall = [] := by
        intro m; induction m with
        | nil => rfl
        | cons k m ih => simpa [isNodeCall] using ih
      rw [List.filter_append, List.filter_cons_of_pos rfl, this, List.filter_cons_of_pos rfl, List.filter_nil]
      rfl
  unfold NodeCalls at hn
  rw [e] at hn
  clear e h
  induction order generalizing segs with
  | nil => cases segs with | nil => rfl | cons a l => simp at hn
  | cons n l ih =>
    cases segs with
    | nil => simp at hn
    | cons a m =>
      simp only [List.flatMap_cons, List.cons_append, List.nil_append, List.cons.injEq, Event.before.injEq, true_and] at hn
      rw [hn.1, ih hn.2.2]

theorem check_spec {description : Str} {g : TransitionGraph T} (hg : WellFormed g) {fuel : Nat} (hf : g.edges.length ≤ fuel) :
    ∃ calls completed ps rest, check fuel description g = .ok (some (calls, completed)) ∧ (ps ++ rest).Perm (transitions g) ∧ Each (fun p c => CallFor description g p.1 p.2 c) ps calls ∧
      (completed = true → rest = []) ∧ (completed = false → ∃ i k l e p t, rest = (i, k) :: l ∧ Leading g i k e p t ∧ e.weight.fn p = none) ∧
      (g.edges ≠ [] → ∃ segs, Searches g.edges (ByDistance g.edges) [] 0 segs ∧ ps ++ rest = segs.flatten.flatMap fun i => (List.range (Spec.degree g.edges i)).map fun k => (i, k)) := by
  cases he : g.edges with
  | nil =>
    refine ⟨[], true, [], [], ?_, ?_, ⟨rfl, by simp⟩, by simp, by simp, by simp⟩
    · unfold check
      rw [(Props.C22_no_start stdQueue .directed false true g.edges (start := 0) (by simp [he]) fuel).1]
      rfl
    · unfold transitions; simp [he]
  | cons a b =>
    have hpos : 0 < g.edges.length := by simp [he]
    rw [← he]
    obtain ⟨order, h1, h2, h3⟩ := Props.C25_directed false true ((Props.C25_containers (lt := fun a b => decide (a < b)) g.edges.length ⟨fun a b h => by simp at h ⊢; omega, fun a b c h h' => by simp at h h' ⊢; omega⟩).1) hg.2 hpos hf
    obtain ⟨events, segs, k1, k2, k3, k4, k5⟩ := Props.C22_breadth_first_all .directed hg.2 hpos hf
    rw [h1] at k1
    simp only [Res.ok.injEq, Option.some.injEq] at k1
    have ho := order_eq k1.symm k2
    subst ho
    have hfirsts := firsts_order g.edges segs.flatten
    have hperm := transitions_flat k3 k4
    obtain ⟨calls, completed, ps, rest, i1, i2, i3, i4, i5⟩ := invoke_spec (description := description) hg events (by
      rw [← k1, hfirsts]; exact fun p hp => hperm.mem_iff.1 hp)
    rw [← k1, hfirsts] at i2
    refine ⟨calls, completed, ps, rest, ?_, by rw [← i2]; exact hperm, i3, i4, i5, fun _ => ⟨segs, k5, i2.symm⟩⟩
    unfold check
    rw [h1, k1]
    simp [Res.bind, i1]

/-- Digits determine what they are digits of, whatever follows them. -/
theorem digits_inj {a b : Nat} {u v : Str} (h : Nat.toDigits 10 a ++ u = Nat.toDigits 10 b ++ v) (hu : ∀ c, u.head? = some c → ¬ c.isDigit) (hv : ∀ c, v.head? = some c → ¬ c.isDigit) : a = b ∧ u = v := by
  have key : ∀ (l : Str) (t : Str), (∀ c ∈ l, c.isDigit) → (∀ c, t.head? = some c → ¬ c.isDigit) → (l ++ t).takeWhile Char.isDigit = l := by
    intro l t hl ht
    rw [List.takeWhile_append_of_pos hl]
    cases t with
    | nil => simp
    | cons c t => simp [ht c rfl]
  have hd : ∀ n : Nat, ∀ c ∈ Nat.toDigits 10 n, c.isDigit := fun n c hc => Nat.isDigit_of_mem_toDigits (by omega) (by omega) hc
  have e : Nat.toDigits 10 a = Nat.toDigits 10 b := by
    rw [← key _ u (hd a) hu, h, key _ v (hd b) hv]
  refine ⟨?_, ?_⟩
  · have := congrArg (Nat.ofDigitChars 10 · 0) e
    simpa [Nat.ofDigitChars_ten_toDigits] using this
  · rw [e] at h
    exact List.append_cancel_left h

theorem messageFor_inj {d w w' : Str} {i j i' j' : Nat} (h : messageFor d i j w = messageFor d i' j' w') : i = i' ∧ j = j' ∧ w = w' := by
  have form : ∀ i j w, messageFor d i j w = (if d = [] then [] else d ++ ['\n']) ++ ("Transition from node ".toList ++ (Nat.toDigits 10 i ++ (" to ".toList ++ (Nat.toDigits 10 j ++ if w = [] then [] else '\n' :: w)))) := by
    intro i j w
    unfold messageFor appendLines appendIndented Text.indent
    have := message_ne i j
    by_cases hd : d = [] <;> by_cases hw : w = [] <;> simp [hd, hw, this] 
  rw [form, form] at h
  have h := List.append_cancel_left (List.append_cancel_left h)
  obtain ⟨h1, h2⟩ := digits_inj h (by intro c hc; rw [show " to ".toList = ' ' :: "to ".toList from rfl] at hc; simp at hc; subst hc; decide) (by intro c hc; rw [show " to ".toList = ' ' :: "to ".toList from rfl] at hc; simp at hc; subst hc; decide)
  have h2 := List.append_cancel_left h2
  have tail : ∀ w : Str, ∀ c, (if w = [] then ([] : Str) else '\n' :: w).head? = some c → ¬ c.isDigit := by
    intro w c hc
    split at hc
    · simp at hc
    · simp at hc; subst hc; decide
  obtain ⟨h3, h4⟩ := digits_inj h2 (tail _) (tail _)
  refine ⟨h1, h3, ?_⟩
  by_cases hw : w = [] <;> by_cases hw' : w' = [] <;> simp_all

end Verif.StateTransition
