import Verif.Lemmas.Dependency
import Verif.Lemmas.Factory
/- Lemmas about the selection of stale tests: the propagation of time stamps in the course of depth first search. -/
namespace Verif.Dependency

open Verif.Graph Verif.Spec EdgeLike Verif.Spec.Stale Verif.Suites

section
variable {E : Type} [EdgeLike E] {s : Edges E}

theorem Reach.refl' (a : Nat) : Reach s a a := ⟨0, .refl⟩

theorem Reach.tail {a b c : Nat} (h : Reach s a b) (hl : Leads s b c) : Reach s a c := by
  obtain ⟨d, h⟩ := h
  exact ⟨d + 1, .snoc h hl⟩

theorem Reach.head {a b c : Nat} (hl : Leads s a b) (h : Reach s b c) : Reach s a c := by
  obtain ⟨d, h⟩ := h
  induction h with
  | refl => exact Reach.tail (Reach.refl' a) hl
  | snoc _ h2 ih => exact Reach.tail ih h2

theorem Reach.trans' {a b c : Nat} (h : Reach s a b) (h' : Reach s b c) : Reach s a c := by
  obtain ⟨d, h'⟩ := h'
  induction h' with
  | refl => exact h
  | snoc _ h2 ih => exact Reach.tail ih h2

theorem before_mem_calls (t : Nat) : ∀ (f : Forest) (n : Nat), .before t ∈ f.calls n → .after t ∈ f.calls n
  | .nil, n, h => by simp [Forest.calls] at h
  | .cons k r ch rest, n, h => by
    simp only [Forest.calls, List.cons_append, List.mem_cons, List.mem_append, reduceCtorEq, Event.before.injEq, false_or] at h ⊢
    rcases h with rfl | h | h
    · simp
    · have := before_mem_calls t ch r h
      simp [this]
    · have := before_mem_calls t rest n h
      simp [this]

theorem forest_nodes_reach : ∀ (f : Forest) (n lo : Nat), f.Valid s n lo → ∀ x, .after x ∈ f.calls n → Reach s n x
  | .nil, n, lo, _, x, h => by simp [Forest.calls] at h
  | .cons k r ch rest, n, lo, hv, x, h => by
    obtain ⟨_, ⟨e, he, hr⟩, hch, hrest⟩ := hv
    have hl : Leads s n r := ⟨k, e, he, hr⟩
    simp only [Forest.calls, List.cons_append, List.mem_cons, List.mem_append, reduceCtorEq, Event.after.injEq, false_or] at h
    rcases h with h | rfl | h
    · exact Reach.head hl (forest_nodes_reach ch r 0 hch x h)
    · exact Reach.head hl (Reach.refl' _)
    · exact forest_nodes_reach rest n (k + 1) hrest x h

/-- If a node is entered before another one is left, then it has been left before, too, or the other one can be reached from it. -/
theorem calls_brackets (t x : Nat) : ∀ (f : Forest) (n lo : Nat), f.Valid s n lo → ∀ p q, f.calls n = p ++ .after x :: q → .before t ∈ p →
    .after t ∈ p ∨ Reach s t x
  | .nil, n, lo, _, p, q, h, _ => by simp [Forest.calls] at h
  | .cons k r ch rest, n, lo, hv, p, q, h, hp => by
    obtain ⟨_, ⟨e, he, hr⟩, hch, hrest⟩ := hv
    simp only [Forest.calls, List.cons_append] at h
    rcases p with _ | ⟨p0, p⟩
    · simp at h
    rw [List.cons_append, List.cons.injEq] at h
    obtain ⟨rfl, h⟩ := h
    rcases p with _ | ⟨p1, p⟩
    · simp at h
    rw [List.cons_append, List.cons.injEq] at h
    obtain ⟨rfl, h⟩ := h
    simp only [List.mem_cons, reduceCtorEq, Event.before.injEq, false_or] at hp ⊢
    rcases List.append_eq_append_iff.mp h with ⟨a, rfl, ha⟩ | ⟨c, hc, hc2⟩
    · -- the node is left after those below `r`
      rcases a with _ | ⟨a0, a⟩
      · -- `x` is `r`
        simp only [List.nil_append, List.cons.injEq, Event.after.injEq] at ha
        obtain ⟨rfl, _⟩ := ha
        rcases hp with rfl | hp
        · exact .inr (Reach.refl' _)
        · rw [List.append_nil] at hp ⊢
          exact .inl (before_mem_calls t ch _ hp)
      · rw [List.cons_append, List.cons.injEq] at ha
        obtain ⟨rfl, ha⟩ := ha
        rcases hp with rfl | hp
        · exact .inl (by simp)
        · rcases List.mem_append.mp hp with hp | hp
          · exact .inl (List.mem_append_left _ (before_mem_calls t ch r hp))
          · simp only [List.mem_cons, reduceCtorEq, false_or] at hp
            rcases calls_brackets t x rest n (k + 1) hrest a q ha hp with h | h
            · exact .inl (by simp [h])
            · exact .inr h
    · -- `x` is below `r`, or `r`
      rcases c with _ | ⟨c0, c⟩
      · simp only [List.nil_append, List.cons.injEq, Event.after.injEq] at hc2
        obtain ⟨rfl, _⟩ := hc2
        rw [List.append_nil] at hc
        rcases hp with rfl | hp
        · exact .inr (Reach.refl' _)
        · rw [← hc] at hp ⊢
          exact .inl (before_mem_calls t ch _ hp)
      · rw [List.cons_append, List.cons.injEq] at hc2
        obtain ⟨rfl, _⟩ := hc2
        rcases hp with rfl | hp
        · exact .inr (forest_nodes_reach ch _ 0 hch x (by rw [hc]; simp))
        · exact calls_brackets t x ch r 0 hch p c hc hp

/-- The same for a sequence of trees. -/
theorem trees_brackets (t x : Nat) : ∀ (trees : List (Nat × Forest)), (∀ u ∈ trees, u.2.Valid s u.1 0) → ∀ p q,
    (trees.flatMap fun u => .before u.1 :: u.2.calls u.1 ++ [.after u.1]) = p ++ .after x :: q → .before t ∈ p → .after t ∈ p ∨ Reach s t x := by
  intro trees hv p q h hp
  -- the trees are the ones below a node of which nothing else is known
  induction trees generalizing p with
  | nil => simp at h
  | cons u trees ih =>
    rw [List.flatMap_cons] at h
    have hvu := hv u (by simp)
    have hb : ∀ t : Nat, .before t ∈ (.before u.1 :: u.2.calls u.1 ++ [.after u.1] : List Event) → .after t ∈ (.before u.1 :: u.2.calls u.1 ++ [.after u.1] : List Event) := by
      intro t ht
      simp only [List.cons_append, List.mem_cons, Event.before.injEq, List.mem_append, List.not_mem_nil, or_false, reduceCtorEq] at ht
      rcases ht with rfl | ht
      · simp
      · simp [before_mem_calls t u.2 u.1 ht]
    rcases List.append_eq_append_iff.mp h with ⟨a, rfl, ha⟩ | ⟨c, hc, hc2⟩
    · rcases List.mem_append.mp hp with hp | hp
      · exact .inl (List.mem_append_left _ (hb t hp))
      · rcases ih (fun u hu => hv u (by simp [hu])) a ha hp with h | h
        · exact .inl (List.mem_append_right _ h)
        · exact .inr h
    · rcases c with _ | ⟨c0, c⟩
      · rw [List.append_nil] at hc
        rw [← hc] at hp ⊢
        exact .inl (hb t hp)
      · rw [List.cons_append, List.cons.injEq] at hc2
        obtain ⟨rfl, _⟩ := hc2
        rcases p with _ | ⟨p0, p⟩
        · simp at hp
        rw [List.cons_append, List.cons_append, List.cons.injEq] at hc
        obtain ⟨rfl, hc⟩ := hc
        rcases List.append_eq_append_iff.mp hc with ⟨a, rfl, ha⟩ | ⟨c', hc', hc2'⟩
        · rcases a with _ | ⟨a0, a⟩
          · simp only [List.nil_append, List.cons.injEq, Event.after.injEq] at ha
            obtain ⟨rfl, _⟩ := ha
            simp only [List.append_nil, List.mem_cons, Event.before.injEq, reduceCtorEq, false_or] at hp ⊢
            rcases hp with rfl | hp
            · exact .inr (Reach.refl' _)
            · exact .inl (before_mem_calls t u.2 _ hp)
          · simp at ha
        · rcases c' with _ | ⟨c0, c'⟩
          · simp only [List.nil_append, List.cons.injEq, Event.after.injEq] at hc2'
            obtain ⟨rfl, _⟩ := hc2'
            rw [List.append_nil] at hc'
            simp only [List.mem_cons, Event.before.injEq, reduceCtorEq, false_or] at hp ⊢
            rcases hp with rfl | hp
            · exact .inr (Reach.refl' _)
            · rw [← hc'] at hp ⊢
              exact .inl (before_mem_calls t u.2 _ hp)
          · rw [List.cons_append, List.cons.injEq] at hc2'
            obtain ⟨rfl, _⟩ := hc2'
            simp only [List.mem_cons, Event.before.injEq, reduceCtorEq, false_or] at hp ⊢
            rcases hp with rfl | hp
            · exact .inr (forest_nodes_reach u.2 _ 0 hvu x (by rw [hc']; simp))
            · exact calls_brackets t x u.2 u.1 0 hvu p c' hc' hp

/-- The nodes in the order in which they are left. -/
def afters : List Event → List Nat
  | [] => []
  | .after n :: l => n :: afters l
  | _ :: l => afters l

theorem mem_afters (n : Nat) : ∀ l : List Event, n ∈ afters l ↔ .after n ∈ l
  | [] => by simp [afters]
  | .after m :: l => by simp [afters, mem_afters n l]
  | .before _ :: l => by simp [afters, mem_afters n l]
  | .first _ _ :: l => by simp [afters, mem_afters n l]
  | .second _ _ :: l => by simp [afters, mem_afters n l]

theorem afters_append : ∀ a b : List Event, afters (a ++ b) = afters a ++ afters b
  | [], b => rfl
  | .after m :: l, b => by simp [afters, afters_append l b]
  | .before _ :: l, b => by simp [afters, afters_append l b]
  | .first _ _ :: l, b => by simp [afters, afters_append l b]
  | .second _ _ :: l, b => by simp [afters, afters_append l b]

theorem afters_split {x : Nat} : ∀ {l : List Event} {a b : List Nat}, afters l = a ++ x :: b → ∃ p q, l = p ++ .after x :: q ∧ afters p = a ∧ afters q = b
  | [], a, b, h => by simp [afters] at h
  | .after m :: l, a, b, h => by
    rw [afters] at h
    rcases a with _ | ⟨a0, a⟩
    · simp only [List.nil_append, List.cons.injEq] at h
      obtain ⟨rfl, h⟩ := h
      exact ⟨[], l, rfl, rfl, h⟩
    · rw [List.cons_append, List.cons.injEq] at h
      obtain ⟨rfl, h⟩ := h
      obtain ⟨p, q, rfl, h2, h3⟩ := afters_split h
      exact ⟨.after m :: p, q, rfl, by rw [afters, h2], h3⟩
  | .before m :: l, a, b, h => by
    obtain ⟨p, q, rfl, h2, h3⟩ := afters_split (l := l) h
    exact ⟨.before m :: p, q, rfl, h2, h3⟩
  | .first m k :: l, a, b, h => by
    obtain ⟨p, q, rfl, h2, h3⟩ := afters_split (l := l) h
    exact ⟨.first m k :: p, q, rfl, h2, h3⟩
  | .second m k :: l, a, b, h => by
    obtain ⟨p, q, rfl, h2, h3⟩ := afters_split (l := l) h
    exact ⟨.second m k :: p, q, rfl, h2, h3⟩

theorem afters_calls_perm : ∀ (f : Forest) (n : Nat), (afters (f.calls n)).Perm f.nodes
  | .nil, _ => .nil
  | .cons k r ch rest, n => by
    simp only [Forest.calls, Forest.nodes, List.cons_append, afters, afters_append]
    have h1 := afters_calls_perm ch r
    have h2 := afters_calls_perm rest n
    exact (List.perm_middle.trans ((h1.append h2).cons r))

theorem afters_trees_perm : ∀ trees : List (Nat × Forest),
    (afters (trees.flatMap fun u => .before u.1 :: u.2.calls u.1 ++ [.after u.1])).Perm (trees.flatMap fun u => u.1 :: u.2.nodes)
  | [] => .nil
  | u :: trees => by
    rw [List.flatMap_cons, List.flatMap_cons, afters_append]
    refine List.Perm.append ?_ (afters_trees_perm trees)
    simp only [List.cons_append, afters, afters_append]
    exact (List.perm_append_comm.trans ((afters_calls_perm u.2 u.1).cons u.1))

/-- The nodes are left one after the other, each once; if there is an edge to a node from which the first cannot be reached, the latter is left first. -/
theorem traverseDfs_afters (hs : InRange s) {fuel : Nat} (hf : s.length ≤ fuel) :
    ∃ events, traverseDfs true s 0 fuel = .ok (some events) ∧ (afters events).Nodup ∧ (∀ n, n ∈ afters events ↔ n < s.length) ∧
      ∀ a x b, afters events = a ++ x :: b → ∀ t, Leads s x t → t ∈ a ∨ Reach s t x := by
  by_cases h0 : 0 < s.length
  · obtain ⟨trees, h1, h2, h3, h4, h5, h6⟩ := Props.C24_depth_first_all hs h0 hf
    have hperm := afters_trees_perm trees
    refine ⟨_, h1, hperm.nodup_iff.mpr h2, fun n => by rw [hperm.mem_iff, h3], ?_⟩
    intro a x b hab t ht
    obtain ⟨p, q, hpq, rfl, rfl⟩ := afters_split hab
    have hx : x ∈ trees.flatMap fun u => u.1 :: u.2.nodes := by
      rw [← hperm.mem_iff, hab]; simp
    obtain ⟨p', q', hpq', hb⟩ := h6 x hx t ht
    -- the node is left only once
    have hnd : (afters p ++ x :: afters q).Nodup := by rw [← hab]; exact hperm.nodup_iff.mpr h2
    have heq : afters p' = afters p ∧ p' = p := by
      rw [hpq] at hpq'
      have hno : .after x ∉ p ∧ .after x ∉ p' := by
        constructor
        · intro h
          rw [← mem_afters] at h
          exact (List.nodup_append.mp hnd).2.2 x h x (by simp) rfl
        · intro h
          rw [← mem_afters] at h
          have hnd' : (afters p' ++ x :: afters q').Nodup := by
            have : afters (p ++ .after x :: q) = afters (p' ++ .after x :: q') := by rw [hpq']
            rw [afters_append, afters_append] at this
            simp only [afters] at this
            rw [← this]; exact hnd
          exact (List.nodup_append.mp hnd').2.2 x h x (by simp) rfl
      have : p' = p := by
        rcases List.append_eq_append_iff.mp hpq' with ⟨a, ha, hb⟩ | ⟨a, ha, hb⟩
        · rcases a with _ | ⟨a0, a⟩
          · simpa using ha
          · rw [List.cons_append, List.cons.injEq] at hb
            rw [ha, ← hb.1] at hno
            exact absurd (by simp) hno.2
        · rcases a with _ | ⟨a0, a⟩
          · simpa using ha.symm
          · rw [List.cons_append, List.cons.injEq] at hb
            rw [ha, ← hb.1] at hno
            exact absurd (by simp) hno.1
      exact ⟨by rw [this], this⟩
    rw [heq.2] at hb
    rcases trees_brackets t x trees h5 p q hpq hb with h | h
    · exact .inl ((mem_afters t p).mpr h)
    · exact .inr h
  · refine ⟨[], ?_, by simp [afters], ?_, ?_⟩
    · rw [traverseDfs, if_neg h0]
    · intro n; simp only [afters, List.not_mem_nil, false_iff]; omega
    · intro a x b h; simp [afters] at h

end

/-! ### Propagation -/

section
variable {K : Type} {fs : List (File K)} {prune : Nat} {s : Edges (Edge Unit Unit)}

theorem lateAll_afters : ∀ (l : List Event) (ws : List Info), lateAll s l ws = (afters l).foldl (fun r n => r.bind (late s n)) (.ok ws)
  | [], ws => rfl
  | .after n :: l, ws => by
    rw [lateAll, afters, List.foldl_cons]
    show _ = List.foldl _ (late s n ws) _
    cases late s n ws with
    | ok ws => exact lateAll_afters l ws
    | throws => clear ws; induction afters l with | nil => rfl | cons a l ih => exact ih
    | ub => clear ws; induction afters l with | nil => rfl | cons a l ih => exact ih
  | .before _ :: l, ws => lateAll_afters l ws
  | .first _ _ :: l, ws => lateAll_afters l ws
  | .second _ _ :: l, ws => lateAll_afters l ws

/-- All entries are within bounds. -/
def AllBounds (fs : List (File K)) (prune : Nat) (lo hi : Nat → Nat → Prop) (ws : List Info) : Prop :=
  ∀ (x : Nat) (w : Info), ws[x]? = some w → Bounds fs prune (lo x) (hi x) w

/-- Merging the entries of the targets into that of the node. -/
theorem lateEdges_spec {n : Nat} {lo hi : Nat → Nat → Prop} : ∀ (l : List (Edge Unit Unit)) {ws : List Info} {cur : Nat → Prop},
    n < ws.length → (∀ e ∈ l, e.target < ws.length) → (∀ e ∈ l, ∀ m, hi e.target m → hi n m) →
    (∀ x w, ws[x]? = some w → x ≠ n → Bounds fs prune (lo x) (hi x) w) → (∀ w, ws[n]? = some w → Bounds fs prune cur (hi n) w) →
    ∃ ws', lateEdges n l ws = .ok ws' ∧ ws'.length = ws.length ∧ (∀ x w, ws'[x]? = some w → x ≠ n → Bounds fs prune (lo x) (hi x) w) ∧
      ∀ w, ws'[n]? = some w → Bounds fs prune (fun m => cur m ∨ ∃ e ∈ l, e.target ≠ n ∧ lo e.target m) (hi n) w
  | [], ws, cur, hn, _, _, h1, h2 => ⟨ws, rfl, rfl, h1, fun w hw => (h2 w hw).mono (by simp) (fun _ h => h)⟩
  | e :: l, ws, cur, hn, ht, hc, h1, h2 => by
    have hte : e.target < ws.length := ht e (by simp)
    rw [lateEdges, List.getElem?_eq_getElem hn, List.getElem?_eq_getElem hte]
    have hself := h2 _ (List.getElem?_eq_getElem hn)
    obtain ⟨ws', k1, k2, k3, k4⟩ := lateEdges_spec (lo := lo) l
      (ws := ws.set n ⟨max ws[n].time ws[e.target].time, ws[n].stale || ws[e.target].stale⟩)
      (cur := fun m => cur m ∨ (e.target ≠ n ∧ lo e.target m)) (by simpa using hn)
      (by intro e he; rw [List.length_set]; exact ht e (by simp [he])) (fun e he => hc e (by simp [he]))
      (by
        intro x w hw hx
        rw [List.getElem?_set, if_neg (Ne.symm hx)] at hw
        exact h1 x w hw hx)
      (by
        intro w hw
        rw [List.getElem?_set, if_pos rfl, if_pos hn] at hw
        cases hw
        by_cases hen : e.target = n
        · have htb : Bounds fs prune cur (hi n) ws[e.target] := h2 _ (by rw [← hen]; exact List.getElem?_eq_getElem hte)
          refine (hself.merge htb).mono ?_ ?_
          · rintro m (h | ⟨h, _⟩)
            · exact .inl h
            · exact absurd hen h
          · rintro m (h | h) <;> exact h
        · refine (hself.merge (h1 e.target _ (List.getElem?_eq_getElem hte) hen)).mono ?_ ?_
          · rintro m (h | ⟨_, h⟩)
            · exact .inl h
            · exact .inr h
          · rintro m (h | h)
            · exact h
            · exact hc e (by simp) m h)
    refine ⟨ws', k1, by rw [k2, List.length_set], k3, ?_⟩
    intro w hw
    refine (k4 w hw).mono ?_ (fun _ h => h)
    rintro m (h | ⟨e', he', h3, h4⟩)
    · exact .inl (.inl h)
    · rcases List.mem_cons.mp he' with rfl | he'
      · exact .inl (.inr ⟨h3, h4⟩)
      · exact .inr ⟨e', he', h3, h4⟩

/-- Everything a node has a part in. -/
def Closure (s : Edges (Edge Unit Unit)) (own : Nat → Nat → Prop) (x m : Nat) : Prop := ∃ r, Reach s x r ∧ own r m

theorem late_spec (hs : InRange s) {n : Nat} (hn : n < s.length) {own lo : Nat → Nat → Prop} {ws : List Info} (hlen : ws.length = s.length)
    (h : AllBounds fs prune lo (Closure s own) ws) :
    ∃ ws', late s n ws = .ok ws' ∧ ws'.length = ws.length ∧
      AllBounds fs prune (fun x m => lo x m ∨ (x = n ∧ ∃ t, Leads s n t ∧ t ≠ n ∧ lo t m)) (Closure s own) ws' := by
  have hl := List.getElem?_eq_getElem hn
  rw [late, hl]
  have hlead : ∀ e ∈ s[n], Leads s n e.target := by
    intro e he
    obtain ⟨k, hk⟩ := List.mem_iff_getElem?.mp he
    exact ⟨k, e, by rw [edgeAt, hl]; exact hk, rfl⟩
  obtain ⟨ws', h1, h2, h3, h4⟩ := lateEdges_spec (fs := fs) (prune := prune) (n := n) (lo := lo) (hi := Closure s own) s[n] (ws := ws) (cur := lo n)
    (by omega) (fun e he => by rw [hlen]; exact hs _ (List.getElem_mem hn) e he)
    (by
      rintro e he m ⟨r, hr, ho⟩
      exact ⟨r, Reach.head (hlead e he) hr, ho⟩)
    (fun x w hw _ => h x w hw) (fun w hw => h n w hw)
  refine ⟨ws', h1, h2, ?_⟩
  intro x w hw
  by_cases hx : x = n
  · subst hx
    refine (h4 w hw).mono ?_ (fun _ h => h)
    rintro m (h | ⟨_, t, ⟨k, e, he, rfl⟩, htn, hlo⟩)
    · exact .inl h
    · refine .inr ⟨e, ?_, htn, hlo⟩
      rw [edgeAt, hl] at he
      exact List.mem_of_getElem? he
  · refine (h3 x w hw hx).mono ?_ (fun _ h => h)
    rintro m (h | ⟨h, _⟩)
    · exact h
    · exact absurd h hx

/-- After all nodes have been left: no entry is too high.  If no node can be reached from a node to which it has an edge, none is too low. -/
theorem lateFold_spec (hs : InRange s) {own : Nat → Nat → Prop} : ∀ (todo : List Nat) {done : List Nat} {ws : List Info}, ws.length = s.length →
    (∀ n ∈ todo, n < s.length) →
    AllBounds fs prune own (Closure s own) ws →
    ∃ ws', todo.foldl (fun (r : Res (List Info)) n => r.bind (late s n)) (.ok ws) = .ok ws' ∧ ws'.length = ws.length ∧ AllBounds fs prune own (Closure s own) ws' ∧
      ((∀ x t, Leads s x t → ¬ Reach s t x) → (∀ x ∈ done, x ∉ todo) → todo.Nodup →
        (∀ a x b, todo = a ++ x :: b → ∀ t, Leads s x t → t ∈ done ++ a) →
        AllBounds fs prune (fun x m => own x m ∨ (x ∈ done ∧ Closure s own x m)) (Closure s own) ws →
        AllBounds fs prune (fun x m => own x m ∨ (x ∈ done ++ todo ∧ Closure s own x m)) (Closure s own) ws')
  | [], done, ws, hlen, _, h => ⟨ws, rfl, rfl, h, by intro _ _ _ _ h; simpa using h⟩
  | n :: todo, done, ws, hlen, hr, h => by
    have hn : n < s.length := hr n (by simp)
    obtain ⟨ws1, h1, h2, h3⟩ := late_spec hs hn hlen h
    have h3' : AllBounds fs prune own (Closure s own) ws1 := fun x w hw => (h3 x w hw).mono (fun m hm => .inl hm) (fun _ h => h)
    obtain ⟨ws2, k1, k2, k3, k4⟩ := lateFold_spec hs todo (done := done ++ [n]) (h2.trans hlen) (fun m hm => hr m (by simp [hm])) h3'
    refine ⟨ws2, ?_, k2.trans h2, k3, ?_⟩
    · rw [List.foldl_cons]
      show List.foldl _ (late s n ws) todo = _
      rw [h1, k1]
    · intro hac hdis hnd hord hb
      rw [List.nodup_cons] at hnd
      have := k4 hac ?_ hnd.2 ?_ ?_
      · simpa using this
      · intro x hx
        rcases List.mem_append.mp hx with hx | hx
        · exact fun h => hdis x hx (by simp [h])
        · rw [List.mem_singleton] at hx; subst hx; exact hnd.1
      · intro a x b hab t ht
        have := hord (n :: a) x b (by rw [hab]; rfl) t ht
        simpa using this
      · obtain ⟨ws1', h1', _, h3''⟩ := late_spec hs hn hlen hb
        rw [h1] at h1'
        cases h1'
        intro x w hw
        refine (h3'' x w hw).mono ?_ (fun _ h => h)
        rintro m (h | ⟨h, hc⟩)
        · exact .inl (.inl h)
        · rcases List.mem_append.mp h with h | h
          · exact .inl (.inr ⟨h, hc⟩)
          · rw [List.mem_singleton] at h
            subst h
            obtain ⟨r, ⟨d, hw'⟩, ho⟩ := hc
            -- the first step of the walk
            have hstep : r = x ∨ ∃ t, Leads s x t ∧ Reach s t r := by
              clear ho
              induction hw' with
              | refl => exact .inl rfl
              | snoc hw1 hl ih =>
                rcases ih with rfl | ⟨t, h1, h2⟩
                · exact .inr ⟨_, hl, Reach.refl' _⟩
                · exact .inr ⟨t, h1, Reach.tail h2 hl⟩
            rcases hstep with rfl | ⟨t, hl, hrt⟩
            · exact .inl (.inl ho)
            · have htd : t ∈ done := by simpa using hord [] x todo rfl t hl
              have htn : t ≠ x := by
                rintro rfl
                exact hac t t hl (Reach.refl' _)
              exact .inr ⟨rfl, t, hl, htn, .inr ⟨htd, r, hrt, ho⟩⟩

end

end Verif.Dependency
