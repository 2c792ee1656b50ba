import Verif.Lemmas.RunReport
/- Repetitions of the tests, and the tree before it is sorted. -/
set_option linter.unusedSimpArgs false
set_option linter.unusedVariables false
namespace Verif.RunReport
open Verif.Graph Verif.Text Verif.Logger Verif.Spec Verif.RunTests Verif.Spec.RunReport EdgeLike

variable {T : Type} {render : Int → Nat → Str}

theorem before_calls (n : Nat) : ∀ (f : Forest) (m : Nat), Graph.Event.before n ∈ f.calls m ↔ n ∈ f.nodes
  | .nil, m => by simp [Forest.calls, Forest.nodes]
  | .cons k r ch rest, m => by
    simp only [Forest.calls, Forest.nodes, List.cons_append, List.mem_cons, List.mem_append, before_calls n ch, before_calls n rest]
    simp

theorem reset_events : ∀ (es : List Graph.Event) (nodes : List (SuiteNode Found T)), (∀ n, Graph.Event.before n ∈ es → n < nodes.length) →
    ∃ nodes', resetEvents es nodes = .ok nodes' ∧ nodes'.length = nodes.length ∧
      ∀ (x : Nat) (wt : SuiteNode Found T), nodes[x]? = some wt → ∃ f, nodes'[x]? = some ⟨f, wt.test⟩ ∧ f.1.name = wt.summary.1.name ∧
        (Graph.Event.before x ∈ es ∨ wt.summary = Found.nothing wt.summary.1.name → f = Found.nothing wt.summary.1.name)
  | [], nodes, _ => ⟨nodes, rfl, rfl, fun x wt hx => ⟨wt.summary, hx, rfl, fun h => by simpa using h⟩⟩
  | .before n :: es, nodes, h => by
    have hn : n < nodes.length := h n (by simp)
    have hlen : (nodes.set n ⟨Found.nothing (nodes[n]).summary.1.name, (nodes[n]).test⟩).length = nodes.length := by simp
    obtain ⟨nodes', h1, h2, h3⟩ := reset_events es (nodes.set n ⟨Found.nothing (nodes[n]).summary.1.name, (nodes[n]).test⟩) (fun m hm => by
      rw [hlen]; exact h m (List.mem_cons_of_mem _ hm))
    refine ⟨nodes', ?_, by rw [h2, hlen], ?_⟩
    · simp only [resetEvents, resetNode, List.getElem?_eq_getElem hn, Res.bind, h1]
    · intro x wt hx
      by_cases hxn : n = x
      · subst hxn
        rw [List.getElem?_eq_getElem hn, Option.some.injEq] at hx
        subst hx
        obtain ⟨f, a1, a2, a3⟩ := h3 n _ (by rw [List.getElem?_set, if_pos rfl, if_pos hn])
        exact ⟨f, a1, a2, fun _ => a3 (.inr rfl)⟩
      · obtain ⟨f, a1, a2, a3⟩ := h3 x wt (by rw [List.getElem?_set, if_neg hxn, hx])
        refine ⟨f, a1, a2, fun h => a3 ?_⟩
        rcases h with h | h
        · rcases List.mem_cons.mp h with h | h
          · cases h; exact absurd rfl hxn
          · exact .inl h
        · exact .inr h
  | .after n :: es, nodes, h => by
    obtain ⟨nodes', h1, h2, h3⟩ := reset_events es nodes (fun m hm => h m (List.mem_cons_of_mem _ hm))
    refine ⟨nodes', h1, h2, fun x wt hx => ?_⟩
    obtain ⟨f, a1, a2, a3⟩ := h3 x wt hx
    exact ⟨f, a1, a2, fun h => a3 (by simpa using h)⟩
  | .first n k :: es, nodes, h => by
    obtain ⟨nodes', h1, h2, h3⟩ := reset_events es nodes (fun m hm => h m (List.mem_cons_of_mem _ hm))
    refine ⟨nodes', h1, h2, fun x wt hx => ?_⟩
    obtain ⟨f, a1, a2, a3⟩ := h3 x wt hx
    exact ⟨f, a1, a2, fun h => a3 (by simpa using h)⟩
  | .second n k :: es, nodes, h => by
    obtain ⟨nodes', h1, h2, h3⟩ := reset_events es nodes (fun m hm => h m (List.mem_cons_of_mem _ hm))
    refine ⟨nodes', h1, h2, fun x wt hx => ?_⟩
    obtain ⟨f, a1, a2, a3⟩ := h3 x wt hx
    exact ⟨f, a1, a2, fun h => a3 (by simpa using h)⟩

/-- Resetting makes everything ready for another run. -/
theorem reset_ok {g : Suites Found T} {nodes : List (SuiteNode Found T)} (hg : Props.SuiteTree g) (hn : Named nodes g) :
    ∃ nodes', resetTests ⟨nodes, g.edges⟩ = .ok ⟨nodes', g.edges⟩ ∧ Ready nodes' g := by
  obtain ⟨par, ht⟩ := hg.tree
  obtain ⟨f, h1, h2, h3, h4⟩ := traverse_tree ht
  have hb : ∀ n, Graph.Event.before n ∈ (.before 0 :: f.calls 0 ++ [.after 0] : List Graph.Event) ↔ n < g.edges.length := by
    intro n
    rw [← h3 n]
    simp [before_calls]
  have hlen : nodes.length = g.edges.length := by rw [hn.1, hg.weights]
  obtain ⟨nodes', a1, a2, a3⟩ := reset_events _ nodes (fun n h => by rw [hlen]; exact (hb n).mp h)
  refine ⟨nodes', ?_, by rw [a2, hn.1], ?_⟩
  · unfold resetTests
    simp only [h1, Res.bind, a1]
  · intro x wt hx
    obtain ⟨f', b1, b2⟩ := hn.2 x wt hx
    obtain ⟨f'', c1, c2, c3⟩ := a3 x _ b1
    refine ⟨f'', c1, fun h => ?_⟩
    rw [c3 (.inl ((hb x).mpr (by rw [← hg.weights]; exact (List.getElem?_eq_some_iff.mp hx).1))), b2 h]

theorem repetitions_ok {c : Settings T} {g : Suites Found T} (hsch : ∀ i l, (c.schedule i l).Perm l) (hg : Props.SuiteTree g)
    (hs : c.serial = false → Sorted (rankLt c.parallelizable) g.nodes) : ∀ (n i : Nat) (nodes : List (SuiteNode Found T)) (text : Str),
      (i = 0 → Ready nodes g) → Named nodes g →
    ∃ texts : List Str, repetitions render c n i ⟨nodes, g.edges⟩ text = .ok (text ++ texts.flatten) ∧ texts.length = n ∧
      ∀ k t, texts[k]? = some t → Report render c.serial c.verbose (c.exec (i + k)) (c.asyncTime (i + k)) (c.totalTime (i + k)) g t
  | 0, i, nodes, text, _, _ => ⟨[], by simp [repetitions], rfl, by simp⟩
  | n + 1, i, nodes, text, h0, hn => by
    have hready : ∃ nodes', (if i = 0 then .ok ⟨nodes, g.edges⟩ else resetTests ⟨nodes, g.edges⟩ : Res (Suites Found T)) = .ok ⟨nodes', g.edges⟩ ∧ Ready nodes' g := by
      by_cases hi : i = 0
      · exact ⟨nodes, by rw [if_pos hi], h0 hi⟩
      · obtain ⟨nodes', a1, a2⟩ := reset_ok hg hn
        exact ⟨nodes', by rw [if_neg hi, a1], a2⟩
    obtain ⟨nodes', a1, a2⟩ := hready
    obtain ⟨nodes'', t, b1, b2, b3⟩ := run_report (render := render) hsch hg a2 hs i
    obtain ⟨texts, c1, c2, c3⟩ := repetitions_ok hsch hg hs n (i + 1) nodes'' (text ++ t) (by omega) b2
    refine ⟨t :: texts, ?_, by simp [c2], ?_⟩
    · simp only [repetitions, a1, Res.bind, b1, c1]
      simp
    · intro k t' hk
      cases k with
      | zero => simp only [List.getElem?_cons_zero, Option.some.injEq] at hk; subst hk; exact b3
      | succ k =>
        have := c3 k t' (by simpa using hk)
        rw [show i + (k + 1) = i + 1 + k by omega]
        exact this

/-! ### The tree before it is sorted -/

theorem listed_back {own own' : Nat → Nat → Str → Prop} {g g' : Suites Found T} {old new : Nat → Nat} (h : Props.Renumbered g g' old new)
    (ho : ∀ d x t, own' d (new x) t → own d x t) {d : Nat} {m : List (Edge Unit Unit)} {t : Str} (hl : Listed own' g'.edges d m t) :
    ∀ l : List (Edge Unit Unit), m = relabel new l → Listed own g.edges d l t := by
  induction hl with
  | nil =>
    intro l hl
    cases l with
    | nil => exact .nil
    | cons e l => simp [relabel] at hl
  | cons h1 h2 h3 h4 ih1 ih2 =>
    intro l hl
    cases l with
    | nil => simp [relabel] at hl
    | cons e l =>
      simp only [relabel, List.map_cons, List.cons.injEq] at hl
      obtain ⟨rfl, rfl⟩ := hl
      have ht : (retarget e (new (target e)) : Edge Unit Unit).target = new e.target := rfl
      rw [ht] at h1 h2
      rw [h.edges, (h.inverse e.target).2] at h2
      cases hge : g.edges[e.target]? with
      | none => rw [hge] at h2; cases h2
      | some l' =>
        rw [hge, Option.map_some, Option.some.injEq] at h2
        exact .cons (ho _ _ _ h1) hge (ih1 l' h2.symm) (ih2 l rfl)

theorem report_back {g g' : Suites Found T} {old new : Nat → Nat} (h : Props.Renumbered g g' old new) (h0 : old 0 = 0) {serial verbose : Bool} {exec : T → Found} {a b : Int} {t : Str}
    (hr : Report render serial verbose exec a b g' t) : Report render serial verbose exec a b g t := by
  obtain ⟨sum, l', body, totals, h1, h2, h3, h4, h5⟩ := hr
  have hn0 : new 0 = 0 := by rw [← h0, (h.inverse 0).1, h0]
  have hnode : ∀ x, g'.nodes[new x]? = g.nodes[x]? := fun x => by rw [h.nodes, (h.inverse x).2]
  have hedge : ∀ x, g'.edges[new x]? = g.edges[x]?.map (relabel new) := fun x => by rw [h.edges, (h.inverse x).2]
  have hl : ∃ l, g.edges[0]? = some l ∧ l' = relabel new l := by
    have := hedge 0
    rw [hn0, h2] at this
    cases hg : g.edges[0]? with
    | none => rw [hg] at this; cases this
    | some l => rw [hg, Option.map_some, Option.some.injEq] at this; exact ⟨l, rfl, this⟩
  obtain ⟨l, hl1, hl2⟩ := hl
  refine ⟨fun x => sum (new x), l, body, totals, ?_, hl1, ?_, by show SummaryText.summarize render (if serial then (sum (new 0)).1 else { (sum (new 0)).1 with duration := a }) (sum (new 0)).2 _ _ _ _ _ = _; rw [hn0]; exact h4, h5⟩
  · intro x wt m hx hm
    have := h1 (new x) wt (relabel new m) (by rw [hnode, hx]) (by rw [hedge, hm]; rfl)
    refine this.trans ?_
    congr 1
    simp only [relabel, List.map_map]
    rfl
  · cases verbose with
    | true =>
      simp only [if_true] at h3 ⊢
      refine listed_back h ?_ h3 l hl2
      rintro d x t ⟨wt, k1, k2⟩
      rw [hnode] at k1
      exact ⟨wt, k1, k2⟩
    | false =>
      simp only [Bool.false_eq_true, if_false] at h3 ⊢
      obtain ⟨texts, k1, k2⟩ := h3
      refine ⟨texts, ?_, k2⟩
      rw [hl2] at k1
      unfold relabel at k1
      rw [List.forall₂_map_left_iff] at k1
      exact k1

theorem execute_reports {c : Settings T} {g : Suites Found T} (hsch : ∀ i l, (c.schedule i l).Perm l) (hg : Props.SuiteTree g) (hf : Fresh g) (reps : Nat) :
    ∃ texts : List Str, executeReports render c reps g = .ok texts.flatten ∧ texts.length = reps ∧
      ∀ k t, texts[k]? = some t → Report render c.serial c.verbose (c.exec k) (c.asyncTime k) (c.totalTime k) g t := by
  have hsort : ∃ g' old new, (if c.serial then .ok g else sortTests c.parallelizable g : Res (Suites Found T)) = .ok g' ∧ Props.SuiteTree g' ∧
      (c.serial = false → Sorted (rankLt c.parallelizable) g'.nodes) ∧ Props.Renumbered g g' old new ∧ old 0 = 0 := by
    cases hc : c.serial with
    | true => exact ⟨g, id, id, rfl, hg, by simp, Props.SortNodes.Renumbered.refl g, rfl⟩
    | false =>
      obtain ⟨g', e1, hg', hsort, old, new, hr, h0⟩ := Props.RunTests.sorted (parallelizable := c.parallelizable) hg
      exact ⟨g', old, new, by simpa using e1, hg', fun _ => hsort, hr, h0⟩
  obtain ⟨g', old, new, e1, hg', hs, hr, h0⟩ := hsort
  have hready : Ready g'.nodes g' := by
    refine ⟨rfl, fun x wt hx => ⟨wt.summary, hx, fun ht => ?_⟩⟩
    rw [hr.nodes] at hx
    exact hf wt (List.mem_of_getElem? hx) ht
  have hnamed : Named g'.nodes g' := ⟨rfl, fun x wt hx => ⟨wt.summary, hx, fun _ => rfl⟩⟩
  obtain ⟨texts, a1, a2, a3⟩ := repetitions_ok (render := render) hsch hg' hs reps 0 g'.nodes [] (fun _ => hready) hnamed
  refine ⟨texts, ?_, a2, ?_⟩
  · unfold executeReports
    rw [e1]
    simp only [Res.bind]
    simpa using a1
  · intro k t hk
    have := a3 k t hk
    rw [Nat.zero_add] at this
    exact report_back hr h0 this

/-! ### What is listed -/

theorem listed_entries {s : Links} {par : Nat → Nat} (ht : TreeOf .forward s 0 par) {own : Nat → Nat → Str → Prop} :
    ∀ (f : Forest) (n lo d : Nat) (t : Str) (l : List (Edge Unit Unit)), f.Valid s n lo → (n :: f.nodes).Nodup → Full s f → s[n]? = some l →
      (∀ e ∈ l.drop lo, target e ∈ f.nodes) → Walk s 0 n d → Listed own s d (l.drop lo) t →
    ∃ entries : List (Nat × Nat × Str), t = entries.flatMap (·.2.2) ∧ entries.map (·.1) = f.nodes ∧ ∀ x ∈ entries, own x.2.1 x.1 x.2.2 ∧ Walk s 0 x.1 (x.2.1 + 1)
  | .nil, n, lo, d, t, l, _, _, _, hl, hin, _, hlist => by
    have : l.drop lo = [] := by
      cases hd : l.drop lo with
      | nil => rfl
      | cons e es => rw [hd] at hin; exact absurd (hin e (by simp)) (by simp [Forest.nodes])
    rw [this] at hlist
    cases hlist
    exact ⟨[], rfl, rfl, by simp⟩
  | .cons k r ch rest, n, lo, d, t, l, hv, hd, hf, hl, hin, hw, hlist => by
    obtain ⟨e, l', a1, a2, a3, a4, a5, a6, a7, a8, a9, a10, a11⟩ := forest_edges ht hv hd hf hl hin
    obtain ⟨_, ⟨e', h2, h3⟩, _, _⟩ := hv
    have hleads : Leads s n r := ⟨k, e', h2, h3⟩
    rw [a1] at hlist
    cases hlist with
    | cons b1 b2 b3 b4 =>
      rename_i l'' t u v
      rw [a2] at b1 b2
      rw [a3, Option.some.injEq] at b2
      subst b2
      have hw' : Walk s 0 r (d + 1) := .snoc hw hleads
      obtain ⟨es, c1, c2, c3⟩ := listed_entries ht ch r 0 (d + 1) u l' a6 a8 a10 a3 a4 hw' (by rw [List.drop_zero]; exact b3)
      obtain ⟨es', d1, d2, d3⟩ := listed_entries ht rest n (lo + 1) d v l a7 a9 a11 hl a5 hw b4
      refine ⟨(r, d, t) :: es ++ es', ?_, ?_, ?_⟩
      · simp [c1, d1]
      · simp [Forest.nodes, c2, d2]
      · intro x hx
        simp only [List.cons_append, List.mem_cons, List.mem_append] at hx
        rcases hx with rfl | hx | hx
        · exact ⟨b1, hw'⟩
        · exact c3 x hx
        · exact d3 x hx

theorem contains_forest {g : Suites Found T} (hg : Props.SuiteTree g) {par : Nat → Nat} (ht : TreeOf .forward g.edges 0 par) :
    ∀ (f : Forest) (n lo : Nat) (l : List (Edge Unit Unit)), f.Valid g.edges n lo → (n :: f.nodes).Nodup → Full g.edges f → g.edges[n]? = some l →
      (∀ e ∈ l.drop lo, target e ∈ f.nodes) →
    Contains g (l.drop lo) (f.nodes.filterMap (testAt g.nodes)) ∧
      ∀ x ∈ f.nodes, testAt g.nodes x = none → ∃ m ts, g.edges[x]? = some m ∧ Contains g m ts
  | .nil, n, lo, l, _, _, _, hl, hin => by
    have : l.drop lo = [] := by
      cases hd : l.drop lo with
      | nil => rfl
      | cons e es => rw [hd] at hin; exact absurd (hin e (by simp)) (by simp [Forest.nodes])
    rw [this]
    exact ⟨.nil, by simp [Forest.nodes]⟩
  | .cons k r ch rest, n, lo, l, hv, hd, hf, hl, hin => by
    obtain ⟨e, l', a1, a2, a3, a4, a5, a6, a7, a8, a9, a10, a11⟩ := forest_edges ht hv hd hf hl hin
    have hr : r < g.nodes.length := by rw [hg.weights]; exact (List.getElem?_eq_some_iff.mp a3).1
    obtain ⟨c1, c2⟩ := contains_forest hg ht ch r 0 l' a6 a8 a10 a3 a4
    obtain ⟨d1, d2⟩ := contains_forest hg ht rest n (lo + 1) l a7 a9 a11 hl a5
    rw [List.drop_zero] at c1
    rw [a1]
    obtain ⟨f0, o, hn⟩ : ∃ f0 o, g.nodes[r]? = some ⟨f0, o⟩ := ⟨_, _, List.getElem?_eq_getElem hr⟩
    have hta : testAt g.nodes r = o := by unfold testAt; rw [hn]; rfl
    refine ⟨?_, ?_⟩
    · cases o with
      | some t =>
        have hempty := hg.leaves r _ hn (by simp)
        rw [a3, Option.some.injEq] at hempty
        subst hempty
        have hch : ch.nodes = [] := by
          cases ch with
          | nil => rfl
          | cons k' r' ch' rest' =>
            obtain ⟨_, ⟨e', h2, h3⟩, _, _⟩ := a6
            unfold edgeAt at h2
            rw [a3] at h2
            simp at h2
        simp only [Forest.nodes, hch, List.nil_append, List.cons_append, List.filterMap_cons, hta]
        exact .test (by rw [a2]; exact hn) d1
      | none =>
        simp only [Forest.nodes, List.cons_append, List.filterMap_cons, hta, List.filterMap_append]
        exact .suite (by rw [a2]; exact hn) (by rw [a2]; exact a3) c1 d1
    · intro x hx hxt
      simp only [Forest.nodes, List.cons_append, List.mem_cons, List.mem_append] at hx
      rcases hx with rfl | hx | hx
      · exact ⟨l', _, a3, c1⟩
      · exact c2 x hx hxt
      · exact d2 x hx hxt

theorem root_forest {s : Links} {par : Nat → Nat} (ht : TreeOf .forward s 0 par) : ∃ (f : Forest) (l : List (Edge Unit Unit)), f.Valid s 0 0 ∧ (0 :: f.nodes).Nodup ∧ Full s f ∧ s[0]? = some l ∧
    (∀ e ∈ l.drop 0, target e ∈ f.nodes) ∧ (0 :: f.nodes).Perm (List.range s.length) := by
  obtain ⟨f, h1, h2, h3, h4⟩ := traverse_tree ht
  have hl := List.getElem?_eq_getElem ht.root_lt
  refine ⟨f, _, h4, h2, ?_, hl, ?_, ?_⟩
  · intro x hx t hl'
    obtain ⟨_, hb, h0, _⟩ := tree_leads ht hl'
    have := (h3 t).mpr hb
    simpa [h0] using this
  · intro e he
    rw [List.drop_zero] at he
    obtain ⟨i, hi, rfl⟩ := List.getElem_of_mem he
    obtain ⟨_, hb, h0, _⟩ := tree_leads ht (a := 0) ⟨i, (s[0]'ht.root_lt)[i], by unfold edgeAt; rw [hl, Option.bind_some, List.getElem?_eq_getElem hi], rfl⟩
    have := (h3 _).mpr hb
    exact (List.mem_cons.mp this).resolve_left h0
  · rw [List.perm_ext_iff_of_nodup h2 List.nodup_range]
    intro x; rw [h3 x, List.mem_range]

theorem plus_messages (l : List Found) (a : Found) : (l.foldl Found.plus a).2 = a.2 ++ l.flatMap (·.2) := by
  induction l generalizing a with
  | nil => simp
  | cons b l ih => rw [List.foldl_cons, ih]; simp [Found.plus]

theorem plus_count {count : Summary → Nat} (hc : ∀ a b, count (a.add b) = count a + count b) (l : List Found) (a : Found) :
    count (l.foldl Found.plus a).1 = count a.1 + (l.map fun f => count f.1).sum := by
  induction l generalizing a with
  | nil => simp
  | cons b l ih => rw [List.foldl_cons, ih]; simp [Found.plus, hc, Nat.add_assoc]

theorem contains_total {g : Suites Found T} (hg : Props.SuiteTree g) {exec : T → Found} {sum : Nat → Found} (hs : Totals exec g sum) {l : List (Edge Unit Unit)} {ts : List T}
    (h : Contains g l ts) :
    (l.flatMap fun e => (sum e.target).2) = (ts.flatMap fun t => (exec t).2) ∧
      ∀ count : Summary → Nat, (∀ a b, count (a.add b) = count a + count b) → (∀ name, count { name := name } = 0) →
        (l.map fun e => count (sum e.target).1).sum = (ts.map fun t => count (exec t).1).sum := by
  induction h with
  | nil => simp
  | test h1 h2 ih =>
    rename_i e es f t ts
    have := hs _ _ _ h1 (hg.leaves _ _ h1 (by simp))
    simp only [List.map_nil, List.foldl_nil] at this
    refine ⟨by simp [this, ih.1], fun count hc h0 => ?_⟩
    simp [this, ih.2 count hc h0]
  | suite h1 h2 h3 h4 ih1 ih2 =>
    rename_i e es l f us ts
    have := hs _ _ _ h1 h2
    simp only at this
    refine ⟨?_, fun count hc h0 => ?_⟩
    · rw [List.flatMap_cons, ih2.1, List.flatMap_append, ← ih1.1, this, plus_messages, List.flatMap_map]
      simp [Found.nothing]
    · rw [List.map_cons, List.sum_cons, ih2.2 count hc h0, List.map_append, List.sum_append, ← ih1.2 count hc h0, this, plus_count hc, List.map_map]
      simp only [Found.nothing, h0, Nat.zero_add]
      rfl

end Verif.RunReport
