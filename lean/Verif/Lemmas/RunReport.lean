import Verif.Spec.RunReport
import Verif.Props.RunTests
import Verif.Props.Summaries
import Verif.Lemmas.LoggerText
/- The report on the tests. -/
set_option linter.unusedSimpArgs false
set_option linter.unusedVariables false
namespace Verif.RunReport
open Verif.Graph Verif.Text Verif.Logger Verif.Spec Verif.RunTests Verif.Spec.RunReport EdgeLike

variable {T : Type} {render : Int → Nat → Str}

theorem summarize_ok (log : Summary) (messages suffix : Str) (duration : Option Int) (v : SummaryText.Detail) (i j : Str) :
    ∃ t, SummaryText.summarize render log messages suffix duration v i j = .ok t := by
  obtain ⟨_, _, _, _, h⟩ := Props.C91_text render log messages suffix duration v i j
  exact ⟨_, h⟩

/-! ### Trees -/

theorem countP_unique {α : Type} {p : α → Bool} : ∀ (l : List α), l.countP p ≤ 1 → ∀ (i j : Nat) (a b : α), l[i]? = some a → l[j]? = some b → p a = true → p b = true → i = j
  | [], _, i, j, a, b, hi, _, _, _ => by simp at hi
  | c :: l, h, 0, 0, a, b, hi, hj, ha, hb => rfl
  | c :: l, h, 0, j + 1, a, b, hi, hj, ha, hb => by
    simp only [List.getElem?_cons_zero, Option.some.injEq] at hi
    subst hi
    rw [List.getElem?_cons_succ] at hj
    have := List.countP_pos_iff.mpr ⟨b, List.mem_of_getElem? hj, hb⟩
    rw [List.countP_cons_of_pos ha] at h
    omega
  | c :: l, h, i + 1, 0, a, b, hi, hj, ha, hb => by
    simp only [List.getElem?_cons_zero, Option.some.injEq] at hj
    subst hj
    rw [List.getElem?_cons_succ] at hi
    have := List.countP_pos_iff.mpr ⟨a, List.mem_of_getElem? hi, ha⟩
    rw [List.countP_cons_of_pos hb] at h
    omega
  | c :: l, h, i + 1, j + 1, a, b, hi, hj, ha, hb => by
    rw [List.getElem?_cons_succ] at hi hj
    have := countP_unique l (by rw [List.countP_cons] at h; omega) i j a b hi hj ha hb
    omega

theorem edge_unique {s : Links} {par : Nat → Nat} (ht : TreeOf .forward s 0 par) {n i j : Nat} {a b : Edge Unit Unit} (ha : edgeAt s n i = some a) (hb : edgeAt s n j = some b)
    (h : target a = target b) : i = j := by
  obtain ⟨hn, hr, _, _⟩ := tree_leads ht ⟨i, a, ha, rfl⟩
  have := ht.edges n hn (target a) hr
  unfold edgeAt at ha hb
  rw [List.getElem?_eq_getElem hn, Option.bind_some] at ha hb
  unfold links at this
  rw [List.getElem?_eq_getElem hn] at this
  refine countP_unique (p := fun e => decide (target e = target a)) s[n] ?_ i j a b ha hb (by simp) (by simp [h])
  simp only at this
  rw [this]
  simp only [downwards, upwards, Bool.false_eq_true, false_and, if_false, Nat.add_zero]
  split <;> omega

theorem top_edge {s : Links} {par : Nat → Nat} (ht : TreeOf .forward s 0 par) : ∀ (f : Forest) (n lo : Nat), f.Valid s n lo → (n :: f.nodes).Nodup → ∀ t ∈ f.nodes, par t = n →
    ∃ k e, lo ≤ k ∧ edgeAt s n k = some e ∧ target e = t
  | .nil, _, _, _, _, t, h, _ => by simp [Forest.nodes] at h
  | .cons k r ch rest, n, lo, hv, hd, t, h, hp => by
    obtain ⟨h1, ⟨e, h2, h3⟩, h4, h5⟩ := hv
    have hd' := hd
    simp only [Forest.nodes, List.cons_append, List.nodup_cons, List.mem_cons, List.mem_append, not_or, List.nodup_append] at hd
    obtain ⟨⟨d1, d2, d3⟩, ⟨d4, d5⟩, d6, d7, d8⟩ := hd
    simp only [Forest.nodes, List.cons_append, List.mem_cons, List.mem_append] at h
    rcases h with rfl | h | h
    · exact ⟨k, e, h1, h2, h3⟩
    · obtain ⟨p, hpm, hl⟩ := parent_mem ch r 0 h4 t h
      have := (tree_leads ht hl).2.2.2
      rw [hp] at this
      subst this
      rcases List.mem_cons.mp hpm with h' | h'
      · exact absurd h' d1
      · exact absurd h' d2
    · obtain ⟨k', e', a1, a2, a3⟩ := top_edge ht rest n (k + 1) h5 (List.nodup_cons.mpr ⟨d3, d7⟩) t h hp
      exact ⟨k', e', by omega, a2, a3⟩

/-- In a tree nothing is passed over. -/
theorem first_edge {s : Links} {par : Nat → Nat} (ht : TreeOf .forward s 0 par) {k r n lo : Nat} {ch rest : Forest} (hv : (Forest.cons k r ch rest).Valid s n lo)
    (hd : (n :: (Forest.cons k r ch rest).nodes).Nodup) {l : List (Edge Unit Unit)} (hl : s[n]? = some l)
    (hin : ∀ e ∈ l.drop lo, target e ∈ (Forest.cons k r ch rest).nodes) : k = lo := by
  obtain ⟨h1, ⟨e, h2, h3⟩, h4, h5⟩ := hv
  rcases Nat.lt_or_ge lo k with h | h
  · have hk : k < l.length := by
      unfold edgeAt at h2
      rw [hl, Option.bind_some] at h2
      exact (List.getElem?_eq_some_iff.mp h2).1
    have hlo : lo < l.length := by omega
    have he : edgeAt s n lo = some l[lo] := by unfold edgeAt; rw [hl, Option.bind_some, List.getElem?_eq_getElem hlo]
    have hm := hin l[lo] (by rw [List.mem_iff_getElem?]; exact ⟨0, by rw [List.getElem?_drop, Nat.add_zero, List.getElem?_eq_getElem hlo]⟩)
    have hp := (tree_leads ht ⟨lo, _, he, rfl⟩).2.2.2
    obtain ⟨k', e', a1, a2, a3⟩ := top_edge ht (Forest.cons k r ch rest) n k ⟨Nat.le_refl k, ⟨e, h2, h3⟩, h4, h5⟩ hd _ hm hp
    have := edge_unique ht he a2 a3.symm
    omega
  · omega

/-- The edges of the node of a forest, and what the calls say about them. -/
theorem forest_edges {s : Links} {par : Nat → Nat} (ht : TreeOf .forward s 0 par) {k r n lo : Nat} {ch rest : Forest} (hv : (Forest.cons k r ch rest).Valid s n lo)
    (hd : (n :: (Forest.cons k r ch rest).nodes).Nodup) (hf : Full s (.cons k r ch rest)) {l : List (Edge Unit Unit)} (hl : s[n]? = some l)
    (hin : ∀ e ∈ l.drop lo, target e ∈ (Forest.cons k r ch rest).nodes) :
    ∃ e l', l.drop lo = e :: l.drop (lo + 1) ∧ e.target = r ∧ s[r]? = some l' ∧ (∀ e ∈ l'.drop 0, target e ∈ ch.nodes) ∧ (∀ e ∈ l.drop (lo + 1), target e ∈ rest.nodes) ∧
      ch.Valid s r 0 ∧ rest.Valid s n (lo + 1) ∧ (r :: ch.nodes).Nodup ∧ (n :: rest.nodes).Nodup ∧ Full s ch ∧ Full s rest := by
  obtain ⟨f1, f2, f3⟩ := full_parts ht hv hd hf
  have hk := first_edge ht hv hd hl hin
  subst hk
  have hv' := hv
  obtain ⟨h1, ⟨e, h2, h3⟩, h4, h5⟩ := hv
  have hd' := hd
  simp only [Forest.nodes, List.cons_append, List.nodup_cons, List.mem_cons, List.mem_append, not_or, List.nodup_append] at hd
  obtain ⟨⟨d1, d2, d3⟩, ⟨d4, d5⟩, d6, d7, d8⟩ := hd
  obtain ⟨_, hr, _, hpr⟩ := tree_leads ht ⟨k, e, h2, h3⟩
  have he : l[k]? = some e := by
    unfold edgeAt at h2
    rw [hl, Option.bind_some] at h2
    exact h2
  obtain ⟨hk, hek⟩ := List.getElem?_eq_some_iff.mp he
  refine ⟨e, s[r], ?_, h3, List.getElem?_eq_getElem hr, ?_, ?_, h4, h5, List.nodup_cons.mpr ⟨d4, d6⟩, List.nodup_cons.mpr ⟨d3, d7⟩, f1, f2⟩
  · rw [List.drop_eq_getElem_cons hk, hek]
  · intro e' he'
    rw [List.drop_zero] at he'
    obtain ⟨i, hi, rfl⟩ := List.getElem_of_mem he'
    exact f3 _ ⟨i, s[r][i], by unfold edgeAt; rw [List.getElem?_eq_getElem hr, Option.bind_some, List.getElem?_eq_getElem hi], rfl⟩
  · intro e' he'
    obtain ⟨i, hi⟩ := List.mem_iff_getElem?.mp he'
    rw [List.getElem?_drop] at hi
    have hei : edgeAt s n (k + 1 + i) = some e' := by unfold edgeAt; rw [hl, Option.bind_some, hi]
    have hp := (tree_leads ht ⟨_, _, hei, rfl⟩).2.2.2
    have hm := hin e' (by rw [List.mem_iff_getElem?]; exact ⟨1 + i, by rw [List.getElem?_drop, ← hi]; congr 1; omega⟩)
    simp only [Forest.nodes, List.cons_append, List.mem_cons, List.mem_append] at hm
    rcases hm with h | h | h
    · have := edge_unique ht hei h2 (by rw [h, h3])
      omega
    · obtain ⟨p, hpm, hlp⟩ := parent_mem ch r 0 h4 _ h
      have := (tree_leads ht hlp).2.2.2
      rw [hp] at this
      subst this
      rcases List.mem_cons.mp hpm with h' | h'
      · exact absurd h' d1
      · exact absurd h' d2
    · exact h

/-! ### The verbose report -/

/-- What has been found, after a run. -/
def foundIn (nodes : List (SuiteNode Found T)) (x : Nat) : Found := match nodes[x]? with | some wt => wt.summary | none => Found.nothing ""

theorem trim_tabs (d : Nat) : trim (tabs d ++ ['\t']) 1 = tabs d := by
  simp [trim, tabs]

theorem tabs_succ (d : Nat) : tabs d ++ ['\t'] = tabs (d + 1) := by
  simp [tabs, ← List.replicate_append_replicate]

theorem printEvents_append (serial : Bool) (nodes : List (SuiteNode Found T)) (l m : List Graph.Event) (st : Str × Str) :
    printEvents render serial nodes (l ++ m) st = (printEvents render serial nodes l st).bind (printEvents render serial nodes m) := by
  induction l generalizing st with
  | nil => rfl
  | cons e l ih =>
    cases e with
    | before n =>
      simp only [List.cons_append, printEvents]
      cases printNode render serial nodes st n with
      | ok st' => simp only [Res.bind]; exact ih st'
      | throws => rfl
      | ub => rfl
    | after n => simp only [List.cons_append, printEvents]; exact ih _
    | first n k => simp only [List.cons_append, printEvents]; exact ih _
    | second n k => simp only [List.cons_append, printEvents]; exact ih _

/-- The summary of a suite has kept its name. -/
def Named (nodes : List (SuiteNode Found T)) (g : Suites Found T) : Prop :=
  nodes.length = g.nodes.length ∧ ∀ (x : Nat) (wt : SuiteNode Found T), g.nodes[x]? = some wt → ∃ f, nodes[x]? = some ⟨f, wt.test⟩ ∧ (wt.test = none → f.1.name = wt.summary.1.name)

theorem printNode_ok {nodes : List (SuiteNode Found T)} {g : Suites Found T} (hn : Named nodes g) (serial : Bool) {x : Nat} (hx : x < g.nodes.length) (h0 : x ≠ 0) (d : Nat) (text : Str) :
    ∃ t, printNode render serial nodes (tabs d, text) x = .ok (tabs (d + 1), text ++ t) ∧ NodeText render serial g (foundIn nodes) d x t := by
  obtain ⟨f, h1, h2⟩ := hn.2 x _ (List.getElem?_eq_getElem hx)
  have hf : foundIn nodes x = f := by unfold foundIn; rw [h1]
  unfold printNode
  rw [if_neg h0, h1]
  dsimp only
  cases ht : (g.nodes[x]).test with
  | some t =>
    obtain ⟨txt, h3⟩ := summarize_ok (render := render) f.1 f.2 [] none ⟨false, true, true⟩ (tabs d) ['\t']
    refine ⟨txt, ?_, _, List.getElem?_eq_getElem hx, ?_⟩
    · simp only [h3, Res.bind, tabs_succ]
    · rw [ht]; dsimp only; rw [hf]; exact h3
  | none =>
    have hnm := h2 ht
    have hi : indent (f.1.name.toList ++ [':']) (tabs d) ≠ [] := fun h => by have := (LoggerText.indent_nil_iff _ _).1 h; simp at this
    cases serial with
    | true =>
      refine ⟨appendIndented (indent (f.1.name.toList ++ [':']) (tabs d)) (SummaryText.reportTime render f.1 none) (tabs d), ?_, g.nodes[x], List.getElem?_eq_getElem hx, ?_⟩
      · simp only [if_true, Res.bind, tabs_succ]
      · rw [ht]; dsimp only [if_true]; rw [hf, ← hnm]
        unfold appendIndented
        rw [if_neg (SummaryText.reportTime_ne render f.1 none), if_neg hi]
        simp
    | false =>
      refine ⟨indent (f.1.name.toList ++ [':']) (tabs d) ++ ['\n'], ?_, g.nodes[x], List.getElem?_eq_getElem hx, ?_⟩
      · simp only [Bool.false_eq_true, if_false, Res.bind, tabs_succ]
      · rw [ht]; simp only [Bool.false_eq_true, if_false, List.append_nil]; rw [← hnm]

theorem print_forest {nodes : List (SuiteNode Found T)} {g : Suites Found T} (hn : Named nodes g) (hw : g.nodes.length = g.edges.length) (serial : Bool) {par : Nat → Nat}
    (ht : TreeOf .forward g.edges 0 par) :
    ∀ (f : Forest) (n lo d : Nat) (text : Str) (l : List (Edge Unit Unit)), f.Valid g.edges n lo → (n :: f.nodes).Nodup → Full g.edges f → g.edges[n]? = some l →
      (∀ e ∈ l.drop lo, target e ∈ f.nodes) →
    ∃ t, printEvents render serial nodes (f.calls n) (tabs d, text) = .ok (tabs d, text ++ t) ∧ Listed (NodeText render serial g (foundIn nodes)) g.edges d (l.drop lo) t
  | .nil, n, lo, d, text, l, _, _, _, hl, hin => by
    refine ⟨[], by simp [Forest.calls, printEvents], ?_⟩
    have : l.drop lo = [] := by
      cases hd : l.drop lo with
      | nil => rfl
      | cons e es => rw [hd] at hin; exact absurd (hin e (by simp)) (by simp [Forest.nodes])
    rw [this]
    exact .nil
  | .cons k r ch rest, n, lo, d, text, l, hv, hd, hf, hl, hin => by
    obtain ⟨e, l', a1, a2, a3, a4, a5, a6, a7, a8, a9, a10, a11⟩ := forest_edges ht hv hd hf hl hin
    obtain ⟨_, ⟨e', h2, h3⟩, _, _⟩ := hv
    obtain ⟨_, hr, hr0, _⟩ := tree_leads ht ⟨k, e', h2, h3⟩
    obtain ⟨t, b1, b2⟩ := printNode_ok (render := render) hn serial (x := r) (by omega) hr0 d text
    obtain ⟨u, c1, c2⟩ := print_forest hn hw serial ht ch r 0 (d + 1) (text ++ t) l' a6 a8 a10 a3 a4
    obtain ⟨v, d1, d2⟩ := print_forest hn hw serial ht rest n (lo + 1) d (text ++ t ++ u) l a7 a9 a11 hl a5
    refine ⟨t ++ u ++ v, ?_, ?_⟩
    · simp only [Forest.calls, List.cons_append, printEvents, b1, Res.bind, printEvents_append, c1]
      unfold decreaseIndent
      rw [if_neg hr0]
      dsimp only
      rw [← tabs_succ, trim_tabs, d1]
      simp
    · rw [a1]
      rw [List.drop_zero] at c2
      refine .cons ?_ ?_ c2 d2
      · rw [a2]; exact b2
      · rw [a2]; exact a3

theorem verbose_ok {nodes : List (SuiteNode Found T)} {g : Suites Found T} (hn : Named nodes g) (hg : Props.SuiteTree g) (serial : Bool) :
    ∃ l t, g.edges[0]? = some l ∧ verboseReport render serial g.edges nodes = .ok t ∧ Listed (NodeText render serial g (foundIn nodes)) g.edges 0 l t := by
  obtain ⟨par, ht⟩ := hg.tree
  obtain ⟨f, h1, h2, h3, h4⟩ := traverse_tree ht
  have hl := List.getElem?_eq_getElem ht.root_lt
  have hfull : Full g.edges f := by
    intro x hx t hl'
    obtain ⟨_, hb, h0, _⟩ := tree_leads ht hl'
    have := (h3 t).mpr hb
    simpa [h0] using this
  obtain ⟨t, b1, b2⟩ := print_forest (render := render) hn hg.weights serial ht f 0 0 0 [] _ h4 h2 hfull hl (by
    intro e he
    rw [List.drop_zero] at he
    obtain ⟨i, hi, rfl⟩ := List.getElem_of_mem he
    obtain ⟨_, hb, h0, _⟩ := tree_leads ht (a := 0) ⟨i, (g.edges[0]'ht.root_lt)[i], by unfold edgeAt; rw [hl, Option.bind_some, List.getElem?_eq_getElem hi], rfl⟩
    have := (h3 _).mpr hb
    exact (List.mem_cons.mp this).resolve_left h0)
  refine ⟨_, t, hl, ?_, by simpa using b2⟩
  unfold verboseReport
  rw [h1]
  simp only [Res.bind, List.cons_append, printEvents, printNode, if_true]
  rw [printEvents_append]
  have : printEvents render serial nodes (f.calls 0) ([], []) = .ok ([], t) := by simpa [tabs] using b1
  rw [this]
  simp [Res.bind, printEvents, decreaseIndent]

/-! ### The brief report -/

theorem briefLoop_ok {nodes : List (SuiteNode Found T)} (serial : Bool) : ∀ (l : List (Edge Unit Unit)), (∀ e ∈ l, e.target < nodes.length) → ∀ text,
    ∃ texts, briefLoop render serial nodes l text = .ok (text ++ texts.flatten) ∧
      List.Forall₂ (fun e t => SummaryText.summarize render (foundIn nodes e.target).1 (foundIn nodes e.target).2 [':'] none ⟨false, true, serial⟩ [] (tabs 1) = .ok t) l texts
  | [], _, text => ⟨[], by simp [briefLoop], .nil⟩
  | e :: l, h, text => by
    have hx : e.target < nodes.length := h e (by simp)
    obtain ⟨t, h1⟩ := summarize_ok (render := render) (nodes[e.target]).summary.1 (nodes[e.target]).summary.2 [':'] none ⟨false, true, serial⟩ [] ['\t']
    obtain ⟨texts, h2, h3⟩ := briefLoop_ok serial l (fun e he => h e (List.mem_cons_of_mem _ he)) (text ++ t)
    refine ⟨t :: texts, ?_, .cons ?_ h3⟩
    · simp only [briefLoop, List.getElem?_eq_getElem hx, h1, Res.bind, h2]
      simp
    · have : foundIn nodes e.target = (nodes[e.target]).summary := by unfold foundIn; rw [List.getElem?_eq_getElem hx]
      rw [this]
      exact h1

/-! ### One run -/

/-- The tests are those of `g`, and the suites are as they were at the beginning. -/
def Ready (nodes : List (SuiteNode Found T)) (g : Suites Found T) : Prop :=
  nodes.length = g.nodes.length ∧ ∀ (x : Nat) (wt : SuiteNode Found T), g.nodes[x]? = some wt → ∃ f, nodes[x]? = some ⟨f, wt.test⟩ ∧ (wt.test = none → f = Found.nothing wt.summary.1.name)

theorem plus_name (l : List Found) (a : Found) : (l.foldl Found.plus a).1.name = a.1.name := by
  induction l generalizing a with
  | nil => rfl
  | cons b l ih => rw [List.foldl_cons, ih]; rfl

theorem ready_tree {nodes : List (SuiteNode Found T)} {g : Suites Found T} (hr : Ready nodes g) (hg : Props.SuiteTree g) : Props.SuiteTree (⟨nodes, g.edges⟩ : Suites Found T) := by
  have key : ∀ (x : Nat) (wt : SuiteNode Found T), nodes[x]? = some wt → ∃ wt', g.nodes[x]? = some wt' ∧ wt.test = wt'.test := by
    intro x wt hx
    have hlt : x < g.nodes.length := by rw [← hr.1]; exact (List.getElem?_eq_some_iff.mp hx).1
    obtain ⟨f, h1, _⟩ := hr.2 x _ (List.getElem?_eq_getElem hlt)
    rw [hx] at h1
    cases h1
    exact ⟨_, List.getElem?_eq_getElem hlt, rfl⟩
  refine ⟨by rw [hr.1]; exact hg.weights, hg.tree, ?_, ?_⟩
  · intro wt hx
    obtain ⟨wt', h1, h2⟩ := key 0 wt hx
    rw [h2]; exact hg.root wt' h1
  · intro x wt hx hne
    obtain ⟨wt', h1, h2⟩ := key x wt hx
    rw [h2] at hne
    exact hg.leaves x wt' h1 hne

theorem ready_sorted {nodes : List (SuiteNode Found T)} {g : Suites Found T} (hr : Ready nodes g) {p : T → Bool} (hs : Sorted (rankLt p) g.nodes) :
    Sorted (rankLt p) nodes := by
  have h1 := List.pairwise_iff_getElem.mp hs
  refine List.pairwise_iff_getElem.mpr fun i j hi hj hij => ?_
  have hi' : i < g.nodes.length := by rw [← hr.1]; exact hi
  have hj' : j < g.nodes.length := by rw [← hr.1]; exact hj
  obtain ⟨f, a1, _⟩ := hr.2 i _ (List.getElem?_eq_getElem hi')
  obtain ⟨f', b1, _⟩ := hr.2 j _ (List.getElem?_eq_getElem hj')
  rw [List.getElem?_eq_getElem hi, Option.some.injEq] at a1
  rw [List.getElem?_eq_getElem hj, Option.some.injEq] at b1
  have := h1 i j hi' hj' hij
  rw [a1, b1]
  exact this

theorem foldl_found {nodes children : List (SuiteNode Found T)} {l : List (Edge Unit Unit)} (h : (l.map fun e => nodes[e.target]?) = children.map some) (a : Found) :
    children.foldl (fun s child => Found.plus s child.summary) a = (l.map fun e => foundIn nodes e.target).foldl Found.plus a := by
  have : (l.map fun e => foundIn nodes e.target) = children.map (·.summary) := by
    have h' : (l.map fun e => foundIn nodes e.target) = (l.map fun e => nodes[e.target]?).map fun o => match o with | some wt => wt.summary | none => Found.nothing "" := by
      rw [List.map_map]; rfl
    rw [h', h, List.map_map]; rfl
  rw [this, List.foldl_map]

/-- Running the tests of a tree which is ready. -/
theorem run_report {c : Settings T} {g : Suites Found T} {nodes : List (SuiteNode Found T)} (hsch : ∀ i l, (c.schedule i l).Perm l) (hg : Props.SuiteTree g) (hr : Ready nodes g)
    (hs : c.serial = false → Sorted (rankLt c.parallelizable) g.nodes) (i : Nat) :
    ∃ nodes' text, run render c i ⟨nodes, g.edges⟩ = .ok (⟨nodes', g.edges⟩, text) ∧ Named nodes' g ∧
      Report render c.serial c.verbose (c.exec i) (c.asyncTime i) (c.totalTime i) g text := by
  have hg' := ready_tree hr hg
  obtain ⟨st, order, h1, _, _, h4, h5, _⟩ := Props.RunTests.run_ok (exec := c.exec i) (add := Found.plus) (parallelizable := c.parallelizable) (serial := c.serial) (hsch i) hg'
    (fun h => ready_sorted hr (hs h))
  simp only at h4 h5
  have htot : Totals (c.exec i) g (foundIn st.nodes) := by
    intro x wt l hx hl
    obtain ⟨f, a1, a2⟩ := hr.2 x wt hx
    obtain ⟨wt', l', sum, b1, b2, b3, b4⟩ := h5 x (List.getElem?_eq_some_iff.mp a1).1
    rw [a1] at b1
    cases b1
    rw [hl] at b2
    cases b2
    obtain ⟨children, c1, c2⟩ := Props.RunTests.addUp_foldl b3
    have : foundIn st.nodes x = sum := by unfold foundIn; rw [b4]
    rw [this, c2, foldl_found c1, Props.RunTests.ran_summary]
    cases ht : wt.test with
    | some t => rfl
    | none => rw [a2 ht]
  have hnamed : Named st.nodes g := by
    refine ⟨by rw [h4, hr.1], ?_⟩
    intro x wt hx
    obtain ⟨f, a1, a2⟩ := hr.2 x wt hx
    have hlt : x < g.edges.length := by rw [← hg.weights]; exact (List.getElem?_eq_some_iff.mp hx).1
    obtain ⟨wt', l', sum, b1, b2, b3, b4⟩ := h5 x (List.getElem?_eq_some_iff.mp a1).1
    rw [a1] at b1
    cases b1
    refine ⟨sum, b4, fun ht => ?_⟩
    have hf : foundIn st.nodes x = sum := by unfold foundIn; rw [b4]
    rw [← hf, htot x wt _ hx (List.getElem?_eq_getElem hlt), plus_name]
    simp only [ht, Found.nothing]
  obtain ⟨par, ht⟩ := hg.tree
  have hl0 := List.getElem?_eq_getElem ht.root_lt
  have h0 : 0 < st.nodes.length := by rw [hnamed.1, hg.weights]; exact ht.root_lt
  cases hn : st.nodes with
  | nil => rw [hn] at h0; simp at h0
  | cons wt rest =>
    have hf0 : foundIn st.nodes 0 = wt.summary := by unfold foundIn; rw [hn]; rfl
    -- the nodes afterwards
    let wt' : SuiteNode Found T := ⟨(if c.serial then wt.summary.1 else { wt.summary.1 with duration := c.asyncTime i }, wt.summary.2), wt.test⟩
    have hroot : setRootTime (if c.serial then none else some (c.asyncTime i)) st.nodes = .ok (wt' :: rest) := by
      rw [hn]; unfold setRootTime
      simp only [wt']
      cases c.serial <;> rfl
    obtain ⟨totals, ht1⟩ := summarize_ok (render := render) wt'.summary.1 wt'.summary.2 [] (some (c.totalTime i)) ⟨true, false, true⟩ ['\t'] []
    have hnamed' : Named (wt' :: rest) g := by
      refine ⟨by rw [← hnamed.1, hn]; rfl, ?_⟩
      intro x w hx
      obtain ⟨f, a1, a2⟩ := hnamed.2 x w hx
      rw [hn] at a1
      cases x with
      | zero =>
        simp only [List.getElem?_cons_zero, Option.some.injEq] at a1
        subst a1
        refine ⟨wt'.summary, rfl, fun h => ?_⟩
        rw [← a2 h]
        simp only [wt']
        cases c.serial <;> rfl
      | succ x => exact ⟨f, by simpa using a1, a2⟩
    have hbody : ∃ body, (if c.verbose then verboseReport render c.serial g.edges st.nodes else briefReport render c.serial g.edges st.nodes) = .ok body ∧
        (if c.verbose then Listed (NodeText render c.serial g (foundIn st.nodes)) g.edges 0 (g.edges[0]'ht.root_lt) body
         else ∃ texts, List.Forall₂ (fun e t => SummaryText.summarize render (foundIn st.nodes e.target).1 (foundIn st.nodes e.target).2 [':'] none ⟨false, true, c.serial⟩ [] (tabs 1) = .ok t)
            (g.edges[0]'ht.root_lt) texts ∧ body = texts.flatten) := by
      cases c.verbose with
      | true =>
        obtain ⟨l, t, k1, k2, k3⟩ := verbose_ok (render := render) hnamed hg c.serial
        rw [hl0] at k1
        cases k1
        exact ⟨t, by simpa using k2, by simpa using k3⟩
      | false =>
        obtain ⟨texts, k1, k2⟩ := briefLoop_ok (render := render) (nodes := st.nodes) c.serial (g.edges[0]'ht.root_lt) (by
          intro e he
          rw [hnamed.1, hg.weights]
          exact ht.inRange _ (List.getElem_mem ht.root_lt) e he) []
        refine ⟨texts.flatten, ?_, ?_⟩
        · simp only [Bool.false_eq_true, if_false, briefReport, hl0]
          simpa using k1
        · simp only [Bool.false_eq_true, if_false]
          exact ⟨texts, k2, rfl⟩
    obtain ⟨body, hb1, hb2⟩ := hbody
    refine ⟨wt' :: rest, runningTestsMessage c.serial ++ body ++ ("\n-----------Grand Totals-----------\n".toList ++ totals), ?_, hnamed', foundIn st.nodes, g.edges[0]'ht.root_lt, body, totals, htot, hl0, hb2, ?_, ?_⟩
    · unfold run
      rw [h1]
      simp only [Res.bind, hb1, hroot, grandTotals, ht1]
    · rw [hf0]
      exact ht1
    · simp only [List.append_assoc]
      congr 1
      cases c.serial <;> rfl

end Verif.RunReport
