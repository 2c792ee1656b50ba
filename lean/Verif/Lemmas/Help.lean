import Verif.Lemmas.RunReportAll
import Verif.Lemmas.TextForms
import Verif.Spec.Help
import Verif.Lemmas.CommandLineLine
set_option linter.unusedSimpArgs false
set_option linter.unusedVariables false
/- Lemmas about help. -/
namespace Verif.Help
open Verif.Graph Verif.Text Verif.Spec.Text Verif.Spec Verif.Spec.Help Verif.RunTests Verif.RunReport Verif.Spec.RunReport EdgeLike
open Verif.Cmd (Opt OptTree)

/-! ### One option -/

theorem indent_word {w : Str} (h : w ≠ []) (hn : '\n' ∉ w) (ind : Str) : indent w ind = ind ++ w := by
  rw [indent_spec, lines_line hn]
  simp [indentLine, unlines, h]

theorem flat_params : ∀ {ps : List Str}, ps ≠ [] → (ps.flatMap fun p => [' '] ++ p ++ [',']) = List.intercalate [','] (ps.map (' ' :: ·)) ++ [',']
  | [], h => absurd rfl h
  | [p], _ => by simp [List.intercalate]
  | p :: q :: ps, _ => by
    have ih := flat_params (ps := q :: ps) (by simp)
    rw [List.flatMap_cons, ih]
    simp [List.intercalate, List.intersperse]

theorem describe_line {o : Opt} (h : Printable o) (d : Nat) (help : Str) : describe o (List.replicate (2 * d) ' ') help = help ++ (line d o ++ ['\n']) := by
  obtain ⟨h1, h2, h3⟩ := h
  unfold describe line aliasText
  dsimp only
  rw [indent_word h1 h2]
  by_cases hp : o.params = []
  · rw [hp]
    by_cases ha : o.aliases = []
    · have h3 := h3 ha hp
      rw [ha]
      simp only [List.isEmpty_nil, if_true, List.flatMap_nil, List.append_nil, List.map_nil, List.intercalate_nil]
      rw [if_neg]
      · simp
      · rw [← List.append_assoc, List.getLast?_append]
        obtain ⟨c, hc⟩ := List.getLast?_isSome.mpr h1 |> Option.isSome_iff_exists.mp
        rw [hc] at h3 ⊢
        simpa using h3
    · rw [if_neg (show ¬ o.aliases.isEmpty = true by simpa using ha), if_neg ha, List.flatMap_nil, List.append_nil, if_neg (by rw [List.getLast?_append]; simp)]
      simp [List.flatMap_def]
  · rw [flat_params hp]
    by_cases ha : o.aliases = []
    · rw [ha]
      simp only [List.isEmpty_nil, if_true]
      rw [if_pos (by rw [← List.append_assoc, List.getLast?_append]; simp), ← List.append_assoc, List.dropLast_concat]
      simp
    · rw [if_neg (show ¬ o.aliases.isEmpty = true by simpa using ha), if_pos (by rw [← List.append_assoc, List.getLast?_append]; simp), ← List.append_assoc, List.dropLast_concat, if_neg ha]
      simp [List.flatMap_def]

/-! ### All of them -/

theorem trim_spaces (d : Nat) : trim (List.replicate (2 * (d + 1)) ' ') 2 = List.replicate (2 * d) ' ' := by
  simp only [trim, List.length_replicate, List.take_replicate]
  congr 1
  omega

theorem spaces_succ (d : Nat) : List.replicate (2 * d) ' ' ++ [' ', ' '] = List.replicate (2 * (d + 1)) ' ' := by
  rw [show 2 * (d + 1) = 2 * d + 2 by omega, ← List.replicate_append_replicate]; rfl

theorem helpEvents_append (nodes : List Opt) (l m : List Graph.Event) (st : Str × Str) :
    helpEvents nodes (l ++ m) st = (helpEvents nodes l st).bind (helpEvents nodes m) := by
  induction l generalizing st with
  | nil => rfl
  | cons e l ih =>
    cases e with
    | before n =>
      simp only [List.cons_append, helpEvents]
      cases helpNode nodes st n with
      | ok st' => simp only [Res.bind]; exact ih st'
      | throws => rfl
      | ub => rfl
    | after n => simp only [List.cons_append, helpEvents]; exact ih _
    | first n k => simp only [List.cons_append, helpEvents]; exact ih _
    | second n k => simp only [List.cons_append, helpEvents]; exact ih _

def Own (nodes : List Opt) (d x : Nat) (t : Str) : Prop := ∃ o, nodes[x]? = some o ∧ t = line d o ++ ['\n']

theorem helpNode_ok {nodes : List Opt} (hp : ∀ o ∈ nodes, Printable o) {x : Nat} (hx : x < nodes.length) (d : Nat) (text : Str) :
    ∃ t, helpNode nodes (List.replicate (2 * d) ' ', text) x = .ok (List.replicate (2 * (d + 1)) ' ', text ++ t) ∧ Own nodes d x t := by
  refine ⟨line d nodes[x] ++ ['\n'], ?_, _, List.getElem?_eq_getElem hx, rfl⟩
  unfold helpNode
  rw [List.getElem?_eq_getElem hx]
  dsimp only
  rw [describe_line (hp _ (List.getElem_mem hx)), spaces_succ]

theorem help_forest {g : OptGraph} (hw : g.nodes.length = g.edges.length) (hp : ∀ o ∈ g.nodes, Printable o) {par : Nat → Nat} (ht : TreeOf .forward g.edges 0 par) :
    ∀ (f : Forest) (n lo d : Nat) (text : Str) (l : List (Edge Unit Unit)), f.Valid g.edges n lo → (n :: f.nodes).Nodup → Full g.edges f → g.edges[n]? = some l →
      (∀ e ∈ l.drop lo, target e ∈ f.nodes) →
    ∃ t, helpEvents g.nodes (f.calls n) (List.replicate (2 * d) ' ', text) = .ok (List.replicate (2 * d) ' ', text ++ t) ∧ Listed (Own g.nodes) g.edges d (l.drop lo) t
  | .nil, n, lo, d, text, l, _, _, _, hl, hin => by
    refine ⟨[], by simp [Forest.calls, helpEvents], ?_⟩
    have : l.drop lo = [] := by
      cases hd : l.drop lo with
      | nil => rfl
      | cons e es => rw [hd] at hin; exact absurd (hin e (by simp)) (by simp [Forest.nodes])
    rw [this]
    exact .nil
  | .cons k r ch rest, n, lo, d, text, l, hv, hd, hf, hl, hin => by
    obtain ⟨e, l', a1, a2, a3, a4, a5, a6, a7, a8, a9, a10, a11⟩ := forest_edges ht hv hd hf hl hin
    obtain ⟨_, ⟨e', h2, h3⟩, _, _⟩ := hv
    obtain ⟨_, hr, hr0, _⟩ := tree_leads ht ⟨k, e', h2, h3⟩
    obtain ⟨t, b1, b2⟩ := helpNode_ok hp (x := r) (by omega) d text
    obtain ⟨u, c1, c2⟩ := help_forest hw hp ht ch r 0 (d + 1) (text ++ t) l' a6 a8 a10 a3 a4
    obtain ⟨v, d1, d2⟩ := help_forest hw hp ht rest n (lo + 1) d (text ++ t ++ u) l a7 a9 a11 hl a5
    refine ⟨t ++ u ++ v, ?_, ?_⟩
    · simp only [Forest.calls, List.cons_append, helpEvents, b1, Res.bind, helpEvents_append, c1]
      rw [trim_spaces, d1]
      simp
    · rw [a1]
      rw [List.drop_zero] at c2
      refine .cons ?_ ?_ c2 d2
      · rw [a2]; exact b2
      · rw [a2]; exact a3

theorem walk_cons {s : Links} {a b c d : Nat} (h : Leads s a b) (hw : Walk s b c d) : Walk s a c (d + 1) := by
  induction hw with
  | refl => exact .snoc .refl h
  | snoc _ hl ih => exact .snoc ih hl

/-- There are no cycles in a tree. -/
theorem tree_acyclic {s : Links} {par : Nat → Nat} (ht : TreeOf .forward s 0 par) {y : Nat} (hy : Below 0 par 0 y) : ∀ d, ¬ Walk s y y (d + 1) := by
  induction hy with
  | self =>
    intro d h
    cases h with
    | snoc _ hl => exact (tree_leads ht hl).2.2.1 rfl
  | up hne _ ih =>
    intro d h
    cases h with
    | snoc hw hl =>
      have := (tree_leads ht hl).2.2.2
      subst this
      exact ih d (walk_cons hl hw)

/-- Everything a search from a node of a tree finds is listed. -/
theorem help_tree {g : OptGraph} (hw : g.nodes.length = g.edges.length) (hp : ∀ o ∈ g.nodes, Printable o) {par : Nat → Nat} (ht : TreeOf .forward g.edges 0 par) {n : Nat}
    (hn : n < g.edges.length) (text : Str) :
    ∃ events l t u, traverseDfs false g.edges n (g.edges.length + 1) = .ok (some events) ∧ helpEvents g.nodes events ([], text) = .ok ([], text ++ t ++ u) ∧ g.edges[n]? = some l ∧
      Own g.nodes 0 n t ∧ Listed (Own g.nodes) g.edges 1 l u := by
  obtain ⟨f, h1, ⟨_, h2, h3, _⟩, h4, _⟩ := traverseDfs_spec ht.inRange hn (fuel := g.edges.length + 1) (by omega)
  have hl := List.getElem?_eq_getElem hn
  simp only [treeNodes] at h2 h3
  have hreach : ∀ x t, x ∈ n :: f.nodes → Leads g.edges x t → t ∈ f.nodes := by
    intro x t hx hl'
    have hrx := ((h3 x).mp hx).1
    obtain ⟨d, hd⟩ := hrx
    have := (h3 t).mpr ⟨⟨d + 1, .snoc hd hl'⟩, by simp⟩
    rcases List.mem_cons.mp this with rfl | h
    · exact absurd (.snoc hd hl') (tree_acyclic ht (ht.descends _ hn) d)
    · exact h
  obtain ⟨t, b1, b2⟩ := helpNode_ok hp (x := n) (by omega) 0 text
  obtain ⟨u, c1, c2⟩ := help_forest hw hp ht f n 0 1 (text ++ t) _ h4 h2 (fun x hx t hl' => hreach x t (List.mem_cons_of_mem _ hx) hl') hl (by
    intro e he
    rw [List.drop_zero] at he
    obtain ⟨i, hi, rfl⟩ := List.getElem_of_mem he
    exact hreach n _ (by simp) ⟨i, (g.edges[n])[i], by unfold edgeAt; rw [hl, Option.bind_some, List.getElem?_eq_getElem hi], rfl⟩)
  refine ⟨_, _, t, u, h1, ?_, hl, b2, by simpa using c2⟩
  simp only [treeCalls, List.cons_append, helpEvents]
  rw [show (([] : Str), text) = (List.replicate (2 * 0) ' ', text) from rfl, b1]
  simp only [Res.bind]
  rw [helpEvents_append, c1]
  simp only [Res.bind, helpEvents]
  rw [show 2 * 1 = 2 * (0 + 1) from rfl, trim_spaces]
  rfl

/-! ### Trees of options -/

theorem text_append (a b : List (Nat × Opt)) : text (a ++ b) = text a ++ text b := by simp [text]

theorem entries_append {d : Nat} {ts us : List OptTree} {a b : List (Nat × Opt)} (h : Entries d ts a) (h' : Entries d us b) : Entries d (ts ++ us) (a ++ b) := by
  induction h with
  | nil => exact h'
  | cons hi _ _ ih =>
    rw [List.cons_append, List.append_assoc]
    exact .cons hi (ih h')

theorem listed_entries {g : OptGraph} : ∀ {d : Nat} {l : List (Edge Unit Unit)} {t : Str}, Listed (Own g.nodes) g.edges d l t → ∀ cs : List OptTree, l.length = cs.length →
    (∀ (i : Nat) (e : Edge Unit Unit) (c : OptTree), l[i]? = some e → cs[i]? = some c → Holds g e.target c) → ∃ es, Entries d cs es ∧ t = text es := by
  intro d l t h
  induction h with
  | nil =>
    intro cs hl _
    have : cs = [] := List.length_eq_zero_iff.mp hl.symm
    subst this
    exact ⟨[], .nil, rfl⟩
  | cons ho hl _ _ ih1 ih2 =>
    intro cs hlen hh
    cases cs with
    | nil => cases hlen
    | cons c cs =>
      have h0 := hh 0 _ c rfl rfl
      cases h0 with
      | node k1 k2 k3 k4 =>
        obtain ⟨o', k5, rfl⟩ := ho
        rw [k1] at k5; cases k5
        rw [hl] at k2; cases k2
        obtain ⟨es1, m1, rfl⟩ := ih1 _ k3 k4
        obtain ⟨es2, m2, rfl⟩ := ih2 cs (by simpa using hlen) (fun i e c he hc => hh (i + 1) e c (by simpa using he) (by simpa using hc))
        exact ⟨_, .cons m1 m2, by simp [text]⟩

theorem holds_entries {g : OptGraph} {n : Nat} {l : List (Edge Unit Unit)} {tr : OptTree} (hh : Holds g n tr) (hl : g.edges[n]? = some l) {t u : Str} (ho : Own g.nodes 0 n t)
    (hu : Listed (Own g.nodes) g.edges 1 l u) : ∃ es, Entries 0 [tr] es ∧ t ++ u = text es := by
  cases hh with
  | node k1 k2 k3 k4 =>
    obtain ⟨o', k5, rfl⟩ := ho
    rw [k1] at k5; cases k5
    rw [hl] at k2; cases k2
    obtain ⟨es, m1, rfl⟩ := listed_entries hu _ k3 k4
    exact ⟨_, .cons m1 .nil, by simp [text]⟩

theorem helpLoop_ok : ∀ {gs : List (OptGraph × Nat)} {ts : List OptTree}, (∀ p ∈ gs, Tree p) → List.Forall₂ (fun p t => Holds p.1 p.2 t) gs ts → ∀ acc : Str,
    ∃ es, Entries 0 ts es ∧ helpLoop gs ([], acc) = .ok ([], acc ++ text es) := by
  intro gs ts hg h
  induction h with
  | nil => exact fun acc => ⟨[], .nil, by simp [helpLoop, text]⟩
  | cons h _ ih =>
    intro acc
    obtain ⟨hw, hp, ⟨par, ht⟩, hn⟩ := hg _ List.mem_cons_self
    obtain ⟨events, l, t, u, e1, e2, e3, e4, e5⟩ := help_tree hw hp ht hn acc
    obtain ⟨es, m1, m2⟩ := holds_entries h e3 e4 e5
    obtain ⟨es', k1, k2⟩ := ih (fun p hp => hg p (by simp [hp])) (acc ++ t ++ u)
    refine ⟨es ++ es', entries_append m1 k1, ?_⟩
    unfold helpLoop
    rw [e1]
    simp only [Res.bind]
    rw [e2]
    simp only [Res.bind]
    rw [k2, text_append, ← m2]
    simp

/-! ### What can be read off -/

theorem word_unique {c : Char} {a b r r' : Str} (ha : c ∉ a) (hb : c ∉ b) (h : a ++ c :: r = b ++ c :: r') : a = b ∧ r = r' := by
  induction a generalizing b with
  | nil =>
    cases b with
    | nil => simpa using h
    | cons x b => simp only [List.nil_append, List.cons_append, List.cons.injEq] at h; exact absurd (by simp [h.1]) hb
  | cons y a ih =>
    cases b with
    | nil => simp only [List.nil_append, List.cons_append, List.cons.injEq] at h; exact absurd (by simp [h.1]) ha
    | cons x b =>
      simp only [List.cons_append, List.cons.injEq] at h
      obtain ⟨rfl, h⟩ := h
      obtain ⟨rfl, h2⟩ := ih (fun h => ha (by simp [h])) (fun h => hb (by simp [h])) h
      exact ⟨rfl, h2⟩

/-- Words which end with the text, or at a separator. -/
theorem word_unique' {c : Char} {a b r r' : Str} (ha : c ∉ a) (hb : c ∉ b) (hr : r = [] ∨ ∃ s, r = c :: s) (hr' : r' = [] ∨ ∃ s, r' = c :: s) (h : a ++ r = b ++ r') : a = b ∧ r = r' := by
  rcases hr with rfl | ⟨s, rfl⟩ <;> rcases hr' with rfl | ⟨s', rfl⟩
  · simpa using h
  · exact absurd (by rw [List.append_nil] at h; rw [h]; simp) ha
  · exact absurd (by rw [List.append_nil] at h; rw [← h]; simp) hb
  · obtain ⟨rfl, rfl⟩ := word_unique ha hb h
    exact ⟨rfl, rfl⟩

theorem spaces_unique : ∀ {m n : Nat} {a b : Str}, a ≠ [] → b ≠ [] → ' ' ∉ a → ' ' ∉ b → ∀ {r r' : Str}, List.replicate m ' ' ++ (a ++ r) = List.replicate n ' ' ++ (b ++ r') → m = n
  | 0, 0, _, _, _, _, _, _, _, _, _ => rfl
  | 0, n + 1, [], _, h, _, _, _, _, _, _ => absurd rfl h
  | 0, n + 1, x :: a, _, _, _, ha, _, _, _, h => by
    simp only [List.replicate_zero, List.nil_append, List.cons_append, List.replicate_succ, List.cons.injEq] at h
    exact absurd (by simp [h.1]) ha
  | m + 1, 0, _, [], _, h, _, _, _, _, _ => absurd rfl h
  | m + 1, 0, _, x :: b, _, _, _, hb, _, _, h => by
    simp only [List.replicate_zero, List.nil_append, List.cons_append, List.replicate_succ, List.cons.injEq] at h
    exact absurd (by simp [← h.1]) hb
  | m + 1, n + 1, a, b, h1, h2, h3, h4, r, r', h => by
    simp only [List.replicate_succ, List.cons_append, List.cons.injEq, true_and] at h
    rw [spaces_unique h1 h2 h3 h4 h]

theorem aliases_unique : ∀ {as bs : List Str} {r r' : Str}, (∀ a ∈ as, a ≠ [] ∧ ' ' ∉ a ∧ '\n' ∉ a ∧ a.head? ≠ some '|') → (∀ a ∈ bs, a ≠ [] ∧ ' ' ∉ a ∧ '\n' ∉ a ∧ a.head? ≠ some '|') →
    (as.map (· ++ [' '])).flatten ++ '|' :: r = (bs.map (· ++ [' '])).flatten ++ '|' :: r' → as = bs ∧ r = r'
  | [], [], r, r', _, _, h => by simpa using h
  | [], b :: bs, r, r', _, hb, h => by
    obtain ⟨h1, _, _, h4⟩ := hb b (by simp)
    cases b with
    | nil => exact absurd rfl h1
    | cons x b => simp at h; exact absurd (by simp [← h.1]) h4
  | a :: as, [], r, r', ha, _, h => by
    obtain ⟨h1, _, _, h4⟩ := ha a (by simp)
    cases a with
    | nil => exact absurd rfl h1
    | cons x b => simp at h; exact absurd (by simp [h.1]) h4
  | a :: as, b :: bs, r, r', ha, hb, h => by
    simp only [List.map_cons, List.flatten_cons, List.append_assoc, List.cons_append, List.nil_append] at h
    obtain ⟨rfl, h'⟩ := word_unique (ha a (by simp)).2.1 (hb b (by simp)).2.1 h
    obtain ⟨rfl, rfl⟩ := aliases_unique (fun x hx => ha x (by simp [hx])) (fun x hx => hb x (by simp [hx])) h'
    exact ⟨rfl, rfl⟩

theorem intercalate_cons (p : Str) (ps : List Str) : List.intercalate [','] ((p :: ps).map (' ' :: ·)) = ' ' :: p ++ if ps = [] then [] else ',' :: List.intercalate [','] (ps.map (' ' :: ·)) := by
  cases ps with
  | nil => simp [List.intercalate]
  | cons q ps => simp [List.intercalate, List.intersperse]

theorem params_unique : ∀ {ps qs : List Str}, (∀ p ∈ ps, ',' ∉ p) → (∀ p ∈ qs, ',' ∉ p) → List.intercalate [','] (ps.map (' ' :: ·)) = List.intercalate [','] (qs.map (' ' :: ·)) → ps = qs
  | [], [], _, _, _ => rfl
  | [], q :: qs, _, _, h => by rw [intercalate_cons] at h; simp at h
  | p :: ps, [], _, _, h => by rw [intercalate_cons] at h; simp at h
  | p :: ps, q :: qs, hp, hq, h => by
    rw [intercalate_cons, intercalate_cons] at h
    simp only [List.cons_append, List.cons.injEq, true_and] at h
    obtain ⟨rfl, h'⟩ := word_unique' (c := ',') (hp p (by simp)) (hq q (by simp)) (by split <;> simp) (by split <;> simp) h
    by_cases h1 : ps = [] <;> by_cases h2 : qs = []
    · rw [h1, h2]
    · rw [if_pos h1, if_neg h2] at h'; cases h'
    · rw [if_neg h1, if_pos h2] at h'; cases h'
    · rw [if_neg h1, if_neg h2] at h'
      simp only [List.cons.injEq, true_and] at h'
      rw [params_unique (fun x hx => hp x (by simp [hx])) (fun x hx => hq x (by simp [hx])) h']

theorem line_rest {o : Opt} (h : Plain o) : ∃ r, (aliasText o ++ List.intercalate [','] (o.params.map (' ' :: ·)) = r) ∧ (r = [] ∨ ∃ s, r = ' ' :: s) := by
  refine ⟨_, rfl, ?_⟩
  unfold aliasText
  split
  · cases o.params with
    | nil => simp
    | cons p ps => rw [intercalate_cons]; simp
  · simp

theorem aliasText_unique {o o' : Opt} (h : Plain o) (h' : Plain o')
    (he : aliasText o ++ List.intercalate [','] (o.params.map (' ' :: ·)) = aliasText o' ++ List.intercalate [','] (o'.params.map (' ' :: ·))) : o.aliases = o'.aliases ∧ o.params = o'.params := by
  have key : ∀ {o o' : Opt}, Plain o → Plain o' → o.aliases = [] → o'.aliases ≠ [] →
      aliasText o ++ List.intercalate [','] (o.params.map (' ' :: ·)) ≠ aliasText o' ++ List.intercalate [','] (o'.params.map (' ' :: ·)) := by
    intro o o' h h' ha ha' he
    unfold aliasText at he
    rw [if_pos ha, if_neg ha'] at he
    cases hp : o.params with
    | nil => rw [hp] at he; simp at he
    | cons p ps =>
      rw [hp, intercalate_cons] at he
      obtain ⟨h1, _, _, h4⟩ := h.2.2.2 p (by simp [hp])
      cases p with
      | nil => exact absurd rfl h1
      | cons x p => simp at he; exact absurd (by simp [he.1]) h4
  by_cases ha : o.aliases = []
  · by_cases ha' : o'.aliases = []
    · refine ⟨by rw [ha, ha'], params_unique (fun p hp => (h.2.2.2 p hp).2.1) (fun p hp => (h'.2.2.2 p hp).2.1) ?_⟩
      simpa [aliasText, ha, ha'] using he
    · exact absurd he (key h h' ha ha')
  · by_cases ha' : o'.aliases = []
    · exact absurd he.symm (key h' h ha' ha)
    · unfold aliasText at he
      rw [if_neg ha, if_neg ha'] at he
      simp only [List.append_assoc, List.append_cancel_left_eq, List.cons_append, List.nil_append] at he
      obtain ⟨h1, h2⟩ := aliases_unique h.2.2.1 h'.2.2.1 he
      exact ⟨h1, params_unique (fun p hp => (h.2.2.2 p hp).2.1) (fun p hp => (h'.2.2.2 p hp).2.1) h2⟩

theorem line_unique {o o' : Opt} (h : Plain o) (h' : Plain o') {d d' : Nat} (he : line d o = line d' o') : d = d' ∧ o.name = o'.name ∧ o.aliases = o'.aliases ∧ o.params = o'.params := by
  unfold line at he
  simp only [List.append_assoc] at he
  have hd := spaces_unique h.1.1 h'.1.1 h.2.1 h'.2.1 he
  rw [hd, List.append_cancel_left_eq] at he
  obtain ⟨r, h1, h2⟩ := line_rest h
  obtain ⟨r', h1', h2'⟩ := line_rest h'
  have := word_unique' h.2.1 h'.2.1 (h1 ▸ h2) (h1' ▸ h2') he
  exact ⟨by omega, this.1, aliasText_unique h h' this.2⟩

theorem newline_line {o : Opt} (h : Plain o) (d : Nat) : '\n' ∉ line d o := by
  obtain ⟨⟨_, h1, _⟩, _, h2, h3⟩ := h
  have hp : ∀ ps : List Str, (∀ p ∈ ps, '\n' ∉ p) → '\n' ∉ List.intercalate [','] (ps.map (' ' :: ·)) := by
    intro ps
    induction ps with
    | nil => simp
    | cons p ps ih =>
      intro hps
      rw [intercalate_cons]
      have h1 := hps p (by simp)
      have h2 := ih fun q hq => hps q (by simp [hq])
      split <;> simp_all
  unfold line aliasText
  simp only [List.mem_append, not_or]
  refine ⟨⟨⟨by simp [List.mem_replicate], h1⟩, ?_⟩, hp _ fun p hp => (h3 p hp).2.2.1⟩
  split
  · simp
  · simp only [List.mem_append, not_or, List.mem_flatten, List.mem_map]
    refine ⟨⟨by decide, ?_⟩, by simp⟩
    rintro ⟨l, ⟨a, ha, rfl⟩, hl⟩
    rcases List.mem_append.mp hl with h | h
    · exact (h2 a ha).2.2.1 h
    · simp at h

theorem text_unique : ∀ {es es' : List (Nat × Opt)}, (∀ e ∈ es, Plain e.2) → (∀ e ∈ es', Plain e.2) → text es = text es' →
    List.Forall₂ (fun e e' => e.1 = e'.1 ∧ e.2.name = e'.2.name ∧ e.2.aliases = e'.2.aliases ∧ e.2.params = e'.2.params) es es'
  | [], [], _, _, _ => .nil
  | [], e :: es, _, _, h => by simp [text] at h
  | e :: es, [], _, _, h => by simp [text] at h
  | e :: es, e' :: es', h, h', he => by
    simp only [text, List.map_cons, List.flatten_cons, List.append_assoc, List.cons_append, List.nil_append] at he
    obtain ⟨h1, h2⟩ := word_unique (newline_line (h e (by simp)) _) (newline_line (h' e' (by simp)) _) he
    exact .cons (line_unique (h e (by simp)) (h' e' (by simp)) h1) (text_unique (fun x hx => h x (by simp [hx])) (fun x hx => h' x (by simp [hx])) h2)

theorem alike_of_entries : ∀ (es : List (Nat × Opt)) {d : Nat} {ts ts' : List OptTree} {a a' r r' es' : List (Nat × Opt)}, es = a ++ r → es' = a' ++ r' → Entries d ts a → Entries d ts' a' →
    (∀ e, r.head? = some e → e.1 < d) → (∀ e, r'.head? = some e → e.1 < d) →
    List.Forall₂ (fun e e' => e.1 = e'.1 ∧ e.2.name = e'.2.name ∧ e.2.aliases = e'.2.aliases ∧ e.2.params = e'.2.params) es es' → Alike ts ts' ∧
      List.Forall₂ (fun e e' => e.1 = e'.1 ∧ e.2.name = e'.2.name ∧ e.2.aliases = e'.2.aliases ∧ e.2.params = e'.2.params) r r' := by
  intro es
  induction hn : es.length using Nat.strongRecOn generalizing es with
  | ind n ih =>
    intro d ts ts' a a' r r' es' he he' h h' hr hr' hf
    subst he he'
    cases h with
    | nil =>
      cases h' with
      | nil => exact ⟨.nil, hf⟩
      | cons hi hs =>
        simp only [List.nil_append, List.cons_append] at hf
        cases hf with
        | cons h1 _ =>
          have := hr _ rfl
          have := h1.1
          simp only at this
          omega
    | cons hi hs =>
      cases h' with
      | nil =>
        simp only [List.nil_append, List.cons_append] at hf
        cases hf with
        | cons h1 _ =>
          have := hr' _ rfl
          have := h1.1
          simp only at this
          omega
      | cons hi' hs' =>
        simp only [List.cons_append, List.append_assoc] at hf
        cases hf with
        | cons h1 hf =>
          have head : ∀ {d : Nat} {ts : List OptTree} {b r : List (Nat × Opt)}, Entries d ts b → (∀ e, r.head? = some e → e.1 < d) → ∀ e, (b ++ r).head? = some e → e.1 < d + 1 := by
            intro d ts b r hs hr e he
            cases hs with
            | nil => have := hr e he; omega
            | cons _ _ => simp at he; subst he; exact Nat.lt_succ_self _
          simp only [List.cons_append, List.length_cons, List.length_append] at hn
          obtain ⟨k1, k2⟩ := ih _ (by simp only [List.length_append]; omega) _ rfl rfl rfl hi hi' (head hs hr) (head hs' hr') hf
          obtain ⟨m1, m2⟩ := ih _ (by simp only [List.length_append]; omega) _ rfl rfl rfl hs hs' hr hr' k2
          exact ⟨.cons h1.2.1 h1.2.2.1 h1.2.2.2 k1 m1, m2⟩

theorem entries_all {P : Opt → Prop} {d : Nat} {ts : List OptTree} {es : List (Nat × Opt)} (h : Entries d ts es) :
    (∀ t ∈ ts, ∃ (g : OptGraph) (n : Nat), Holds g n t ∧ ∀ o ∈ g.nodes, P o) → ∀ e ∈ es, P e.2 := by
  induction h with
  | nil => intro _ e he; simp at he
  | @cons d o cs ts inner rest _ _ ih1 ih2 =>
    intro hh e he
    obtain ⟨g, n, hg, hp⟩ := hh _ List.mem_cons_self
    cases hg with
    | @node _ _ l _ k1 k2 k3 k4 =>
      rcases List.mem_append.mp he with h | h
      · rcases List.mem_cons.mp h with rfl | h
        · exact hp _ (List.mem_of_getElem? k1)
        · refine ih1 (fun t ht => ?_) e h
          obtain ⟨i, hi, rfl⟩ := List.getElem_of_mem ht
          exact ⟨g, _, k4 i (l[i]'(by omega)) _ (List.getElem?_eq_getElem (by omega)) (List.getElem?_eq_getElem hi), hp⟩
      · exact ih2 (fun t ht => hh t (List.mem_cons_of_mem _ ht)) e h

theorem entries_plain {gs : List (OptGraph × Nat)} {ts : List OptTree} (h : List.Forall₂ (fun p t => Holds p.1 p.2 t) gs ts) (hp : ∀ p ∈ gs, ∀ o ∈ p.1.nodes, Plain o) {d : Nat}
    {es : List (Nat × Opt)} (he : Entries d ts es) : ∀ e ∈ es, Plain e.2 := by
  refine entries_all he fun t ht => ?_
  clear he
  induction h with
  | nil => simp at ht
  | @cons p t' _ _ h1 _ ih =>
    rcases List.mem_cons.mp ht with rfl | ht
    · exact ⟨p.1, p.2, h1, hp _ List.mem_cons_self⟩
    · exact ih (fun q hq => hp q (List.mem_cons_of_mem _ hq)) ht

/-! ### Requests for help -/

theorem within_ne {opts inner : List OptTree} {ws : List Str} (h : Inside opts ws inner) (hne : inner ≠ []) : opts ≠ [] := by
  cases h with
  | here => exact hne
  | deeper _ hn _ _ =>
    rintro rfl
    exact absurd (Cmd.names_mem hn) (by simp)

theorem asked_nested {opts inner : List OptTree} {ws : List Str} (h : Inside opts ws inner) (hne : inner ≠ []) (hu : Verif.Spec.Unknown inner "--help".toList) :
    ∀ (f : Nat) (d : Cmd.Data) (pre : List (List Cmd.Op)) (N : List Cmd.Op), ws.length + 1 ≤ f → d.1 < N.length →
    ∃ ops, Cmd.loop f opts (some d) false none (some d) ⟨pre ++ [N], none⟩ (ws ++ ["--help".toList]) = .ok (⟨ops, some inner⟩, []) := by
  induction h with
  | here =>
    intro f d pre N hf _
    match f, hf with
    | f + 1, _ => exact ⟨_, Cmd.loop_help hu⟩
  | @deeper opts inner word t args rest hw hn ha hi ih =>
    intro f d pre N hf hd
    have hcne := within_ne hi hne
    match f, hf with
    | f + 1, hf =>
      rw [List.cons_append, List.cons_append, List.append_assoc]
      obtain ⟨op, hop⟩ : ∃ op, N[d.1]? = some op := ⟨_, List.getElem?_eq_getElem hd⟩
      by_cases hb : t.bound = true
      · rw [Cmd.loop_bound hw hn hb]
        obtain ⟨f', h1, h2⟩ := Cmd.collect_exact (opts := opts) (prev := some d) (top := false) (t := t) (pre := pre) (i := N.length) (s := 0) (h := none) (f := f) (ps := args)
          (rest := rest ++ ["--help".toList]) (N := N ++ [⟨some d.1, t.opt.early, t.opt.late, []⟩]) (op := ⟨some d.1, t.opt.early, t.opt.late, []⟩) (by simp at hf ⊢; omega) (by simp) rfl ha
        obtain ⟨ops, h3⟩ := ih hne hu f' (N.length, 0) pre (Cmd.addArgs (N ++ [⟨some d.1, t.opt.early, t.opt.late, []⟩]) N.length args) (by simpa using h1) (by simp)
        rw [h2, Cmd.enter_eq hcne, h3]
        exact ⟨ops, by simp only [Res.bind]; rw [Cmd.loop_nil]; rfl⟩
      · rw [Cmd.loop_unbound hw hn (by simpa using hb) hop]
        obtain ⟨f', h1, h2⟩ := Cmd.collect_exact (opts := opts) (prev := some d) (top := false) (t := t) (pre := pre) (i := d.1) (s := op.args.length) (h := none) (f := f) (ps := args)
          (rest := rest ++ ["--help".toList]) (N := N) (by simp at hf ⊢; omega) hop rfl ha
        obtain ⟨ops, h3⟩ := ih hne hu f' (d.1, op.args.length) pre (Cmd.addArgs N d.1 args) (by simpa using h1) (by simpa using hd)
        rw [h2, Cmd.enter_eq hcne, h3]
        exact ⟨ops, by simp only [Res.bind]; rw [Cmd.loop_nil]; rfl⟩

theorem asked_top {opts inner : List OptTree} {ws : List Str} (h : Inside opts ws inner) (hne : inner ≠ []) (hu : Verif.Spec.Unknown inner "--help".toList) (hb : ∀ t ∈ opts, t.bound = true) :
    Cmd.parseInvoke opts (ws ++ ["--help".toList]) = .ok (some inner, []) := by
  have key : ∃ ops, Cmd.loop (ws ++ ["--help".toList]).length opts none true none none ⟨[], none⟩ (ws ++ ["--help".toList]) = .ok (⟨ops, some inner⟩, []) := by
    cases h with
    | here => exact ⟨_, Cmd.loop_help hu⟩
    | @deeper _ _ word t args rest hw hn ha hi =>
      have hcne := within_ne hi hne
      rw [List.cons_append, List.cons_append, List.append_assoc, List.length_cons, Cmd.loop_top hw hn, if_pos (hb _ (Cmd.names_mem hn))]
      obtain ⟨f', h1, h2⟩ := Cmd.collect_exact (opts := opts) (prev := none) (top := true) (t := t) (pre := []) (i := 0) (s := 0) (h := none) (f := (args ++ (rest ++ ["--help".toList])).length)
        (ps := args) (rest := rest ++ ["--help".toList]) (N := [⟨none, t.opt.early, t.opt.late, []⟩]) (by simp) rfl rfl ha
      obtain ⟨ops, h3⟩ := asked_nested hi hne hu f' (0, 0) [] (Cmd.addArgs [⟨none, t.opt.early, t.opt.late, []⟩] 0 args) (by simpa using h1) (by simp)
      refine ⟨ops, ?_⟩
      rw [h2, Cmd.enter_eq hcne, h3]
      simp only [Res.bind]; rw [Cmd.loop_nil]; rfl
  obtain ⟨ops, h1⟩ := key
  unfold Cmd.parseInvoke Cmd.parse
  rw [if_neg (by simpa using within_ne h hne), h1]
  simp [Res.bind]

/-! ### Messages -/

theorem makeMore_lines (type ind : Str) : ∀ (ms : List Str) (mess : Str), mess ≠ [] → (∀ m ∈ ms, m ≠ [] ∧ '\n' ∉ m) →
    makeMore type ind ms mess = mess ++ (ms.map fun m => '\n' :: (ind ++ List.replicate (type.length + 2) ' ' ++ m)).flatten
  | [], mess, _, _ => by simp [makeMore]
  | m :: ms, mess, hne, h => by
    obtain ⟨h1, h2⟩ := h m (by simp)
    rw [makeMore, appendIndented, if_neg h1, if_neg hne, indent_word h1 h2, makeMore_lines type ind ms _ (by simp) fun x hx => h x (by simp [hx])]
    simp

theorem listParams_spec : ∀ (ps : List Str) (mess : Str), listParams ps mess = mess ++ List.intercalate ", ".toList ps
  | [], mess => by simp [listParams]
  | [p], mess => by simp [listParams, List.intercalate]
  | p :: q :: ps, mess => by
    rw [listParams, if_pos (by simp), listParams_spec (q :: ps)]
    simp [List.intercalate, List.intersperse]

end Verif.Help
