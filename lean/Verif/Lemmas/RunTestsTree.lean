import Verif.Lemmas.RunTests
/- The traversal in which summaries are combined. -/
namespace Verif.RunTests
open Verif.Graph Verif.Spec EdgeLike

abbrev Links := Edges (Edge Unit Unit)

theorem tree_leads {s : Links} {par : Nat → Nat} (ht : TreeOf .forward s 0 par) {a b : Nat} (h : Leads s a b) : a < s.length ∧ b < s.length ∧ b ≠ 0 ∧ par b = a := by
  obtain ⟨k, e, h1, rfl⟩ := h
  unfold edgeAt at h1
  cases hl : s[a]? with
  | none => rw [hl] at h1; simp at h1
  | some l =>
    rw [hl] at h1
    simp only [Option.bind_some] at h1
    have ha : a < s.length := (List.getElem?_eq_some_iff.mp hl).1
    have he : e ∈ l := List.mem_of_getElem? h1
    have hb : target e < s.length := ht.inRange l (List.mem_of_getElem? hl) e he
    have := ht.edges a ha (target e) hb
    have hpos : 0 < links s a (target e) := by
      unfold links
      rw [hl]
      exact List.countP_pos_iff.mpr ⟨e, he, by simp⟩
    simp only [downwards, upwards] at this
    by_cases hp : IsParent 0 par a (target e)
    · exact ⟨ha, hb, hp.1, hp.2⟩
    · simp only [hp, and_false, if_false, Bool.false_eq_true, false_and] at this
      omega

theorem leads_of_parent {s : Links} {par : Nat → Nat} (ht : TreeOf .forward s 0 par) {b : Nat} (hb : b < s.length) (h0 : b ≠ 0) : Leads s (par b) b := by
  have hp := ht.par_lt b hb h0
  have := ht.edges (par b) hp b hb
  have hpar : IsParent 0 par (par b) b := ⟨h0, rfl⟩
  simp only [downwards, upwards, hpar, and_self, if_true, Bool.false_eq_true, false_and, if_false] at this
  unfold links at this
  rw [List.getElem?_eq_getElem hp] at this
  simp only at this
  obtain ⟨e, he, h1⟩ := List.countP_pos_iff.mp (show 0 < s[par b].countP (fun e => decide (target e = b)) by omega)
  obtain ⟨k, hk, rfl⟩ := List.getElem_of_mem he
  refine ⟨k, s[par b][k], ?_, by simpa using h1⟩
  unfold edgeAt
  rw [List.getElem?_eq_getElem hp, Option.bind_some, List.getElem?_eq_getElem hk]

theorem tree_reach {s : Links} {par : Nat → Nat} (ht : TreeOf .forward s 0 par) {x : Nat} (hx : x < s.length) : Reach s 0 x := by
  have hb := ht.descends x hx
  induction hb with
  | self => exact ⟨0, .refl⟩
  | up hne _ ih =>
    rename_i y _
    obtain ⟨d, hd⟩ := ih (ht.par_lt y hx hne)
    exact ⟨d + 1, .snoc hd (leads_of_parent ht hx hne)⟩

/-- A traversal of a tree from its root visits it in one go. -/
theorem traverse_tree {s : Links} {par : Nat → Nat} (ht : TreeOf .forward s 0 par) :
    ∃ f : Forest, traverseDfs true s 0 (s.length + 1) = .ok (some (.before 0 :: f.calls 0 ++ [.after 0])) ∧
      (0 :: f.nodes).Nodup ∧ (∀ n, n ∈ 0 :: f.nodes ↔ n < s.length) ∧ f.Valid s 0 0 := by
  obtain ⟨trees, h1, h2, h3, h4, h5, _⟩ := Props.C24_depth_first_all ht.inRange ht.root_lt (fuel := s.length + 1) (by omega)
  cases trees with
  | nil => exact absurd h4 (by simp [Searches])
  | cons t rest =>
    simp only [List.map_cons, Searches] at h4
    obtain ⟨⟨a1, a2, a3, _⟩, h4⟩ := h4
    have ht0 : t.1 = 0 := by simpa using a1
    have hrest : rest = [] := by
      rcases h4 with ⟨_, h⟩ | ⟨r', hr1, hr2, _⟩
      · simpa using h
      · exact absurd ((a3 r').mpr ⟨tree_reach ht hr1, by simp⟩) (by simpa using hr2)
    subst hrest
    obtain ⟨n, f⟩ := t
    simp only at ht0
    subst ht0
    simp only [List.flatMap_cons, List.flatMap_nil, List.append_nil] at h1 h2 h3
    exact ⟨f, h1, h2, h3, h5 (0, f) (by simp)⟩

/-- The nodes of a forest, children first. -/
def post : Forest → List Nat
  | .nil => []
  | .cons _ r ch rest => post ch ++ r :: post rest

theorem post_perm : ∀ f : Forest, (post f).Perm f.nodes
  | .nil => .refl _
  | .cons _ r ch rest => by
    simp only [post, Forest.nodes]
    have h1 := List.Perm.append (post_perm ch) ((post_perm rest).cons r)
    exact h1.trans (by simp)

theorem parent_mem {s : Links} : ∀ (f : Forest) (n lo : Nat), f.Valid s n lo → ∀ x ∈ f.nodes, ∃ p ∈ n :: f.nodes, Leads s p x
  | .nil, _, _, _, x, hx => by simp [Forest.nodes] at hx
  | .cons k r ch rest, n, lo, h, x, hx => by
    obtain ⟨_, ⟨e, h2, h3⟩, h4, h5⟩ := h
    simp only [Forest.nodes, List.cons_append, List.mem_cons, List.mem_append] at hx ⊢
    rcases hx with rfl | hx | hx
    · exact ⟨n, .inl rfl, k, e, h2, h3⟩
    · obtain ⟨p, hp, hl⟩ := parent_mem ch r 0 h4 x hx
      refine ⟨p, ?_, hl⟩
      rcases List.mem_cons.mp hp with rfl | hp
      · exact .inr (.inl rfl)
      · exact .inr (.inr (.inl hp))
    · obtain ⟨p, hp, hl⟩ := parent_mem rest n (k + 1) h5 x hx
      refine ⟨p, ?_, hl⟩
      rcases List.mem_cons.mp hp with rfl | hp
      · exact .inl rfl
      · exact .inr (.inr (.inr hp))

/-- Whatever an edge of a node of the forest leads to is in the forest. -/
def Full (s : Links) (f : Forest) : Prop := ∀ x ∈ f.nodes, ∀ t, Leads s x t → t ∈ f.nodes

theorem full_parts {s : Links} {par : Nat → Nat} (ht : TreeOf .forward s 0 par) {k r n lo : Nat} {ch rest : Forest} (hv : (Forest.cons k r ch rest).Valid s n lo)
    (hd : (n :: (Forest.cons k r ch rest).nodes).Nodup) (hf : Full s (.cons k r ch rest)) :
    Full s ch ∧ Full s rest ∧ ∀ t, Leads s r t → t ∈ ch.nodes := by
  obtain ⟨_, ⟨e, h2, h3⟩, h4, h5⟩ := hv
  simp only [Forest.nodes, List.cons_append, List.nodup_cons, List.mem_cons, List.mem_append, not_or, List.nodup_append] at hd
  obtain ⟨⟨d1, d2, d3⟩, ⟨d4, d5⟩, d6, d7, d8⟩ := hd
  have hpr : par r = n := (tree_leads ht ⟨k, e, h2, h3⟩).2.2.2
  have hch : ∀ t ∈ ch.nodes, par t = r ∨ par t ∈ ch.nodes := by
    intro t h
    obtain ⟨p, hp, hl⟩ := parent_mem ch r 0 h4 t h
    rw [(tree_leads ht hl).2.2.2]
    simpa using hp
  have hrest : ∀ t ∈ rest.nodes, par t = n ∨ par t ∈ rest.nodes := by
    intro t h
    obtain ⟨p, hp, hl⟩ := parent_mem rest n (k + 1) h5 t h
    rw [(tree_leads ht hl).2.2.2]
    simpa using hp
  have hmem : ∀ x t, x ∈ (Forest.cons k r ch rest).nodes → Leads s x t → t = r ∨ t ∈ ch.nodes ∨ t ∈ rest.nodes := by
    intro x t hx hl
    simpa [Forest.nodes] using hf x hx t hl
  refine ⟨?_, ?_, ?_⟩
  · intro x hx t hl
    have hp := (tree_leads ht hl).2.2.2
    rcases hmem x t (by simp [Forest.nodes, hx]) hl with rfl | h | h
    · exact absurd (hp.symm.trans hpr) (fun h => d2 (h ▸ hx))
    · exact h
    · rcases hrest t h with h' | h'
      · exact absurd (hp.symm.trans h') (fun h => d2 (h ▸ hx))
      · rw [hp] at h'
        exact absurd rfl (d8 x hx x h')
  · intro x hx t hl
    have hp := (tree_leads ht hl).2.2.2
    rcases hmem x t (by simp [Forest.nodes, hx]) hl with rfl | h | h
    · exact absurd (hp.symm.trans hpr) (fun h => d3 (h ▸ hx))
    · rcases hch t h with h' | h'
      · exact absurd (hp.symm.trans h') (fun h => d5 (h ▸ hx))
      · rw [hp] at h'
        exact absurd rfl (d8 x h' x hx)
    · exact h
  · intro t hl
    have hp := (tree_leads ht hl).2.2.2
    rcases hmem r t (by simp [Forest.nodes]) hl with rfl | h | h
    · exact absurd (hpr.symm.trans hp) d1
    · exact h
    · rcases hrest t h with h' | h'
      · exact absurd (h'.symm.trans hp) d1
      · rw [hp] at h'
        exact absurd h' d5

section
variable {S T : Type} {exec : T → S} {add : S → S → S}

theorem addUp_congr {nodes nodes' : List (SuiteNode S T)} (l : List (Edge Unit Unit)) (h : ∀ e ∈ l, nodes'[e.target]? = nodes[e.target]?) (a : S) :
    addUp add nodes' l a = addUp add nodes l a := by
  induction l generalizing a with
  | nil => rfl
  | cons e l ih =>
    rw [addUp, addUp, h e (by simp)]
    cases nodes[e.target]? with
    | none => rfl
    | some wt => exact ih (fun e' h' => h e' (by simp [h'])) _

theorem addUp_ok {nodes : List (SuiteNode S T)} (l : List (Edge Unit Unit)) (h : ∀ e ∈ l, e.target < nodes.length) (a : S) : ∃ s, addUp add nodes l a = .ok s := by
  induction l generalizing a with
  | nil => exact ⟨a, rfl⟩
  | cons e l ih =>
    rw [addUp, List.getElem?_eq_getElem (h e (by simp))]
    exact ih (fun e' h' => h e' (by simp [h'])) _

theorem onEvents_append {serial : Bool} {s : Links} (l m : List Event) (st : RunState S T) :
    onEvents exec add serial s (l ++ m) st = (onEvents exec add serial s l st).bind (onEvents exec add serial s m) := by
  induction l generalizing st with
  | nil => rfl
  | cons e l ih =>
    rw [List.cons_append, onEvents, onEvents]
    cases onEvent exec add serial s st e with
    | ok st' => exact ih st'
    | throws => rfl
    | ub => rfl

/-- What a node holds once it has been visited. -/
def own (exec : T → S) (serial : Bool) (wt : SuiteNode S T) : SuiteNode S T := if serial then ran exec wt else wt

theorem own_test {serial : Bool} (wt : SuiteNode S T) : (own exec serial wt).test = wt.test := by
  unfold own; split <;> simp [ran_test]

/-- The test and the summary of a node. -/
def result (nodes : List (SuiteNode S T)) (n : Nat) : Option (T × S) := nodes[n]?.bind fun wt => wt.test.map fun t => (t, wt.summary)

/-- A node is visited. -/
theorem before_ok {serial : Bool} {s : Links} {st : RunState S T} {n : Nat} {wt : SuiteNode S T} (h : st.nodes[n]? = some wt) :
    onEvent exec add serial s st (.before n) =
      .ok { st with nodes := st.nodes.set n (own exec serial wt), depth := st.depth + 1,
                    executed := st.executed ++ (if serial then (testAt st.nodes n).toList else []) } := by
  have hset : st.nodes.set n wt = st.nodes := by
    obtain ⟨hl, rfl⟩ := List.getElem?_eq_some_iff.mp h
    exact List.set_getElem_self hl
  unfold onEvent
  simp only
  cases serial with
  | false => simp [own, hset]
  | true =>
    simp only [if_true, h, own]
    cases ht : wt.test with
    | none => simp [ht, testAt, h, ran, hset]
    | some t =>
      have hta : testAt st.nodes n = some t := by simp [testAt, h, ht]
      obtain ⟨wt', h1, h2, h3⟩ := execNode_ok (exec := exec) (st := { st with depth := st.depth + 1 }) (n := n) (t := t) hta
      rw [h] at h1
      cases h1
      simp [h3, hta]

/-- What is known after everything below a node has been visited. -/
structure After (exec : T → S) (add : S → S → S) (serial : Bool) (s : Links) (visited order : List Nat) (st st' : RunState S T) : Prop where
  depth : st'.depth = st.depth
  recorded : st'.recorded = st.recorded
  length : st'.nodes.length = st.nodes.length
  others : ∀ x, x ∉ visited → st'.nodes[x]? = st.nodes[x]?
  sums : ∀ x ∈ visited, ∃ wt l sum, st.nodes[x]? = some wt ∧ s[x]? = some l ∧ addUp add st'.nodes l (own exec serial wt).summary = .ok sum ∧
    st'.nodes[x]? = some ⟨sum, wt.test⟩
  executed : st'.executed = st.executed ++ (if serial then visited.filterMap (testAt st.nodes) else [])
  processed : st'.processed = st.processed ++ order.filterMap (result st'.nodes)

theorem testAt_congr {nodes nodes' : List (SuiteNode S T)} {n : Nat} (h : nodes'[n]? = nodes[n]?) : testAt nodes' n = testAt nodes n := by
  unfold testAt; rw [h]

theorem forest_ok {serial : Bool} {s : Links} {par : Nat → Nat} (ht : TreeOf .forward s 0 par) : ∀ (f : Forest) (n lo : Nat) (st : RunState S T), f.Valid s n lo →
    (n :: f.nodes).Nodup → Full s f → st.nodes.length = s.length → 0 ≤ st.depth →
    ∃ st', onEvents exec add serial s (f.calls n) st = .ok st' ∧ After exec add serial s f.nodes (post f) st st'
  | .nil, n, lo, st, _, _, _, _, _ => ⟨st, rfl, rfl, rfl, rfl, fun _ _ => rfl, by simp [Forest.nodes], by simp [Forest.nodes], by simp [post]⟩
  | .cons k r ch rest, n, lo, st, hv, hd, hf, hl, h0 => by
    obtain ⟨f1, f2, f3⟩ := full_parts ht hv hd hf
    obtain ⟨_, ⟨e, h2, h3⟩, h4, h5⟩ := hv
    obtain ⟨_, hr, _, _⟩ := tree_leads ht ⟨k, e, h2, h3⟩
    have hnod := hd
    simp only [Forest.nodes, List.cons_append, List.nodup_cons, List.mem_cons, List.mem_append, not_or, List.nodup_append] at hd
    obtain ⟨⟨d1, d2, d3⟩, ⟨d4, d5⟩, d6, d7, d8⟩ := hd
    -- the node itself
    have hwr : st.nodes[r]? = some st.nodes[r] := List.getElem?_eq_getElem (by omega)
    generalize st.nodes[r] = wt at hwr
    have hb := before_ok (exec := exec) (add := add) (serial := serial) (s := s) hwr
    let st1 : RunState S T := { st with nodes := st.nodes.set r (own exec serial wt), depth := st.depth + 1,
                                        executed := st.executed ++ (if serial then (testAt st.nodes r).toList else []) }
    have hst1r : st1.nodes[r]? = some (own exec serial wt) := by
      simp only [st1, List.getElem?_set, if_true, if_pos (show r < st.nodes.length by omega)]
    have hst1 : ∀ x, x ≠ r → st1.nodes[x]? = st.nodes[x]? := fun x hx => by
      simp [st1, Ne.symm hx]
    -- what is below it
    obtain ⟨st2, e2, a2⟩ := forest_ok (serial := serial) ht ch r 0 st1 h4 (List.nodup_cons.mpr ⟨d4, d6⟩) f1 (by simp [st1, hl]) (by simp only [st1]; omega)
    have hst2r : st2.nodes[r]? = some (own exec serial wt) := by rw [a2.others r d4, hst1r]
    have hlr : s[r]? = some s[r] := List.getElem?_eq_getElem hr
    have htg : ∀ e ∈ s[r], e.target ∈ ch.nodes := by
      intro e' he'
      obtain ⟨i, hi, rfl⟩ := List.getElem_of_mem he'
      refine f3 _ ⟨i, _, ?_, rfl⟩
      unfold edgeAt
      rw [hlr, Option.bind_some, List.getElem?_eq_getElem hi]
    have hlen2 : st2.nodes.length = s.length := by rw [a2.length]; simp [st1, hl]
    obtain ⟨sum, hsum⟩ := addUp_ok (add := add) (nodes := st2.nodes) s[r] (fun e' he' => by
      rw [hlen2]; exact ht.inRange s[r] (List.getElem_mem hr) e' he') (own exec serial wt).summary
    let st3 : RunState S T := { st2 with
      nodes := st2.nodes.set r ⟨sum, (own exec serial wt).test⟩
      processed := st2.processed ++ (match (own exec serial wt).test with | some t => [(t, sum)] | none => [])
      depth := st2.depth - 1 }
    have hdepth : st2.depth - 1 = st.depth := by rw [a2.depth]; simp [st1]
    have ha : onEvent exec add serial s st2 (.after r) = .ok st3 := by
      unfold onEvent
      simp only [hst2r, hlr, hsum, Res.bind]
      rw [if_neg (by omega)]
      rfl
    have hst3r : st3.nodes[r]? = some ⟨sum, wt.test⟩ := by
      simp only [st3, List.getElem?_set, if_true, if_pos (show r < st2.nodes.length by omega), own_test]
    have hst3 : ∀ x, x ≠ r → st3.nodes[x]? = st2.nodes[x]? := fun x hx => by
      simp [st3, Ne.symm hx]
    -- the others
    obtain ⟨st', e4, a4⟩ := forest_ok (serial := serial) ht rest n (k + 1) st3 h5 (List.nodup_cons.mpr ⟨d3, d7⟩) f2 (by simp [st3, hlen2]) (by simp only [st3]; omega)
    have hch : ∀ x ∈ ch.nodes, st'.nodes[x]? = st2.nodes[x]? := by
      intro x hx
      rw [a4.others x (fun h => d8 x hx x h rfl), hst3 x (fun h => d4 (h ▸ hx))]
    have hr' : st'.nodes[r]? = some ⟨sum, wt.test⟩ := by rw [a4.others r d5, hst3r]
    refine ⟨st', ?_, ?_⟩
    · rw [Forest.calls, List.cons_append, List.cons_append, onEvents, show onEvent exec add serial s st (.first n k) = .ok st from rfl]
      simp only [Res.bind]
      rw [onEvents, hb]
      simp only [Res.bind]
      rw [onEvents_append, show onEvents exec add serial s (ch.calls r) _ = .ok st2 from e2]
      simp only [Res.bind]
      rw [onEvents, ha]
      exact e4
    · refine ⟨?_, ?_, ?_, ?_, ?_, ?_, ?_⟩
      · rw [a4.depth]; exact hdepth
      · rw [a4.recorded]; exact a2.recorded
      · rw [a4.length]; simp [st3, hlen2, hl]
      · intro x hx
        simp only [Forest.nodes, List.cons_append, List.mem_cons, List.mem_append, not_or] at hx
        rw [a4.others x hx.2.2, hst3 x hx.1, a2.others x hx.2.1, hst1 x hx.1]
      · intro x hx
        simp only [Forest.nodes, List.cons_append, List.mem_cons, List.mem_append] at hx
        rcases hx with rfl | hx | hx
        · refine ⟨wt, s[x], sum, hwr, hlr, ?_, hr'⟩
          rw [addUp_congr s[x] (fun e' he' => hch _ (htg e' he')), hsum]
        · obtain ⟨wt', l, sum', b1, b2, b3, b4⟩ := a2.sums x hx
          refine ⟨wt', l, sum', ?_, b2, ?_, ?_⟩
          · rw [← hst1 x (fun h => d4 (h ▸ hx)), b1]
          · rw [addUp_congr l (fun e' he' => hch _ ?_), b3]
            obtain ⟨i, hi, rfl⟩ := List.getElem_of_mem he'
            refine f1 x hx _ ⟨i, _, ?_, rfl⟩
            unfold edgeAt
            rw [b2, Option.bind_some, List.getElem?_eq_getElem hi]
          · rw [hch x hx, b4]
        · obtain ⟨wt', l, sum', b1, b2, b3, b4⟩ := a4.sums x hx
          refine ⟨wt', l, sum', ?_, b2, b3, b4⟩
          rw [← b1, hst3 x (fun h => d5 (h ▸ hx)), a2.others x (fun h => d8 x h x hx rfl), hst1 x (fun h => d5 (h ▸ hx))]
      · rw [a4.executed]
        simp only [st3, a2.executed, st1]
        cases serial with
        | false => simp
        | true =>
          simp only [if_true, List.append_assoc, Forest.nodes, List.cons_append, List.filterMap_cons, List.filterMap_append]
          have c1 : ch.nodes.filterMap (testAt (st.nodes.set r (own exec true wt))) = ch.nodes.filterMap (testAt st.nodes) :=
            List.filterMap_congr fun x hx => testAt_congr (hst1 x (fun h => d4 (h ▸ hx)))
          have c2 : rest.nodes.filterMap (testAt (st2.nodes.set r ⟨sum, (own exec true wt).test⟩)) = rest.nodes.filterMap (testAt st.nodes) :=
            List.filterMap_congr fun x hx => testAt_congr (by
              rw [show (st2.nodes.set r ⟨sum, (own exec true wt).test⟩)[x]? = st2.nodes[x]? from hst3 x (fun h => d5 (h ▸ hx)),
                a2.others x (fun h => d8 x h x hx rfl), hst1 x (fun h => d5 (h ▸ hx))])
          rw [c1, c2]
          cases testAt st.nodes r <;> simp
      · rw [a4.processed]
        simp only [st3, a2.processed, st1, post, List.filterMap_append, List.filterMap_cons, own_test, List.append_assoc]
        have c1 : (post ch).filterMap (result st'.nodes) = (post ch).filterMap (result st2.nodes) :=
          List.filterMap_congr fun x hx => by unfold result; rw [hch x ((post_perm ch).mem_iff.mp hx)]
        have c2 : result st'.nodes r = wt.test.map fun t => (t, sum) := by unfold result; rw [hr', Option.bind_some]
        rw [c1, c2]
        cases wt.test <;> simp

/-- The whole traversal. -/
theorem events_ok {serial : Bool} {s : Links} {par : Nat → Nat} (ht : TreeOf .forward s 0 par) {nodes : List (SuiteNode S T)} {executed : List T} (hl : nodes.length = s.length) :
    ∃ (events : List Event) (st' : RunState S T) (visited order : List Nat), traverseDfs true s 0 (s.length + 1) = .ok (some events) ∧
      onEvents exec add serial s events ⟨nodes, executed, -1, [], []⟩ = .ok st' ∧ visited.Perm (List.range s.length) ∧ order.Perm (List.range s.length) ∧
      st'.nodes.length = nodes.length ∧
      (∀ x < s.length, ∃ wt l sum, nodes[x]? = some wt ∧ s[x]? = some l ∧ addUp add st'.nodes l (own exec serial wt).summary = .ok sum ∧
        st'.nodes[x]? = some ⟨sum, wt.test⟩) ∧
      st'.executed = executed ++ (if serial then visited.filterMap (testAt nodes) else []) ∧
      st'.processed = order.filterMap (result st'.nodes) ∧ st'.recorded = [st'.processed] := by
  obtain ⟨f, h1, h2, h3, h4⟩ := traverse_tree ht
  have hd := List.nodup_cons.mp h2
  have hfull : Full s f := by
    intro x hx t hl'
    obtain ⟨_, hb, h0, _⟩ := tree_leads ht hl'
    have := (h3 t).mpr hb
    simpa [h0] using this
  have hvis : (0 :: f.nodes).Perm (List.range s.length) := by
    rw [List.perm_ext_iff_of_nodup h2 List.nodup_range]
    intro x; rw [h3 x, List.mem_range]
  have hw : nodes[0]? = some (nodes[0]'(by rw [hl]; exact ht.root_lt)) := List.getElem?_eq_getElem _
  generalize nodes[0]'(by rw [hl]; exact ht.root_lt) = wt at hw
  have hpos := ht.root_lt
  have hb := before_ok (exec := exec) (add := add) (serial := serial) (s := s) (st := ⟨nodes, executed, -1, [], []⟩) hw
  let st1 : RunState S T := ⟨nodes.set 0 (own exec serial wt), executed ++ (if serial then (testAt nodes 0).toList else []), -1 + 1, [], []⟩
  have hst1r : st1.nodes[0]? = some (own exec serial wt) := by simp [st1, hl, hpos]
  have hst1 : ∀ x, x ≠ 0 → st1.nodes[x]? = nodes[x]? := fun x hx => by simp [st1, Ne.symm hx]
  obtain ⟨st2, e2, a2⟩ := forest_ok (exec := exec) (add := add) (serial := serial) ht f 0 0 st1 h4 h2 hfull (by simp [st1, hl]) (by simp [st1])
  have hst2r : st2.nodes[0]? = some (own exec serial wt) := by rw [a2.others 0 hd.1, hst1r]
  have hlr : s[0]? = some s[0] := List.getElem?_eq_getElem hpos
  have hlen2 : st2.nodes.length = s.length := by rw [a2.length]; simp [st1, hl]
  have htg : ∀ (x : Nat) (l : List (Edge Unit Unit)), s[x]? = some l → ∀ e ∈ l, e.target ∈ f.nodes := by
    intro x l hx e he
    obtain ⟨i, hi, rfl⟩ := List.getElem_of_mem he
    obtain ⟨_, hb, h0, _⟩ := tree_leads ht (a := x) ⟨i, l[i], by unfold edgeAt; rw [hx, Option.bind_some, List.getElem?_eq_getElem hi], rfl⟩
    have := (h3 _).mpr hb
    exact (List.mem_cons.mp this).resolve_left h0
  obtain ⟨sum, hsum⟩ := addUp_ok (add := add) (nodes := st2.nodes) s[0] (fun e' he' => by
    rw [hlen2]; exact ht.inRange s[0] (List.getElem_mem hpos) e' he') (own exec serial wt).summary
  let processed := st2.processed ++ (match (own exec serial wt).test with | some t => [(t, sum)] | none => [])
  let st3 : RunState S T := { st2 with
    nodes := st2.nodes.set 0 ⟨sum, (own exec serial wt).test⟩
    processed := processed
    depth := st2.depth - 1
    recorded := [processed] }
  have hrec : st2.recorded = [] := a2.recorded
  have ha : onEvent exec add serial s st2 (.after 0) = .ok st3 := by
    unfold onEvent
    simp only [hst2r, hlr, hsum, Res.bind, hrec]
    rw [if_pos (by rw [a2.depth]; rfl)]
    rfl
  have hst3r : st3.nodes[0]? = some ⟨sum, wt.test⟩ := by
    simp only [st3, List.getElem?_set, if_true, if_pos (show 0 < st2.nodes.length by omega), own_test]
  have hst3 : ∀ x, x ≠ 0 → st3.nodes[x]? = st2.nodes[x]? := fun x hx => by
    simp [st3, Ne.symm hx]
  have hne : ∀ x ∈ f.nodes, x ≠ 0 := fun x hx h => hd.1 (h ▸ hx)
  refine ⟨_, st3, 0 :: f.nodes, post f ++ [0], h1, ?_, hvis, ?_, ?_, ?_, ?_, ?_, ?_⟩
  · rw [List.cons_append, onEvents, hb]
    simp only [Res.bind]
    rw [onEvents_append, show onEvents exec add serial s (f.calls 0) _ = .ok st2 from e2]
    simp only [Res.bind]
    rw [onEvents, ha]
    rfl
  · refine List.Perm.trans ?_ hvis
    exact (List.perm_append_singleton 0 (post f)).trans ((post_perm f).cons 0)
  · simp [st3, hlen2, hl]
  · intro x hx
    rcases List.mem_cons.mp ((h3 x).mpr hx) with rfl | hx'
    · refine ⟨wt, s[0], sum, hw, hlr, ?_, hst3r⟩
      rw [addUp_congr s[0] (fun e he => hst3 _ (hne _ (htg 0 _ hlr e he))), hsum]
    · obtain ⟨wt', l, sum', b1, b2, b3, b4⟩ := a2.sums x hx'
      refine ⟨wt', l, sum', by rw [← hst1 x (hne x hx'), b1], b2, ?_, by rw [hst3 x (hne x hx'), b4]⟩
      rw [addUp_congr l (fun e he => hst3 _ (hne _ (htg x l b2 e he))), b3]
  · simp only [st3, a2.executed, st1]
    cases serial with
    | false => simp
    | true =>
      simp only [if_true, List.append_assoc, List.filterMap_cons]
      rw [List.filterMap_congr (g := testAt nodes) fun x hx => testAt_congr (hst1 x (hne x hx))]
      cases testAt nodes 0 <;> simp
  · simp only [st3, processed, a2.processed, List.filterMap_append, List.filterMap_cons, List.filterMap_nil, own_test, st1, List.nil_append]
    have c1 : (post f).filterMap (result st3.nodes) = (post f).filterMap (result st2.nodes) :=
      List.filterMap_congr fun x hx => by unfold result; rw [hst3 x (hne x ((post_perm f).mem_iff.mp hx))]
    have c2 : result st3.nodes 0 = wt.test.map fun t => (t, sum) := by unfold result; rw [hst3r, Option.bind_some]
    rw [show (st2.nodes.set 0 ⟨sum, wt.test⟩) = st3.nodes by simp only [st3, own_test], c1, c2]
    cases wt.test <;> simp
  · rfl

/-- In a tree, the targets of all edges are all nodes but the root, each once. -/
theorem targets_perm {s : Links} {par : Nat → Nat} (ht : TreeOf .forward s 0 par) : (0 :: s.flatMap fun l => l.map target).Perm (List.range s.length) := by
  have hpos := ht.root_lt
  rw [List.perm_iff_count]
  intro b
  have hflat : ∀ (s : Links), (s.flatMap fun l => l.map target).count b = (s.map fun l => l.countP fun e => decide (target e = b)).sum := by
    intro s
    induction s with
    | nil => rfl
    | cons l s ih =>
      rw [List.flatMap_cons, List.count_append, ih, List.map_cons, List.sum_cons, List.count, List.countP_map]
      congr 1
  rw [List.count_cons, hflat]
  have hlinks : (s.map fun l => l.countP fun e => decide (target e = b)) = (List.range s.length).map fun a => links s a b := by
    apply List.ext_getElem
    · simp
    · intro i h1 h2
      simp only [List.getElem_map, List.getElem_range, links]
      rw [List.getElem?_eq_getElem (by simpa using h1)]
  rw [hlinks]
  by_cases hb : b < s.length
  · have he : (List.range s.length).map (fun a => links s a b) = (List.range s.length).map fun a => if b ≠ 0 ∧ par b = a then 1 else 0 := by
      refine List.map_congr_left fun a ha => ?_
      rw [ht.edges a (List.mem_range.mp ha) b hb]
      simp [downwards, upwards, IsParent]
    rw [he, List.nodup_range.count, if_pos (List.mem_range.mpr hb)]
    by_cases h0 : b = 0
    · subst h0
      simp
    · have hsum : ∀ (n p : Nat), ((List.range n).map fun a => if p = a then 1 else 0).sum = if p < n then 1 else 0 := by
        intro n p
        induction n with
        | zero => simp
        | succ n ih =>
          rw [List.range_succ, List.map_append, List.sum_append, ih]
          simp only [List.map_cons, List.map_nil, List.sum_cons, List.sum_nil]
          by_cases h1 : p = n
          · subst h1; simp
          · by_cases h2 : p < n
            · simp [h1, h2, show p < n + 1 by omega]
            · simp [h1, h2, show ¬ p < n + 1 by omega]
      simp only [ne_eq, h0, not_false_eq_true, true_and]
      rw [hsum, if_pos (ht.par_lt b hb h0)]
      simp [show ¬ (0 : Nat) = b from fun h => h0 h.symm]
  · have he : (List.range s.length).map (fun a => links s a b) = (List.range s.length).map fun _ => 0 := by
      refine List.map_congr_left fun a ha => ?_
      have ha := List.mem_range.mp ha
      unfold links
      rw [List.getElem?_eq_getElem ha]
      simp only
      rw [List.countP_eq_zero]
      intro e he
      have := ht.inRange s[a] (List.getElem_mem ha) e he
      simp only [decide_eq_true_eq]
      omega
    rw [he, List.count_eq_zero.mpr (by simpa using hb)]
    have : ¬ (0 : Nat) = b := by omega
    simp [this]

end
end Verif.RunTests
