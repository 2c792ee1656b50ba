import Verif.Lemmas.TraversalReports
import Verif.Lemmas.GraphHistory
import Verif.Lemmas.GraphInit

/-! # Traversals: C22 to C26

`traverse c rule rev findAll s start fuel` is the sequence of calls which a queue based traversal of a graph with edges `s`
makes to the functions it is given.  `c` is the container: a queue for `breadth_first`, a stack, together with `rev = true`,
for `pseudo_depth_first`, and a priority queue for `priority_first`.  `findAll` is `true` for `find_disconnected` and
`false` for `ignore_disconnected`.  `rule` depends on the flavour of graph.  The model yields `.ok none` if the fuel does not
suffice, `.ub` if a container or an array is accessed out of bounds and `.throws` if a container overflows.
-/
namespace Verif.Props
open Verif.Spec Verif.Graph EdgeLike

section
variable {E : Type} [EdgeLike E] {Q : Type}

/-! ### C22 -/

/-- C22.  A breadth first traversal which ignores what is disconnected terminates; it visits exactly the nodes which can be
reached from the start, each once, in order of non-decreasing distance. -/
theorem C22_breadth_first (rule : LoopRule E) {s : Edges E} (hs : InRange s) {start : Nat} (hstart : start < s.length)
    {fuel : Nat} (hf : s.length ≤ fuel) :
    ∃ events order, traverse stdQueue rule false false s start fuel = .ok (some events) ∧ NodeCalls events order ∧
      order.Nodup ∧ (∀ n, n ∈ order ↔ Reach s start n) ∧
      order.Pairwise fun a b => ∀ d, Walk s start b d → ∃ d' ≤ d, Walk s start a d' := by
  obtain ⟨seg, h1, h2, _⟩ := traverse_spec (stdQueue_obeys _) fifo_bag rule false rfl hs (orders_byDistance false s) start hstart
    fuel hf
  obtain ⟨_, h3, h4, h5⟩ := h2
  exact ⟨_, seg, h1, nodeCalls_blocks, h3, by simpa using h4, h5⟩

/-- C22.  A breadth first traversal which finds disconnected parts terminates; it visits every node once.  It is a sequence
of searches, each in order of non-decreasing distance, the first from `start` and each further one from the first node not
visited so far. -/
theorem C22_breadth_first_all (rule : LoopRule E) {s : Edges E} (hs : InRange s) {start : Nat} (hstart : start < s.length)
    {fuel : Nat} (hf : s.length ≤ fuel) :
    ∃ events segs, traverse stdQueue rule false true s start fuel = .ok (some events) ∧ NodeCalls events segs.flatten ∧
      segs.flatten.Nodup ∧ (∀ n, n ∈ segs.flatten ↔ n < s.length) ∧ Searches s (ByDistance s) [] start segs := by
  obtain ⟨segs, h1, h2⟩ := traverse_all_spec (stdQueue_obeys _) fifo_bag rule false rfl hs (orders_byDistance false s) start
    hstart fuel hf
  have h3 := searches_all hs h2 hstart (by simp) (by simp)
  simp only [List.nil_append] at h3
  exact ⟨_, segs, h1, nodeCalls_blocks, h3.1, h3.2, h2⟩

/-- C22.  If there is no such node to start from, nothing is called, whatever the traversal. -/
theorem C22_no_start (c : Container Q) (rule : LoopRule E) (rev findAll : Bool) (s : Edges E) {start : Nat}
    (hstart : s.length ≤ start) (fuel : Nat) :
    traverse c rule rev findAll s start fuel = .ok (some []) ∧ traverseDfs findAll s start fuel = .ok (some []) := by
  unfold traverse traverseDfs
  rw [if_neg (by omega), if_neg (by omega)]
  exact ⟨rfl, rfl⟩

/-- A graph with a cycle, a multiple edge, a loop and two parts. -/
def cyclic : Edges (Edge Nat Unit) :=
  [[⟨1, 0, ()⟩, ⟨2, 0, ()⟩], [⟨3, 0, ()⟩, ⟨3, 1, ()⟩], [⟨0, 0, ()⟩, ⟨2, 2, ()⟩], [⟨0, 0, ()⟩], [⟨5, 0, ()⟩], []]

/-- The nodes visited, for examples. -/
def visits : Res (Option (List Event)) → Option (List Nat)
  | .ok (some ev) => some (ev.filterMap fun | .before n => some n | _ => none)
  | _ => none

example : InRange cyclic := by unfold InRange cyclic; decide
example : visits (traverse stdQueue .directed false true cyclic 4 6) = some [4, 5, 0, 1, 2, 3] := by decide +kernel

/-! ### C23 -/

/-- C23.  A pseudo depth first traversal visits exactly the nodes which can be reached, each once; the next node is always
one discovered last. -/
theorem C23_pseudo_depth_first (rule : LoopRule E) {s : Edges E} (hs : InRange s) {start : Nat} (hstart : start < s.length)
    {fuel : Nat} (hf : s.length ≤ fuel) :
    ∃ events order, traverse stdStack rule true false s start fuel = .ok (some events) ∧ NodeCalls events order ∧
      order.Nodup ∧ (∀ n, n ∈ order ↔ Reach s start n) ∧ ByRecency s [] start order := by
  obtain ⟨seg, h1, h2, _⟩ := traverse_spec (stdStack_obeys _) lifo_bag rule true rfl hs (orders_byRecency true s) start hstart
    fuel hf
  obtain ⟨_, h3, h4, h5⟩ := h2
  exact ⟨_, seg, h1, nodeCalls_blocks, h3, by simpa using h4, h5⟩

theorem C23_pseudo_depth_first_all (rule : LoopRule E) {s : Edges E} (hs : InRange s) {start : Nat} (hstart : start < s.length)
    {fuel : Nat} (hf : s.length ≤ fuel) :
    ∃ events segs, traverse stdStack rule true true s start fuel = .ok (some events) ∧ NodeCalls events segs.flatten ∧
      segs.flatten.Nodup ∧ (∀ n, n ∈ segs.flatten ↔ n < s.length) ∧ Searches s (ByRecency s) [] start segs := by
  obtain ⟨segs, h1, h2⟩ := traverse_all_spec (stdStack_obeys _) lifo_bag rule true rfl hs (orders_byRecency true s) start
    hstart fuel hf
  have h3 := searches_all hs h2 hstart (by simp) (by simp)
  simp only [List.nil_append] at h3
  exact ⟨_, segs, h1, nodeCalls_blocks, h3.1, h3.2, h2⟩

/-- C23.  A priority first traversal visits exactly the nodes which can be reached, each once; the next node is always such
that no discovered one is greater.  This is for any container which returns a greatest element: `std::priority_queue` is
assumed to be one, and `static_priority_queue` is one by `C23_static_queue`. -/
theorem C23_priority_first (rule : LoopRule E) {s : Edges E} (hs : InRange s) {lt : Nat → Nat → Bool} {c : Container Q}
    (hc : Serves (fun a l => ∀ b ∈ l, lt a b = false) c s.length) {start : Nat} (hstart : start < s.length)
    {fuel : Nat} (hf : s.length ≤ fuel) :
    ∃ events order, traverse c rule false false s start fuel = .ok (some events) ∧ NodeCalls events order ∧
      order.Nodup ∧ (∀ n, n ∈ order ↔ Reach s start n) ∧ ByPriority s lt [] start order := by
  obtain ⟨R, hR⟩ := obeys_of_serves hc
  obtain ⟨seg, h1, h2, _⟩ := traverse_spec hR byPrio_bag rule false rfl hs (orders_byPriority lt false s) start hstart
    fuel hf
  obtain ⟨_, h3, h4, h5⟩ := h2
  exact ⟨_, seg, h1, nodeCalls_blocks, h3, by simpa using h4, h5⟩

theorem C23_priority_first_all (rule : LoopRule E) {s : Edges E} (hs : InRange s) {lt : Nat → Nat → Bool} {c : Container Q}
    (hc : Serves (fun a l => ∀ b ∈ l, lt a b = false) c s.length) {start : Nat} (hstart : start < s.length)
    {fuel : Nat} (hf : s.length ≤ fuel) :
    ∃ events segs, traverse c rule false true s start fuel = .ok (some events) ∧ NodeCalls events segs.flatten ∧
      segs.flatten.Nodup ∧ (∀ n, n ∈ segs.flatten ↔ n < s.length) ∧ Searches s (ByPriority s lt) [] start segs := by
  obtain ⟨R, hR⟩ := obeys_of_serves hc
  obtain ⟨segs, h1, h2⟩ := traverse_all_spec hR byPrio_bag rule false rfl hs (orders_byPriority lt false s) start
    hstart fuel hf
  have h3 := searches_all hs h2 hstart (by simp) (by simp)
  simp only [List.nil_append] at h3
  exact ⟨_, segs, h1, nodeCalls_blocks, h3.1, h3.2, h2⟩

/-- C23.  The priority queue used for static graphs returns a greatest element. -/
theorem C23_static_queue (N : Nat) {lt : Nat → Nat → Bool} (hlt : StrictWeak lt) :
    Serves (fun a l => ∀ b ∈ l, lt a b = false) (staticPQ lt N) N := by
  have h := staticPQ_obeys N hlt
  exact ⟨_, h.init, fun _ _ hr => h.isEmpty hr, fun _ _ a hr hl => h.push a hr hl, fun _ _ hr hl => by
    obtain ⟨a, q', l', h0, h1, h2, h3⟩ := h.pop hr hl
    exact ⟨a, q', l', h0, h1, h2.1, h2.2, h3⟩⟩

example : StrictWeak (fun a b : Nat => decide (a < b)) :=
  ⟨by intro a b h; simp at *; omega, by intro a b c h1 h2; simp at *; omega⟩
example : visits (traverse (staticPQ (fun a b => decide (a < b)) 6) .directed false false cyclic 0 6) = some [0, 2, 1, 3] := by decide +kernel
example : visits (traverse stdStack .directed true false cyclic 0 6) = some [0, 1, 3, 2] := by decide +kernel

/-! ### C24 -/

/-- C24.  A depth first traversal terminates.  The calls are those for a tree: below each node, an edge is reported, then
the node to which it leads is visited, with everything below it, before the next edge.  The tree has exactly the nodes which
can be reached from the start, each once, and its edges are edges of the graph, taken in order; and a node is left only
once all nodes to which its edges lead have been visited. -/
theorem C24_depth_first {s : Edges E} (hs : InRange s) {start : Nat} (hstart : start < s.length) {fuel : Nat}
    (hf : s.length < fuel) :
    ∃ f : Forest,
      traverseDfs false s start fuel = .ok (some (.before start :: f.calls start ++ [.after start])) ∧
      (start :: f.nodes).Nodup ∧ (∀ n, n ∈ start :: f.nodes ↔ Reach s start n) ∧ f.Valid s start 0 ∧
      NothingMissed s (.before start :: f.calls start ++ [.after start]) (start :: f.nodes) := by
  obtain ⟨f, h1, h2, h3, h4⟩ := traverseDfs_spec hs hstart hf
  obtain ⟨_, h5, h6, _⟩ := h2
  exact ⟨f, h1, h5, by simpa [treeNodes] using h6, h3, h4⟩

/-- C24.  If disconnected parts are to be found, the calls are those for a sequence of trees which together contain each
node once; each tree begins at the first node not visited so far. -/
theorem C24_depth_first_all {s : Edges E} (hs : InRange s) {start : Nat} (hstart : start < s.length) {fuel : Nat}
    (hf : s.length ≤ fuel) :
    ∃ trees : List (Nat × Forest),
      traverseDfs true s start fuel =
        .ok (some (trees.flatMap fun t => .before t.1 :: t.2.calls t.1 ++ [.after t.1])) ∧
      (trees.flatMap fun t => t.1 :: t.2.nodes).Nodup ∧
      (∀ n, n ∈ trees.flatMap (fun t => t.1 :: t.2.nodes) ↔ n < s.length) ∧
      Searches s AnyOrder [] start (trees.map fun t => t.1 :: t.2.nodes) ∧ (∀ t ∈ trees, t.2.Valid s t.1 0) ∧
      NothingMissed s (trees.flatMap fun t => .before t.1 :: t.2.calls t.1 ++ [.after t.1])
        (trees.flatMap fun t => t.1 :: t.2.nodes) := by
  obtain ⟨trees, h1, h2, h3, h4⟩ := traverseDfs_all_spec hs hstart hf
  have h5 := searches_all hs h2 hstart (by simp) (by simp)
  simp only [List.nil_append] at h5
  rw [← List.flatMap_def] at h5
  exact ⟨trees, h1, h5.1, h5.2, h2, h3, h4⟩

/-- The tree found in the example. -/
example : traverseDfs false cyclic 0 7 = .ok (some (.before 0 ::
    (Forest.cons 0 1 (.cons 0 3 .nil .nil) (.cons 1 2 .nil .nil)).calls 0 ++ [.after 0])) := by rfl

/-! ### C25 -/

/-- C25, directed graphs: for each node visited, each of its edges is reported once, in order. -/
theorem C25_directed {c : Container Q} {best : Nat → List Nat → Prop} (rev findAll : Bool) {s : Edges E}
    (hc : Serves best c s.length) (hs : InRange s) {start : Nat} (hstart : start < s.length) {fuel : Nat} (hf : s.length ≤ fuel) :
    ∃ order : List Nat, traverse c .directed rev findAll s start fuel =
        .ok (some (order.flatMap fun n => .before n :: (inOrder rev (List.range (Spec.degree s n))).map (.first n ·) ++ [.after n])) ∧
      order.Nodup ∧ (∀ n, n ∈ order ↔ if findAll then n < s.length else Reach s start n) := by
  obtain ⟨order, h1, h2, h3, _⟩ := traverse_any .directed rev findAll hc hs hstart hf
  refine ⟨order, ?_, h2, h3⟩
  rw [h1]
  congr 2
  have key : ∀ order proc, blocks (.directed : LoopRule E) rev s proc order = order.flatMap fun n =>
      .before n :: (inOrder rev (List.range (Spec.degree s n))).map (.first n ·) ++ [.after n] := by
    intro order
    induction order with
    | nil => intro _; rfl
    | cons n order ih =>
      intro proc
      rw [blocks, ih, List.flatMap_cons]
      congr 1
      unfold block
      rw [edgeCalls_directed]
      congr 2
      unfold edgesOf Spec.degree
      cases s[n]? with
      | none => cases rev <;> simp [inOrder]
      | some l =>
        cases rev <;> simp only [iteration, inOrder, Bool.false_eq_true, if_false, if_true, List.map_reverse,
          List.range_eq_range', ← List.zipIdx_map_snd 0 l, List.map_map] <;> rfl
  exact key order []

/-- C25, links.  In undirected and embedded graphs: of any two linked nodes which are visited, all edges from one of them
to the other are reported as being traversed for the first time, and all those in the opposite direction, i.e. their other
halves, as being traversed for the second time; each exactly once. -/
theorem C25_links {c : Container Q} {best : Nat → List Nat → Prop} {rule : LoopRule E} (hrule : rule ≠ .directed)
    (rev findAll : Bool) {s : Edges E}
    (hc : Serves best c s.length) (hs : InRange s) {start : Nat} (hstart : start < s.length) {fuel : Nat} (hf : s.length ≤ fuel) :
    ∃ events order, traverse c rule rev findAll s start fuel = .ok (some events) ∧ NodeCalls events order ∧
      (∀ n, n ∈ order ↔ if findAll then n < s.length else Reach s start n) ∧
      ∀ i ∈ order, ∀ j, j ≠ i → Leads s i j → j ∈ order ∧
        ∃ a b, ((a = i ∧ b = j) ∨ (a = j ∧ b = i)) ∧
          (∀ k e, edgeAt s a k = some e → target e = b → ReportedFirst events a k) ∧
          (∀ k e, edgeAt s b k = some e → target e = a → ReportedSecond events b k) := by
  obtain ⟨order, h1, h2, h3, h4⟩ := traverse_any rule rev findAll hc hs hstart hf
  refine ⟨_, order, h1, nodeCalls_blocks, h3, ?_⟩
  intro i hi j hij hl
  have hj := h4 i hi j hl
  exact ⟨hj, reported_links hrule h2 hij.symm hi hj⟩

end

/-- C25, embedded graphs.  Each edge with a visited end is reported exactly once by the first and exactly once by the second
traversal function: one of its halves by the former and the other one by the latter; loops included.  For pseudo depth first
traversals, `rev = true`, this is restricted to graphs without loops; see `C25_embedded_loop_violated`. -/
theorem C25_embedded {W M Q : Type} {c : Container Q} {best : Nat → List Nat → Prop} (rev findAll : Bool)
    {s : Edges (EEdge W M)} (hemb : Embedded s) (hrev : rev = true → ∀ n k e, edgeAt s n k = some e → e.target ≠ n)
    (hc : Serves best c s.length) {start : Nat} (hstart : start < s.length) {fuel : Nat} (hf : s.length ≤ fuel) :
    ∃ events order, traverse c (.embedded (·.comp)) rev findAll s start fuel = .ok (some events) ∧ NodeCalls events order ∧
      (∀ n, n ∈ order ↔ if findAll then n < s.length else Reach s start n) ∧
      ∀ n ∈ order, ∀ k e, edgeAt s n k = some e →
        (ReportedFirst events n k ∧ ReportedSecond events e.target e.comp) ∨
        (ReportedSecond events n k ∧ ReportedFirst events e.target e.comp) := by
  have hs : InRange s := Embedded.inRange hemb
  obtain ⟨order, h1, h2, h3, h4⟩ := traverse_any (.embedded (·.comp)) rev findAll hc hs hstart hf
  refine ⟨_, order, h1, nodeCalls_blocks, h3, ?_⟩
  intro n hn k e he
  obtain ⟨hne, e', he', ht', hc', _⟩ := hemb n k e he
  by_cases hl : e.target = n
  · cases rev with
    | true => exact absurd hl (hrev rfl n k e he)
    | false =>
      obtain ⟨p, q, rfl⟩ := List.append_of_mem hn
      have hnp : n ∉ p := fun h => (List.nodup_append.1 h2).2.2 n h n (by simp) rfl
      rw [hl] at he' hne ⊢
      have hk : e.comp ≠ k := fun h => hne (by rw [h])
      have key : ∀ k e, edgeAt s n k = some e → e.target = n →
          (if e.comp < k then Event.second n k else .first n k) ∈
            edgeCalls (.embedded (·.comp)) n p 0 true (edgesOf false s n) := by
        intro k e he hl
        obtain ⟨l, hl1, hl2⟩ := Option.bind_eq_some_iff.1 he
        unfold edgesOf
        rw [hl1]
        simp only [iteration, Bool.false_eq_true, if_false]
        rw [edgeCalls_embedded, List.mem_map]
        refine ⟨(e, k), by rw [List.mem_zipIdx_iff_getElem?]; exact hl2, ?_⟩
        have : target e = n := hl
        simp [this, hnp]
      have k1 := key k e he hl
      have k2 := key e.comp e' he' ht'
      rw [hc'] at k2
      by_cases hlt : e.comp < k
      · rw [if_pos hlt] at k1
        rw [if_neg (by omega)] at k2
        exact .inr ⟨reported_second h2 k1, reported_first h2 k2⟩
      · rw [if_neg hlt] at k1
        rw [if_pos (by omega)] at k2
        exact .inl ⟨reported_first h2 k1, reported_second h2 k2⟩
  · have hj := h4 n hn e.target ⟨k, e, he, rfl⟩
    obtain ⟨a, b, hab, r1, r2⟩ := reported_links (rule := .embedded (·.comp)) (by simp) (rev := rev) (s := s) h2 (Ne.symm hl) hn hj
    rcases hab with ⟨rfl, rfl⟩ | ⟨rfl, rfl⟩
    · exact .inl ⟨r1 k e he rfl, r2 e.comp e' he' ht'⟩
    · exact .inr ⟨r2 k e he rfl, r1 e.comp e' he' ht'⟩

/-- C25, undirected graphs, as far as it holds: for links see `C25_links`.  The loops of a node are reported for the first
and the second time in turn, in the order in which they are considered.  Missing: that of the two halves of a loop one is
reported by the first and one by the second traversal function; that holds if they are next to each other among the loops of
the node, beginning at an even place, but not in general, see `C25_undirected_loops_violated`. -/
theorem C25_undirected_loops_partial {W M Q : Type} {c : Container Q} {best : Nat → List Nat → Prop} (rev findAll : Bool)
    {s : Edges (Edge W M)} (hs : InRange s) (hc : Serves best c s.length) {start : Nat} (hstart : start < s.length) {fuel : Nat}
    (hf : s.length ≤ fuel) :
    ∃ events order, traverse c .undirected rev findAll s start fuel = .ok (some events) ∧ NodeCalls events order ∧
      (∀ n, n ∈ order ↔ if findAll then n < s.length else Reach s start n) ∧
      ∀ n ∈ order, ∀ i k, (inOrder rev (loopsAt s n))[i]? = some k →
        (i % 2 = 0 → ReportedFirst events n k) ∧ (i % 2 = 1 → ReportedSecond events n k) := by
  obtain ⟨order, h1, h2, h3, _⟩ := traverse_any .undirected rev findAll hc hs hstart hf
  refine ⟨_, order, h1, nodeCalls_blocks, h3, ?_⟩
  intro n hn i k hi
  obtain ⟨p, q, rfl⟩ := List.append_of_mem hn
  have hnp : n ∉ p := fun h => (List.nodup_append.1 h2).2.2 n h n (by simp) rfl
  rw [← loopPos_edgesOf] at hi
  have := edgeCalls_loops hnp (dist := 0) (m := true) hi
  constructor
  · intro h
    rw [h] at this
    exact reported_first h2 this
  · intro h
    rw [h] at this
    exact reported_second h2 this

/-- The containers used do return what is put into them. -/
theorem C25_containers (N : Nat) {lt : Nat → Nat → Bool} (hlt : StrictWeak lt) :
    Serves (fun _ _ => True) stdQueue N ∧ Serves (fun _ _ => True) stdStack N ∧ Serves (fun _ _ => True) (staticQueue N) N ∧
    Serves (fun _ _ => True) (staticStack N) N ∧ Serves (fun _ _ => True) (staticPQ lt N) N :=
  ⟨serves_of_obeys fifo_bag (stdQueue_obeys N), serves_of_obeys lifo_bag (stdStack_obeys N),
   serves_of_obeys fifo_bag (staticQueue_obeys N), serves_of_obeys lifo_bag (staticStack_obeys N),
   serves_of_obeys byPrio_bag (staticPQ_obeys N hlt)⟩

/-- C25 fails for undirected graphs with several loops at one node: if two loops of weights 1 and 2 have been interleaved,
which `swap_edges` can do, both halves of the former are reported as first and both of the latter as second traversals. -/
theorem C25_undirected_loops_violated : ∃ s : Edges (Edge Nat Unit), Reciprocal s ∧
    (∃ s', swapEdges [[⟨0, 1, ()⟩, ⟨0, 1, ()⟩, ⟨0, 2, ()⟩, ⟨0, 2, ()⟩]] 0 1 2 = .ok s' ∧ s = s') ∧
    traverse stdQueue .undirected false false s 0 1 =
      .ok (some [.before 0, .first 0 0, .second 0 1, .first 0 2, .second 0 3, .after 0]) ∧
    edgeAt s 0 0 = some ⟨0, 1, ()⟩ ∧ edgeAt s 0 1 = some ⟨0, 2, ()⟩ ∧ edgeAt s 0 2 = some ⟨0, 1, ()⟩ ∧
    edgeAt s 0 3 = some ⟨0, 2, ()⟩ := by
  refine ⟨[[⟨0, 1, ()⟩, ⟨0, 2, ()⟩, ⟨0, 1, ()⟩, ⟨0, 2, ()⟩]], ⟨by unfold InRange; decide, ?_, ?_⟩, ⟨_, rfl, rfl⟩, rfl, rfl, rfl, rfl, rfl⟩
  · intro i j hij w
    cases i with
    | zero =>
      cases j with
      | zero => exact absurd rfl hij
      | succ j => simp [mult]
    | succ i =>
      cases j with
      | zero => simp [mult]
      | succ j => simp [mult]
  · intro i w
    cases i with
    | zero =>
      by_cases h1 : w = 1
      · subst h1; exact ⟨1, by decide⟩
      · by_cases h2 : w = 2
        · subst h2; exact ⟨1, by decide⟩
        · refine ⟨0, ?_⟩
          simp [mult, Ne.symm h1, Ne.symm h2]
    | succ i => exact ⟨0, by simp [mult]⟩

/-- C25 fails for pseudo depth first traversals of embedded graphs: a single loop is reported as being traversed for the
first time twice. -/
theorem C25_embedded_loop_violated : ∃ s : Edges (EEdge Unit Unit), Embedded s ∧
    traverse stdStack (.embedded (·.comp)) true false s 0 1 = .ok (some [.before 0, .first 0 1, .first 0 0, .after 0]) := by
  refine ⟨[[⟨0, 1, (), ()⟩, ⟨0, 0, (), ()⟩]], ?_, rfl⟩
  have := (Verif.Graph.makeEmbedded_spec (W := Unit) (M := Unit) [[⟨0, 1, (), ()⟩, ⟨0, 0, (), ()⟩]])
  rcases this with ⟨_, h⟩ | ⟨h, _⟩
  · exact h
  · exact absurd h (by decide)

/-! ### C26 -/

/-- C26.  For a static graph, whose traversals use a queue of capacity `order()`, a breadth first traversal makes exactly
the same calls as for a dynamic graph; in particular the queue never overflows and is never read when empty. -/
theorem C26_static_breadth_first {E : Type} [EdgeLike E] (rule : LoopRule E) (findAll : Bool) {s : Edges E} (hs : InRange s)
    (start : Nat) {fuel : Nat} (hf : s.length ≤ fuel) :
    traverse (staticQueue s.length) rule false findAll s start fuel = traverse stdQueue rule false findAll s start fuel :=
  traverse_congr fifo_bag fifo_det rule false findAll hs (staticQueue_obeys _) (stdQueue_obeys _) start fuel hf

/-- C26 for pseudo depth first traversals. -/
theorem C26_static_pseudo_depth_first {E : Type} [EdgeLike E] (rule : LoopRule E) (findAll : Bool) {s : Edges E}
    (hs : InRange s) (start : Nat) {fuel : Nat} (hf : s.length ≤ fuel) :
    traverse (staticStack s.length) rule true findAll s start fuel = traverse stdStack rule true findAll s start fuel :=
  traverse_congr lifo_bag lifo_det rule true findAll hs (staticStack_obeys _) (stdStack_obeys _) start fuel hf

/-- C26 for priority first traversals: never an overflow nor an access out of bounds, and what is visited is as for a
dynamic graph.  (The order of nodes of equal weight may differ.) -/
theorem C26_static_priority_first {E : Type} [EdgeLike E] (rule : LoopRule E) (findAll : Bool) {s : Edges E}
    (hs : InRange s) {lt : Nat → Nat → Bool} (hlt : StrictWeak lt) (start : Nat) {fuel : Nat} (hf : s.length ≤ fuel) :
    ∃ events, traverse (staticPQ lt s.length) rule false findAll s start fuel = .ok (some events) ∧
      (start < s.length → ∃ order, NodeCalls events order ∧ order.Nodup ∧
        ∀ n, n ∈ order ↔ if findAll then n < s.length else Reach s start n) := by
  by_cases hstart : start < s.length
  · obtain ⟨order, h1, h2, h3, _⟩ := traverse_any rule false findAll (C23_static_queue s.length hlt) hs hstart hf
    exact ⟨_, h1, fun _ => ⟨order, nodeCalls_blocks, h2, h3⟩⟩
  · exact ⟨[], (C22_no_start _ rule false findAll s (by omega) fuel).1, fun h => absurd h hstart⟩

/-- The capacity is needed: with a smaller one the traversal throws. -/
example : traverse (staticQueue 1) .directed false false cyclic 0 6 = .throws := by rfl
example : visits (traverse (staticQueue 6) .directed false true cyclic 4 6) = some [4, 5, 0, 1, 2, 3] := by decide +kernel

end Verif.Props
