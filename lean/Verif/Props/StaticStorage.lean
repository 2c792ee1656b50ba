import Verif.Model.StaticStorage
/-
C58: the index types of static graphs.
-/
namespace Verif.Props
open Verif.StaticStorage

/-- For each list of edges, the number of edges up to its end. -/
def endsFrom (start : Nat) : List Nat → List Nat
  | [] => []
  | s :: l => (start + s) :: endsFrom (start + s) l

theorem accumulate_eq (upper : Nat) : ∀ (l : List Nat) (prev : Nat), prev ≤ upper →
    accumulate upper prev l = if prev + l.sum ≤ upper then .ok (endsFrom prev l) else .throws
  | [], prev, h => by simp [accumulate, endsFrom, h]
  | s :: l, prev, h => by
    rw [accumulate]
    by_cases h1 : upper - prev < s
    · rw [if_pos h1, if_neg (by simp; omega)]
    · rw [if_neg h1, accumulate_eq upper l (prev + s) (by omega), List.sum_cons, ← Nat.add_assoc]
      by_cases h2 : prev + s + l.sum ≤ upper
      · rw [if_pos h2, if_pos h2]; rfl
      · rw [if_neg h2, if_neg h2]; rfl

theorem le_sum_of_mem {x : Nat} : ∀ {l : List Nat}, x ∈ l → x ≤ l.sum
  | y :: l, h => by
    rcases List.mem_cons.mp h with rfl | h
    · simp
    · have := le_sum_of_mem h
      simp only [List.sum_cons]
      omega

theorem makePartitions_eq (upper : Nat) (sizes : List Nat) :
    makePartitions upper sizes = if sizes.sum ≤ upper then .ok (endsFrom 0 sizes) else .throws := by
  rw [makePartitions.eq_def]
  by_cases h1 : sizes.any (upper < ·)
  · rw [if_pos h1, if_neg]
    obtain ⟨x, hx, hlt⟩ := List.any_eq_true.mp h1
    have := le_sum_of_mem hx
    simp at hlt
    omega
  · rw [if_neg h1]
    have h' : ∀ x ∈ sizes, x ≤ upper := by
      intro x hx
      have := h1
      simp only [List.any_eq_true, not_exists, not_and, decide_eq_true_eq] at this
      have := this x hx
      omega
    cases sizes with
    | nil => simp [endsFrom]
    | cons s l =>
      simp only
      rw [accumulate_eq upper l s (h' s (by simp)), List.sum_cons]
      by_cases h2 : s + l.sum ≤ upper
      · rw [if_pos h2, if_pos h2]
        simp [Res.bind, endsFrom]
      · rw [if_neg h2, if_neg h2]; rfl

theorem endsFrom_length : ∀ (l : List Nat) (s : Nat), (endsFrom s l).length = l.length
  | [], _ => rfl
  | x :: l, s => by simp [endsFrom, endsFrom_length l]

theorem endsFrom_get : ∀ (l : List Nat) (s p : Nat), p < l.length → (endsFrom s l)[p]? = some (s + (l.take (p + 1)).sum)
  | x :: l, s, 0, _ => by simp [endsFrom]
  | x :: l, s, p + 1, h => by
    rw [endsFrom, List.getElem?_cons_succ, endsFrom_get l (s + x) p (by simpa using h)]
    simp [Nat.add_assoc]

theorem take_sum_succ (l : List Nat) (p : Nat) (h : p < l.length) : (l.take (p + 1)).sum = (l.take p).sum + l[p] := by
  rw [← List.take_append_getElem h, List.sum_append]
  simp

section
variable {T : Type}

theorem findPartition_eq (sizes : List Nat) (i : Nat) (hi : i < sizes.sum) :
    ∀ (fuel p : Nat), sizes.length < fuel + p → p < sizes.length → (sizes.take p).sum ≤ i →
      ∃ q, findPartition (endsFrom 0 sizes) i fuel p = .ok q ∧ p ≤ q ∧ q < sizes.length ∧ (sizes.take q).sum ≤ i ∧ (sizes.take (q + 1)).sum ≠ i ∧
        (i ≤ (sizes.take (p + 1)).sum → i < (sizes.take (q + 1)).sum)
  | 0, p, h1, h2, _ => by omega
  | fuel + 1, p, h1, h2, h3 => by
    rw [findPartition, endsFrom_get sizes 0 p h2]
    simp only [Nat.zero_add]
    by_cases h : i = (sizes.take (p + 1)).sum
    · rw [if_pos h]
      have hp : p + 1 < sizes.length := by
        rcases Nat.lt_or_ge (p + 1) sizes.length with h' | h'
        · exact h'
        · rw [List.take_of_length_le h'] at h
          omega
      obtain ⟨q, q1, q2, q3, q4, q5, q6⟩ := findPartition_eq sizes i hi fuel (p + 1) (by omega) hp (by omega)
      exact ⟨q, q1, by omega, q3, q4, q5, fun _ => q6 (by rw [take_sum_succ sizes (p + 1) hp]; omega)⟩
    · rw [if_neg h]
      exact ⟨p, rfl, Nat.le_refl p, h2, h3, fun h' => h h'.symm, fun h' => by omega⟩

theorem flatten_get : ∀ (list : List (List T)) (q i : Nat) (hq : q < list.length), ((list.map List.length).take q).sum ≤ i →
    i < ((list.map List.length).take (q + 1)).sum → list.flatten[i]? = list[q][i - ((list.map List.length).take q).sum]?
  | l :: list, 0, i, _, _, h2 => by
    simp only [List.map_cons, List.take_succ_cons, List.take_zero, List.sum_cons, List.sum_nil, Nat.add_zero] at h2
    rw [List.flatten_cons, List.getElem?_append_left h2]
    simp
  | l :: list, q + 1, i, hq, h1, h2 => by
    simp only [List.map_cons, List.take_succ_cons, List.sum_cons] at h1 h2
    rw [List.flatten_cons, List.getElem?_append_right (by omega), flatten_get list q (i - l.length) (by simpa using hq) (by omega) (by omega)]
    simp only [List.getElem_cons_succ, List.map_cons, List.take_succ_cons, List.sum_cons]
    congr 1
    omega

theorem makeElement_eq (list : List (List T)) (i p : Nat) (hi : i < (list.map List.length).sum) (hp : p < list.length)
    (h1 : ((list.map List.length).take p).sum ≤ i) (h2 : i ≤ ((list.map List.length).take (p + 1)).sum) (x : T) (hx : list.flatten[i]? = some x) :
    ∃ q, makeElement list (endsFrom 0 (list.map List.length)) i p = .ok (x, q) ∧ q < list.length ∧ ((list.map List.length).take q).sum ≤ i ∧
      i < ((list.map List.length).take (q + 1)).sum := by
  obtain ⟨q, q1, q2, q3, q4, q5, q6⟩ := findPartition_eq (list.map List.length) i hi ((endsFrom 0 (list.map List.length)).length + 1) p
    (by rw [endsFrom_length]; omega) (by simpa using hp) h1
  have q6 := q6 h2
  rw [List.length_map] at q3
  refine ⟨q, ?_, q3, q4, q6⟩
  rw [makeElement, q1]
  simp only [Res.bind]
  have hs : (if q = 0 then some 0 else (endsFrom 0 (list.map List.length))[q - 1]?) = some ((list.map List.length).take q).sum := by
    by_cases h0 : q = 0
    · simp [h0]
    · rw [if_neg h0, endsFrom_get _ 0 (q - 1) (by simp; omega)]
      rw [show q - 1 + 1 = q by omega, Nat.zero_add]
  rw [hs]
  simp only
  have hf := flatten_get list q i q3 q4 q6
  rw [hx] at hf
  rw [List.getElem?_eq_getElem q3, Option.bind_some, ← hf]

theorem makeElements_eq (list : List (List T)) : ∀ (n i p : Nat), i + n = (list.map List.length).sum → (n ≠ 0 → p < list.length ∧
    ((list.map List.length).take p).sum ≤ i ∧ i ≤ ((list.map List.length).take (p + 1)).sum) →
    makeElements list (endsFrom 0 (list.map List.length)) n i p = .ok (list.flatten.drop i)
  | 0, i, p, h, _ => by
    rw [makeElements, List.drop_eq_nil_of_le]
    rw [List.length_flatten]
    omega
  | n + 1, i, p, h, hp => by
    obtain ⟨hp1, hp2, hp3⟩ := hp (by omega)
    have hlen : i < list.flatten.length := by rw [List.length_flatten]; omega
    obtain ⟨q, e, q1, q2, q3⟩ := makeElement_eq list i p (by omega) hp1 hp2 hp3 list.flatten[i] (List.getElem?_eq_getElem hlen)
    rw [makeElements, e]
    simp only [Res.bind]
    rw [makeElements_eq list n (i + 1) q (by omega) fun _ => ⟨q1, by omega, by omega⟩]
    simp only
    rw [List.drop_eq_getElem_cons hlen]

/-- C58: the edges of a static graph, given as one list for each node whose lengths add up to the number of edges (or of their halves), can be stored if and only
if the number of edges is a value of the chosen index type.  They are then stored one after another, with the position at which the edges of each node end.

Partial: by the statement of the property there should be no condition; see the violation below. -/
theorem C58_construct_partial (fl : Flavour) (size : Nat) (list : List (List T)) (hsize : (list.map List.length).sum = numStaticEdges fl size) :
    construct fl size list.length list =
      if numStaticEdges fl size ≤ (toIndexMax size list.length fl).max then .ok (endsFrom 0 (list.map List.length), list.flatten) else .throws := by
  rw [construct, fill, if_neg (by simp), makePartitions_eq, hsize]
  by_cases h : numStaticEdges fl size ≤ (toIndexMax size list.length fl).max
  · rw [if_pos h, if_pos h]
    simp only [Res.bind]
    rw [if_neg (by simp), makeElements_eq list _ 0 0 (by omega)]
    · simp
    · intro hn
      refine ⟨?_, by simp, by simp⟩
      cases list with
      | nil => exact absurd hsize.symm hn
      | cons => simp
  · rw [if_neg h, if_neg h]; rfl

/-- C58: lists which do not fit the type are rejected: if there is not one for each node, or if their lengths do not add up to the number of edges, then construction throws. -/
theorem C58_reject (fl : Flavour) (size order : Nat) (list : List (List T)) (h : list.length ≠ order ∨ (list.map List.length).sum ≠ numStaticEdges fl size) :
    construct fl size order list = .throws := by
  rw [construct, fill]
  by_cases h1 : list.length ≠ order
  · rw [if_pos h1]
  · rw [if_neg h1, makePartitions_eq]
    split
    · simp only [Res.bind]
      rw [if_pos (h.resolve_left h1)]
    · rfl

example : construct .directed 2 2 [[1], [2, 3]] = .throws ∧ construct .directed 3 2 [[1, 2, 3]] = .throws ∧ construct .directed 3 2 [[1], [2, 3]] = .ok ([1, 3], [1, 2, 3]) := by decide

end

/-- C58: every node index, and the position of every edge that an embedded graph without loops can have at a node, is less than the largest value of the index
type, which is thus free to mean "no index". -/
theorem C58_indices (fl : Flavour) (size order : Nat) (hs : size < 2 ^ 64 - 1) (ho : order < 2 ^ 64 - 1) :
    (∀ node, node < order → node < (toIndexMax size order fl).max) ∧
      (fl = .embedded → ∀ pos, pos < size → pos < (toIndexMax size order fl).max) := by
  rw [toIndexMax]
  split
  · rename_i h
    refine ⟨fun n hn => by simp only [Tag.max]; omega, fun he p hp => ?_⟩
    have := h.2.resolve_left (fun hne => hne he)
    simp only [Tag.max]; omega
  · split
    · rename_i h
      refine ⟨fun n hn => by simp only [Tag.max]; omega, fun he p hp => ?_⟩
      have := h.2.resolve_left (fun hne => hne he)
      simp only [Tag.max]; omega
    · exact ⟨fun n hn => by simp only [Tag.max]; omega, fun _ p hp => by simp only [Tag.max]; omega⟩

/-- C58, violation: no directed graph with fewer than 255 nodes and more than 255 edges can be constructed from the lists of its edges, although its size is
part of its type. -/
theorem C58_many_edges_violated {T : Type} (size : Nat) (hs : 255 < size) (list : List (List T)) (hsize : (list.map List.length).sum = size)
    (ho : list.length < 255) : construct .directed size list.length list = .throws := by
  rw [C58_construct_partial .directed size list (by simpa [numStaticEdges] using hsize), if_neg]
  have : toIndexMax size list.length .directed = .uchar := by
    rw [toIndexMax, if_pos ⟨ho, .inl (by simp)⟩]
  rw [this]
  simp [numStaticEdges, Tag.max]
  omega

/-- C58, violation: the same holds for embedded graphs with more than 127 and fewer than 255 edges, since each edge is stored twice. -/
theorem C58_embedded_violated {T : Type} (size : Nat) (h1 : 127 < size) (h2 : size < 255) (list : List (List T))
    (hsize : (list.map List.length).sum = 2 * size) (ho : list.length < 255) : construct .embedded size list.length list = .throws := by
  rw [C58_construct_partial .embedded size list (by simpa [numStaticEdges] using hsize), if_neg]
  have : toIndexMax size list.length .embedded = .uchar := by
    rw [toIndexMax, if_pos ⟨ho, .inr h2⟩]
  rw [this]
  simp [numStaticEdges, Tag.max]
  omega

/-- A graph which can be constructed, with nodes without edges. -/
example : construct .undirected 2 4 [[], ["a", "b"], [], ["c", "d"]] = .ok ([0, 2, 2, 4], ["a", "b", "c", "d"]) := by rfl

/-- Lists to which the violation applies. -/
example : ([List.replicate 200 0, List.replicate 100 1].map List.length).sum = 300 ∧ [List.replicate 200 0, List.replicate 100 1].length < 255 := by decide +kernel

end Verif.Props
