import Verif.Props.GraphInit
import Verif.Lemmas.StateTransition
import Verif.Spec.GraphErrors
/-! Property C109: what is said about graphs which are refused. -/
namespace Verif.Props
open Verif.GraphErrors Verif.Graph Verif.Spec Verif.Spec.GraphErrors
open Verif.Text (Str)

namespace GraphErrors

/-! ### Loops -/

theorem inRow_spec {α : Type} (f : Nat → Nat → α → Option Fault) (n : Nat) (l : List α) (k : Nat) :
    (inRow f n k l = none ∧ ∀ (j : Nat) (e : α), l[j]? = some e → f n (k + j) e = none) ∨
    ∃ (x : Fault) (j : Nat) (e : α), inRow f n k l = some x ∧ l[j]? = some e ∧ f n (k + j) e = some x ∧ ∀ (j' : Nat) (e' : α), j' < j → l[j']? = some e' → f n (k + j') e' = none := by
  induction l generalizing k with
  | nil => exact .inl ⟨rfl, fun j e h => by simp at h⟩
  | cons a l ih =>
    unfold inRow
    cases ha : f n k a with
    | some x => exact .inr ⟨x, 0, a, rfl, rfl, ha, fun j' _ h => by omega⟩
    | none =>
      dsimp only
      rcases ih (k + 1) with ⟨h1, h2⟩ | ⟨x, j, e, h1, h2, h3, h4⟩
      · refine .inl ⟨h1, fun j e h => ?_⟩
        cases j with
        | zero => simp at h; subst h; exact ha
        | succ j => have := h2 j e (by simpa using h); rwa [show k + 1 + j = k + (j + 1) by omega] at this
      · refine .inr ⟨x, j + 1, e, h1, by simpa using h2, by rwa [show k + 1 + j = k + (j + 1) by omega] at h3, fun j' e' hj h => ?_⟩
        cases j' with
        | zero => simp at h; subst h; exact ha
        | succ j' => have := h4 j' e' (by omega) (by simpa using h); rwa [show k + 1 + j' = k + (j' + 1) by omega] at this

theorem inRows_spec {α : Type} (f : Nat → Nat → α → Option Fault) (s : List (List α)) (n : Nat) :
    (inRows f n s = none ∧ ∀ (i j : Nat) (e : α), (s[i]?).bind (·[j]?) = some e → f (n + i) j e = none) ∨
    ∃ (x : Fault) (i j : Nat) (e : α), inRows f n s = some x ∧ (s[i]?).bind (·[j]?) = some e ∧ f (n + i) j e = some x ∧
      ∀ (i' j' : Nat) (e' : α), Before i' j' i j → (s[i']?).bind (·[j']?) = some e' → f (n + i') j' e' = none := by
  induction s generalizing n with
  | nil => exact .inl ⟨rfl, fun i j e h => by simp at h⟩
  | cons l s ih =>
    unfold inRows
    rcases inRow_spec f n l 0 with ⟨h1, h2⟩ | ⟨x, j, e, h1, h2, h3, h4⟩
    · rw [h1]
      dsimp only
      have row : ∀ (j : Nat) (e : α), l[j]? = some e → f (n + 0) j e = none := fun j e h => by have := h2 j e h; rwa [Nat.zero_add] at this
      rcases ih (n + 1) with ⟨g1, g2⟩ | ⟨x, i, j, e, g1, g2, g3, g4⟩
      · refine .inl ⟨g1, fun i j e h => ?_⟩
        cases i with
        | zero => exact row j e (by simpa using h)
        | succ i => have := g2 i j e (by simpa using h); rwa [show n + 1 + i = n + (i + 1) by omega] at this
      · refine .inr ⟨x, i + 1, j, e, g1, by simpa using g2, by rwa [show n + 1 + i = n + (i + 1) by omega] at g3, fun i' j' e' hb h => ?_⟩
        cases i' with
        | zero => exact row j' e' (by simpa using h)
        | succ i' =>
          have := g4 i' j' e' (by unfold Before at *; omega) (by simpa using h)
          rwa [show n + 1 + i' = n + (i' + 1) by omega] at this
    · rw [h1]
      refine .inr ⟨x, 0, j, e, rfl, by simpa using h2, by rwa [Nat.zero_add] at h3, fun i' j' e' hb h => ?_⟩
      unfold Before at hb
      have : i' = 0 := by omega
      subst this
      have := h4 j' e' (by omega) (by simpa using h)
      rwa [Nat.zero_add] at this

theorem checkEdge_none {m : Str} {n k : Nat} {name : Str} {size i : Nat} : checkEdge m n k name size i = none ↔ i < size := by
  unfold checkEdge
  by_cases h : i ≥ size
  · rw [if_pos h]; simp; omega
  · rw [if_neg h]; simp; omega

theorem checkEdge_some {m : Str} {n k : Nat} {name : Str} {size i : Nat} {x : Fault} (h : checkEdge m n k name size i = some x) : x = .range m n k name size i ∧ size ≤ i := by
  unfold checkEdge at h
  by_cases hi : i ≥ size
  · rw [if_pos hi] at h; cases h; exact ⟨rfl, hi⟩
  · rw [if_neg hi] at h; cases h

/-! ### Undirected graphs -/

section undirected
variable {W M : Type} [DecidableEq W] [DecidableEq M] {k : WeightKind W}

theorem countP_take {l : List (Edge W M)} {a q : Nat} (c : Nat × W) (haq : a ≤ q) (hq : q ≤ l.length) {b : Nat} (hqb : q ≤ b)
    (h : ∀ j (hj : j < l.length), key l[j] = c ↔ a ≤ j ∧ j < b) :
    (l.take q).countP (fun f => decide (f.target = c.1 ∧ f.weight = c.2)) = q - a := by
  refine countP_interval _ _ a q haq (by rw [List.length_take]; omega) fun j hj => ?_
  rw [List.length_take] at hj
  rw [List.getElem_take]
  have := h j (by omega)
  rw [decide_eq_true_eq]
  constructor
  · intro e
    have := this.1 (Prod.ext e.1 e.2)
    omega
  · intro e
    have := this.2 (by omega)
    exact ⟨congrArg Prod.fst this, congrArg Prod.snd this⟩

theorem blockFault_spec (hk : WeightsOk M k) {s s' : Edges (Edge W M)} (hs : ∀ l ∈ s', Ord k l) (hlen : s'.length = s.length) (hmult : ∀ i j w, mult s' i j w = mult s i j w)
    {i : Nat} {l : List (Edge W M)} (hl : s'[i]? = some l) {lo u : Nat} (hlo : lo < l.length) (u1 : lo < u) (u2 : u ≤ l.length)
    (u3 : ∀ q (hq : q < l.length), key l[q] = key l[lo] ↔ lo ≤ q ∧ q < u) :
    (blockFault k s' i l[lo] lo u = none ∧ EdgeOk s' i l[lo]) ∨ ∃ f, blockFault k s' i l[lo] lo u = some f ∧ UndirectedSays s s' f ∧ ¬ EdgeOk s' i l[lo] := by
  have hm : mult s' i l[lo].target l[lo].weight = u - lo := mult_interval hl (by omega) u2 u3
  unfold blockFault EdgeOk
  by_cases ht : l[lo].target = i
  · rw [if_pos ht, if_pos ht]
    rw [ht] at hm
    by_cases ho : (u - lo) % 2 ≠ 0
    · rw [if_pos ho]
      have hnd : ¬ 2 ∣ mult s' i i l[lo].weight := by rw [hm]; omega
      exact .inr ⟨_, rfl, ⟨l[lo].weight, by rwa [← hmult]⟩, hnd⟩
    · rw [if_neg ho]
      exact .inl ⟨rfl, by rw [hm]; omega⟩
  · rw [if_neg ht, if_neg ht]
    cases htt : s'[l[lo].target]? with
    | none =>
      have := List.getElem?_eq_none_iff.1 htt
      dsimp only
      refine .inr ⟨.range [] i lo "target".toList s'.length l[lo].target, ?_, ?_, by omega⟩
      · unfold checkEdge; rw [if_pos this]
      · refine ⟨l[lo], ?_, rfl, hlen, by omega⟩
        unfold edgeAt; rw [hl, Option.bind_some, List.getElem?_eq_getElem hlo]
    | some t =>
      dsimp only
      have htl := (List.getElem?_eq_some_iff.1 htt).1
      obtain ⟨a, b, m0, m1, m2, m3⟩ := matching_spec hk (hs t (List.mem_of_getElem? htt)) i l[lo]
      have hm' : mult s' l[lo].target i l[lo].weight = b - a := mult_interval htt m1 m2 m3
      rw [m0, hm, hm']
      dsimp only
      have excess : ∀ q, q = lo + (b - a) → q < u → UndirectedSays s s' (.noPartner "connectivity_base".toList i q) := by
        intro q hq hu
        have key' := (u3 q (by omega)).2 (by omega)
        obtain ⟨t1, t2⟩ := Prod.mk.inj key'
        refine ⟨l, l[q]'(by omega), hl, List.getElem?_eq_getElem _, by rw [t1]; exact ht, by rw [t1]; omega, ?_⟩
        rw [t1, t2, ← hmult, hm']
        have := countP_take (key l[lo]) (a := lo) (q := q) (by omega) (by omega) (b := u) (by omega) u3
        rw [show (key l[lo]).1 = l[lo].target from rfl, show (key l[lo]).2 = l[lo].weight from rfl] at this
        rw [this]; omega
      by_cases h0 : b - a = 0
      · rw [if_pos h0]
        exact .inr ⟨_, rfl, excess lo (by omega) u1, by omega⟩
      · rw [if_neg h0]
        by_cases h1 : u - lo > b - a
        · rw [if_pos h1]
          exact .inr ⟨_, rfl, excess _ rfl (by omega), by omega⟩
        · rw [if_neg h1]
          by_cases h2 : u - lo < b - a
          · rw [if_pos h2]
            refine .inr ⟨_, rfl, ?_, by omega⟩
            have key' := (m3 (a + (u - lo)) (by omega)).2 (by omega)
            obtain ⟨t1, t2⟩ := Prod.mk.inj key'
            have hi := (List.getElem?_eq_some_iff.1 hl).1
            refine ⟨t, t[a + (u - lo)]'(by omega), htt, List.getElem?_eq_getElem _, by rw [t1]; exact Ne.symm ht, by rw [t1]; omega, ?_⟩
            rw [t1, t2, ← hmult, hm]
            have := countP_take (i, l[lo].weight) (a := a) (q := a + (u - lo)) (by omega) (by omega) (b := b) (by omega) m3
            dsimp only at this
            rw [this]; omega
          · rw [if_neg h2]
            exact .inl ⟨rfl, by omega, by omega⟩

theorem faultNode_spec (hk : WeightsOk M k) {s s' : Edges (Edge W M)} (hs : ∀ l ∈ s', Ord k l) (hlen : s'.length = s.length) (hmult : ∀ i j w, mult s' i j w = mult s i j w)
    {i : Nat} {l : List (Edge W M)} (hl : s'[i]? = some l) (lo : Nat) (hb : ∀ (h0 : 0 < lo) (h1 : lo < l.length), key l[lo - 1] ≠ key l[lo]) :
    (faultNode k s' i l lo = .ok none ∧ ∀ q (hq : q < l.length), lo ≤ q → EdgeOk s' i l[q]) ∨
    ∃ f, faultNode k s' i l lo = .ok (some f) ∧ UndirectedSays s s' f ∧ ∃ q, ∃ hq : q < l.length, ¬ EdgeOk s' i l[q] := by
  induction hn : l.length - lo using Nat.strongRecOn generalizing lo with
  | ind n ih =>
    rw [faultNode]
    by_cases hlo : lo < l.length
    · rw [dif_pos hlo]
      obtain ⟨u, e1, u1, u2, u3, u4⟩ := blockEnd_spec hk (hs l (List.mem_of_getElem? hl)) lo hlo (fun h0 => hb h0 hlo)
      simp only [e1]
      rw [dif_pos u1]
      rcases blockFault_spec hk hs hlen hmult hl hlo u1 u2 u3 with ⟨b1, b2⟩ | ⟨f, b1, b2, b3⟩
      · rw [b1]
        dsimp only
        rcases ih (l.length - u) (by omega) u (fun _ h1 => u4 h1) rfl with ⟨i1, i2⟩ | h
        · refine .inl ⟨i1, fun q hq hq' => ?_⟩
          rcases Nat.lt_or_ge q u with h3 | h3
          · obtain ⟨t1, t2⟩ := Prod.mk.inj ((u3 q hq).2 ⟨hq', h3⟩)
            unfold EdgeOk at b2 ⊢
            rw [t1, t2]; exact b2
          · exact i2 q hq h3
        · exact .inr h
      · rw [b1]
        exact .inr ⟨f, rfl, b2, lo, hlo, b3⟩
    · rw [dif_neg hlo]
      exact .inl ⟨rfl, fun q hq hq' => by omega⟩

theorem faultNodes_spec (hk : WeightsOk M k) {s s' : Edges (Edge W M)} (hs : ∀ l ∈ s', Ord k l) (hlen : s'.length = s.length) (hmult : ∀ i j w, mult s' i j w = mult s i j w)
    (i : Nat) (r : Edges (Edge W M)) (hr : ∀ j l, r[j]? = some l → s'[i + j]? = some l) :
    (faultNodes k s' i r = .ok none ∧ ∀ (j q : Nat) (e : Edge W M), edgeAt r j q = some e → EdgeOk s' (i + j) e) ∨
    ∃ f, faultNodes k s' i r = .ok (some f) ∧ UndirectedSays s s' f ∧ ∃ j q e, edgeAt s' j q = some e ∧ ¬ EdgeOk s' j e := by
  induction r generalizing i with
  | nil => exact .inl ⟨rfl, fun j q e h => by unfold edgeAt at h; simp at h⟩
  | cons l r ih =>
    have hl : s'[i]? = some l := hr 0 l rfl
    unfold faultNodes
    rcases faultNode_spec hk hs hlen hmult hl 0 (fun h => by omega) with ⟨h1, h2⟩ | ⟨f, h1, h2, q, hq, h3⟩
    · rw [h1]
      simp only [Res.bind]
      rcases ih (i + 1) (fun j l h => by have := hr (j + 1) l (by simpa using h); rwa [show i + 1 + j = i + (j + 1) by omega]) with ⟨g1, g2⟩ | h
      · refine .inl ⟨g1, fun j q e h => ?_⟩
        cases j with
        | zero =>
          unfold edgeAt at h
          simp only [List.getElem?_cons_zero, Option.bind_some] at h
          obtain ⟨hq, rfl⟩ := List.getElem?_eq_some_iff.1 h
          exact h2 q hq (Nat.zero_le _)
        | succ j =>
          have := g2 j q e (by unfold edgeAt at h ⊢; simpa using h)
          rwa [show i + 1 + j = i + (j + 1) by omega] at this
      · exact .inr h
    · rw [h1]
      simp only [Res.bind]
      exact .inr ⟨f, rfl, h2, i, q, l[q], by unfold edgeAt; rw [hl, Option.bind_some, List.getElem?_eq_getElem hq], h3⟩

end undirected

/-! ### Messages -/

/-- Texts and numbers, in turn. -/
def weave : List (Str × Nat) → Str → Str
  | [], z => z
  | (t, n) :: r, z => t ++ (digits n ++ weave r z)

/-- Numbers are kept apart by texts without digits. -/
def Apart (r : List (Str × Nat)) : Prop := ∀ p ∈ r, ∀ c ∈ p.1, c.isDigit = false

theorem digits_head (n : Nat) : ∃ c r, digits n = c :: r ∧ c.isDigit = true := by
  cases h : digits n with
  | nil => exact absurd h (Nat.toDigits_ne_nil)
  | cons c r => exact ⟨c, r, rfl, Nat.isDigit_of_mem_toDigits (b := 10) (n := n) (by omega) (by omega) (by show c ∈ digits n; rw [h]; exact List.mem_cons_self)⟩

theorem plain_cancel {a b u v : Str} {p : Char → Bool} (ha : ∀ c ∈ a, p c = true) (hb : ∀ c ∈ b, p c = true) (hu : ∀ c, u.head? = some c → p c = false) (hv : ∀ c, v.head? = some c → p c = false)
    (h : a ++ u = b ++ v) : a = b ∧ u = v := by
  induction a generalizing b with
  | nil =>
    cases b with
    | nil => exact ⟨rfl, h⟩
    | cons c b =>
      have := hu c (by rw [show u = c :: b ++ v from h]; rfl)
      rw [hb c List.mem_cons_self] at this; cases this
  | cons c a ih =>
    cases b with
    | nil =>
      have := hv c (by rw [← show c :: a ++ u = v from h]; rfl)
      rw [ha c List.mem_cons_self] at this; cases this
    | cons d b =>
      obtain ⟨h1, h2⟩ := List.cons.inj h
      obtain ⟨h3, h4⟩ := ih (fun c hc => ha c (List.mem_cons_of_mem _ hc)) (fun c hc => hb c (List.mem_cons_of_mem _ hc)) h2
      exact ⟨by rw [h1, h3], h4⟩

theorem weave_inj {r r' : List (Str × Nat)} {z z' : Str} (h : weave r z = weave r' z') (hr : Apart r) (hr' : Apart r') (hz : ∀ c ∈ z, c.isDigit = false) (hz' : ∀ c ∈ z', c.isDigit = false)
    (ht : ∀ p ∈ r.tail, p.1 ≠ []) (ht' : ∀ p ∈ r'.tail, p.1 ≠ []) : r = r' ∧ z = z' := by
  have head : ∀ {r : List (Str × Nat)} {z : Str}, Apart r → (∀ c ∈ z, c.isDigit = false) → (∀ p ∈ r, p.1 ≠ []) → ∀ c, (weave r z).head? = some c → ¬ c.isDigit := by
    intro r z hr hz hne c hc
    cases r with
    | nil => have := hz c (List.mem_of_mem_head? hc); simp [this]
    | cons p r =>
      obtain ⟨t, n⟩ := p
      have htn := hne (t, n) List.mem_cons_self
      cases t with
      | nil => exact absurd rfl htn
      | cons d t =>
        simp only [weave, List.cons_append, List.head?_cons, Option.some.injEq] at hc
        subst hc
        have := hr (d :: t, n) List.mem_cons_self d List.mem_cons_self
        simp [this]
  have dh : ∀ n (u : Str) c, (digits n ++ u).head? = some c → (!c.isDigit) = false := by
    intro n u c hc
    obtain ⟨d, v, hd, hd'⟩ := digits_head n
    rw [hd] at hc
    simp only [List.cons_append, List.head?_cons, Option.some.injEq] at hc
    subst hc; rw [hd']; rfl
  have digit : ∀ {z t : Str} {n : Nat} {u : Str}, (∀ c ∈ z, c.isDigit = false) → z ≠ t ++ (digits n ++ u) := by
    intro z t n u hz he
    obtain ⟨d, v, hd, hd'⟩ := digits_head n
    have := hz d (by rw [he, hd]; simp)
    rw [hd'] at this; cases this
  induction r generalizing r' with
  | nil =>
    cases r' with
    | nil => exact ⟨rfl, h⟩
    | cons p r' => exact absurd h (digit hz)
  | cons p r ih =>
    obtain ⟨t, n⟩ := p
    cases r' with
    | nil => exact absurd h.symm (digit hz')
    | cons p' r' =>
      obtain ⟨t', n'⟩ := p'
      simp only [weave] at h
      obtain ⟨h1, h2⟩ := plain_cancel (p := fun c => !c.isDigit) (fun c hc => by have := hr (t, n) List.mem_cons_self c hc; simp [this])
        (fun c hc => by have := hr' (t', n') List.mem_cons_self c hc; simp [this]) (dh _ _) (dh _ _) h
      have a1 : Apart r := fun p hp => hr p (List.mem_cons_of_mem _ hp)
      have a2 : Apart r' := fun p hp => hr' p (List.mem_cons_of_mem _ hp)
      obtain ⟨h3, h4⟩ := StateTransition.digits_inj h2 (head a1 hz (fun p hp => ht p hp)) (head a2 hz' (fun p hp => ht' p hp))
      obtain ⟨h5, h6⟩ := ih h4 a1 a2 (fun p hp => ht p (List.mem_of_mem_tail hp)) (fun p hp => ht' p (List.mem_of_mem_tail hp))
      exact ⟨by rw [h1, h3, h5], h6⟩

/-- The texts and numbers of a message which ends in a number, and those before the text at its end otherwise. -/
def pairs : Fault → List (Str × Nat)
  | .node m o n => [(errorPrefix m ++ "node index ".toList, n), (" out of range - graph order is ".toList, o)]
  | .nodes m o n1 n2 => [(errorPrefix m ++ "at least one node index [".toList, n1), (", ".toList, n2), ("] out of range - graph order is ".toList, o)]
  | .range m n k name size i =>
    [(leader m ++ " ".toList ++ "[node: ".toList, n), (", edge: ".toList, k), ("]".toList ++ ": ".toList ++ name ++ " index ".toList, i), (" out of range - max index is ".toList, size)]
  | .insertion m n size i => [(errorPrefix m ++ "insertion position ".toList, i), (" out of range for node ".toList, n), (" - max index is ".toList, size)]
  | .swap n i edges => [("swap_edges: edge index ".toList, i), (" out of range for node ".toList, n), (", which has ".toList, edges)]
  | .reciprocated n k name a b =>
    [(leader "process_complementary_edges".toList ++ " ".toList ++ "[node: ".toList, n), (", edge: ".toList, k), ("]".toList ++ ": ".toList ++ "Reciprocated ".toList ++ name ++ " index ".toList, a),
      (" does not match ".toList, b)]
  | .oddLoops m n => [(errorPrefix m ++ "Odd number of loop edges for node ".toList, n)]
  | .selfReferential n k t c =>
    [(leader "process_complementary_edges".toList ++ " ".toList ++ "[node: ".toList, n), (", edge: ".toList, k), ("]".toList ++ ": ".toList ++ "Indices [target: ".toList, t), (", comp: ".toList, c)]
  | .weights m n k => [(leader m ++ " ".toList ++ "[node: ".toList, n), (", edge: ".toList, k)]
  | .noPartner m n k => [(leader m ++ " ".toList ++ "[node: ".toList, n), (", edge: ".toList, k)]
  | .sizes a b => [("Error initializing graph\n".toList ++ "Number of node weights:    ".toList, a), ("\n".toList ++ "Number of edge paritions:  ".toList, b)]

/-- The text at the end of a message. -/
def ending : Fault → Str
  | .swap .. => " edge(s)".toList
  | .selfReferential .. => "] are self-referential".toList
  | .weights .. => "]".toList ++ ": ".toList ++ "Mismatch between weights".toList
  | .noPartner .. => "]".toList ++ ": ".toList ++ "Reciprocated partial edge does not exist".toList
  | .sizes .. => "\n".toList ++ "Please ensure these numbers are the same".toList
  | _ => []

theorem message_weave (f : Fault) : f.message = weave (pairs f) (ending f) := by
  cases f <;> unfold Fault.message pairs ending <;> dsimp only <;> (try unfold errorPrefixAt edgeIndices) <;> simp only [weave, List.append_assoc, List.append_nil]

theorem nodigit_append {a b : Str} (ha : ∀ c ∈ a, c.isDigit = false) (hb : ∀ c ∈ b, c.isDigit = false) : ∀ c ∈ a ++ b, c.isDigit = false := by
  intro c hc
  rcases List.mem_append.1 hc with h | h
  · exact ha c h
  · exact hb c h

theorem pairs_apart {f : Fault} (hf : PlainNames f) : Apart (pairs f) := by
  have name : ∀ {m : Str}, PlainName m → ∀ c ∈ m, c.isDigit = false := fun h c hc => (h c hc).2.2
  have lead : ∀ {m : Str}, PlainName m → ∀ c ∈ leader m, c.isDigit = false := fun h => nodigit_append (by decide) (name h)
  have pre : ∀ {m t : Str}, PlainName m → (∀ c ∈ t, c.isDigit = false) → ∀ c ∈ errorPrefix m ++ t, c.isDigit = false := fun h ht => nodigit_append (nodigit_append (lead h) (by decide)) ht
  have at1 : ∀ {m : Str}, PlainName m → ∀ c ∈ leader m ++ " ".toList ++ "[node: ".toList, c.isDigit = false := fun h => nodigit_append (nodigit_append (lead h) (by decide)) (by decide)
  have pc : ∀ c ∈ leader "process_complementary_edges".toList ++ " ".toList ++ "[node: ".toList, c.isDigit = false := at1 (by unfold PlainName; decide)
  unfold Apart
  cases f <;> simp only [pairs, List.forall_mem_cons, List.not_mem_nil, false_implies, implies_true, and_true]
  case node m o n => exact ⟨pre hf (by decide), by decide⟩
  case nodes m o n1 n2 => exact ⟨pre hf (by decide), by decide, by decide⟩
  case range m n k nm size i => exact ⟨at1 hf.1, by decide, nodigit_append (nodigit_append (by decide) (name hf.2)) (by decide), by decide⟩
  case insertion m n size i => exact ⟨pre hf (by decide), by decide, by decide⟩
  case swap n i e => exact ⟨by decide, by decide, by decide⟩
  case reciprocated n k nm a b => exact ⟨pc, by decide, nodigit_append (nodigit_append (by decide) (name hf)) (by decide), by decide⟩
  case oddLoops m n => exact pre hf (by decide)
  case selfReferential n k t c => exact ⟨pc, by decide, nodigit_append (by decide) (by decide), by decide⟩
  case weights m n k => exact ⟨at1 hf, by decide⟩
  case noPartner m n k => exact ⟨at1 hf, by decide⟩
  case sizes a b => exact ⟨nodigit_append (by decide) (by decide), nodigit_append (by decide) (by decide)⟩

theorem ending_plain (f : Fault) : ∀ c ∈ ending f, c.isDigit = false := by
  have two : ∀ {a b : Str}, (∀ c ∈ a, c.isDigit = false) → (∀ c ∈ b, c.isDigit = false) → ∀ c ∈ a ++ b, c.isDigit = false := nodigit_append
  have none : ∀ c ∈ ([] : Str), c.isDigit = false := fun c hc => absurd hc List.not_mem_nil
  cases f with
  | weights => exact two (two (by decide) (by decide)) (by decide)
  | noPartner => exact two (two (by decide) (by decide)) (by decide)
  | sizes => exact two (by decide) (by decide)
  | swap => show ∀ c ∈ " edge(s)".toList, c.isDigit = false; decide
  | selfReferential => show ∀ c ∈ "] are self-referential".toList, c.isDigit = false; decide
  | node => exact none
  | nodes => exact none
  | range => exact none
  | insertion => exact none
  | reciprocated => exact none
  | oddLoops => exact none

theorem pairs_tail (f : Fault) : ∀ p ∈ (pairs f).tail, p.1 ≠ [] := by
  cases f <;> simp only [pairs, List.tail_cons, List.forall_mem_cons, List.not_mem_nil, false_implies, implies_true, and_true]
  case node => decide
  case nodes => decide
  case range => exact ⟨by decide, by simp, by decide⟩
  case insertion => decide
  case swap => decide
  case reciprocated => exact ⟨by decide, by simp, by decide⟩
  case selfReferential => decide
  case weights => decide
  case noPartner => decide
  case sizes => decide

/-- The kind of a fault. -/
def kind : Fault → Nat
  | .node .. => 0
  | .nodes .. => 1
  | .range .. => 2
  | .insertion .. => 3
  | .swap .. => 4
  | .reciprocated .. => 5
  | .oddLoops .. => 6
  | .selfReferential .. => 7
  | .weights .. => 8
  | .noPartner .. => 9
  | .sizes .. => 10

/-- The kind of a fault, from the texts of its message. -/
def kindOf (r : List (Str × Nat)) (z : Str) : Nat :=
  match r with
  | [_] => 6
  | [_, _] => if z = [] then 0 else if z = "]".toList ++ ": ".toList ++ "Mismatch between weights".toList then 8 else if z = "]".toList ++ ": ".toList ++ "Reciprocated partial edge does not exist".toList then 9 else 10
  | [_, (t, _), _] => if z = [] then (if t = ", ".toList then 1 else 3) else 4
  | [_, _, _, (t, _)] => if z = [] then (if t = " does not match ".toList then 5 else 2) else 7
  | _ => 11

theorem kindOf_eq (f : Fault) : kindOf (pairs f) (ending f) = kind f := by
  cases f with
  | node => rfl
  | nodes => rfl
  | range => rfl
  | insertion => rfl
  | swap => rfl
  | reciprocated => rfl
  | oddLoops => rfl
  | selfReferential => rfl
  | weights => rfl
  | noPartner => rfl
  | sizes => rfl

theorem leader_inj {m m' t t' : Str} (h : leader m ++ t = leader m' ++ t') (hm : PlainName m) (hm' : PlainName m') (ht : ∀ c, t.head? = some c → c = ':' ∨ c = ' ')
    (ht' : ∀ c, t'.head? = some c → c = ':' ∨ c = ' ') : m = m' ∧ t = t' := by
  unfold leader at h
  rw [List.append_assoc, List.append_assoc] at h
  have h := List.append_cancel_left h
  refine plain_cancel (p := fun c => decide (c ≠ ':' ∧ c ≠ ' ')) (fun c hc => ?_) (fun c hc => ?_) (fun c hc => ?_) (fun c hc => ?_) h
  · simp [(hm c hc).1, (hm c hc).2.1]
  · simp [(hm' c hc).1, (hm' c hc).2.1]
  · rcases ht c hc with rfl | rfl <;> decide
  · rcases ht' c hc with rfl | rfl <;> decide

end GraphErrors
open GraphErrors

/-- **C109** A directed graph is refused if and only if there is something to say; what is said is true of the listing, and no edge listed before is at fault. -/
theorem C109_directed {W M : Type} (s : Edges (Edge W M)) :
    (diagnoseDirected s = none ∧ makeDirected s = .ok s) ∨
    ∃ f n k, diagnoseDirected s = some f ∧ makeDirected s = .throws ∧ DirectedSays s f ∧ position f = some (n, k) ∧
      ∀ n' k' e, Before n' k' n k → edgeAt s n' k' = some e → e.target < s.length := by
  unfold diagnoseDirected
  rcases inRows_spec (fun n k (e : Edge W M) => checkEdge "process_edges".toList n k "target".toList s.length e.target) s 0 with ⟨h1, h2⟩ | ⟨x, i, j, e, h1, h2, h3, h4⟩
  · refine .inl ⟨h1, (C12_directed_init s).1 fun l hl e he => ?_⟩
    obtain ⟨i, hi⟩ := List.mem_iff_getElem?.1 hl
    obtain ⟨j, hj⟩ := List.mem_iff_getElem?.1 he
    exact checkEdge_none.1 (h2 i j e (by rw [hi]; exact hj))
  · rw [Nat.zero_add] at h3
    obtain ⟨h5, h6⟩ := checkEdge_some h3
    subst h5
    refine .inr ⟨_, i, j, h1, (C12_directed_init s).2 fun hr => ?_, ⟨e, h2, rfl, rfl, h6⟩, rfl, fun n' k' e' hb he => ?_⟩
    · obtain ⟨l, hl, hj⟩ := Option.bind_eq_some_iff.1 h2
      have : e.target < s.length := hr l (List.mem_of_getElem? hl) e (List.mem_of_getElem? hj)
      omega
    · exact checkEdge_none.1 (h4 n' k' e' hb he)

example : (diagnoseDirected [[(⟨1, 5, ()⟩ : Edge Nat Unit), ⟨7, 5, ()⟩], [⟨2, 3, ()⟩]]).map Fault.message =
    some "connectivity::process_edges [node: 0, edge: 1]: target index 7 out of range - max index is 2".toList := by decide

/-- **C109** The same is true of embedded graphs: wrong indices of targets and partners, edges which are partners of themselves or not of each other, and different weights are told apart. -/
theorem C109_embedded {W M : Type} [DecidableEq W] (s : Edges (EEdge W M)) :
    (diagnoseEmbedded s = none ∧ makeEmbedded s = .ok s) ∨
    ∃ f n k, diagnoseEmbedded s = some f ∧ makeEmbedded s = .throws ∧ EmbeddedSays s f ∧ position f = some (n, k) ∧
      ∀ n' k' e, Before n' k' n k → edgeAt s n' k' = some e → EmbeddedEdge s n' k' e := by
  have one : ∀ n k e, embeddedFault s n k e = none → EmbeddedEdge s n k e := by
    intro n k e h
    unfold embeddedFault at h
    unfold EmbeddedEdge edgeAt
    cases h1 : s[e.target]? with
    | none =>
      rw [h1] at h
      have := checkEdge_none.1 h
      have := List.getElem?_eq_none_iff.1 h1
      omega
    | some t =>
      rw [h1] at h
      dsimp only at h
      cases h2 : t[e.comp]? with
      | none =>
        rw [h2] at h
        have := checkEdge_none.1 h
        have := List.getElem?_eq_none_iff.1 h2
        omega
      | some e' =>
        rw [h2] at h
        dsimp only at h
        by_cases h3 : e.target = n ∧ e.comp = k
        · rw [if_pos h3] at h; cases h
        · rw [if_neg h3] at h
          by_cases h4 : e'.comp ≠ k
          · rw [if_pos h4] at h; cases h
          · rw [if_neg h4] at h
            by_cases h5 : e'.target ≠ n
            · rw [if_pos h5] at h; cases h
            · rw [if_neg h5] at h
              by_cases h6 : e.weight ≠ e'.weight
              · rw [if_pos h6] at h; cases h
              · simp only [ne_eq, Decidable.not_not] at h4 h5 h6
                refine ⟨fun hc => h3 (Prod.mk.inj hc), e', ?_, h5, h4, h6.symm⟩
                rw [Option.bind_some]; exact h2
  have two : ∀ n k e x, edgeAt s n k = some e → embeddedFault s n k e = some x → EmbeddedSays s x ∧ position x = some (n, k) ∧ ¬ EmbeddedEdge s n k e := by
    intro n k e x he h
    unfold embeddedFault at h
    unfold EmbeddedEdge
    cases h1 : s[e.target]? with
    | none =>
      rw [h1] at h
      obtain ⟨rfl, h'⟩ := checkEdge_some h
      refine ⟨⟨e, he, .inl ⟨rfl, rfl, rfl, h'⟩⟩, rfl, fun ⟨_, e', h2, _⟩ => ?_⟩
      unfold edgeAt at h2
      rw [h1] at h2; cases h2
    | some t =>
      rw [h1] at h
      dsimp only at h
      cases h2 : t[e.comp]? with
      | none =>
        rw [h2] at h
        obtain ⟨rfl, h'⟩ := checkEdge_some h
        refine ⟨⟨e, he, .inr ⟨rfl, rfl, t, h1, rfl, h'⟩⟩, rfl, fun ⟨_, e', h3, _⟩ => ?_⟩
        unfold edgeAt at h3
        rw [h1, Option.bind_some, h2] at h3; cases h3
      | some e' =>
        rw [h2] at h
        dsimp only at h
        have hp : edgeAt s e.target e.comp = some e' := by unfold edgeAt; rw [h1, Option.bind_some]; exact h2
        by_cases h3 : e.target = n ∧ e.comp = k
        · rw [if_pos h3] at h; cases h
          exact ⟨⟨e, he, h3.1, h3.2, h3.1, h3.2⟩, rfl, fun ⟨h, _⟩ => h (by rw [h3.1, h3.2])⟩
        · rw [if_neg h3] at h
          by_cases h4 : e'.comp ≠ k
          · rw [if_pos h4] at h; cases h
            refine ⟨⟨e, e', he, hp, .inl ⟨rfl, rfl, rfl, h4⟩⟩, rfl, fun ⟨_, f, h5, h6, h7, _⟩ => ?_⟩
            rw [hp] at h5; cases h5; exact h4 h7
          · rw [if_neg h4] at h
            by_cases h5 : e'.target ≠ n
            · rw [if_pos h5] at h; cases h
              refine ⟨⟨e, e', he, hp, .inr ⟨rfl, rfl, rfl, h5⟩⟩, rfl, fun ⟨_, f, h5', h6, h7, _⟩ => ?_⟩
              rw [hp] at h5'; cases h5'; exact h5 h6
            · rw [if_neg h5] at h
              by_cases h6 : e.weight ≠ e'.weight
              · rw [if_pos h6] at h; cases h
                refine ⟨⟨e, e', he, hp, h6⟩, rfl, fun ⟨_, f, h5', _, _, h7⟩ => ?_⟩
                rw [hp] at h5'; cases h5'; exact h6 h7.symm
              · rw [if_neg h6] at h; cases h
  unfold diagnoseEmbedded
  rcases inRows_spec (embeddedFault s) s 0 with ⟨h1, h2⟩ | ⟨x, i, j, e, h1, h2, h3, h4⟩
  · refine .inl ⟨h1, (C19_embedded_init s).1 fun n k e he => ?_⟩
    have := h2 n k e he
    rw [Nat.zero_add] at this
    exact one n k e this
  · rw [Nat.zero_add] at h3
    obtain ⟨g1, g2, g3⟩ := two i j e x h2 h3
    refine .inr ⟨x, i, j, h1, (C19_embedded_init s).2 fun hs => g3 (hs i j e h2), g1, g2, fun n' k' e' hb he => ?_⟩
    have := h4 n' k' e' hb he
    rw [Nat.zero_add] at this
    exact one n' k' e' this

example : (diagnoseEmbedded [[(⟨1, 0, 1, ()⟩ : EEdge Nat Unit)], [⟨0, 1, 1, ()⟩]]).map Fault.message =
    some "connectivity::process_complementary_edges [node: 0, edge: 0]: Reciprocated complementary index 1 does not match 0".toList := by decide
example : (diagnoseEmbedded [[(⟨0, 0, 1, ()⟩ : EEdge Nat Unit)]]).map Fault.message =
    some "connectivity::process_complementary_edges [node: 0, edge: 0]: Indices [target: 0, comp: 0] are self-referential".toList := by decide

/-- **C109 (part)** The same is true of undirected graphs, provided that positions refer to the listing in which the edges of each node are in canonical order: edges to nodes which do not exist, odd numbers of loops,
and edges without partner are told apart. Refusing never fails otherwise.
What is missing: that positions refer to the listing which is given, `C109_undirected_violated`. -/
theorem C109_undirected_partial {W M : Type} [DecidableEq W] [DecidableEq M] (k : WeightKind W) (hk : WeightsOk M k) (s : Edges (Edge W M)) :
    ∃ s', preprocess k s = .ok s' ∧
      ((diagnoseUndirected k s = .ok none ∧ makeUndirected k s = .ok s') ∨
        ∃ f, diagnoseUndirected k s = .ok (some f) ∧ makeUndirected k s = .throws ∧ UndirectedSays s s' f) := by
  obtain ⟨s', h1, h2⟩ := preprocess_spec hk s
  obtain ⟨g1, g2, g3, g4⟩ := arranged_get h2
  refine ⟨s', h1, ?_⟩
  have hmake : makeUndirected k s = .ok s' ∧ Reciprocal s' ∨ makeUndirected k s = .throws ∧ ¬ Reciprocal s' := by
    unfold makeUndirected
    rw [h1]
    exact validateUndirected_spec hk g2
  unfold diagnoseUndirected
  rw [h1]
  simp only [Res.bind]
  rcases faultNodes_spec hk g2 g1 g3 0 s' (fun j l h => by rwa [Nat.zero_add]) with ⟨f1, f2⟩ | ⟨f, f1, f2, j, q, e, f3, f4⟩
  · have : Reciprocal s' := (edgeOk_iff s').1 fun i q e h => by have := f2 i q e h; rwa [Nat.zero_add] at this
    rcases hmake with ⟨m1, _⟩ | ⟨_, m2⟩
    · exact .inl ⟨f1, m1⟩
    · exact absurd this m2
  · rcases hmake with ⟨_, m2⟩ | ⟨m1, _⟩
    · exact absurd ((edgeOk_iff s').2 m2 j q e f3) f4
    · exact .inr ⟨f, f1, m1, f2⟩

example : ((diagnoseUndirected (.ordered fun a b : Nat => decide (a < b)) [[⟨1, 5, ()⟩, ⟨1, 5, ()⟩], [(⟨0, 5, ()⟩ : Edge Nat Unit)]]).bind fun f => .ok (f.map Fault.message)) =
    .ok (some "connectivity::connectivity_base [node: 0, edge: 1]: Reciprocated partial edge does not exist".toList) := by decide +kernel
example : ((diagnoseUndirected (.ordered fun a b : Nat => decide (a < b)) [[⟨0, 5, ()⟩, ⟨0, 5, ()⟩, (⟨0, 6, ()⟩ : Edge Nat Unit)]]).bind fun f => .ok (f.map Fault.message)) =
    .ok (some "connectivity::connectivity_base: Odd number of loop edges for node 0".toList) := by decide +kernel

/-- The listing of an undirected graph which is refused, since the first edge of the first node has no partner. -/
def lonely : Edges (Edge Unit Unit) := [[⟨2, (), ()⟩, ⟨1, (), ()⟩], [⟨0, (), ()⟩], []]

/-- **C109 (violated)** But positions do not refer to the listing: here the message names the second edge of the first node, which does have a partner, while it is the first which has none. -/
theorem C109_undirected_violated :
    (∃ f, diagnoseUndirected .empty lonely = .ok (some f) ∧ ¬ UndirectedSays lonely lonely f ∧
      f.message = "connectivity::connectivity_base [node: 0, edge: 1]: Reciprocated partial edge does not exist".toList) ∧
    edgeAt lonely 0 1 = some ⟨1, (), ()⟩ ∧ mult lonely 0 1 () = 1 ∧ mult lonely 1 0 () = 1 := by
  refine ⟨⟨.noPartner "connectivity_base".toList 0 1, by decide +kernel, ?_, by decide⟩, by decide, by decide, by decide⟩
  rintro ⟨l, e, h1, h2, h3, h4, h5⟩
  have : l = [⟨2, (), ()⟩, ⟨1, (), ()⟩] := by
    have : lonely[0]? = some [⟨2, (), ()⟩, ⟨1, (), ()⟩] := rfl
    rw [this] at h1; cases h1; rfl
  subst this
  have : e = ⟨1, (), ()⟩ := by
    simp at h2; exact h2.symm
  subst this
  exact absurd h5 (by decide)

/-- **C109** What is wrong can be read off the message: different faults have different messages. -/
theorem C109_read (f g : Fault) (hf : PlainNames f) (hg : PlainNames g) (h : f.message = g.message) : f = g := by
  rw [message_weave, message_weave] at h
  obtain ⟨hp, hz⟩ := weave_inj h (pairs_apart hf) (pairs_apart hg) (ending_plain f) (ending_plain g) (pairs_tail f) (pairs_tail g)
  have col : ∀ (t : Str) (c : Char), (": ".toList ++ t).head? = some c → c = ':' ∨ c = ' ' := by
    intro t c hc
    exact .inl (by simp at hc; exact hc.symm)
  have bl : ∀ (t : Str) (c : Char), (" ".toList ++ t).head? = some c → c = ':' ∨ c = ' ' := by
    intro t c hc
    exact .inr (by simp at hc; exact hc.symm)
  have pre : ∀ {m m' t : Str}, PlainName m → PlainName m' → errorPrefix m ++ t = errorPrefix m' ++ t → m = m' := by
    intro m m' t hm hm' h
    unfold errorPrefix at h
    rw [List.append_assoc, List.append_assoc] at h
    exact (leader_inj h hm hm' (col _) (col _)).1
  have at1 : ∀ {m m' : Str}, PlainName m → PlainName m' → leader m ++ " ".toList ++ "[node: ".toList = leader m' ++ " ".toList ++ "[node: ".toList → m = m' := by
    intro m m' hm hm' h
    rw [List.append_assoc, List.append_assoc] at h
    exact (leader_inj h hm hm' (bl _) (bl _)).1
  have hk : kind f = kind g := by rw [← kindOf_eq, ← kindOf_eq, hp, hz]
  clear hz h
  cases f <;> cases g <;> first
    | exact absurd hk (by simp only [kind]; omega)
    | skip
  all_goals clear hk
  all_goals simp only [pairs, List.cons.injEq, Prod.mk.injEq, and_true] at hp
  case node.node => obtain ⟨⟨h1, h2⟩, _, h3⟩ := hp; rw [pre hf hg h1, h2, h3]
  case nodes.nodes => obtain ⟨⟨h1, h2⟩, ⟨_, h3⟩, _, h4⟩ := hp; rw [pre hf hg h1, h2, h3, h4]
  case range.range =>
    obtain ⟨⟨h1, h2⟩, ⟨_, h3⟩, ⟨h4, h5⟩, _, h6⟩ := hp
    rw [at1 hf.1 hg.1 h1, h2, h3, h5, h6, List.append_cancel_left (List.append_cancel_right h4)]
  case insertion.insertion => obtain ⟨⟨h1, h2⟩, ⟨_, h3⟩, _, h4⟩ := hp; rw [pre hf hg h1, h2, h3, h4]
  case swap.swap => obtain ⟨⟨h1, h2⟩, ⟨_, h3⟩, _, h4⟩ := hp; rw [h2, h3, h4]
  case reciprocated.reciprocated =>
    obtain ⟨⟨h1, h2⟩, ⟨_, h3⟩, ⟨h4, h5⟩, _, h6⟩ := hp
    rw [h2, h3, h5, h6, List.append_cancel_left (List.append_cancel_right h4)]
  case oddLoops.oddLoops => obtain ⟨h1, h2⟩ := hp; rw [pre hf hg h1, h2]
  case selfReferential.selfReferential => obtain ⟨⟨h1, h2⟩, ⟨_, h3⟩, ⟨_, h4⟩, _, h5⟩ := hp; rw [h2, h3, h4, h5]
  case weights.weights => obtain ⟨⟨h1, h2⟩, _, h3⟩ := hp; rw [at1 hf hg h1, h2, h3]
  case noPartner.noPartner => obtain ⟨⟨h1, h2⟩, _, h3⟩ := hp; rw [at1 hf hg h1, h2, h3]
  case sizes.sizes => obtain ⟨⟨_, h1⟩, _, h2⟩ := hp; rw [h1, h2]

example : PlainNames (.range "process_complementary_edges".toList 3 4 "complementary".toList 5 6) ∧ PlainNames (.range [] 3 4 "target".toList 5 6) ∧ PlainNames (.noPartner "connectivity_base".toList 0 1) := by
  unfold PlainNames PlainName; decide

/-- **C109** Nodes, positions for insertion and exchange, and numbers of nodes are refused if and only if they are not admissible, and the message names what is. -/
theorem C109_checks (m : Str) (order i j node edges : Nat) :
    checkNode m order i = (if i < order then none else some (.node m order i)) ∧
    checkNodes m order i j = (if i < order ∧ j < order then none else some (.nodes m order i j)) ∧
    checkInsertion m node edges i = (if i ≤ edges then none else some (.insertion m node edges i)) ∧
    (checkSwap node i j edges = none ↔ i < edges ∧ j < edges) ∧
    (∀ f, checkSwap node i j edges = some f → ∃ p, (p = i ∨ p = j) ∧ edges ≤ p ∧ f = .swap node p edges) ∧
    checkInitialization i j = (if i = j then none else some (.sizes i j)) := by
  unfold checkNode checkNodes checkInsertion checkSwap checkInitialization
  refine ⟨?_, ?_, ?_, ?_, ?_, ?_⟩
  · by_cases h : i < order <;> simp [h] <;> omega
  · by_cases h : i < order <;> by_cases h' : j < order <;> simp [h, h'] <;> omega
  · by_cases h : i ≤ edges <;> simp [h] <;> omega
  · by_cases h : i ≥ edges <;> by_cases h' : j ≥ edges <;> simp [h, h'] <;> omega
  · intro f hf
    by_cases h : i ≥ edges
    · rw [if_pos h] at hf; cases hf; exact ⟨i, .inl rfl, h, rfl⟩
    · rw [if_neg h] at hf
      by_cases h' : j ≥ edges
      · rw [if_pos h'] at hf; cases hf; exact ⟨j, .inr rfl, h', rfl⟩
      · rw [if_neg h'] at hf; cases hf
  · by_cases h : i = j <;> simp [h]

/-- **C109 (violated)** The message for indices of edges, targets and partners which are out of range does not name the greatest index: what is said to be the maximum is refused itself. -/
theorem C109_max_violated (m : Str) (n k : Nat) (name : Str) (size : Nat) :
    (∃ a, (checkEdge m n k name size size).map Fault.message = some (a ++ " index ".toList ++ digits size ++ " out of range - max index is ".toList ++ digits size)) ∧
    ∀ i, checkEdge m n k name size i = none → i ≠ size := by
  refine ⟨⟨errorPrefixAt m n k ++ name, ?_⟩, fun i h => ?_⟩
  · unfold checkEdge
    rw [if_pos (Nat.le_refl _)]
    rfl
  · have := checkEdge_none.1 h
    omega

end Verif.Props
