import Verif.Spec.Forest
import Verif.Lemmas.Tree
import Mathlib.Data.List.Nodup
set_option linter.unusedSimpArgs false
set_option linter.unusedVariables false
set_option linter.unusedSectionVars false
namespace Verif.Forest
open Verif.Graph Verif.Spec Verif.Spec.Forest EdgeLike

/-- `x` is `k` steps below the root. -/
inductive Deep (root : Nat) (par : Nat → Nat) : Nat → Nat → Prop
  | root : Deep root par 0 root
  | up {x k : Nat} : x ≠ root → Deep root par k (par x) → Deep root par (k + 1) x

theorem Deep.inj {root : Nat} {par : Nat → Nat} {x : Nat} : ∀ {k k' : Nat}, Deep root par k x → Deep root par k' x → k = k' := by
  intro k k' h
  induction h generalizing k' with
  | root => intro h'; cases h' with
    | root => rfl
    | up h1 _ => exact absurd rfl h1
  | up h1 _ ih => intro h'; cases h' with
    | root => exact absurd rfl h1
    | up _ h2 => rw [ih h2]

theorem below_deep {root : Nat} {par : Nat → Nat} {x : Nat} (h : Below root par root x) : ∃ k, Deep root par k x := by
  induction h with
  | self => exact ⟨0, .root⟩
  | up h1 _ ih => obtain ⟨k, hk⟩ := ih; exact ⟨k + 1, .up h1 hk⟩

theorem Deep.below_le {root : Nat} {par : Nat → Nat} {n x : Nat} (h : Below root par n x) : ∀ {k j : Nat}, Deep root par k n → Deep root par j x → k ≤ j := by
  induction h with
  | self => intro k j h1 h2; exact Nat.le_of_eq (h1.inj h2)
  | up h1 _ ih =>
    intro k j hk hj
    cases hj with
    | root => exact absurd rfl h1
    | up _ h2 => have := ih hk h2; omega

theorem below_same_depth {root : Nat} {par : Nat → Nat} {c c' x : Nat} (h : Below root par c x) : ∀ {k : Nat}, Below root par c' x → Deep root par k c → Deep root par k c' → (∃ j, Deep root par j x) →
    c = c' := by
  induction h with
  | self =>
    intro k h1 h2 h3 h4
    cases h1 with
    | self => rfl
    | up h5 h6 =>
      cases h2 with
      | root => exact absurd rfl h5
      | up _ h7 => have := Deep.below_le h6 h3 h7; omega
  | up h1 h2 ih =>
    rename_i y
    intro k h3 h4 h5 h6
    obtain ⟨j, hj⟩ := h6
    cases hj with
    | root => exact absurd rfl h1
    | up _ hj =>
      cases h3 with
      | self =>
        cases h5 with
        | root => exact absurd rfl h1
        | up _ h7 => have := Deep.below_le h2 h4 h7; omega
      | up _ h7 => exact ih h7 h4 h5 ⟨_, hj⟩

theorem deepest {root : Nat} {par : Nat → Nat} (m : Nat) (h : ∀ x < m, ∃ k, Deep root par k x) : ∃ D, ∀ x < m, ∀ k, Deep root par k x → k ≤ D := by
  induction m with
  | zero => exact ⟨0, by simp⟩
  | succ m ih =>
    obtain ⟨D, hD⟩ := ih fun x hx => h x (by omega)
    obtain ⟨k, hk⟩ := h m (by omega)
    refine ⟨max D k, fun x hx j hj => ?_⟩
    by_cases hxm : x = m
    · subst hxm; rw [hj.inj hk]; omega
    · have := hD x (by omega) j hj; omega

variable {N E : Type} [EdgeLike E]

theorem visitAll_ok {B : Type} {v : Adaptor → Res (Option (List B))} {g : Adaptor → List B} : ∀ {as : List Adaptor}, (∀ a ∈ as, v a = .ok (some (g a))) → visitAll v as = .ok (some (as.flatMap g)) := by
  intro as
  induction as with
  | nil => intro _; rfl
  | cons a as ih =>
    intro h
    unfold visitAll
    rw [h a (by simp), ih fun b hb => h b (by simp [hb])]
    simp [Res.bind]

theorem below_cases {root : Nat} {par : Nat → Nat} {n x : Nat} (h : Below root par n x) : x = n ∨ ∃ c, IsParent root par n c ∧ Below root par c x := by
  induction h with
  | self => exact .inl rfl
  | up h1 h2 ih =>
    rename_i y
    rcases ih with h | ⟨c, hc, h⟩
    · exact .inr ⟨y, ⟨h1, h⟩, .self⟩
    · exact .inr ⟨c, hc, .up h1 h⟩

theorem below_trans {root : Nat} {par : Nat → Nat} {a b c : Nat} (h1 : Below root par a b) (h2 : Below root par b c) : Below root par a c := by
  induction h2 with
  | self => exact h1
  | up h _ ih => exact .up h ih

/-- The children of a node of a forward tree. -/
theorem children {s : Edges E} {root : Nat} {par : Nat → Nat} (ht : TreeOf .forward s root par) {n : Nat} {l : List E} (hl : s[n]? = some l) :
    (l.map target).Nodup ∧ ∀ c, c ∈ l.map target ↔ c < s.length ∧ IsParent root par n c := by
  have hn : n < s.length := (List.getElem?_eq_some_iff.1 hl).1
  have hcount : ∀ b, (l.map target).count b = l.countP fun e => decide (target e = b) := by
    intro b
    rw [List.count, List.countP_map]
    apply List.countP_congr
    intro e _
    simp
  have hin : ∀ c, c ∈ l.map target → c < s.length := by
    intro c hc
    obtain ⟨e, he, rfl⟩ := List.mem_map.1 hc
    exact ht.inRange l (List.mem_of_getElem? hl) e he
  have hlink : ∀ b < s.length, (l.map target).count b = if IsParent root par n b then 1 else 0 := by
    intro b hb
    have := ht.edges n hn b hb
    unfold links at this
    rw [hl] at this
    simp only [downwards, upwards, true_and, Bool.false_eq_true, false_and, if_false, Nat.add_zero] at this
    rw [hcount, this]
  constructor
  · rw [List.nodup_iff_count]
    intro b
    by_cases hb : b < s.length
    · rw [hlink b hb]; split <;> omega
    · rw [List.count_eq_zero.2 fun h => hb (hin b h)]; omega
  · intro c
    constructor
    · intro hc
      refine ⟨hin c hc, ?_⟩
      have h1 := hlink c (hin c hc)
      have h2 := List.count_pos_iff.2 hc
      rw [h1] at h2
      split at h2
      · assumption
      · omega
    · rintro ⟨h1, h2⟩
      have h3 := hlink c h1
      rw [if_pos h2] at h3
      exact List.count_pos_iff.1 (by omega)

theorem below_lt {kind : TreeKind} {s : Edges E} {root : Nat} {par : Nat → Nat} (ht : TreeOf kind s root par) {c x : Nat} (h : Below root par c x) (hx : x < s.length) : c < s.length := by
  induction h with
  | self => exact hx
  | up h1 _ ih => exact ih (ht.par_lt _ hx h1)

theorem visit_below {mem : List (G N E)} {t : Nat} {g : G N E} (hm : mem[t]? = some g) (hg : g.nodes.length = g.edges.length) {root : Nat} {par : Nat → Nat}
    (ht : TreeOf .forward g.edges root par) {D : Nat} (hD : ∀ x < g.edges.length, ∀ k, Deep root par k x → k ≤ D) :
    ∀ (f : Nat) {n k : Nat}, n < g.edges.length → Deep root par k n → D < k + f →
      ∃ l, visit mem f (adapt t n) = .ok (some l) ∧ ListsBelow g.nodes root par n l := by
  have hdeep : ∀ x < g.edges.length, ∃ k, Deep root par k x := fun x hx => below_deep (ht.descends x hx)
  intro f
  induction f with
  | zero => intro n k hn hk hf; have := hD n hn k hk; omega
  | succ f ih =>
    intro n k hn hk hf
    obtain ⟨es, hes⟩ : ∃ es, g.edges[n]? = some es := ⟨_, List.getElem?_eq_getElem hn⟩
    obtain ⟨w, hw⟩ : ∃ w, g.nodes[n]? = some w := ⟨_, List.getElem?_eq_getElem (by omega)⟩
    obtain ⟨hnd, hch⟩ := children ht hes
    have hex : ∀ c, c ∈ es.map target → ∃ l, visit mem f (adapt t c) = .ok (some l) ∧ ListsBelow g.nodes root par c l := by
      intro c hc
      obtain ⟨h1, h2⟩ := (hch c).1 hc
      exact ih h1 (.up h2.1 (h2.2 ▸ hk)) (by omega)
    let sub : Adaptor → List (Nat × N) := fun a => match visit mem f a with | .ok (some l) => l | _ => []
    have hsub : ∀ c, c ∈ es.map target → visit mem f (adapt t c) = .ok (some (sub (adapt t c))) ∧ ListsBelow g.nodes root par c (sub (adapt t c)) := by
      intro c hc
      obtain ⟨l, h1, h2⟩ := hex c hc
      have h3 : sub (adapt t c) = l := by simp only [sub, h1]
      rw [h3]
      exact ⟨h1, h2⟩
    have hall : visitAll (visit mem f) (es.map fun e => adapt t (target e)) = .ok (some ((es.map fun e => adapt t (target e)).flatMap sub)) := by
      apply visitAll_ok
      intro a ha
      obtain ⟨e, he, rfl⟩ := List.mem_map.1 ha
      exact (hsub _ (List.mem_map_of_mem he)).1
    refine ⟨(n, w) :: ((es.map target).flatMap fun c => sub (adapt t c)), ?_, ?_⟩
    · unfold visit
      have h1 : rootWeight mem (adapt t n) = .ok w := by simp [rootWeight, Adaptor.get, adapt, hm, hw, Res.bind]
      have h2 : forestFromTree mem t n = .ok (es.map fun e => adapt t (target e)) := by simp [forestFromTree, hm, hes]
      rw [h1]
      simp only [Res.bind, adapt]
      rw [h2]
      simp only [Res.bind]
      rw [hall]
      simp only [List.flatMap_map]
      rfl
    · have hmem : ∀ x, x ∈ (((es.map target).flatMap fun c => sub (adapt t c)).map Prod.fst) ↔ ∃ c ∈ es.map target, x < g.nodes.length ∧ Below root par c x := by
        intro x
        rw [List.map_flatMap, List.mem_flatMap]
        constructor
        · rintro ⟨c, hc, h⟩; exact ⟨c, hc, ((hsub c hc).2.2.2.1 x).1 h⟩
        · rintro ⟨c, hc, h⟩; exact ⟨c, hc, ((hsub c hc).2.2.2.1 x).2 h⟩
      have hup : ∀ c ∈ es.map target, Below root par n c := by
        intro c hc
        obtain ⟨_, h2⟩ := (hch c).1 hc
        exact .up h2.1 (h2.2 ▸ .self)
      have hnot : ∀ c ∈ es.map target, ∀ x, Below root par c x → x < g.nodes.length → ¬ Below root par x n := by
        intro c hc x hx hlt hxn
        obtain ⟨h1, h2⟩ := (hch c).1 hc
        have hck : Deep root par (k + 1) c := .up h2.1 (h2.2 ▸ hk)
        obtain ⟨j, hj⟩ := hdeep x (by omega)
        have h3 := Deep.below_le hx hck hj
        have h4 := Deep.below_le hxn hj hk
        omega
      have hdisj : ∀ c ∈ es.map target, ∀ c' ∈ es.map target, ∀ x, x < g.nodes.length → Below root par c x → Below root par c' x → c = c' := by
        intro c hc c' hc' x hx h1 h2
        obtain ⟨_, h3⟩ := (hch c).1 hc
        obtain ⟨_, h4⟩ := (hch c').1 hc'
        exact below_same_depth h1 h2 (.up h3.1 (h3.2 ▸ hk)) (.up h4.1 (h4.2 ▸ hk)) (hdeep x (by omega))
      refine ⟨rfl, ?_, ?_, ?_, ?_⟩
      · rw [List.map_cons, List.nodup_cons]
        constructor
        · intro h
          obtain ⟨c, hc, h1, h2⟩ := (hmem n).1 h
          exact hnot c hc n h2 h1 .self
        · rw [List.map_flatMap, List.nodup_flatMap]
          refine ⟨fun c hc => (hsub c hc).2.2.1, ?_⟩
          refine hnd.imp_of_mem ?_
          intro c c' hc hc' hne x h1 h2
          obtain ⟨h3, h4⟩ := ((hsub c hc).2.2.2.1 x).1 h1
          obtain ⟨_, h5⟩ := ((hsub c' hc').2.2.2.1 x).1 h2
          exact hne (hdisj c hc c' hc' x h3 h4 h5)
      · intro x
        rw [List.map_cons, List.mem_cons, hmem]
        constructor
        · rintro (rfl | ⟨c, hc, h1, h2⟩)
          · exact ⟨by omega, .self⟩
          · exact ⟨h1, below_trans (hup c hc) h2⟩
        · rintro ⟨h1, h2⟩
          rcases below_cases h2 with h | ⟨c, hc, h⟩
          · exact .inl h
          · refine .inr ⟨c, (hch c).2 ⟨?_, hc⟩, h1, h⟩
            exact below_lt ht h (by omega)
      · intro x v hxv
        rcases List.mem_cons.1 hxv with h | h
        · cases h; exact hw
        · obtain ⟨c, hc, h⟩ := List.mem_flatMap.1 h
          exact (hsub c hc).2.2.2.2.1 x v h
      · rw [List.map_cons, List.pairwise_cons]
        constructor
        · intro x hx
          obtain ⟨c, hc, h1, h2⟩ := (hmem x).1 hx
          exact hnot c hc x h2 h1
        · rw [List.map_flatMap, List.pairwise_flatMap]
          refine ⟨fun c hc => (hsub c hc).2.2.2.2.2, ?_⟩
          refine hnd.imp_of_mem ?_
          intro c c' hc hc' hne x h1 y h2 hyx
          obtain ⟨h3, h4⟩ := ((hsub c hc).2.2.2.1 x).1 h1
          obtain ⟨_, h5⟩ := ((hsub c' hc').2.2.2.1 y).1 h2
          exact hne (hdisj c hc c' hc' x h3 h4 (below_trans h5 hyx))

theorem visitAll_some {B : Type} {v : Adaptor → Res (Option (List B))} : ∀ {as : List Adaptor} {l : List B}, visitAll v as = .ok (some l) →
    ∃ ls : List (List B), l = ls.flatten ∧ ls.length = as.length ∧ ∀ (k : Nat) (a : Adaptor) (x : List B), as[k]? = some a → ls[k]? = some x → v a = .ok (some x) := by
  intro as
  induction as with
  | nil => intro l h; simp [visitAll] at h; subst h; exact ⟨[], rfl, rfl, by simp⟩
  | cons a as ih =>
    intro l h
    unfold visitAll at h
    cases hv : v a with
    | throws => simp [hv, Res.bind] at h
    | ub => simp [hv, Res.bind] at h
    | ok o =>
      cases o with
      | none => simp [hv, Res.bind] at h
      | some x =>
        simp only [hv, Res.bind] at h
        cases hr : visitAll v as with
        | throws => simp [hr] at h
        | ub => simp [hr] at h
        | ok o =>
          cases o with
          | none => simp [hr] at h
          | some y =>
            simp [hr] at h
            obtain ⟨ls, h1, h2, h3⟩ := ih hr
            refine ⟨x :: ls, by simp [← h, h1], by simp [h2], ?_⟩
            intro k b z hb hz
            cases k with
            | zero => simp at hb hz; subst hb hz; exact hv
            | succ k => exact h3 k b z (by simpa using hb) (by simpa using hz)

theorem visit_preorder {mem : List (G N E)} {t : Nat} {g : G N E} (hm : mem[t]? = some g) : ∀ {f n : Nat} {l : List (Nat × N)}, visit mem f (adapt t n) = .ok (some l) →
    Preorder g.edges n (l.map Prod.fst) := by
  intro f
  induction f with
  | zero => intro n l h; simp [visit] at h
  | succ f ih =>
    intro n l h
    unfold visit at h
    cases hw : rootWeight mem (adapt t n) with
    | throws => simp [hw, Res.bind] at h
    | ub => simp [hw, Res.bind] at h
    | ok w =>
      rw [hw] at h
      simp only [Res.bind, adapt] at h
      unfold forestFromTree at h
      cases hes : g.edges[n]? with
      | none => simp [hm, hes] at h
      | some es =>
        simp only [hm, hes] at h
        cases hr : visitAll (visit mem f) (es.map fun e => adapt t (target e)) with
        | throws => simp [hr] at h
        | ub => simp [hr] at h
        | ok o =>
          cases o with
          | none => simp [hr] at h
          | some y =>
            simp [hr] at h
            subst h
            obtain ⟨ls, h1, h2, h3⟩ := visitAll_some hr
            have h4 : (((n, w) :: y).map Prod.fst) = n :: (ls.map (List.map Prod.fst)).flatten := by rw [List.map_cons, h1, List.map_flatten]
            rw [h4]
            refine .node hes (by simpa using h2) ?_
            intro k e x he hx
            rw [List.getElem?_map, Option.map_eq_some_iff] at hx
            obtain ⟨x', hx', rfl⟩ := hx
            exact ih (h3 k (adapt t (target e)) x' (by simp [he]) hx')

/-- The edges of a node of a backward tree. -/
theorem only_parent {s : Edges E} {root : Nat} {par : Nat → Nat} (ht : TreeOf .backward s root par) {n : Nat} {l : List E} (hl : s[n]? = some l) :
    l.map target = if n = root then [] else [par n] := by
  have hn : n < s.length := (List.getElem?_eq_some_iff.1 hl).1
  have hcount : ∀ b, (l.map target).count b = l.countP fun e => decide (target e = b) := by
    intro b
    rw [List.count, List.countP_map]
    apply List.countP_congr
    intro e _
    simp
  have hin : ∀ c, c ∈ l.map target → c < s.length := by
    intro c hc
    obtain ⟨e, he, rfl⟩ := List.mem_map.1 hc
    exact ht.inRange l (List.mem_of_getElem? hl) e he
  have hlink : ∀ b < s.length, (l.map target).count b = if IsParent root par b n then 1 else 0 := by
    intro b hb
    have := ht.edges n hn b hb
    unfold links at this
    rw [hl] at this
    simp only [downwards, upwards, true_and, Bool.false_eq_true, false_and, if_false, Nat.zero_add] at this
    rw [hcount, this]
  by_cases hr : n = root
  · rw [if_pos hr, List.eq_nil_iff_forall_not_mem]
    intro c hc
    have h1 := hlink c (hin c hc)
    rw [if_neg (fun h => h.1 hr)] at h1
    exact List.count_eq_zero.1 h1 hc
  · rw [if_neg hr]
    have hpar := ht.par_lt n hn hr
    have h1 : (l.map target).Perm [par n] := by
      rw [List.perm_iff_count]
      intro b
      by_cases hb : b < s.length
      · rw [hlink b hb]
        by_cases hpb : par n = b
        · rw [if_pos ⟨hr, hpb⟩, hpb]; simp
        · rw [if_neg (fun h => hpb h.2), List.count_eq_zero.2 (by simp; exact fun h => hpb h.symm)]
      · rw [List.count_eq_zero.2 fun h => hb (hin b h), List.count_eq_zero.2 (by simp; intro h; omega)]
    exact List.perm_singleton.1 h1

theorem visit_up {mem : List (G N E)} {t : Nat} {g : G N E} (hm : mem[t]? = some g) (hg : g.nodes.length = g.edges.length) {root : Nat} {par : Nat → Nat}
    (ht : TreeOf .backward g.edges root par) {n k : Nat} (hk : Deep root par k n) : n < g.edges.length → ∀ {f : Nat}, k < f →
      ∃ l, visit mem f (adapt t n) = .ok (some l) ∧ Climb root par n (l.map Prod.fst) ∧ ∀ x w, (x, w) ∈ l → g.nodes[x]? = some w := by
  induction hk with
  | root =>
    intro hn f hf
    obtain ⟨f, rfl⟩ : ∃ j, f = j + 1 := ⟨f - 1, by omega⟩
    obtain ⟨es, hes⟩ : ∃ es, g.edges[root]? = some es := ⟨_, List.getElem?_eq_getElem hn⟩
    obtain ⟨w, hw⟩ : ∃ w, g.nodes[root]? = some w := ⟨_, List.getElem?_eq_getElem (by omega)⟩
    have h0 := only_parent ht hes
    rw [if_pos rfl, List.map_eq_nil_iff] at h0
    refine ⟨[(root, w)], ?_, .root, by simp [hw]⟩
    unfold visit
    simp [rootWeight, Adaptor.get, adapt, hm, hw, Res.bind, forestFromTree, hes, h0, visitAll]
  | up h1 h2 ih =>
    rename_i x k
    intro hn f hf
    obtain ⟨f, rfl⟩ : ∃ j, f = j + 1 := ⟨f - 1, by omega⟩
    obtain ⟨es, hes⟩ : ∃ es, g.edges[x]? = some es := ⟨_, List.getElem?_eq_getElem hn⟩
    obtain ⟨w, hw⟩ : ∃ w, g.nodes[x]? = some w := ⟨_, List.getElem?_eq_getElem (by omega)⟩
    have h0 := only_parent ht hes
    rw [if_neg h1] at h0
    obtain ⟨l, h3, h4, h5⟩ := ih (ht.par_lt x hn h1) (f := f) (by omega)
    refine ⟨(x, w) :: l, ?_, .up h1 h4, ?_⟩
    · have h6 : (es.map fun e => adapt t (target e)) = [adapt t (par x)] := by
        have : (es.map fun e => adapt t (target e)) = (es.map target).map (adapt t) := by simp
        rw [this, h0]; rfl
      unfold visit
      have hw1 : rootWeight mem (adapt t x) = .ok w := by simp [rootWeight, Adaptor.get, adapt, hm, hw, Res.bind]
      have hf1 : forestFromTree mem t x = .ok [adapt t (par x)] := by simp [forestFromTree, hm, hes, h6]
      rw [hw1]
      simp only [Res.bind, adapt]
      simp only [adapt] at hf1 h3
      rw [hf1]
      simp only [Res.bind, visitAll]
      rw [h3]
      simp [Res.bind]
    · intro y v hy
      rcases List.mem_cons.1 hy with h | h
      · cases h; exact hw
      · exact h5 y v h

end Verif.Forest
