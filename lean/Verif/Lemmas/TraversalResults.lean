import Verif.Spec.TraversalResults
set_option linter.unusedSimpArgs false
set_option linter.unusedVariables false
namespace Verif.Graph
open EdgeLike Verif.Spec.TraversalResults

section
variable {E : Type} [EdgeLike E] {Q : Type}

/-- The state in which only the calls of functions which are present are recorded. -/
def Trav.only (has : Given) (st : Trav Q) : Trav Q := { st with events := st.events.filter (Present has) }

def onlyS (has : Given) (r : Res (Trav Q)) : Res (Trav Q) := r.bind fun st => .ok (st.only has)
def onlyO (has : Given) (r : Res (Option (Trav Q))) : Res (Option (Trav Q)) := r.bind fun o => .ok (o.map (·.only has))

theorem callsForEdge_fst (has : Given) (rule : LoopRule E) (n k dist : Nat) (m m' : Bool) (hm : (has.first || has.second) = true → m = m') (e : E) (p : Bool) :
    (callsForEdge has rule n k dist m' e p).1 =
      [if (isSecond rule n dist m e p).1 then Event.second n k else Event.first n k].filter (Present has) := by
  cases rule with
  | directed => cases hf : has.first <;> simp [callsForEdge, isSecond, Present, hf, List.filter]
  | undirected =>
    unfold callsForEdge
    cases hf : has.first <;> cases hs : has.second <;> simp [hf, hs] at hm <;> (try subst hm) <;>
      cases hh : (isSecond (E := E) .undirected n dist m e p).1 <;> simp [hh, Present, hf, hs, List.filter]
  | embedded comp =>
    unfold callsForEdge
    cases hf : has.first <;> cases hs : has.second <;> simp [hf, hs] at hm <;> (try subst hm) <;>
      cases hh : (isSecond (.embedded comp) n dist m e p).1 <;> simp [hh, Present, hf, hs, List.filter]

theorem callsForEdge_snd (has : Given) (rule : LoopRule E) (n k dist : Nat) (m m' : Bool) (hm : (has.first || has.second) = true → m = m') (e : E) (p : Bool) :
    (has.first || has.second) = true → (isSecond rule n dist m e p).2 = (callsForEdge has rule n k dist m' e p).2 := by
  intro h
  have := hm h
  subst this
  cases rule with
  | directed => simp [callsForEdge, isSecond]
  | undirected => simp only [callsForEdge, h, if_true]; split <;> rfl
  | embedded comp => simp only [callsForEdge, h, if_true]; split <;> rfl

theorem innerEdgesOf_eq (has : Given) (c : Container Q) (rule : LoopRule E) (n : Nat) (l : List (E × Nat)) :
    ∀ (dist : Nat) (m m' : Bool) (st : Trav Q), ((has.first || has.second) = true → m = m') →
      innerEdgesOf has c rule n dist m' l (st.only has) = onlyS has (innerEdges c rule n dist m l st) := by
  induction l with
  | nil => intros; rfl
  | cons x l ih =>
    obtain ⟨e, k⟩ := x
    intro dist m m' st hm
    unfold innerEdgesOf innerEdges
    simp only [Trav.only]
    cases hd : st.discovered[target e]? with
    | none => rfl
    | some d =>
      cases hp : st.processed[target e]? with
      | none => rfl
      | some p =>
        dsimp only
        rw [callsForEdge_fst has rule n k dist m m' hm e p]
        have h2 := callsForEdge_snd has rule n k dist m m' hm e p
        cases d with
        | true =>
          simp only [if_true]
          rw [← List.filter_append]
          exact ih (dist + 1) _ _ { st with events := st.events ++ [if (isSecond rule n dist m e p).1 then Event.second n k else Event.first n k] } h2
        | false =>
          simp only [Bool.false_eq_true, if_false]
          cases c.push st.queue (target e) with
          | throws => rfl
          | ub => rfl
          | ok q =>
            simp only [Res.bind]
            rw [← List.filter_append]
            exact ih (dist + 1) _ _ { st with queue := q, discovered := st.discovered.set (target e) true, num := st.num + 1, events := st.events ++ [if (isSecond rule n dist m e p).1 then Event.second n k else Event.first n k] } h2

theorem before_filter (has : Given) (n : Nat) : (if has.before then [Event.before n] else []) = [Event.before n].filter (Present has) := by
  cases h : has.before <;> simp [Present, h]

theorem after_filter (has : Given) (n : Nat) : (if has.after then [Event.after n] else []) = [Event.after n].filter (Present has) := by
  cases h : has.after <;> simp [Present, h]

theorem first_filter (has : Given) (n k : Nat) : (if has.first then [Event.first n k] else []) = [Event.first n k].filter (Present has) := by
  cases h : has.first <;> simp [Present, h]

theorem innerLoopOf_eq (has : Given) (c : Container Q) (rule : LoopRule E) (rev : Bool) (s : Edges E) (n : Nat) (st : Trav Q) :
    innerLoopOf has c rule rev s n (st.only has) = onlyS has (innerLoop c rule rev s n st) := by
  unfold innerLoopOf innerLoop
  cases s[n]? with
  | none => rfl
  | some l =>
    dsimp only
    have h := innerEdgesOf_eq has c rule n (iteration rev l) 0 true true { st with events := st.events ++ [.before n] } (fun _ => rfl)
    simp only [Trav.only, List.filter_append] at h
    simp only [Trav.only, before_filter, h]
    cases innerEdges c rule n 0 true (iteration rev l) { st with events := st.events ++ [.before n] } with
    | throws => rfl
    | ub => rfl
    | ok st' =>
      simp only [onlyS, Res.bind, Trav.only]
      by_cases hn : n < st'.processed.length
      · simp [hn, after_filter, List.filter_append]
      · simp [hn]

theorem whileLoopOf_eq (has : Given) (c : Container Q) (rule : LoopRule E) (rev : Bool) (s : Edges E) (fuel : Nat) : ∀ st : Trav Q,
    whileLoopOf has c rule rev s fuel (st.only has) = onlyO has (whileLoop c rule rev s fuel st) := by
  induction fuel with
  | zero =>
    intro st
    unfold whileLoopOf whileLoop
    cases h : c.isEmpty st.queue <;> simp [Trav.only, h, onlyO, Res.bind]
  | succ fuel ih =>
    intro st
    unfold whileLoopOf whileLoop
    cases h : c.isEmpty st.queue with
    | true => simp [Trav.only, h, onlyO, Res.bind]
    | false =>
      simp only [Trav.only, h, Bool.false_eq_true, if_false]
      cases c.get st.queue with
      | throws => rfl
      | ub => rfl
      | ok n =>
        simp only [Res.bind]
        cases c.pop st.queue with
        | throws => rfl
        | ub => rfl
        | ok q =>
          simp only []
          have h2 := innerLoopOf_eq has c rule rev s n { st with queue := q }
          simp only [Trav.only] at h2
          rw [h2]
          cases innerLoop c rule rev s n { st with queue := q } with
          | throws => rfl
          | ub => rfl
          | ok st' => exact ih st'

theorem phaseOf_eq (has : Given) (c : Container Q) (rule : LoopRule E) (rev findAll : Bool) (s : Edges E) (start fuel : Nat) (st : Trav Q) :
    phaseOf has c rule rev findAll s start fuel (st.only has) = onlyO has (phase c rule rev findAll s start fuel st) := by
  unfold phaseOf phase
  have h1 : restartIndex findAll start (st.only has) = restartIndex findAll start st := rfl
  rw [h1]
  cases restartIndex findAll start st with
  | throws => rfl
  | ub => rfl
  | ok r =>
    simp only [Res.bind, Trav.only]
    cases c.push st.queue r with
    | throws => rfl
    | ub => rfl
    | ok q =>
      simp only []
      by_cases hr : r < st.discovered.length
      · simp only [hr, if_true]
        exact whileLoopOf_eq has c rule rev s fuel { st with queue := q, discovered := st.discovered.set r true, num := st.num + 1, restart := if findAll && st.num != 0 then r else st.restart }
      · simp only [hr, if_false]; rfl

theorem doLoopOf_eq (has : Given) (c : Container Q) (rule : LoopRule E) (rev findAll : Bool) (s : Edges E) (start fuel rounds : Nat) : ∀ st : Trav Q,
    doLoopOf has c rule rev findAll s start fuel rounds (st.only has) = onlyO has (doLoop c rule rev findAll s start fuel rounds st) := by
  induction rounds with
  | zero => intro st; rfl
  | succ rounds ih =>
    intro st
    unfold doLoopOf doLoop
    rw [phaseOf_eq]
    cases phase c rule rev findAll s start fuel st with
    | throws => rfl
    | ub => rfl
    | ok o =>
      cases o with
      | none => rfl
      | some st' =>
        simp only [onlyO, Res.bind, Option.map]
        have : (st'.only has).num = st'.num := rfl
        rw [this]
        cases (!findAll || st'.num == s.length) with
        | true => rfl
        | false => exact ih st'

theorem traverseOf_eq (has : Given) (c : Container Q) (rule : LoopRule E) (rev findAll : Bool) (s : Edges E) (start fuel : Nat) :
    traverseOf has c rule rev findAll s start fuel = only has (traverse c rule rev findAll s start fuel) := by
  unfold traverseOf traverse
  by_cases h : start < s.length
  · simp only [h, if_true]
    have := doLoopOf_eq has c rule rev findAll s start fuel fuel ⟨c.init, List.replicate s.length false, List.replicate s.length false, 0, 0, []⟩
    simp only [Trav.only, List.filter_nil] at this
    rw [this]
    cases doLoop c rule rev findAll s start fuel fuel ⟨c.init, List.replicate s.length false, List.replicate s.length false, 0, 0, []⟩ with
    | throws => rfl
    | ub => rfl
    | ok o => cases o <;> rfl
  · simp only [h, if_false]; rfl

theorem dfsEdgesOf_eq (has : Given) (visit visit' : Nat → Trav Unit → Res (Option (Trav Unit))) (hv : ∀ n st, visit' n (st.only has) = onlyO has (visit n st)) (n : Nat)
    (l : List (E × Nat)) : ∀ st : Trav Unit, dfsEdgesOf has visit' n l (st.only has) = onlyO has (dfsEdges visit n l st) := by
  induction l with
  | nil => intro st; rfl
  | cons x l ih =>
    obtain ⟨e, k⟩ := x
    intro st
    unfold dfsEdgesOf dfsEdges
    have : (st.only has).discovered = st.discovered := rfl
    rw [this]
    cases st.discovered[target e]? with
    | none => rfl
    | some d =>
      cases d with
      | true => exact ih st
      | false =>
        dsimp only
        have h := hv (target e) { st with events := st.events ++ [.first n k], discovered := st.discovered.set (target e) true, num := st.num + 1 }
        simp only [Trav.only, List.filter_append] at h
        simp only [Trav.only, first_filter]
        rw [h]
        cases visit (target e) { st with events := st.events ++ [.first n k], discovered := st.discovered.set (target e) true, num := st.num + 1 } with
        | throws => rfl
        | ub => rfl
        | ok o =>
          cases o with
          | none => rfl
          | some st' => exact ih st'

theorem dfsNodeOf_eq (has : Given) (s : Edges E) (fuel : Nat) : ∀ (n : Nat) (st : Trav Unit),
    dfsNodeOf has s fuel n (st.only has) = onlyO has (dfsNode s fuel n st) := by
  induction fuel with
  | zero => intros; rfl
  | succ fuel ih =>
    intro n st
    unfold dfsNodeOf dfsNode
    cases s[n]? with
    | none => rfl
    | some l =>
      dsimp only
      have h := dfsEdgesOf_eq has (dfsNode s fuel) (dfsNodeOf has s fuel) ih n l.zipIdx { st with events := st.events ++ [.before n] }
      simp only [Trav.only, List.filter_append] at h
      simp only [Trav.only, before_filter, h]
      cases dfsEdges (dfsNode s fuel) n l.zipIdx { st with events := st.events ++ [.before n] } with
      | throws => rfl
      | ub => rfl
      | ok o =>
        cases o with
        | none => rfl
        | some st' =>
          simp only [onlyO, Res.bind, Trav.only, Option.map]
          by_cases hn : n < st'.processed.length
          · simp [hn, after_filter, List.filter_append]
          · simp [hn]

theorem dfsPhaseOf_eq (has : Given) (findAll : Bool) (s : Edges E) (start fuel : Nat) (st : Trav Unit) :
    dfsPhaseOf has findAll s start fuel (st.only has) = onlyO has (dfsPhase findAll s start fuel st) := by
  unfold dfsPhaseOf dfsPhase
  have h1 : restartIndex findAll start (st.only has) = restartIndex findAll start st := rfl
  rw [h1]
  cases restartIndex findAll start st with
  | throws => rfl
  | ub => rfl
  | ok r =>
    simp only [Res.bind, Trav.only]
    by_cases hr : r < st.discovered.length
    · simp only [hr, if_true]
      exact dfsNodeOf_eq has s fuel r { st with discovered := st.discovered.set r true, num := st.num + 1, restart := if findAll && st.num != 0 then r else st.restart }
    · simp only [hr, if_false]; rfl

theorem dfsLoopOf_eq (has : Given) (findAll : Bool) (s : Edges E) (start fuel rounds : Nat) : ∀ st : Trav Unit,
    dfsLoopOf has findAll s start fuel rounds (st.only has) = onlyO has (dfsLoop findAll s start fuel rounds st) := by
  induction rounds with
  | zero => intro st; rfl
  | succ rounds ih =>
    intro st
    unfold dfsLoopOf dfsLoop
    rw [dfsPhaseOf_eq]
    cases dfsPhase findAll s start fuel st with
    | throws => rfl
    | ub => rfl
    | ok o =>
      cases o with
      | none => rfl
      | some st' =>
        simp only [onlyO, Res.bind, Option.map]
        have : (st'.only has).num = st'.num := rfl
        rw [this]
        cases (!findAll || st'.num == s.length) with
        | true => rfl
        | false => exact ih st'

theorem traverseDfsOf_eq (has : Given) (findAll : Bool) (s : Edges E) (start fuel : Nat) :
    traverseDfsOf has findAll s start fuel = only has (traverseDfs findAll s start fuel) := by
  unfold traverseDfsOf traverseDfs
  by_cases h : start < s.length
  · simp only [h, if_true]
    have := dfsLoopOf_eq has findAll s start fuel fuel ⟨(), List.replicate s.length false, List.replicate s.length false, 0, 0, []⟩
    simp only [Trav.only, List.filter_nil] at this
    rw [this]
    cases dfsLoop findAll s start fuel fuel ⟨(), List.replicate s.length false, List.replicate s.length false, 0, 0, []⟩ with
    | throws => rfl
    | ub => rfl
    | ok o => cases o <;> rfl
  · simp only [h, if_false]; rfl

end

section
variable {S R X : Type}

theorem serialVoid_ok {f : S → Event → S × Except X R} : ∀ {es : List Event} {s : S} {rs : List R}, (serialVoid f s es).results = .ok rs →
    (serialVoid f s es).calls = es ∧ (serialVoid f s es).state = after f s es ∧ rs.length = es.length := by
  intro es
  induction es with
  | nil => intro s rs h; simp [serialVoid] at h; subst h; simp [serialVoid, after]
  | cons e es ih =>
    intro s rs h
    unfold serialVoid at h ⊢
    rcases hf : f s e with ⟨s', x | r⟩
    · simp [hf] at h
    · simp only [hf] at h ⊢
      cases hq : (serialVoid f s' es).results with
      | error x => simp [hq] at h
      | ok rs' =>
        simp [hq] at h
        subst h
        obtain ⟨h1, h2, h3⟩ := ih hq
        simp [h1, h2, h3, after, hf]

theorem serialVoid_error {f : S → Event → S × Except X R} : ∀ {es : List Event} {s : S} {x : X}, (serialVoid f s es).results = .error x →
    ∃ pre e post, es = pre ++ e :: post ∧ (serialVoid f s es).calls = pre ++ [e] ∧ (f (after f s pre) e).2 = .error x ∧
      (serialVoid f s es).state = after f s (pre ++ [e]) ∧
      ∀ k (hk : k < pre.length), ∃ r, (f (after f s (pre.take k)) pre[k]).2 = .ok r := by
  intro es
  induction es with
  | nil => intro s x h; simp [serialVoid] at h
  | cons e es ih =>
    intro s x h
    unfold serialVoid at h ⊢
    rcases hf : f s e with ⟨s', y | r⟩
    · simp [hf] at h
      subst h
      exact ⟨[], e, es, rfl, by simp [hf], by simp [after, hf], by simp [after, hf], by simp⟩
    · simp only [hf] at h ⊢
      cases hq : (serialVoid f s' es).results with
      | ok rs' => simp [hq] at h
      | error y =>
        simp [hq] at h
        subst h
        obtain ⟨pre, e', post, h1, h2, h3, h4, h5⟩ := ih hq
        refine ⟨e :: pre, e', post, by simp [h1], by simp [h2], by simp [after, hf, h3], by simp [after, hf, h4], ?_⟩
        intro k hk
        cases k with
        | zero => exact ⟨r, by simp [after, hf]⟩
        | succ k =>
          obtain ⟨r', hr⟩ := h5 k (by simpa using hk)
          exact ⟨r', by simpa [after, hf] using hr⟩

theorem serialCopies_eq (f : S → Event → S × Except X R) (s : S) : ∀ es : List Event,
    (serialCopies f s es).state = s ∧ (serialCopies f s es).calls = (serialVoid (fun _ e => (s, (f s e).2)) s es).calls ∧
      (serialCopies f s es).results = (serialVoid (fun _ e => (s, (f s e).2)) s es).results := by
  intro es
  induction es with
  | nil => simp [serialCopies, serialVoid]
  | cons e es ih =>
    unfold serialCopies serialVoid
    obtain ⟨h1, h2, h3⟩ := ih
    rcases hf : (f s e).2 with x | r
    · simp
    · simp [h1, h2, h3]

theorem serialCopies_iff (f : S → Event → S × Except X R) (s : S) : ∀ {es : List Event} {rs : List R},
    (serialCopies f s es).results = .ok rs ↔ futures f s es = rs.map .ok := by
  intro es
  induction es with
  | nil => intro rs; cases rs <;> simp [serialCopies, futures]
  | cons e es ih =>
    intro rs
    unfold serialCopies
    rcases hf : (f s e).2 with x | r
    · cases rs <;> simp [futures, hf]
    · simp only []
      cases hq : (serialCopies f s es).results with
      | error x =>
        simp only [reduceCtorEq, false_iff]
        intro h
        cases rs with
        | nil => simp [futures] at h
        | cons r' rs =>
          have h2 : futures f s es = rs.map .ok := by simp [futures] at h ⊢; exact h.2
          have := (@ih rs).2 h2
          rw [hq] at this
          cases this
      | ok rs' =>
        have h2 := (@ih rs').1 hq
        cases rs with
        | nil => simp [futures]
        | cons r' rs =>
          simp only [futures, List.map_cons, hf, Except.ok.injEq, List.cons.injEq]
          simp only [futures] at h2
          rw [h2]
          constructor
          · rintro ⟨rfl, rfl⟩; exact ⟨rfl, rfl⟩
          · rintro ⟨rfl, h⟩
            refine ⟨rfl, ?_⟩
            clear h2 hq
            induction rs' generalizing rs with
            | nil => cases rs with
              | nil => rfl
              | cons a l => simp at h
            | cons a l ih2 => cases rs with
              | nil => simp at h
              | cons b l' =>
                simp only [List.map_cons, List.cons.injEq, Except.ok.injEq] at h
                rw [h.1, ih2 l' h.2]

end

end Verif.Graph
