import Verif.Spec.CommandLine

/-! The parser against the grammar. -/
namespace Verif.Cmd
open Verif.Spec

mutual
  /-- A tree of operations as a list of nodes, the root being node `n`. -/
  def flat (p : Option Nat) (n : Nat) : OpTree → List Op
    | .node e l args below => ⟨p, e, l, args⟩ :: flatL (some n) (n + 1) below
  def flatL (p : Option Nat) (n : Nat) : List OpTree → List Op
    | [] => []
    | t :: ts => flat p n t ++ flatL p (n + (flat p n t).length) ts
end

theorem flatL_append (p : Option Nat) (n : Nat) (xs ys : List OpTree) :
    flatL p n (xs ++ ys) = flatL p n xs ++ flatL p (n + (flatL p n xs).length) ys := by
  induction xs generalizing n with
  | nil => simp [flatL]
  | cons x xs ih => simp [flatL, ih, Nat.add_assoc]

theorem opsOf_append (xs ys : List Call) : opsOf (xs ++ ys) = opsOf xs ++ opsOf ys := by
  induction xs with
  | nil => simp [opsOf]
  | cons x xs ih => simp [opsOf, ih]

@[simp] theorem modLast_append (f : List Op → List Op) (pre : List (List Op)) (N : List Op) : modLast f (pre ++ [N]) = pre ++ [f N] := by
  induction pre with
  | nil => rfl
  | cons x xs ih =>
    cases xs with
    | nil => rfl
    | cons y ys => simp only [List.cons_append, modLast] at ih ⊢; rw [ih]

theorem argCount_append {pre : List (List Op)} {N : List Op} {h : Option (List OptTree)} {d : Data} :
    argCount ⟨pre ++ [N], h⟩ d = N[d.1]?.map fun op => op.args.length := by
  simp [argCount]

theorem findOption_eq (opts : List OptTree) (a : Str) :
    findOption opts a = opts.find? (fun t => decide (t.opt.name = a ∨ a ∈ t.opt.aliases)) := by
  unfold findOption
  congr 1
  funext t
  rw [Bool.decide_or]
  rfl

theorem findOption_none {opts : List OptTree} {a : Str} : findOption opts a = none ↔ Unknown opts a := by
  rw [findOption_eq]
  simp [Unknown]

theorem findOption_some {opts : List OptTree} {a : Str} {t : OptTree} : findOption opts a = some t ↔ Names opts a t := by
  rw [findOption_eq]; rfl

theorem findOption_mem {opts : List OptTree} {a : Str} {t : OptTree} (h : findOption opts a = some t) : t ∈ opts :=
  List.mem_of_find?_eq_some h

/-! ### Groups -/

theorem concatLoop_filter (opts : List OptTree) (data : Option Data) (top : Bool) (cs : List Char) (ops : List (List Op)) :
    concatLoop opts data top cs ops = concatLoop opts data top (cs.filter (· ≠ '-')) ops := by
  induction cs generalizing ops with
  | nil => rfl
  | cons c cs ih =>
    by_cases hc : c = '-'
    · simp only [concatLoop, hc, ne_eq, not_true_eq_false, if_false, ih]
      simp
    · simp only [concatLoop, ne_eq, hc, not_false_eq_true, if_true, List.filter_cons, decide_true]
      split
      · rfl
      · congr 1
        funext r
        simpa using ih r.2

theorem candidate_iff {a : Str} :
    Candidate a ↔ ¬ (a.length < 2 ∨ (a[0]? = some '-' ∧ (a[1]? = some ' ' ∨ a[1]? = some '-'))) := by
  unfold Candidate
  match a with
  | [] => simp
  | [x] => simp
  | x :: y :: r =>
    simp only [List.cons.injEq]
    constructor
    · rintro ⟨_, _, _, ⟨rfl, rfl, rfl⟩, h⟩; simpa using h
    · intro h; exact ⟨x, y, r, ⟨rfl, rfl, rfl⟩, by simpa using h⟩

theorem Dashed.candidate {a : Str} (h : Dashed a) : Candidate a := by
  obtain ⟨b, r, rfl, h1, h2⟩ := h
  exact ⟨'-', b, r, rfl, by simp [h1, h2]⟩

theorem processConcat_not {opts : List OptTree} {a : Str} {data : Option Data} {top : Bool} {ops : List (List Op)} (h : ¬ Candidate a) :
    processConcat opts a data top ops = .ok (false, ops) := by
  rw [candidate_iff, Classical.not_not] at h
  exact if_pos h

theorem processConcat_candidate {opts : List OptTree} {a : Str} {data : Option Data} {top : Bool} {ops : List (List Op)} (h : Candidate a) :
    processConcat opts a data top ops = concatLoop opts data top (letters a) ops := by
  rw [candidate_iff] at h
  unfold processConcat
  rw [if_neg h, concatLoop_filter]
  rfl

theorem letterOption_eq (opts : List OptTree) (c : Char) : letterOption opts c = opts.find? (isAlias · ['-', c]) := rfl

/-- The operations of the options of a group. -/
def leaves (ts : List OptTree) : List OpTree := (ts.filter OptTree.bound).map fun t => .node t.opt.early t.opt.late [] []

theorem concatLoop_cons {opts : List OptTree} {data : Option Data} {top : Bool} {c : Char} {cs : List Char} {ops : List (List Op)} (hc : c ≠ '-') :
    concatLoop opts data top (c :: cs) ops =
      match letterOption opts c with
      | none => .ok (false, ops)
      | some t => (processOption t data top ops).bind fun r => concatLoop opts data top cs r.2 := by
  rw [concatLoop, if_pos hc]; rfl

theorem letters_ne {a : Str} {c : Char} (h : c ∈ letters a) : c ≠ '-' := by
  unfold letters at h
  simp at h
  exact h.2

/-- All letters are aliases, below the top level. -/
theorem concatLoop_nested {opts : List OptTree} {d : Data} {pre : List (List Op)} : ∀ (cs : List Char) (ts : List OptTree) (N : List Op),
    (∀ c ∈ cs, c ≠ '-') → cs.map (letterOption opts) = ts.map some → d.1 < N.length →
    concatLoop opts (some d) false cs (pre ++ [N]) = .ok (true, pre ++ [N ++ flatL (some d.1) N.length (leaves ts)]) := by
  intro cs
  induction cs with
  | nil =>
    intro ts N _ ht _
    have : ts = [] := by simpa using ht.symm
    subst this
    simp [concatLoop, leaves, flatL]
  | cons c cs ih =>
    intro ts N hc ht hd
    match ts, ht with
    | t :: ts, ht =>
      simp only [List.map_cons, List.cons.injEq] at ht
      rw [concatLoop_cons (hc c List.mem_cons_self), ht.1]
      simp only [processOption, List.getLast?_append, List.getLast?_singleton, Option.some_or, Bool.false_eq_true, if_false]
      by_cases hb : t.bound = true
      · rw [if_pos hb]
        simp only [modLast_append, Res.bind]
        rw [ih ts _ (fun x hx => hc x (List.mem_cons_of_mem _ hx)) ht.2 (by simp; omega)]
        simp [leaves, List.filter_cons, hb, flatL, flat]
      · rw [if_neg hb, List.getElem?_eq_getElem hd]
        simp only [Res.bind]
        rw [ih ts _ (fun x hx => hc x (List.mem_cons_of_mem _ hx)) ht.2 hd]
        simp [leaves, List.filter_cons, hb]

theorem concatLoop_top {opts : List OptTree} {data : Option Data} : ∀ (cs : List Char) (ops : List (List Op)),
    (∀ c ∈ cs, c ≠ '-') →
    (∃ ts : List OptTree, cs.map (letterOption opts) = ts.map some ∧ (∀ t ∈ ts, t.bound = true) ∧
      concatLoop opts data true cs ops = .ok (true, ops ++ (leaves ts).map (flat none 0))) ∨
    ((¬ ∃ ts : List OptTree, cs.map (letterOption opts) = ts.map some ∧ ∀ t ∈ ts, t.bound = true) ∧
      (concatLoop opts data true cs ops = .throws ∨ ∃ ops', concatLoop opts data true cs ops = .ok (false, ops'))) := by
  intro cs
  induction cs with
  | nil => intro ops _; left; exact ⟨[], by simp [concatLoop, leaves]⟩
  | cons c cs ih =>
    intro ops hc
    rw [concatLoop_cons (hc c List.mem_cons_self)]
    cases hl : letterOption opts c with
    | none =>
      right
      refine ⟨?_, .inr ⟨ops, rfl⟩⟩
      rintro ⟨ts, h, _⟩
      cases ts <;> simp [hl] at h
    | some t =>
      by_cases hb : t.bound = true
      · simp only [processOption, hb, if_true, Res.bind]
        rcases ih (ops ++ [[⟨none, t.opt.early, t.opt.late, []⟩]]) fun x hx => hc x (List.mem_cons_of_mem _ hx) with
          ⟨ts, h1, h2, h3⟩ | ⟨h1, h2⟩
        · left
          refine ⟨t :: ts, by simp [hl, h1], ?_, ?_⟩
          · simpa [hb] using h2
          · rw [h3]; simp [leaves, hb, flat, flatL]
        · right
          refine ⟨?_, h2⟩
          rintro ⟨ts, h, h'⟩
          match ts, h with
          | t' :: ts, h =>
            simp only [List.map_cons, List.cons.injEq] at h
            exact h1 ⟨ts, h.2, fun x hx => h' x (List.mem_cons_of_mem _ hx)⟩
      · right
        refine ⟨?_, .inl ?_⟩
        · rintro ⟨ts, h, h'⟩
          match ts, h with
          | t' :: ts, h =>
            simp only [List.map_cons, List.cons.injEq, hl, Option.some.injEq] at h
            exact hb (h.1 ▸ h' t' List.mem_cons_self)
        · simp [processOption, hb, Res.bind]

/-! ### Arguments of an option -/

/-- Append arguments to those of node `i`. -/
def addArgs (N : List Op) (i : Nat) (xs : List Str) : List Op := N.modify i fun op => { op with args := op.args ++ xs }

@[simp] theorem length_addArgs (N : List Op) (i : Nat) (xs : List Str) : (addArgs N i xs).length = N.length := by simp [addArgs]

@[simp] theorem addArgs_nil (N : List Op) (i : Nat) : addArgs N i [] = N := by
  apply List.ext_getElem?
  intro j
  simp only [addArgs, List.getElem?_modify, List.append_nil]
  split <;> simp

theorem addArgs_addArgs (N : List Op) (i : Nat) (xs ys : List Str) : addArgs (addArgs N i xs) i ys = addArgs N i (xs ++ ys) := by
  apply List.ext_getElem?
  intro j
  simp only [addArgs, List.getElem?_modify]
  split <;> cases N[j]? <;> simp

theorem addArgs_append (N M : List Op) (i : Nat) (xs : List Str) (h : i < N.length) : addArgs (N ++ M) i xs = addArgs N i xs ++ M := by
  apply List.ext_getElem?
  intro j
  simp only [addArgs, List.getElem?_modify, List.getElem?_append, List.length_modify]
  by_cases hj : j < N.length
  · simp [hj]
  · have : i ≠ j := by omega
    simp [hj, this]

theorem addArgs_last (N : List Op) (p e l : Option Nat) (as xs : List Str) :
    addArgs (N ++ [⟨p, e, l, as⟩]) N.length xs = N ++ [⟨p, e, l, as ++ xs⟩] := by
  apply List.ext_getElem?
  intro j
  simp only [addArgs, List.getElem?_modify, List.getElem?_append]
  by_cases hj : j < N.length
  · have : N.length ≠ j := by omega
    simp [hj, this]
  · by_cases hj' : N.length = j
    · subst hj'; simp
    · have : j - N.length ≠ 0 := by omega
      simp [hj', hj, List.getElem?_cons, this]

theorem getElem?_addArgs {N : List Op} {i : Nat} {op : Op} (xs : List Str) (h : N[i]? = some op) :
    (addArgs N i xs)[i]? = some { op with args := op.args ++ xs } := by
  simp [addArgs, List.getElem?_modify, h]

theorem loop_nil (f : Nat) (opts : List OptTree) (prev : Option Data) (top : Bool) (cur : Option OptTree) (data : Option Data) (st : St) :
    loop f opts prev top cur data st [] = final cur data st := by cases f <;> rfl

/-- Collecting the arguments of an option: there are enough, or not. -/
theorem collect {opts : List OptTree} {prev : Option Data} {top : Bool} {t : OptTree} {pre : List (List Op)} {i s : Nat}
    {h : Option (List OptTree)} : ∀ (k f : Nat) (as : List Str) (N : List Op) (op : Op), as.length ≤ f → N[i]? = some op →
    op.args.length + k = t.opt.params.length + s →
    (as.length < k ∧ complete (loop f) opts prev top t (i, s) ⟨pre ++ [N], h⟩ as =
      if op.args.length + as.length ≠ t.opt.params.length then .throws else .ok (⟨pre ++ [addArgs N i as], h⟩, [])) ∨
    ∃ ps rest f', as = ps ++ rest ∧ ps.length = k ∧ rest.length ≤ f' ∧ f' ≤ f ∧
      complete (loop f) opts prev top t (i, s) ⟨pre ++ [N], h⟩ as =
        (enter (loop f') t.children (i, s) ⟨pre ++ [addArgs N i ps], h⟩ rest).bind fun r => loop f' opts prev top none prev r.1 r.2 := by
  intro k
  induction k with
  | zero =>
    intro f as N op hf hop hk
    right
    refine ⟨[], as, f, rfl, rfl, hf, Nat.le_refl _, ?_⟩
    unfold complete
    rw [argCount_append]
    simp only [hop, Option.map_some, addArgs_nil]
    rw [if_pos (by omega)]
  | succ k ih =>
    intro f as N op hf hop hk
    have hc : complete (loop f) opts prev top t (i, s) ⟨pre ++ [N], h⟩ as = loop f opts prev top (some t) (some (i, s)) ⟨pre ++ [N], h⟩ as := by
      unfold complete
      rw [argCount_append]
      simp only [hop, Option.map_some]
      rw [if_neg (by omega)]
    rw [hc]
    match as, f, hf with
    | [], f, hf =>
      left
      refine ⟨Nat.succ_pos k, ?_⟩
      rw [loop_nil]
      simp only [final, argCount_append, hop, Option.map_some, addArgs_nil, List.length_nil, Nat.add_zero]
      rw [if_neg (by simp)]
    | a :: as, f + 1, hf =>
      have hl : loop (f + 1) opts prev top (some t) (some (i, s)) ⟨pre ++ [N], h⟩ (a :: as) =
          complete (loop f) opts prev top t (i, s) ⟨pre ++ [addArgs N i [a]], h⟩ as := by
        show body (loop f) opts prev top (some t) (some (i, s)) _ a as = _
        simp only [body, argCount_append, hop, Option.map_some]
        rw [if_pos (by omega)]
        simp only [modLast_append]
        rfl
      rw [hl]
      rcases ih f as (addArgs N i [a]) _ (by simpa using hf) (getElem?_addArgs [a] hop) (by simp; omega) with
        ⟨h1, h2⟩ | ⟨ps, rest, f', h1, h2, h3, h4, h5⟩
      · left
        refine ⟨by simpa using h1, ?_⟩
        rw [h2]
        simp only [List.length_append, List.length_cons, List.length_nil, addArgs_addArgs, List.singleton_append]
        rw [show op.args.length + (0 + 1) + as.length = op.args.length + (as.length + 1) by omega]
      · right
        refine ⟨a :: ps, rest, f', by simp [h1], by simp [h2], h3, by omega, ?_⟩
        rw [h5, addArgs_addArgs]
        simp

/-! ### One word -/

theorem body_free (rec : Rec) (opts : List OptTree) (prev : Option Data) (top : Bool) (data : Option Data) (st : St) (a : Str) (as : List Str) :
    body rec opts prev top none data st a as =
      if a = [] then rec opts prev top none data st as
      else
        match findOption opts a with
        | none =>
          if a = "--help".toList then .ok ({ st with help := some opts }, as)
          else (processConcat opts a data top st.ops).bind fun r =>
            if r.1 then rec opts prev top none data { st with ops := r.2 } as
            else if top then .throws
            else .ok ({ st with ops := r.2 }, a :: as)
        | some t => (processOption t data top st.ops).bind fun r => complete rec opts prev top t r.1 { st with ops := r.2 } as := by
  cases data <;> rfl

theorem loop_blank {f : Nat} {opts : List OptTree} {prev data : Option Data} {top : Bool} {st : St} {as : List Str} :
    loop (f + 1) opts prev top none data st ([] :: as) = loop f opts prev top none data st as := by
  show body _ _ _ _ _ _ _ _ _ = _
  rw [body_free, if_pos rfl]

theorem loop_help {f : Nat} {opts : List OptTree} {prev data : Option Data} {top : Bool} {st : St} {as : List Str} (hu : Unknown opts "--help".toList) :
    loop (f + 1) opts prev top none data st ("--help".toList :: as) = .ok ({ st with help := some opts }, as) := by
  show body _ _ _ _ _ _ _ _ _ = _
  rw [body_free, if_neg (by decide), findOption_none.2 hu]
  simp

/-- A word which is not that of an option. -/
theorem loop_other {f : Nat} {opts : List OptTree} {prev data : Option Data} {top : Bool} {st : St} {a : Str} {as : List Str} (ha : a ≠ [])
    (hu : Unknown opts a) (hh : a ≠ "--help".toList) :
    loop (f + 1) opts prev top none data st (a :: as) = (processConcat opts a data top st.ops).bind fun r =>
      if r.1 then loop f opts prev top none data { st with ops := r.2 } as
      else if top then .throws else .ok ({ st with ops := r.2 }, a :: as) := by
  show body _ _ _ _ _ _ _ _ _ = _
  rw [body_free, if_neg ha, findOption_none.2 hu]
  simp only
  rw [if_neg hh]

/-- The word of an option with a function object, below the top level. -/
theorem loop_bound {f : Nat} {opts : List OptTree} {d : Data} {pre : List (List Op)} {N : List Op} {h : Option (List OptTree)} {a : Str}
    {as : List Str} {t : OptTree} (ha : a ≠ []) (ht : Names opts a t) (hb : t.bound = true) :
    loop (f + 1) opts (some d) false none (some d) ⟨pre ++ [N], h⟩ (a :: as) =
      complete (loop f) opts (some d) false t (N.length, 0) ⟨pre ++ [N ++ [⟨some d.1, t.opt.early, t.opt.late, []⟩]], h⟩ as := by
  show body _ _ _ _ _ _ _ _ _ = _
  rw [body_free, if_neg ha, findOption_some.2 ht]
  simp [processOption, hb, Res.bind]

/-- The word of an option without function object, below the top level. -/
theorem loop_unbound {f : Nat} {opts : List OptTree} {d : Data} {pre : List (List Op)} {N : List Op} {h : Option (List OptTree)} {a : Str}
    {as : List Str} {t : OptTree} {op : Op} (ha : a ≠ []) (ht : Names opts a t) (hb : t.bound = false) (hop : N[d.1]? = some op) :
    loop (f + 1) opts (some d) false none (some d) ⟨pre ++ [N], h⟩ (a :: as) =
      complete (loop f) opts (some d) false t (d.1, op.args.length) ⟨pre ++ [N], h⟩ as := by
  show body _ _ _ _ _ _ _ _ _ = _
  rw [body_free, if_neg ha, findOption_some.2 ht]
  simp [processOption, hb, Res.bind, hop]

/-- The word of an option at the top level. -/
theorem loop_top {f : Nat} {opts : List OptTree} {ops : List (List Op)} {h : Option (List OptTree)} {a : Str}
    {as : List Str} {t : OptTree} (ha : a ≠ []) (ht : Names opts a t) :
    loop (f + 1) opts none true none none ⟨ops, h⟩ (a :: as) =
      if t.bound then complete (loop f) opts none true t (0, 0) ⟨ops ++ [[⟨none, t.opt.early, t.opt.late, []⟩]], h⟩ as else .throws := by
  show body _ _ _ _ _ _ _ _ _ = _
  rw [body_free, if_neg ha, findOption_some.2 ht]
  by_cases hb : t.bound = true <;> simp [processOption, hb, Res.bind]

/-! ### Definedness -/

/-- What is known of the result without any assumption. -/
def Defd (pre : List (List Op)) (N : List Op) (h : Option (List OptTree)) (n : Nat) (r : Res (St × List Str)) : Prop :=
  r = .throws ∨ ∃ N' h' rest, r = .ok (⟨pre ++ [N'], h'⟩, rest) ∧ N.length ≤ N'.length ∧ rest.length ≤ n ∧ (h.isSome → h'.isSome)

theorem concatLoop_defd {opts : List OptTree} {d : Data} {pre : List (List Op)} : ∀ (cs : List Char) (N : List Op), d.1 < N.length →
    ∃ b N', concatLoop opts (some d) false cs (pre ++ [N]) = .ok (b, pre ++ [N']) ∧ N.length ≤ N'.length := by
  intro cs
  induction cs with
  | nil => intro N _; exact ⟨true, N, rfl, Nat.le_refl _⟩
  | cons c cs ih =>
    intro N hd
    by_cases hc : c = '-'
    · simp only [concatLoop, hc, ne_eq, not_true_eq_false, if_false]; exact ih N hd
    · rw [concatLoop_cons hc]
      cases letterOption opts c with
      | none => exact ⟨false, N, rfl, Nat.le_refl _⟩
      | some t =>
        simp only [processOption, List.getLast?_append, List.getLast?_singleton, Option.some_or, Bool.false_eq_true, if_false]
        by_cases hb : t.bound = true
        · rw [if_pos hb]
          simp only [modLast_append, Res.bind]
          obtain ⟨b, N', h1, h2⟩ := ih (N ++ [⟨some d.1, t.opt.early, t.opt.late, []⟩]) (by simp; omega)
          exact ⟨b, N', h1, by simp at h2; omega⟩
        · rw [if_neg hb, List.getElem?_eq_getElem hd]
          simp only [Res.bind]
          exact ih N hd

theorem enter_defd {f : Nat} {opts : List OptTree} {d : Data} {pre : List (List Op)} {N : List Op} {h : Option (List OptTree)} {as : List Str}
    (ih : Defd pre N h as.length (loop f opts (some d) false none (some d) ⟨pre ++ [N], h⟩ as)) :
    Defd pre N h as.length (enter (loop f) opts d ⟨pre ++ [N], h⟩ as) := by
  unfold enter
  split
  · exact .inr ⟨N, h, as, rfl, Nat.le_refl _, Nat.le_refl _, id⟩
  · exact ih

/-- ForestBelow the top level the parser throws, or leaves the trees before the last one as they are. -/
theorem nested_defd : ∀ (f : Nat) (opts : List OptTree) (d : Data) (pre : List (List Op)) (N : List Op) (h : Option (List OptTree)) (as : List Str),
    as.length ≤ f → d.1 < N.length → Defd pre N h as.length (loop f opts (some d) false none (some d) ⟨pre ++ [N], h⟩ as) := by
  intro f
  induction f using Nat.strongRecOn with
  | _ f ih =>
  intro opts d pre N h as hf hd
  match as, f, hf with
  | [], f, _ => rw [loop_nil]; exact .inr ⟨N, h, [], rfl, Nat.le_refl _, Nat.le_refl _, id⟩
  | a :: as, f + 1, hf =>
    have hf' : as.length ≤ f := by simpa using hf
    have cont : ∀ (N' : List Op) (h' : Option (List OptTree)) (rest : List Str) (f' : Nat), f' ≤ f → rest.length ≤ f' → rest.length ≤ as.length →
        N.length ≤ N'.length → (h.isSome → h'.isSome) →
        Defd pre N h (a :: as).length (loop f' opts (some d) false none (some d) ⟨pre ++ [N'], h'⟩ rest) := by
      intro N' h' rest f' h1 h2 h3 h4 h5
      rcases ih f' (by omega) opts d pre N' h' rest h2 (by omega) with h6 | ⟨N'', h'', r, h6, h7, h8, h9⟩
      · exact .inl h6
      · exact .inr ⟨N'', h'', r, h6, by omega, by simp; omega, fun x => h9 (h5 x)⟩
    have opt : ∀ (t : OptTree) (i s : Nat) (N' : List Op) (op : Op), N.length ≤ N'.length → N'[i]? = some op → op.args.length = s →
        Defd pre N h (a :: as).length (complete (loop f) opts (some d) false t (i, s) ⟨pre ++ [N'], h⟩ as) := by
      intro t i s N' op h1 h2 h3
      rcases collect (opts := opts) (prev := some d) (top := false) (t := t) (pre := pre) (i := i) (s := s) (h := h)
        t.opt.params.length f as N' op hf' h2 (by omega) with ⟨_, h4⟩ | ⟨ps, rest, f', h4, h5, h6, h7, h8⟩
      · rw [h4]
        split
        · exact .inl rfl
        · exact .inr ⟨_, h, [], rfl, by simpa using h1, by simp, id⟩
      · rw [h8]
        have hi : i < (addArgs N' i ps).length := by
          have := List.getElem?_eq_some_iff.1 h2
          simpa using this.1
        rcases enter_defd (ih f' (by omega) t.children (i, s) pre (addArgs N' i ps) h rest h6 hi) with h9 | ⟨N'', h'', r, h9, h10, h11, h12⟩
        · rw [h9]; exact .inl rfl
        · rw [h9]
          simp only [Res.bind]
          rw [length_addArgs] at h10
          refine cont N'' h'' r f' h7 (by omega) ?_ (by omega) h12
          rw [h4]; simp; omega
    by_cases ha : a = []
    · subst ha
      rw [loop_blank]
      exact cont N h as f (Nat.le_refl _) hf' (Nat.le_refl _) (Nat.le_refl _) id
    · cases hfo : findOption opts a with
      | none =>
        have hu := findOption_none.1 hfo
        by_cases hh : a = "--help".toList
        · subst hh
          rw [loop_help hu]
          exact .inr ⟨N, some opts, as, rfl, Nat.le_refl _, by simp, fun _ => rfl⟩
        · rw [loop_other ha hu hh]
          have hp : ∃ b N', processConcat opts a (some d) false (pre ++ [N]) = .ok (b, pre ++ [N']) ∧ N.length ≤ N'.length := by
            unfold processConcat
            split
            · exact ⟨false, N, rfl, Nat.le_refl _⟩
            · exact concatLoop_defd _ N hd
          obtain ⟨b, N', h1, h2⟩ := hp
          rw [h1]
          simp only [Res.bind, Bool.false_eq_true, if_false]
          split
          · exact cont N' h as f (Nat.le_refl _) hf' (Nat.le_refl _) h2 id
          · exact .inr ⟨N', h, a :: as, rfl, h2, Nat.le_refl _, id⟩
      | some t =>
        have ht := findOption_some.1 hfo
        by_cases hb : t.bound = true
        · rw [loop_bound ha ht hb]
          exact opt t N.length 0 _ ⟨some d.1, t.opt.early, t.opt.late, []⟩ (by simp) (by simp) rfl
        · have hop := List.getElem?_eq_getElem hd
          rw [loop_unbound ha ht (by simpa using hb) hop]
          exact opt t d.1 _ N _ (Nat.le_refl _) hop rfl

/-- At the top level. -/
theorem top_defd : ∀ (f : Nat) (opts : List OptTree) (ops : List (List Op)) (h : Option (List OptTree)) (as : List Str), as.length ≤ f →
    loop f opts none true none none ⟨ops, h⟩ as = .throws ∨
    ∃ ops' h' rest, loop f opts none true none none ⟨ops, h⟩ as = .ok (⟨ops', h'⟩, rest) ∧ (h.isSome → h'.isSome) := by
  intro f
  induction f using Nat.strongRecOn with
  | _ f ih =>
  intro opts ops h as hf
  match as, f, hf with
  | [], f, _ => rw [loop_nil]; exact .inr ⟨ops, h, [], rfl, id⟩
  | a :: as, f + 1, hf =>
    have hf' : as.length ≤ f := by simpa using hf
    by_cases ha : a = []
    · subst ha
      rw [loop_blank]
      exact ih f (by omega) opts ops h as hf'
    · cases hfo : findOption opts a with
      | none =>
        have hu := findOption_none.1 hfo
        by_cases hh : a = "--help".toList
        · subst hh
          rw [loop_help hu]
          exact .inr ⟨ops, some opts, as, rfl, fun _ => rfl⟩
        · rw [loop_other ha hu hh]
          by_cases hg : Candidate a
          · rw [processConcat_candidate hg]
            rcases concatLoop_top (opts := opts) (data := none) (letters a) ops fun c hc => letters_ne hc with
              ⟨ts, _, _, h3⟩ | ⟨_, h2 | ⟨ops', h2⟩⟩
            · rw [h3]
              simp only [Res.bind, if_true]
              exact ih f (by omega) opts _ h as hf'
            · rw [h2]; exact .inl rfl
            · rw [h2]; exact .inl rfl
          · rw [processConcat_not hg]; exact .inl rfl
      | some t =>
        have ht := findOption_some.1 hfo
        rw [loop_top ha ht]
        split
        · rcases collect (opts := opts) (prev := none) (top := true) (t := t) (pre := ops) (i := 0) (s := 0) (h := h)
            t.opt.params.length f as [⟨none, t.opt.early, t.opt.late, []⟩] _ hf' rfl (by simp) with ⟨_, h4⟩ | ⟨ps, rest, f', h4, h5, h6, h7, h8⟩
          · rw [h4]
            split
            · exact .inl rfl
            · exact .inr ⟨_, h, [], rfl, id⟩
          · rw [h8]
            rcases enter_defd (nested_defd f' t.children (0, 0) ops (addArgs [⟨none, t.opt.early, t.opt.late, []⟩] 0 ps) h rest h6 (by simp)) with
              h9 | ⟨N'', h'', r, h9, h10, h11, h12⟩
            · rw [h9]; exact .inl rfl
            · rw [h9]
              simp only [Res.bind]
              rcases ih f' (by omega) opts (ops ++ [N'']) h'' r (by omega) with h13 | ⟨o, h', r', h13, h14⟩
              · exact .inl h13
              · exact .inr ⟨o, h', r', h13, fun x => h14 (h12 x)⟩
        · exact .inl rfl

end Verif.Cmd
