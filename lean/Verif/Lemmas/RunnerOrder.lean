import Verif.Lemmas.RunnerLines

set_option linter.unusedSimpArgs false
set_option linter.unusedVariables false
set_option linter.unnecessarySeqFocus false
set_option linter.unusedTactic false
set_option linter.unreachableTactic false

/-! Lemmas about the order of the options of the test runner. -/
namespace Verif.RunnerArgs
open Verif.Cmd Verif.Suites Verif.Spec Verif.Spec.RunnerArgs

/-- A function object which creates nothing only throws because of its arguments. -/
theorem invoke_accepts {w : World} {f : Fn} (ho : w.outputDir = true ∨ (f ≠ .recover ∧ f ≠ .dump)) (hf : f ∉ creating) {args : List Str} (hn : Numeric (f.code, args)) (r : Runner) :
    invoke w f args r = .ub ∨ ∃ r', invoke w f args r = .ret r' () := by
  cases f
  case locate =>
    obtain ⟨n, hs, h2⟩ := hn.1 rfl
    cases args with
    | nil => cases hs
    | cons a args =>
      have hs : stoi a = some n := hs
      right
      simp only [invoke, withFront, hs]
      rw [if_neg (by omega)]
      exact ⟨_, rfl⟩
  case runnerId =>
    obtain ⟨n, hs⟩ := hn.2.1 rfl
    cases args with
    | nil => cases hs
    | cons a args =>
      have hs : stoi a = some n := hs
      right
      simp only [invoke, withFront, hs]
      exact ⟨_, rfl⟩
  case pool =>
    obtain ⟨n, hs⟩ := hn.2.2 rfl
    cases args with
    | nil => cases hs
    | cons a args =>
      have hs : stoi a = some n := hs
      right
      simp only [invoke, withFront, hs]
      split <;> exact ⟨_, rfl⟩
  case recover | dump =>
    right
    have ho : w.outputDir = true := by
      rcases ho with ho | ho
      · exact ho
      · simp at ho
    simp only [invoke, clearRecovery, ho, if_true]
    by_cases hd : r.recoveryDir = true
    · simp [hd]
    · simp [hd]
  case test | select | cutoff =>
    cases args with
    | nil => exact .inl rfl
    | cons a args => exact .inr ⟨_, rfl⟩
  case prune | createEarly | update | sandbox | serial | verbose => exact .inr ⟨_, rfl⟩
  all_goals exact absurd (by decide) hf

theorem invokeAll_accepts {w : World} {invs : Invs} (ho : w.outputDir = true ∨ ¬ Recovering invs) (hf : ∀ i ∈ invs, ∀ f ∈ creating, i.1 ≠ f.code) (hn : ∀ i ∈ invs, Numeric i) (r : Runner) :
    invokeAll w invs r = .ub ∨ ∃ r', invokeAll w invs r = .ret r' () := by
  induction invs generalizing r with
  | nil => exact .inr ⟨r, rfl⟩
  | cons i l ih =>
    obtain ⟨n, args⟩ := i
    simp only [invokeAll]
    cases h : Fn.ofCode n with
    | none => exact .inl rfl
    | some f =>
      obtain rfl := code_of h
      dsimp only
      have hof : w.outputDir = true ∨ (f ≠ .recover ∧ f ≠ .dump) := by
        rcases ho with ho | ho
        · exact .inl ho
        · exact .inr ⟨fun e => ho (.inl ⟨args, by simp [e]⟩), fun e => ho (.inr ⟨args, by simp [e]⟩)⟩
      have hol : w.outputDir = true ∨ ¬ Recovering l := by
        rcases ho with ho | ho
        · exact .inl ho
        · refine .inr fun h => ho ?_
          rcases h with ⟨a, ha⟩ | ⟨a, ha⟩
          · exact .inl ⟨a, by simp [ha]⟩
          · exact .inr ⟨a, by simp [ha]⟩
      rcases invoke_accepts hof (fun hc => hf (f.code, args) (by simp) f hc rfl) (hn (f.code, args) (by simp)) r with h1 | ⟨r', h1⟩
      · rw [h1]; exact .inl rfl
      · rw [h1]; exact ih hol (fun i hi => hf i (by simp [hi])) (fun i hi => hn i (by simp [hi])) r'

/-- The function objects which create nothing leave new tests and projects alone. -/
theorem quiet {w : World} {f : Fn} (hf : f ∉ creating) {args : List Str} {r r' : Runner} (h : invoke w f args r = .ret r' ()) :
    r'.nascent = r.nascent ∧ r'.projects = r.projects ∧ r'.create = r.create := by
  cases f
  case recover | dump =>
    simp only [invoke, clearRecovery] at h
    by_cases hd : r.recoveryDir = true
    · rw [if_pos hd] at h; cases h; exact ⟨rfl, rfl, rfl⟩
    · by_cases ho : w.outputDir = true
      · rw [if_neg hd, if_pos ho] at h; cases h; exact ⟨rfl, rfl, rfl⟩
      · rw [if_neg hd, if_neg ho] at h; cases h
  case test | select | cutoff =>
    cases args with
    | nil => cases h
    | cons a args => cases h; exact ⟨rfl, rfl, rfl⟩
  case prune | createEarly | update | sandbox | serial | verbose => cases h; exact ⟨rfl, rfl, rfl⟩
  case locate | runnerId | pool =>
    simp only [invoke, withFront] at h
    repeat' split at h
    all_goals first
      | (cases h; done)
      | (cases h; exact ⟨rfl, rfl, rfl⟩)
  all_goals exact absurd (by decide) hf

/-- The function objects for instabilities. -/
def isLocating (i : Nat × List Str) : Bool := i.1 = Fn.locate.code || i.1 = Fn.sandbox.code || i.1 = Fn.runnerId.code

/-- What they do. -/
def locStep (s : Instab × Nat × Nat) (i : Nat × List Str) : Instab × Nat × Nat :=
  if i.1 = Fn.locate.code then (.single, ((i.2.head?.bind stoi).map Int.toNat).getD s.2.1, s.2.2)
  else if i.1 = Fn.sandbox.code then (.coordinator, s.2.1, s.2.2)
  else if i.1 = Fn.runnerId.code then (.sandbox, s.2.1, ((i.2.head?.bind stoi).map toSize).getD s.2.2)
  else s

/-- The rest of the state after a list of function objects. -/
structure Rest (invs : Invs) (r : Runner) : Prop where
  cutoff : r.cutoff = (firsts invs .cutoff).foldl (fun _ c => c) []
  locating : (r.instab, r.reps, r.id) = (invs.filter isLocating).foldl locStep (.none, 1, 0)
  pool : r.pool = ((invs.filterMap choice).filterMap id).foldl (fun _ c => c) 8
  quiet : (∀ i ∈ invs, ∀ f ∈ creating, i.1 ≠ f.code) → r.nascent = [] ∧ r.projects = [] ∧ r.create = false

theorem rest {w : World} {d : Bool} (invs : Invs) : ∀ {r : Runner} {u : Unit}, invokeAll w invs (start d) = .ret r u → Rest invs r := by
  induction invs using List.reverseRecOn with
  | nil =>
    intro r u h
    simp only [invokeAll] at h
    cases h
    constructor <;> simp [start, firsts]
  | append_singleton l i ih =>
    intro r u h
    obtain ⟨n, args⟩ := i
    obtain ⟨r1, f, h1, rfl, h2⟩ := invokeAll_concat h
    have A := ih h1
    have S := step h2
    constructor
    · rw [S.cutoff, firsts_concat]
      split
      · rw [A.cutoff]; cases args <;> simp
      · exact A.cutoff
    · have hl : isLocating (f.code, args) = true ↔ f = .locate ∨ f = .sandbox ∨ f = .runnerId := by
        unfold isLocating
        simp only [Bool.or_eq_true, decide_eq_true_eq]
        constructor
        · rintro ((h | h) | h)
          · exact .inl (code_inj h)
          · exact .inr (.inl (code_inj h))
          · exact .inr (.inr (code_inj h))
        · rintro (rfl | rfl | rfl) <;> simp
      rw [List.filter_append, S.instab, S.reps, S.id]
      have hA := A.locating
      have hc : ∀ g : Fn, (f.code = g.code) = (f = g) := fun g => propext ⟨code_inj, fun e => by rw [e]⟩
      by_cases hf : f = .locate ∨ f = .sandbox ∨ f = .runnerId
      · simp only [List.filter_cons, hl.2 hf, if_true, List.filter_nil, List.foldl_append, List.foldl_cons, List.foldl_nil, ← hA, locStep, hc]
        rcases hf with rfl | rfl | rfl <;> simp
      · have : isLocating (f.code, args) = false := by cases h : isLocating (f.code, args); rfl; exact absurd (hl.1 h) hf
        simp only [List.filter_cons, this, List.filter_nil, List.append_nil, ← hA, Bool.false_eq_true, if_false]
        have h1 : f ≠ .locate := fun e => hf (.inl e)
        have h2 : f ≠ .sandbox := fun e => hf (.inr (.inl e))
        have h3 : f ≠ .runnerId := fun e => hf (.inr (.inr e))
        simp [h1, h2, h3]
    · rw [S.pool, A.pool, List.filterMap_append]
      cases hch : choice (f.code, args) with
      | none => simp [List.filterMap_cons, hch]
      | some c => cases c <;> simp [List.filterMap_cons, hch]
    · intro hq
      obtain ⟨q1, q2, q3⟩ := A.quiet fun i hi => hq i (by simp [hi])
      obtain ⟨p1, p2, p3⟩ := RunnerArgs.quiet (f := f) (fun hc => hq (f.code, args) (by simp) f hc rfl) h2
      exact ⟨p1.trans q1, p2.trans q2, p3.trans q3⟩

/-- If at most one of the blocks is not empty then their order does not matter. -/
theorem flatten_perm {α : Type} {l l' : List (List α)} (h : l.Perm l') (h1 : (l.filter (fun b => !b.isEmpty)).length ≤ 1) : l.flatten = l'.flatten := by
  have key : ∀ l : List (List α), l.flatten = (l.filter (fun b => !b.isEmpty)).flatten := by
    intro l
    induction l with
    | nil => rfl
    | cons b l ih => cases b <;> simp [List.filter_cons, ih]
  have hp := h.filter (fun b => !b.isEmpty)
  rw [key l, key l']
  generalize l.filter (fun b => !b.isEmpty) = m at hp h1
  generalize l'.filter (fun b => !b.isEmpty) = m' at hp
  match m, h1 with
  | [], _ => rw [List.nil_perm.1 hp]
  | [b], _ => rw [List.singleton_perm.1 hp]

/-- What is invoked, call by call. -/
theorem run_blocks (cs : List Call) : runAll (opsOf cs) = (cs.map fun c => runAll c.ops).flatten := by
  induction cs with
  | nil => rfl
  | cons c cs ih => rw [run_cons, ih, List.map_cons, List.flatten_cons]

theorem run_perm {cs cs' : List Call} (h : cs.Perm cs') : (runAll (opsOf cs)).Perm (runAll (opsOf cs')) := by
  rw [run_blocks, run_blocks]
  exact (h.map _).flatten

theorem filterMap_blocks {β : Type} (g : Nat × List Str → Option β) {cs cs' : List Call} (h : cs.Perm cs') (p : Call → Bool)
    (hp : ∀ c ∈ cs, p c = false → (runAll c.ops).filterMap g = []) (h1 : cs.countP p ≤ 1) :
    (runAll (opsOf cs)).filterMap g = (runAll (opsOf cs')).filterMap g := by
  rw [run_blocks, run_blocks, List.filterMap_flatten, List.filterMap_flatten, List.map_map, List.map_map]
  refine flatten_perm (h.map _) ?_
  rw [List.filter_map, List.length_map, ← List.countP_eq_length_filter]
  refine Nat.le_trans ?_ h1
  refine List.countP_mono_left fun c hc hb => ?_
  cases hpc : p c with
  | true => rfl
  | false => simp [hp c hc hpc] at hb

theorem stoi_lt {a : Str} {i : Int} (h : stoi a = some i) : i < 2 ^ 31 := by
  unfold stoi at h
  dsimp only at h
  split at h
  · cases h
  · generalize (if (signed (List.dropWhile FailureInfo.isSpace a)).1 = true then _ else _ : Int) = j at h
    by_cases hb : -2 ^ 31 ≤ j ∧ j < 2 ^ 31
    · rw [if_pos hb] at h
      cases h
      exact hb.2
    · rw [if_neg hb] at h
      cases h

/-- The numbers after a list of function objects. -/
structure Numbers (invs : Invs) (r : Runner) : Prop where
  cutoff : r.cutoff = match (firsts invs .cutoff).getLast? with | none => [] | some c => c
  reps : match (firsts invs .locate).getLast? with | none => r.reps = 1 | some a => stoi a = some (r.reps : Int) ∧ 2 ≤ r.reps
  id : match (firsts invs .runnerId).getLast? with | none => r.id = 0 | some a => ∃ n, stoi a = some n ∧ r.id = (n % 2 ^ 64).toNat
  pool : match ((invs.filterMap choice).filterMap _root_.id).getLast? with | none => r.pool = 8 | some n => r.pool = n
  poolLt : r.pool < 2 ^ 31 ∧ 0 < r.pool

theorem choice_lt {i : Nat × List Str} {n : Nat} (h : choice i = some (some n)) : n < 2 ^ 31 ∧ 0 < n := by
  unfold choice at h
  repeat' split at h
  all_goals try (cases h; done)
  rename_i m hm hp
  simp only [Option.some.injEq] at h
  cases hh : i.2.head? with
  | none => rw [hh] at hm; cases hm
  | some a =>
    rw [hh] at hm
    have := stoi_lt (a := a) hm
    omega

theorem numbers {w : World} {d : Bool} (invs : Invs) : ∀ {r : Runner} {u : Unit}, invokeAll w invs (start d) = .ret r u → Numbers invs r := by
  induction invs using List.reverseRecOn with
  | nil =>
    intro r u h
    simp only [invokeAll] at h
    cases h
    constructor <;> simp [start, firsts]
  | append_singleton l i ih =>
    intro r u h
    obtain ⟨n, args⟩ := i
    obtain ⟨r1, f, h1, rfl, h2⟩ := invokeAll_concat h
    have A := ih h1
    have S := step h2
    constructor
    · rw [S.cutoff, firsts_concat]
      split
      · cases args with
        | nil => simpa using A.cutoff
        | cons a args => simp
      · exact A.cutoff
    · rw [S.reps, firsts_concat]
      by_cases hf : f = .locate
      · subst hf
        obtain ⟨n, hs, hn⟩ := S.numeric.1 rfl
        cases args with
        | nil => cases hs
        | cons a args =>
          have hs : stoi a = some n := hs
          simp only [if_true, List.head?_cons, Option.toList_some, List.getLast?_append_of_ne_nil, ne_eq, reduceCtorEq, not_false_eq_true, List.getLast?_singleton, Option.bind_some, hs, Option.map_some, Option.getD_some]
          exact ⟨by rw [Int.toNat_of_nonneg (by omega)], by omega⟩
      · rw [if_neg hf, if_neg hf]
        exact A.reps
    · rw [S.id, firsts_concat]
      by_cases hf : f = .runnerId
      · subst hf
        obtain ⟨n, hs⟩ := S.numeric.2.1 rfl
        cases args with
        | nil => cases hs
        | cons a args =>
          have hs : stoi a = some n := hs
          simp only [if_true, List.head?_cons, Option.toList_some, List.getLast?_append_of_ne_nil, ne_eq, reduceCtorEq, not_false_eq_true, List.getLast?_singleton, Option.bind_some, hs, Option.map_some, Option.getD_some]
          exact ⟨n, rfl, rfl⟩
      · rw [if_neg hf, if_neg hf]
        exact A.id
    · rw [S.pool, List.filterMap_append]
      have := A.pool
      cases hch : choice (f.code, args) with
      | none => simpa [List.filterMap_cons, hch] using this
      | some c =>
        cases c with
        | none => simpa [List.filterMap_cons, hch] using this
        | some n => simp [List.filterMap_cons, hch]
    · rw [S.pool]
      cases hch : choice (f.code, args) with
      | none => exact A.poolLt
      | some c =>
        cases c with
        | none => exact A.poolLt
        | some n => exact choice_lt hch

theorem verbose_only : ∀ t ∈ forest, (∃ c, ['-', c] ∈ t.opt.aliases) → t = leaf "--verbose" ["-v"] [] .verbose := by
  intro t ht
  simp only [forest, List.mem_cons, List.not_mem_nil, or_false] at ht
  rcases ht with rfl | rfl | rfl | rfl | rfl | rfl | rfl | rfl | rfl | rfl | rfl | rfl
  all_goals first
    | (intro _; rfl)
    | (rintro ⟨c, hc⟩; simp [leaf, opt, OptTree.opt] at hc; done)
    | (rintro ⟨c, hc⟩; simp [leaf, opt, OptTree.opt] at hc; have := congrArg List.length hc; simp at this)

/-- The function objects which a call on the top level may invoke. -/
theorem block_codes {cs : List Call} (h : CallsOf forest cs) : ∀ c ∈ cs, ∀ i ∈ runAll c.ops,
    (∃ w t args subs, c = .one w t args subs ∧ t ∈ forest ∧ i.1 ∈ codes t) ∨ i.1 = Fn.verbose.code := by
  generalize hF : forest = F at h
  induction h with
  | nil => intro c hc; cases hc
  | @one F w' t args subs cs ht hargs hs h ih1 ih2 =>
    subst hF
    intro c hc i hi
    rcases List.mem_cons.1 hc with rfl | hc
    · have hl := run_arity (F := [t]) (CallsOf.one (w := w') (args := args) (cs := []) (by simp) hargs hs .nil) (by simpa using forest_good t ht)
      rw [run_cons] at hl
      simp only [opsOf, runAll, List.append_nil] at hl
      have := (hl i hi).1
      exact .inl ⟨_, _, _, _, rfl, ht, by simpa [codesAll] using this⟩
    · exact ih2 rfl c hc i hi
  | @group F w' ts cs hts h ih =>
    subst hF
    intro c hc i hi
    rcases List.mem_cons.1 hc with rfl | hc
    · rw [run_group w' fun t ht => forest_good t (hts t ht).1] at hi
      obtain ⟨t, ht, hi⟩ := List.mem_flatMap.1 hi
      obtain rfl := verbose_only t (hts t ht).1 (hts t ht).2.2
      simp [leaf, opt, OptTree.opt, invocation] at hi
      exact .inr (by rw [hi])
    · exact ih rfl c hc i hi

/-- The function objects of the options on the top level which are not named. -/
theorem not_is {names : List String} {fs : List Fn} (hd : ∀ t ∈ forest, (names.any fun n => n.toList = t.opt.name) = false → ∀ f ∈ fs, f.code ∉ codes t) (hv : Fn.verbose ∉ fs)
    {cs : List Call} (h : CallsOf forest cs) : ∀ c ∈ cs, Is names c = false → ∀ i ∈ runAll c.ops, ∀ f ∈ fs, i.1 ≠ f.code := by
  intro c hc hn i hi f hf he
  rcases block_codes h c hc i hi with ⟨w, t, args, subs, rfl, ht, hm⟩ | hm
  · exact hd t ht hn f hf (he ▸ hm)
  · exact hv (code_inj (hm.symm.trans he) ▸ hf)

theorem forest_cases {P : OptTree → Prop} (h : ∀ n : Fin 12, P (forest[n]'(by have := n.2; simpa [forest] using this))) : ∀ t ∈ forest, P t := by
  intro t ht
  obtain ⟨n, hn, rfl⟩ := List.mem_iff_getElem.1 ht
  exact h ⟨n, by simpa [forest] using hn⟩

theorem unchanged (r1 r2 : Runner) (h2 : consistency (defaultMode r1) = .ret r2 ()) : r2.cutoff = r1.cutoff ∧ (r2.instab, r2.reps, r2.id) = (r1.instab, r1.reps, r1.id) ∧ r2.pool = r1.pool ∧
    r2.nascent = r1.nascent ∧ r2.projects = r1.projects ∧ r2.create = r1.create ∧ r2.init = r1.init := by
  have h1 : ∀ r r' : Runner, consistency r = .ret r' () → r'.cutoff = r.cutoff ∧ (r'.instab, r'.reps, r'.id) = (r.instab, r.reps, r.id) ∧ r'.pool = r.pool ∧
      r'.nascent = r.nascent ∧ r'.projects = r.projects ∧ r'.create = r.create ∧ r'.init = r.init := by
    intro r r' h
    unfold consistency at h
    dsimp only at h
    repeat' split at h
    all_goals first
      | (cases h; done)
      | (cases h; exact ⟨rfl, rfl, rfl, rfl, rfl, rfl, rfl⟩)
  have h3 := h1 _ _ h2
  unfold defaultMode at h3
  split at h3 <;> exact h3

/-- What remains of the state after a command line which creates nothing. -/
theorem final {w : World} {d : Bool} {args : List Str} {invs : Invs} {r : Runner} (hp : parseInvoke forest args = .ok (none, invs)) (h : processArgs w (start d) args = .ret r false)
    (hq : ∀ i ∈ invs, ∀ f ∈ creating, i.1 ≠ f.code) :
    r.cutoff = (firsts invs .cutoff).foldl (fun _ c => c) [] ∧ (r.instab, r.reps, r.id) = (invs.filter isLocating).foldl locStep (.none, 1, 0) ∧
    r.pool = ((invs.filterMap choice).filterMap id).foldl (fun _ c => c) 8 ∧ r.nascent = [] ∧ r.projects = [] ∧ r.create = false ∧ r.init = false := by
  unfold processArgs at h
  rw [hp] at h
  dsimp only at h
  cases h1 : invokeAll w invs (start d) with
  | threw => rw [h1] at h; cases h
  | ub => rw [h1] at h; cases h
  | ret r1 u =>
    rw [h1] at h
    dsimp only at h
    have R := rest invs h1
    have A := after invs h1
    have hinit : r1.init = false := by
      cases hri : r1.init
      · rfl
      · obtain ⟨a, ha⟩ := A.init.1 hri
        exact absurd rfl (hq _ ha .init (by decide))
    obtain ⟨q1, q2, q3⟩ := R.quiet hq
    have hR := R.locating
    cases hcs : consistency (defaultMode r1) with
    | threw => rw [hcs] at h; cases h
    | ub => rw [hcs] at h; cases h
    | ret r2 u =>
      rw [hcs] at h
      cases h
      obtain ⟨k1, k2, k3, k4, k5, k6, k7⟩ := unchanged _ _ hcs
      exact ⟨k1.trans R.cutoff, k2.trans hR, k3.trans R.pool, k4.trans q1, k5.trans q2, k6.trans q3, k7.trans hinit⟩

end Verif.RunnerArgs
