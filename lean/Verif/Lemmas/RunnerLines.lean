import Verif.Lemmas.RunnerArgs
import Verif.Props.CommandLine

set_option linter.unusedSimpArgs false
set_option linter.unusedVariables false
set_option linter.unnecessarySeqFocus false
set_option linter.unusedTactic false
set_option linter.unreachableTactic false

/-! Lemmas about the calls of a command line of the test runner. -/
namespace Verif.RunnerArgs
open Verif.Cmd Verif.Suites Verif.Spec Verif.Spec.RunnerArgs

/-- The calls which a line may have. -/
inductive CallsOf : List OptTree → List Call → Prop where
  | nil {F : List OptTree} : CallsOf F []
  | one {F : List OptTree} {w : Str} {t : OptTree} {args : List Str} {subs cs : List Call} (ht : t ∈ F) (hargs : args.length = t.opt.params.length)
      (hs : CallsOf t.children subs) (h : CallsOf F cs) : CallsOf F (.one w t args subs :: cs)
  | group {F : List OptTree} {w : Str} {ts : List OptTree} {cs : List Call} (hts : ∀ t ∈ ts, t ∈ F ∧ t.opt.params = [] ∧ ∃ c, ['-', c] ∈ t.opt.aliases) (h : CallsOf F cs) :
      CallsOf F (.group w ts :: cs)

theorem letterOption_mem {F : List OptTree} {c : Char} {t : OptTree} (h : letterOption F c = some t) : t ∈ F ∧ ['-', c] ∈ t.opt.aliases := by
  unfold letterOption at h
  refine ⟨List.mem_of_find?_eq_some h, ?_⟩
  have := List.find?_some h
  simpa using this

theorem callsOf {top : Bool} {F : List OptTree} {ws left : List Str} {cs : List Call} (h : Line top F ws cs left) : CallsOf F cs := by
  induction h with
  | stop => exact .nil
  | blank _ _ ih => exact ih
  | one hw ht hb hargs _ _ ih1 ih2 => exact .one (List.mem_of_find?_eq_some ht) hargs ih1 ih2
  | @group _ opts word _ _ _ _ hu hh hg hb _ ih =>
    refine .group (fun t ht => ?_) ih
    obtain ⟨_, _, hm, hp⟩ := hg
    have : some t ∈ (letters word).map (letterOption opts) := by rw [hm]; exact List.mem_map.2 ⟨t, ht, rfl⟩
    obtain ⟨c, _, hc⟩ := List.mem_map.1 this
    exact ⟨(letterOption_mem hc).1, hp t ht, c, (letterOption_mem hc).2⟩

/-- How many arguments a function object needs. -/
def arity : Fn → Nat
  | .test | .select | .cutoff | .regularAlloc | .moveOnlyAlloc | .free | .performance | .suite | .header | .forename | .genFree | .genSemantics | .toFiles | .locate
  | .runnerId | .pool => 1
  | .regular | .moveOnly => 2
  | .init => 3
  | _ => 0

/-- An option of the runner: its function objects need as many arguments as it has parameters. -/
inductive Good : OptTree → Prop where
  | early {name : Str} {aliases params : List Str} {f : Fn} {kids : List OptTree} (h : params.length = arity f) (hk : ∀ c ∈ kids, Good c) :
      Good (.node ⟨name, aliases, params, some f.code, none⟩ kids)
  | both {name : Str} {aliases params : List Str} {f g : Fn} {kids : List OptTree} (h : params.length = arity f) (hg : params.length = arity g) (hk : ∀ c ∈ kids, Good c) :
      Good (.node ⟨name, aliases, params, some f.code, some g.code⟩ kids)

theorem Good.bound {t : OptTree} (h : Good t) : t.bound = true := by cases h <;> rfl

theorem Good.kids {t : OptTree} (h : Good t) : ∀ c ∈ t.children, Good c := by cases h <;> assumption

theorem good_leaf {name : String} {aliases params : List String} {f : Fn} (h : params.length = arity f) : Good (leaf name aliases params f) :=
  .early (by simpa using h) (by simp)

theorem forest_good : ∀ t ∈ forest, Good t := by
  intro t ht
  simp only [forest, List.mem_cons, List.not_mem_nil, or_false] at ht
  rcases ht with rfl | rfl | rfl | rfl | rfl | rfl | rfl | rfl | rfl | rfl | rfl | rfl
  case inr.inr.inr.inl =>
    refine .both (f := .createEarly) (g := .createLate) rfl rfl fun c hc => ?_
    simp only [createOptions, List.mem_cons, List.not_mem_nil, or_false] at hc
    rcases hc with rfl | rfl | rfl | rfl | rfl | rfl <;> refine .early rfl fun c hc => ?_ <;>
      simp only [semanticsOptions, allocationOptions, freeOptions, performanceOptions, List.mem_cons, List.not_mem_nil, or_false] at hc
    · rcases hc with rfl | rfl | rfl <;> exact good_leaf rfl
    · rcases hc with rfl | rfl | rfl <;> exact good_leaf rfl
    · rcases hc with rfl | rfl <;> exact good_leaf rfl
    · rcases hc with rfl | rfl <;> exact good_leaf rfl
    · rcases hc with rfl | rfl | rfl | rfl <;> exact good_leaf rfl
    · rcases hc with rfl; exact good_leaf rfl
  case inr.inr.inl =>
    refine .early rfl fun c hc => ?_
    simp at hc
    subst hc
    exact good_leaf rfl
  case inr.inr.inr.inr.inl =>
    refine .early rfl fun c hc => ?_
    simp at hc
    rcases hc with rfl | rfl | rfl | rfl <;> exact good_leaf rfl
  case inr.inr.inr.inr.inr.inr.inl =>
    refine .early rfl fun c hc => ?_
    simp at hc
    rcases hc with rfl | rfl <;> exact good_leaf rfl
  all_goals exact good_leaf rfl

mutual
/-- The numbers of the function objects of an option and of those below it. -/
def codes : OptTree → List Nat
  | .node o cs => o.early.toList ++ o.late.toList ++ codesAll cs
def codesAll : List OptTree → List Nat
  | [] => []
  | t :: ts => codes t ++ codesAll ts
end

theorem codesAll_mem {F : List OptTree} {t : OptTree} (h : t ∈ F) : ∀ n ∈ codes t, n ∈ codesAll F := by
  intro n hn
  induction F with
  | nil => cases h
  | cons u F ih =>
    simp only [codesAll, List.mem_append]
    rcases List.mem_cons.1 h with rfl | h
    · exact .inl hn
    · exact .inr (ih h)

theorem codes_kids (t : OptTree) : ∀ n ∈ codesAll t.children, n ∈ codes t := by
  intro n hn
  cases t
  simp only [OptTree.children] at hn
  simp [codes, hn]

theorem runAll_append (a b : List OpTree) : runAll (a ++ b) = runAll a ++ runAll b := by
  induction a with
  | nil => rfl
  | cons t a ih => simp [runAll, ih]

theorem extra_nil {F : List OptTree} {cs : List Call} (h : CallsOf F cs) (hg : ∀ t ∈ F, Good t) : extraOf cs = [] := by
  induction h with
  | nil => rfl
  | one ht _ _ _ _ ih => simp only [extraOf, Call.extra, (hg _ ht).bound, if_true, List.nil_append]; exact ih hg
  | group _ _ ih => simp only [extraOf, Call.extra, List.nil_append]; exact ih hg

/-- What a call invokes. -/
theorem run_one {t : OptTree} {w : Str} {args : List Str} {subs : List Call} (hg : Good t) (hs : CallsOf t.children subs) :
    runAll (Call.ops (.one w t args subs)) = invocation t.opt.early args ++ runAll (opsOf subs) ++ invocation t.opt.late args := by
  simp only [Call.ops, hg.bound, if_true, extra_nil hs hg.kids, List.append_nil, runAll, OpTree.run]

theorem run_cons (c : Call) (cs : List Call) : runAll (opsOf (c :: cs)) = runAll c.ops ++ runAll (opsOf cs) := by
  rw [opsOf, runAll_append]

theorem run_group (w : Str) {ts : List OptTree} (h : ∀ t ∈ ts, Good t) : runAll (Call.ops (.group w ts)) = ts.flatMap fun t => invocation t.opt.early [] ++ invocation t.opt.late [] := by
  simp only [Call.ops]
  induction ts with
  | nil => rfl
  | cons t ts ih =>
    have := (h t (by simp)).bound
    simp only [List.filter_cons, this, if_true, List.map_cons, runAll, OpTree.run, List.flatMap_cons, List.append_nil]
    rw [ih fun t ht => h t (by simp [ht])]

/-- What is invoked has the arguments which it needs. -/
theorem run_arity {F : List OptTree} {cs : List Call} (h : CallsOf F cs) (hg : ∀ t ∈ F, Good t) :
    ∀ i ∈ runAll (opsOf cs), i.1 ∈ codesAll F ∧ ∃ f : Fn, i.1 = f.code ∧ i.2.length = arity f := by
  have inv : ∀ {t : OptTree} {args : List Str}, Good t → args.length = t.opt.params.length → ∀ i, i ∈ invocation t.opt.early args ∨ i ∈ invocation t.opt.late args →
      i.1 ∈ codes t ∧ ∃ f : Fn, i.1 = f.code ∧ i.2.length = arity f := by
    intro t args hg hl i hi
    cases hg with
    | early h hk =>
      rcases hi with hi | hi
      · simp [invocation, OptTree.opt] at hi; subst hi; exact ⟨by simp [codes], _, rfl, hl.trans h⟩
      · simp [invocation, OptTree.opt] at hi
    | both h h' hk =>
      rcases hi with hi | hi
      · simp [invocation, OptTree.opt] at hi; subst hi; exact ⟨by simp [codes], _, rfl, hl.trans h⟩
      · simp [invocation, OptTree.opt] at hi; subst hi; exact ⟨by simp [codes], _, rfl, hl.trans h'⟩
  induction h with
  | nil => intro i hi; cases hi
  | @one F w t args subs cs ht hargs hs h ih1 ih2 =>
    intro i hi
    rw [run_cons, run_one (hg _ ht) hs] at hi
    simp only [List.mem_append] at hi
    rcases hi with ((hi | hi) | hi) | hi
    · exact (inv (hg _ ht) hargs i (.inl hi)).imp_left (codesAll_mem ht _)
    · exact (ih1 (hg _ ht).kids i hi).imp_left fun hn => codesAll_mem ht _ (codes_kids t _ hn)
    · exact (inv (hg _ ht) hargs i (.inr hi)).imp_left (codesAll_mem ht _)
    · exact ih2 hg i hi
  | @group F w ts cs hts h ih =>
    intro i hi
    rw [run_cons, run_group w fun t ht => hg t (hts t ht).1] at hi
    rcases List.mem_append.1 hi with hi | hi
    · obtain ⟨t, ht, hi⟩ := List.mem_flatMap.1 hi
      exact (inv (hg t (hts t ht).1) (args := []) (by simp [(hts t ht).2.1]) i (List.mem_append.1 hi)).imp_left (codesAll_mem (hts t ht).1 _)
    · exact ih hg i hi

/-- The function objects which need a project. -/
def needsProject (f : Fn) : Bool := f = .noBuild || f = .noGit || f = .toFiles || f = .noIde

theorem modBack_ne {α : Type} (f : α → α) (l : List α) (h : l ≠ []) : modBack f l ≠ [] := by
  cases l with
  | nil => exact absurd rfl h
  | cons x l => cases l <;> simp [modBack]

theorem invoke_defined (w : World) {f : Fn} {args : List Str} (r : Runner) (ha : args.length = arity f) (hp : needsProject f = true → r.projects ≠ []) :
    invoke w f args r ≠ .ub ∧ ∀ r' u, invoke w f args r = .ret r' u → (r.projects ≠ [] ∨ f = .init) → r'.projects ≠ [] := by
  have h0 : arity f = 0 → args = [] := fun h => List.length_eq_zero_iff.1 (ha.trans h)
  have h1 : arity f = 1 → ∃ a, args = [a] := fun h => List.length_eq_one_iff.1 (ha.trans h)
  have h2 : arity f = 2 → ∃ a b, args = [a, b] := fun h => List.length_eq_two.1 (ha.trans h)
  have h3 : arity f = 3 → ∃ a b c, args = [a, b, c] := fun h => List.length_eq_three.1 (ha.trans h)
  have hm : ∀ g : Project → Project, needsProject f = true → modBack g r.projects ≠ [] := fun g h => modBack_ne _ _ (hp h)
  cases f
  case regular | moveOnly =>
    obtain ⟨a, b, rfl⟩ := h2 rfl
    simp [invoke, addNascent]
  case init =>
    obtain ⟨a, b, c, rfl⟩ := h3 rfl
    simp [invoke]
  case noBuild | noGit | noIde =>
    have := hp rfl
    simp [invoke, setProject, this, hm _ rfl]
  case toFiles =>
    have := hp rfl
    obtain ⟨a, rfl⟩ := h1 rfl
    simp [invoke, withFront, setProject, this, hm _ rfl]
  case recover | dump =>
    simp only [invoke, clearRecovery]
    by_cases hd : r.recoveryDir = true
    · simp [hd]
    · by_cases ho : w.outputDir = true
      · simp [hd, ho]
      · simp [hd, ho]
  case createLate =>
    simp only [invoke]
    split
    · simp
    · split
      · simp
      · simp
  case createEarly | prune | update | sandbox | serial | verbose =>
    simp [invoke]
  case diagnostics =>
    simp only [invoke, setNascent]
    split
    · simp
    · simp
  all_goals
    obtain ⟨a, rfl⟩ := h1 rfl
    simp only [invoke, withFront, setNascent, addNascent]
    repeat' split
    all_goals simp

theorem invokeAll_defined (w : World) (l : Invs) (r : Runner) (ha : ∀ i ∈ l, ∃ f : Fn, i.1 = f.code ∧ i.2.length = arity f)
    (hp : r.projects ≠ [] ∨ ∀ i ∈ l, ∀ f : Fn, i.1 = f.code → needsProject f = false) : invokeAll w l r ≠ .ub := by
  induction l generalizing r with
  | nil => simp [invokeAll]
  | cons i l ih =>
    obtain ⟨n, args⟩ := i
    obtain ⟨f, hf, hl⟩ := ha (n, args) (by simp)
    dsimp only at hf hl
    subst hf
    have hi := invoke_defined w (f := f) (args := args) r hl (fun hn => hp.resolve_right fun h => by
      have := h (f.code, args) (by simp) f rfl; rw [hn] at this; cases this)
    simp only [invokeAll, ofCode_code]
    cases ho : invoke w f args r with
    | ub => exact absurd ho hi.1
    | threw => simp
    | ret r' u =>
      refine ih r' (fun i hi => ha i (by simp [hi])) ?_
      rcases hp with hp | hp
      · exact .inl (hi.2 r' u ho (.inl hp))
      · exact .inr fun i hi => hp i (by simp [hi])

theorem append_defined {w : World} {l l' : Invs} {r : Runner} (h : invokeAll w l r ≠ .ub) (h' : ∀ r', invokeAll w l' r' ≠ .ub) : invokeAll w (l ++ l') r ≠ .ub := by
  rw [invokeAll_append]
  cases hl : invokeAll w l r with
  | ret r' u => exact h' r'
  | threw => simp
  | ub => exact absurd hl h

theorem line_defined (w : World) {cs : List Call} (h : CallsOf forest cs) : ∀ r, invokeAll w (runAll (opsOf cs)) r ≠ .ub := by
  generalize hF : forest = F at h
  induction h with
  | nil => intro r; simp [opsOf, runAll, invokeAll]
  | @one F w' t args subs cs ht hargs hs h ih1 ih2 =>
    subst hF
    intro r
    rw [run_cons]
    refine append_defined ?_ (ih2 rfl)
    have harity := run_arity (CallsOf.one (w := w') (cs := []) ht hargs hs .nil) forest_good
    rw [run_cons] at harity
    simp only [opsOf, runAll, List.append_nil] at harity
    by_cases hi : t.opt.early = some Fn.init.code
    · rw [run_one (forest_good t ht) hs, hi] at harity ⊢
      simp only [invocation, List.cons_append, List.nil_append] at harity ⊢
      obtain ⟨f, hf, hl⟩ := (harity (Fn.init.code, args) (by simp)).2
      obtain rfl := code_inj (f := .init) (g := f) hf
      have hd := invoke_defined w (f := .init) (args := args) r hl (fun hn => absurd hn (by decide))
      simp only [invokeAll, ofCode_code]
      cases ho : invoke w .init args r with
      | ub => exact absurd ho hd.1
      | threw => simp
      | ret r' u => exact invokeAll_defined w _ r' (fun i hi => (harity i (List.mem_cons_of_mem _ hi)).2) (.inl (hd.2 r' u ho (.inr rfl)))
    · refine invokeAll_defined w _ r (fun i hi => (harity i hi).2) (.inr fun i hii f hf => ?_)
      have hc : ∀ t ∈ forest, t.opt.early ≠ some Fn.init.code → ∀ n ∈ codes t, ∀ f : Fn, n = f.code → needsProject f = false := by
        intro t ht hi n hn f hf
        have hk : ∀ t ∈ forest, t.opt.early ≠ some Fn.init.code → ∀ n ∈ codes t, ((Fn.ofCode n).map needsProject) = some false := by
          intro t ht
          simp only [forest, List.mem_cons, List.not_mem_nil, or_false] at ht
          rcases ht with rfl | rfl | rfl | rfl | rfl | rfl | rfl | rfl | rfl | rfl | rfl | rfl <;> decide
        have := hk t ht hi n hn
        rw [hf, ofCode_code] at this
        simpa using this
      have hm : i.1 ∈ codes t := by
        have hl := run_arity (F := [t]) (CallsOf.one (w := w') (args := args) (cs := []) (by simp) hargs hs .nil) (by simpa using forest_good t ht)
        rw [run_cons] at hl
        simp only [opsOf, runAll, List.append_nil] at hl
        have := (hl i hii).1
        simpa [codesAll] using this
      exact hc t ht hi _ hm f hf
  | @group F w' ts cs hts h ih =>
    subst hF
    intro r
    rw [run_cons]
    refine append_defined (invokeAll_defined w _ r ?_ (.inr ?_)) (ih rfl)
    · have harity := run_arity (CallsOf.group (w := w') (cs := []) hts .nil) forest_good
      rw [run_cons] at harity
      simp only [opsOf, runAll, List.append_nil] at harity
      exact fun i hi => (harity i hi).2
    · intro i hi f hf
      rw [run_group w' fun t ht => forest_good t (hts t ht).1] at hi
      obtain ⟨t, ht, hi⟩ := List.mem_flatMap.1 hi
      have hv : ∀ t ∈ forest, (∃ c, ['-', c] ∈ t.opt.aliases) → t = leaf "--verbose" ["-v"] [] .verbose := by
        intro t ht
        simp only [forest, List.mem_cons, List.not_mem_nil, or_false] at ht
        rcases ht with rfl | rfl | rfl | rfl | rfl | rfl | rfl | rfl | rfl | rfl | rfl | rfl
        all_goals first
          | (intro _; rfl)
          | (rintro ⟨c, hc⟩; simp [leaf, opt, OptTree.opt] at hc; done)
          | (rintro ⟨c, hc⟩; simp [leaf, opt, OptTree.opt] at hc; have := congrArg List.length hc; simp at this)
      obtain rfl := hv t (hts t ht).1 (hts t ht).2.2
      simp [leaf, opt, OptTree.opt, invocation] at hi
      subst hi
      obtain rfl : f = .verbose := (code_inj hf).symm
      rfl

theorem below_good {F F' : List OptTree} (h : ForestBelow F F') (hg : ∀ t ∈ F, Good t) : ∀ t ∈ F', Good t := by
  induction h with
  | here h => exact (hg _ h).kids
  | deeper h _ ih => exact ih (hg _ h).kids

theorem forest_bound : BoundParams forest := by
  intro F hF t ht hb
  rw [(below_good hF forest_good t ht).bound] at hb
  cases hb

mutual
/-- The forests below an option. -/
def belowOne : OptTree → List (List OptTree)
  | .node _ cs => cs :: belowAll cs
def belowAll : List OptTree → List (List OptTree)
  | [] => []
  | t :: ts => belowOne t ++ belowAll ts
end

theorem belowAll_mem {F : List OptTree} {t : OptTree} (h : t ∈ F) : ∀ G ∈ belowOne t, G ∈ belowAll F := by
  intro G hG
  induction F with
  | nil => cases h
  | cons u F ih =>
    simp only [belowAll, List.mem_append]
    rcases List.mem_cons.1 h with rfl | h
    · exact .inl hG
    · exact .inr (ih h)

theorem mem_belowAll {F G : List OptTree} (h : ForestBelow F G) : G ∈ belowAll F := by
  induction h with
  | here h => exact belowAll_mem h _ (by cases ‹OptTree›; simp [belowOne, OptTree.children])
  | @deeper opts F t h _ ih => exact belowAll_mem h _ (by cases t; simp only [OptTree.children] at ih; simp [belowOne, ih])

/-- A sufficient condition for a word to be clear. -/
def clearly (F : List OptTree) (w : Str) : Bool :=
  (findOption F w).isSome || decide (w.length < 2) || (w[0]? = some '-' && (w[1]? = some ' ' || w[1]? = some '-')) ||
  match letters w with
  | c :: _ => (letterOption F c).isNone
  | [] => false

theorem clear_of_clearly {F : List OptTree} {w : Str} (h : clearly F w = true) : Unknown F w → Candidate w → ∃ c r, letters w = c :: r ∧ letterOption F c = none := by
  intro hu hc
  simp only [clearly, Bool.or_eq_true, decide_eq_true_eq] at h
  rcases h with ((h | h) | h) | h
  · rw [findOption_none.2 hu] at h; cases h
  · obtain ⟨a, b, r, rfl, _⟩ := hc; simp at h; omega
  · obtain ⟨a, b, r, rfl, hn⟩ := hc
    simp at h
    exact absurd h hn
  · split at h
    · rename_i c r hl; exact ⟨c, r, hl, by simpa using h⟩
    · cases h

theorem orderly_of_clearly {F : List OptTree} {ws : List Str} (h : ((F :: belowAll F).all fun G => ws.all (clearly G)) = true) : Orderly F ws := by
  simp only [List.all_eq_true] at h
  refine ⟨fun G hG w hw hu hc => .inr (clear_of_clearly (h G (by simp [mem_belowAll hG]) w hw) hu hc), fun w hw hu hc => ?_⟩
  obtain ⟨c, r, h1, h2⟩ := clear_of_clearly (h F (by simp) w hw) hu hc
  exact .inr ⟨c, by simp [h1], h2⟩

theorem consistency_defined (r : Runner) : consistency r ≠ .ub := by
  unfold consistency
  dsimp only
  repeat' split
  all_goals simp

end Verif.RunnerArgs
