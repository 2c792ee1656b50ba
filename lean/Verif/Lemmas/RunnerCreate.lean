import Verif.Lemmas.RunnerOrder

set_option linter.unusedSimpArgs false
set_option linter.unusedVariables false

/-! Lemmas about the creation of tests. -/
namespace Verif.RunnerArgs
open Verif.Cmd Verif.Suites Verif.Spec Verif.Spec.RunnerArgs

/-- The function objects for new tests. -/
def nascentFns : List Fn := [.createLate, .regular, .moveOnly, .regularAlloc, .moveOnlyAlloc, .free, .performance, .suite, .diagnostics, .header, .forename, .genFree, .genSemantics]

theorem invoke_keeps {w : World} {f : Fn} (hf : f ∉ nascentFns) {args : List Str} {r r' : Runner} (h : invoke w f args r = .ret r' ()) :
    r'.nascent = r.nascent ∧ r'.create = r.create := by
  by_cases hc : f ∈ creating
  · cases f
    case init =>
      simp only [invoke] at h
      split at h
      · cases h; exact ⟨rfl, rfl⟩
      · cases h
    case noBuild | noGit | noIde =>
      simp only [invoke, setProject] at h
      split at h
      · cases h
      · cases h; exact ⟨rfl, rfl⟩
    case toFiles =>
      cases args with
      | nil => cases h
      | cons a args =>
        simp only [invoke, withFront, setProject] at h
        split at h
        · cases h
        · cases h; exact ⟨rfl, rfl⟩
    all_goals first
      | exact absurd (by decide) hf
      | exact absurd hc (by decide)
  · exact ⟨(quiet hc h).1, (quiet hc h).2.2⟩

theorem invokeAll_keeps {w : World} {l : Invs} (hf : ∀ i ∈ l, ∀ f ∈ nascentFns, i.1 ≠ f.code) {r r' : Runner} {u : Unit} (h : invokeAll w l r = .ret r' u) :
    r'.nascent = r.nascent ∧ r'.create = r.create := by
  induction l generalizing r with
  | nil => cases h; exact ⟨rfl, rfl⟩
  | cons i l ih =>
    obtain ⟨n, args⟩ := i
    simp only [invokeAll] at h
    cases hn : Fn.ofCode n with
    | none => rw [hn] at h; cases h
    | some f =>
      obtain rfl := code_of hn
      rw [hn] at h
      dsimp only at h
      cases h1 : invoke w f args r with
      | threw => rw [h1] at h; cases h
      | ub => rw [h1] at h; cases h
      | ret r1 u1 =>
        rw [h1] at h
        have k1 := invoke_keeps (fun hc => hf (f.code, args) (by simp) f hc rfl) h1
        have k2 := ih (fun i hi => hf i (by simp [hi])) h
        exact ⟨k2.1.trans k1.1, k2.2.trans k1.2⟩

theorem modBack_concat {α : Type} (f : α → α) (l : List α) (x : α) : modBack f (l ++ [x]) = l ++ [f x] := by
  induction l with
  | nil => rfl
  | cons y l ih =>
    cases l with
    | nil => rfl
    | cons z l => simpa [modBack] using ih

/-- The options which make settings for a test. -/
def Setting (g : Genus) (t : OptTree) : Prop :=
  t ∈ [suiteOption, diagnosticsOption, headerOption, forenameOption] ∨ (t = genFreeOption ∧ g = .behavioural) ∨ (t = genSemanticsOption ∧ g = .semantic)

theorem setting_good {g : Genus} {t : OptTree} (h : Setting g t) : Good t ∧ t.children = [] := by
  rcases h with h | ⟨rfl, _⟩ | ⟨rfl, _⟩
  · simp only [List.mem_cons, List.not_mem_nil, or_false] at h
    rcases h with rfl | rfl | rfl | rfl <;> exact ⟨good_leaf rfl, rfl⟩
  · exact ⟨good_leaf rfl, rfl⟩
  · exact ⟨good_leaf rfl, rfl⟩

theorem setting_long {g : Genus} {t : OptTree} (h : Setting g t) (hp : t.opt.params = []) (c : Char) : ['-', c] ∉ t.opt.aliases := by
  rcases h with h | ⟨rfl, _⟩ | ⟨rfl, _⟩
  · simp only [List.mem_cons, List.not_mem_nil, or_false] at h
    rcases h with rfl | rfl | rfl | rfl
    · cases hp
    · simp [diagnosticsOption, leaf, opt, OptTree.opt]
    · cases hp
    · cases hp
  · cases hp
  · cases hp

/-- One setting. -/
theorem invoke_setting {w : World} {t : OptTree} {n : Nascent} (ht : Setting n.genus t) {args : List Str} (hargs : args.length = t.opt.params.length) {r r' : Runner} {u : Unit} {l : List Nascent}
    (hr : r.nascent = l ++ [n]) (h : invokeAll w (invocation t.opt.early args ++ invocation t.opt.late args) r = .ret r' u) :
    ∃ name, named settingNames t.opt.name = some name ∧ r'.nascent = l ++ [{ n with settings := n.settings ++ [(name, args)] }] ∧ r'.create = r.create := by
  have hne : r.nascent.isEmpty = false := by rw [hr]; simp
  have hlast : r.nascent.getLast? = some n := by rw [hr]; simp
  have h1 : args.length = 1 → ∃ a, args = [a] := List.length_eq_one_iff.1
  have h0 : args.length = 0 → args = [] := List.length_eq_zero_iff.1
  rcases ht with ht | ⟨rfl, hg⟩ | ⟨rfl, hg⟩
  · simp only [List.mem_cons, List.not_mem_nil, or_false] at ht
    rcases ht with rfl | rfl | rfl | rfl
    · obtain ⟨a, rfl⟩ := h1 hargs
      change invokeAll w [(Fn.suite.code, [a])] r = _ at h
      simp only [invokeAll, ofCode_code, invoke, hne, withFront, setNascent, Bool.false_eq_true, if_false] at h
      cases h
      exact ⟨"suite", rfl, by simp only [hr, modBack_concat, setting], rfl⟩
    · obtain rfl := h0 hargs
      change invokeAll w [(Fn.diagnostics.code, [])] r = _ at h
      simp only [invokeAll, ofCode_code, invoke, hne, withFront, setNascent, Bool.false_eq_true, if_false] at h
      cases h
      exact ⟨"diagnostics", rfl, by simp only [hr, modBack_concat, setting], rfl⟩
    · obtain ⟨a, rfl⟩ := h1 hargs
      change invokeAll w [(Fn.header.code, [a])] r = _ at h
      simp only [invokeAll, ofCode_code, invoke, hne, withFront, setNascent, Bool.false_eq_true, if_false] at h
      cases h
      exact ⟨"header", rfl, by simp only [hr, modBack_concat, setting], rfl⟩
    · obtain ⟨a, rfl⟩ := h1 hargs
      change invokeAll w [(Fn.forename.code, [a])] r = _ at h
      simp only [invokeAll, ofCode_code, invoke, hne, withFront, setNascent, Bool.false_eq_true, if_false] at h
      cases h
      exact ⟨"forename", rfl, by simp only [hr, modBack_concat, setting], rfl⟩
  · obtain ⟨a, rfl⟩ := h1 hargs
    change invokeAll w [(Fn.genFree.code, [a])] r = _ at h
    simp only [invokeAll, ofCode_code, invoke, hne, hlast, Option.map_some, hg, if_true, withFront, setNascent, Bool.false_eq_true, if_false] at h
    cases h
    exact ⟨"generate", rfl, by simp only [hr, modBack_concat, setting], rfl⟩
  · obtain ⟨a, rfl⟩ := h1 hargs
    change invokeAll w [(Fn.genSemantics.code, [a])] r = _ at h
    simp only [invokeAll, ofCode_code, invoke, hne, hlast, Option.map_some, hg, if_true, withFront, setNascent, Bool.false_eq_true, if_false] at h
    cases h
    exact ⟨"generate", rfl, by simp only [hr, modBack_concat, setting], rfl⟩

theorem append_ret {w : World} {l l' : Invs} {r r' : Runner} {u : Unit} (h : invokeAll w (l ++ l') r = .ret r' u) :
    ∃ r1, invokeAll w l r = .ret r1 () ∧ invokeAll w l' r1 = .ret r' () := by
  rw [invokeAll_append] at h
  cases h1 : invokeAll w l r with
  | threw => rw [h1] at h; cases h
  | ub => rw [h1] at h; cases h
  | ret r1 u1 => rw [h1] at h; exact ⟨r1, rfl, h⟩

theorem settings_run {w : World} {F : List OptTree} {cs : List Call} (h : CallsOf F cs) : ∀ {n : Nascent} (hF : ∀ t ∈ F, Setting n.genus t) {r r' : Runner} {u : Unit} {l : List Nascent}
    (hr : r.nascent = l ++ [n]) (h : invokeAll w (runAll (opsOf cs)) r = .ret r' u), r'.nascent = l ++ [{ n with settings := n.settings ++ settingsOf cs }] ∧ r'.create = r.create := by
  induction h with
  | nil => intro n hF r r' u l hr h; cases h; simp [hr, settingsOf]
  | @one F word t args subs cs ht hargs hs h ih1 ih2 =>
    intro n hF r r' u l hr h
    have hg := setting_good (hF t ht)
    rw [run_cons, run_one hg.1 hs] at h
    rw [hg.2] at hs
    have hsubs : runAll (opsOf subs) = [] := by
      cases hs with
      | nil => rfl
      | one ht _ _ _ => cases ht
      | @group _ w' ts cs hts hcs =>
        have := run_arity (F := []) (.group (w := w') hts hcs) (by simp)
        cases hq : runAll (opsOf (.group w' ts :: cs)) with
        | nil => rfl
        | cons i l => rw [hq] at this; exact absurd (this i (by simp)).1 (by simp [codesAll])
    rw [hsubs, List.append_nil] at h
    obtain ⟨r1, k1, k2⟩ := append_ret h
    obtain ⟨name, e1, e2, e3⟩ := invoke_setting (hF t ht) hargs hr k1
    have := ih2 (n := { n with settings := n.settings ++ [(name, args)] }) hF e2 k2
    rw [this.1, this.2, e3]
    simp [settingsOf, List.filterMap_cons, e1]
  | @group F word ts cs hts h ih =>
    intro n hF r r' u l hr h
    have hnil : ts = [] := by
      cases ts with
      | nil => rfl
      | cons t ts =>
        obtain ⟨h1, h2, c, h3⟩ := hts t (by simp)
        exact absurd h3 (setting_long (hF t h1) h2 c)
    subst hnil
    rw [run_cons] at h
    have h : invokeAll w (runAll (opsOf cs)) r = .ret r' u := h
    have := ih hF hr h
    rw [this.1, this.2]
    simp [settingsOf, List.filterMap_cons]

/-- A test is added. -/
theorem invoke_test {w : World} {k : OptTree} (hk : k ∈ createOptions) {args : List Str} (hargs : args.length = k.opt.params.length) {r r' : Runner} {u : Unit}
    (h : invokeAll w (invocation k.opt.early args) r = .ret r' u) :
    ∃ g sp, named kinds k.opt.name = some (g, sp) ∧ r'.nascent = r.nascent ++ [⟨g, sp, args, [], 0⟩] ∧ r'.create = r.create ∧ (∀ t ∈ k.children, Setting g t) ∧ k.opt.late = none := by
  have h1 : args.length = 1 → ∃ a, args = [a] := List.length_eq_one_iff.1
  have h2 : args.length = 2 → ∃ a b, args = [a, b] := List.length_eq_two.1
  simp only [createOptions, List.mem_cons, List.not_mem_nil, or_false] at hk
  rcases hk with rfl | rfl | rfl | rfl | rfl | rfl
  · obtain ⟨a, b, rfl⟩ := h2 hargs
    change invokeAll w [(Fn.regular.code, [a, b])] r = _ at h
    simp only [invokeAll, ofCode_code, invoke, addNascent] at h
    cases h
    refine ⟨.semantic, "regular", rfl, rfl, rfl, fun t ht => ?_, rfl⟩
    simp only [OptTree.children, semanticsOptions, List.mem_cons, List.not_mem_nil, or_false] at ht
    rcases ht with rfl | rfl | rfl
    · exact .inl (by simp)
    · exact .inl (by simp)
    · exact .inr (.inr ⟨rfl, rfl⟩)
  · obtain ⟨a, b, rfl⟩ := h2 hargs
    change invokeAll w [(Fn.moveOnly.code, [a, b])] r = _ at h
    simp only [invokeAll, ofCode_code, invoke, addNascent] at h
    cases h
    refine ⟨.semantic, "move_only", rfl, rfl, rfl, fun t ht => ?_, rfl⟩
    simp only [OptTree.children, semanticsOptions, List.mem_cons, List.not_mem_nil, or_false] at ht
    rcases ht with rfl | rfl | rfl
    · exact .inl (by simp)
    · exact .inl (by simp)
    · exact .inr (.inr ⟨rfl, rfl⟩)
  · obtain ⟨a, rfl⟩ := h1 hargs
    change invokeAll w [(Fn.regularAlloc.code, [a])] r = _ at h
    simp only [invokeAll, ofCode_code, invoke, addNascent] at h
    cases h
    refine ⟨.allocation, "regular_allocation", rfl, rfl, rfl, fun t ht => ?_, rfl⟩
    simp only [OptTree.children, allocationOptions, List.mem_cons, List.not_mem_nil, or_false] at ht
    rcases ht with rfl | rfl
    · exact .inl (by simp)
    · exact .inl (by simp)
  · obtain ⟨a, rfl⟩ := h1 hargs
    change invokeAll w [(Fn.moveOnlyAlloc.code, [a])] r = _ at h
    simp only [invokeAll, ofCode_code, invoke, addNascent] at h
    cases h
    refine ⟨.allocation, "move_only_allocation", rfl, rfl, rfl, fun t ht => ?_, rfl⟩
    simp only [OptTree.children, allocationOptions, List.mem_cons, List.not_mem_nil, or_false] at ht
    rcases ht with rfl | rfl
    · exact .inl (by simp)
    · exact .inl (by simp)
  · obtain ⟨a, rfl⟩ := h1 hargs
    change invokeAll w [(Fn.free.code, [a])] r = _ at h
    simp only [invokeAll, ofCode_code, invoke, addNascent] at h
    cases h
    refine ⟨.behavioural, "free", rfl, rfl, rfl, fun t ht => ?_, rfl⟩
    simp only [OptTree.children, freeOptions, List.mem_cons, List.not_mem_nil, or_false] at ht
    rcases ht with rfl | rfl | rfl | rfl
    · exact .inl (by simp)
    · exact .inl (by simp)
    · exact .inr (.inl ⟨rfl, rfl⟩)
    · exact .inl (by simp)
  · obtain ⟨a, rfl⟩ := h1 hargs
    change invokeAll w [(Fn.performance.code, [a])] r = _ at h
    simp only [invokeAll, ofCode_code, invoke, addNascent] at h
    cases h
    refine ⟨.behavioural, "performance", rfl, rfl, rfl, fun t ht => ?_, rfl⟩
    simp only [OptTree.children, performanceOptions, List.mem_cons, List.not_mem_nil, or_false] at ht
    rcases ht with rfl
    exact .inl (by simp)

theorem create_option : ∀ t ∈ forest, t.opt.name = "create".toList → t = .node ⟨"create".toList, ["c".toList], [], some Fn.createEarly.code, some Fn.createLate.code⟩ createOptions := by
  intro t ht
  simp only [forest, List.mem_cons, List.not_mem_nil, or_false] at ht
  rcases ht with rfl | rfl | rfl | rfl | rfl | rfl | rfl | rfl | rfl | rfl | rfl | rfl
  case inr.inr.inr.inl => intro _; rfl
  all_goals exact fun h => absurd h (by decide)

theorem create_good : ∀ k ∈ createOptions, Good k := by
  have := (forest_good (.node ⟨"create".toList, ["c".toList], [], some Fn.createEarly.code, some Fn.createLate.code⟩ createOptions) (by simp [forest])).kids
  exact this

/-- A call of `create` with one test. -/
theorem create_run {w : World} {word w' : Str} {args a : List Str} {k : OptTree} {s : List Call}
    (hs : CallsOf createOptions [.one w' k a s]) {r r' : Runner} {u : Unit}
    (h : invokeAll w (runAll (Call.ops (.one word (.node ⟨"create".toList, ["c".toList], [], some Fn.createEarly.code, some Fn.createLate.code⟩ createOptions) args [.one w' k a s]))) r = .ret r' u) :
    ∃ n, wanted (.one w' k a s) = some n ∧ r'.nascent = r.nascent ++ [n] ∧ r'.create = true := by
  rw [run_one (t := .node ⟨"create".toList, ["c".toList], [], some Fn.createEarly.code, some Fn.createLate.code⟩ createOptions) (forest_good _ (by simp [forest])) hs] at h
  obtain ⟨r1, h1, h2⟩ := append_ret h
  obtain ⟨r0, h0, h1⟩ := append_ret h1
  change invokeAll w [(Fn.createEarly.code, args)] r = _ at h0
  simp only [invokeAll, ofCode_code, invoke] at h0
  cases h0
  change invokeAll w [(Fn.createLate.code, args)] r1 = _ at h2
  cases hs with
  | one hk hargs hsub _ =>
    rw [run_cons, run_one (create_good k hk) hsub] at h1
    obtain ⟨r3, h3, h4⟩ := append_ret h1
    cases h4
    obtain ⟨r4, h4, h5⟩ := append_ret h3
    obtain ⟨r5, h6, h7⟩ := append_ret h4
    obtain ⟨g, sp, e1, e2, e3, e4, e5⟩ := invoke_test hk hargs h6
    rw [e5] at h5
    cases h5
    have := settings_run hsub (n := ⟨g, sp, a, [], 0⟩) e4 e2 h7
    simp only [invokeAll, ofCode_code, invoke, this.1, List.getLast?_append_of_ne_nil, ne_eq, reduceCtorEq, not_false_eq_true, List.getLast?_singleton] at h2
    by_cases hw : w.writes ⟨g, sp, a, [] ++ settingsOf s, 0⟩ = true
    · rw [if_pos hw] at h2
      cases h2
      refine ⟨⟨g, sp, a, settingsOf s, 1⟩, by simp [wanted, e1], ?_, rfl⟩
      simp [modBack_concat]
    · rw [if_neg hw] at h2
      cases h2

theorem created_run {w : World} {cs : List Call} (hc : CallsOf forest cs) : ∀ (ho : OneEach cs) {r r' : Runner} {u : Unit} (h : invokeAll w (runAll (opsOf cs)) r = .ret r' u),
    r'.nascent = r.nascent ++ created cs ∧ (r'.create = true ↔ r.create = true ∨ created cs ≠ []) := by
  have hmain : ∀ {c : Call} {cs : List Call}, CallsOf forest (c :: cs) → (∀ {r r' : Runner}, invokeAll w (runAll c.ops) r = .ret r' () →
        r'.nascent = r.nascent ++ created [c] ∧ (r'.create = true ↔ r.create = true ∨ created [c] ≠ [])) →
      (∀ {r r' : Runner} {u : Unit}, invokeAll w (runAll (opsOf cs)) r = .ret r' u → r'.nascent = r.nascent ++ created cs ∧ (r'.create = true ↔ r.create = true ∨ created cs ≠ [])) →
      ∀ {r r' : Runner} {u : Unit}, invokeAll w (runAll (opsOf (c :: cs))) r = .ret r' u →
        r'.nascent = r.nascent ++ created (c :: cs) ∧ (r'.create = true ↔ r.create = true ∨ created (c :: cs) ≠ []) := by
    intro c cs _ hc hcs r r' u h
    rw [run_cons] at h
    obtain ⟨r1, h1, h2⟩ := append_ret h
    have a1 := hc h1
    have a2 := hcs h2
    have e : created (c :: cs) = created [c] ++ created cs := by simp [created]
    rw [a2.1, a1.1, e, a2.2, a1.2]
    refine ⟨by simp, ?_⟩
    simp only [ne_eq, List.append_eq_nil_iff, not_and]
    by_cases hq : created [c] = []
    · simp [hq]
    · simp [hq]
  generalize hF : forest = F at hc
  induction hc with
  | nil => intro _ r r' u h; cases h; simp [created]
  | @one F word t args subs cs ht hargs hs h ih1 ih2 =>
    subst hF
    intro ho
    refine hmain (.one ht hargs hs h) ?_ (ih2 rfl fun c hc => ho c (by simp [hc]))
    intro r r' h1
    by_cases hn : t.opt.name = "create".toList
    · obtain ⟨w', k, a, s, rfl⟩ := ho _ (by simp) word t args subs rfl hn
      obtain rfl := create_option t ht hn
      obtain ⟨n, e1, e2, e3⟩ := create_run hs h1
      have hcr : created [.one word (.node ⟨"create".toList, ["c".toList], [], some Fn.createEarly.code, some Fn.createLate.code⟩ createOptions) args [.one w' k a s]] = [n] := by
        simp [created, OptTree.opt, List.filterMap_cons, e1]
      rw [hcr, e2, e3]
      simp
    · have hq := not_is (names := ["create"]) (fs := nascentFns) (forest_cases (by decide)) (by decide) (.one (w := word) ht hargs hs .nil) (.one word t args subs) (by simp)
        (by simp only [Is, List.any_cons, List.any_nil, Bool.or_false, decide_eq_false_iff_not]; exact fun e => hn e.symm)
      have := invokeAll_keeps hq h1
      have hcr : created [.one word t args subs] = [] := by
        unfold created
        rw [List.flatMap_cons, List.flatMap_nil, List.append_nil]
        exact if_neg hn
      rw [this.1, this.2, hcr]
      simp
  | @group F word ts cs hts h ih =>
    subst hF
    intro ho
    refine hmain (.group hts h) ?_ (ih rfl fun c hc => ho c (by simp [hc]))
    intro r r' h1
    have hq := not_is (names := ["create"]) (fs := nascentFns) (forest_cases (by decide)) (by decide) (.group (w := word) hts .nil) (.group word ts) (by simp) rfl
    have := invokeAll_keeps hq h1
    have hcr : created [.group word ts] = [] := rfl
    rw [this.1, this.2, hcr]
    simp

end Verif.RunnerArgs
