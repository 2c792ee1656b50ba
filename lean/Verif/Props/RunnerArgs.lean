import Verif.Lemmas.RunnerOrder

/-! C73 and C74: what the command line of the test runner means, and the order of the options. -/
namespace Verif.Props
open Verif.RunnerArgs Verif.Cmd Verif.Spec Verif.Spec.RunnerArgs

/-- **C73** If a command line is accepted, and no help is asked for, then the options mean what they say, wherever they are placed: each of `recover`, `dump` and `--verbose` has its effect if and only if it is given;
materials are updated if and only if `update-materials` is given and instabilities are not looked for; tests are pruned if and only if `prune` is given and no tests are selected; the tests
selected are those which are named, in the order in which they are; tests are run concurrently, unless the last choice is `--serial`, or there is none and `recover` or `dump` is given; and tests
are run if this is asked for in any way, or if nothing else is to be done. -/
theorem C73_meaning {w : World} {d : Bool} {args : List Str} {invs : Invs} (hp : parseInvoke forest args = .ok (none, invs)) {r : Runner} {b : Bool}
    (h : processArgs w (start d) args = .ret r b) :
    b = false ∧
    (r.recovery = true ↔ Given invs .recover) ∧ (r.dump = true ↔ Given invs .dump) ∧ (r.verbose = true ↔ Given invs .verbose) ∧
    (r.soft = true ↔ Given invs .update ∧ ¬ Locating invs) ∧ (r.instab ≠ .none ↔ Locating invs) ∧
    (r.pruning = true ↔ Given invs .prune ∧ ¬ Selecting invs) ∧
    r.filter = ⟨selection (firsts invs .test), selection ((firsts invs .select).map w.normal)⟩ ∧
    r.conc = (match lastChoice invs with
      | some none => .serial
      | some (some _) => .fixed
      | none => if r.recovery || r.dump then .serial else .dynamic) ∧
    (r.test = true ↔ Given invs .test ∨ Given invs .select ∨ Given invs .prune ∨ Given invs .update ∨ (r.create = false ∧ ¬ Given invs .init)) := by
  unfold processArgs at h
  rw [hp] at h
  dsimp only at h
  cases h1 : invokeAll w invs (start d) with
  | threw => rw [h1] at h; cases h
  | ub => rw [h1] at h; cases h
  | ret r1 u =>
    rw [h1] at h
    dsimp only at h
    have A := after invs h1
    have hsel : ∀ f : Fn, (f = .test ∨ f = .select) → (Given invs f ↔ firsts invs f ≠ []) := by
      intro f hf
      unfold Given firsts
      rw [ne_eq, List.filterMap_eq_nil_iff]
      constructor
      · rintro ⟨a, ha⟩ hn
        have h2 := hn _ ha
        have h3 := A.tests _ ha (hf.imp (fun e => by rw [e]) (fun e => by rw [e]))
        cases a with
        | nil => exact h3 rfl
        | cons => simp at h2
      · intro hn
        by_cases hg : ∃ a, (f.code, a) ∈ invs
        · exact hg
        · exact absurd (fun i hi => by
            by_cases hc : i.1 = f.code
            · exact absurd ⟨i.2, by rw [← hc]; exact hi⟩ hg
            · rw [if_neg hc]) hn
    have hfil : selective r1.filter = true ↔ Selecting invs := by
      unfold selective Selecting
      rw [A.suites, A.items, hsel .test (.inl rfl), hsel .select (.inr rfl)]
      unfold selection
      cases firsts invs .test <;> cases firsts invs .select <;> simp
    have hd : ∀ r : Runner, (defaultMode r).recovery = r.recovery ∧ (defaultMode r).dump = r.dump ∧ (defaultMode r).verbose = r.verbose ∧ (defaultMode r).soft = r.soft ∧
        (defaultMode r).instab = r.instab ∧ (defaultMode r).pruning = r.pruning ∧ (defaultMode r).filter = r.filter ∧ (defaultMode r).conc = r.conc ∧
        (defaultMode r).create = r.create ∧ ((defaultMode r).test = true ↔ r.test = true ∨ (r.create = false ∧ r.init = false)) := by
      intro r
      unfold defaultMode
      split
      · rename_i hm
        refine ⟨rfl, rfl, rfl, rfl, rfl, rfl, rfl, rfl, rfl, ?_⟩
        revert hm
        cases r.test <;> cases r.create <;> cases r.init <;> simp
      · rename_i hm
        refine ⟨rfl, rfl, rfl, rfl, rfl, rfl, rfl, rfl, rfl, ?_⟩
        revert hm
        cases r.test <;> cases r.create <;> cases r.init <;> simp
    obtain ⟨d1, d2, d3, d4, d5, d6, d7, d8, d9, d10⟩ := hd r1
    generalize defaultMode r1 = r2 at h d1 d2 d3 d4 d5 d6 d7 d8 d9 d10
    have hc : ∃ r3 : Runner, consistency r2 = .ret r3 () ∧ r3 = r ∧ b = false := by
      cases hcs : consistency r2 with
      | threw => rw [hcs] at h; cases h
      | ub => rw [hcs] at h; cases h
      | ret r3 u => rw [hcs] at h; cases h; exact ⟨_, rfl, rfl, rfl⟩
    obtain ⟨r3, hcs, rfl, rfl⟩ := hc
    have hfilt : r1.filter = ⟨selection (firsts invs .test), selection ((firsts invs .select).map w.normal)⟩ := by
      rw [← A.suites, ← A.items]
    have hconc : r1.conc = (match lastChoice invs with
      | some none => .serial
      | some (some _) => .fixed
      | none => if r1.recovery || r1.dump then .serial else .dynamic) := by
      rw [A.conc]
      unfold concOf
      cases lastChoice invs with
      | none => rfl
      | some c => cases c <;> rfl
    have htest : ∀ r : Runner, (r.test = true ↔ r1.test = true ∨ (r1.create = false ∧ r1.init = false)) → r.create = r1.create →
        (r.test = true ↔ Given invs .test ∨ Given invs .select ∨ Given invs .prune ∨ Given invs .update ∨ (r.create = false ∧ ¬ Given invs .init)) := by
      intro r h1 h2
      rw [h1, A.test, h2, ← A.init, Bool.not_eq_true]
      simp only [or_assoc]
    unfold consistency at hcs
    by_cases hs : r2.instab ≠ .none ∧ r2.soft = true
    · rw [if_pos hs] at hcs
      rw [d5, d4] at hs
      dsimp only at hcs
      split at hcs
      · cases hcs
      · split at hcs
        · rename_i hpr
          cases hcs
          rw [d7, hfil] at hpr
          exact ⟨rfl, by simp [d1, A.recovery], by simp [d2, A.dump], by simp [d3, A.verbose], by simp [A.instab.1 hs.1], by simp [d5, ← A.instab], by simp [hpr.2],
            by simp [d7, hfilt], by simp only [d8, d1, d2]; exact hconc, htest _ d10 d9⟩
        · rename_i hpr
          cases hcs
          rw [d7, hfil, d6, A.pruning] at hpr
          exact ⟨rfl, by simp [d1, A.recovery], by simp [d2, A.dump], by simp [d3, A.verbose], by simp [A.instab.1 hs.1], by simp [d5, ← A.instab],
            by simp only [d6, A.pruning]; exact ⟨fun hg => ⟨hg, fun hs => hpr ⟨hg, hs⟩⟩, fun hg => hg.1⟩,
            by simp [d7, hfilt], by simp only [d8, d1, d2]; exact hconc, htest _ d10 d9⟩
    · rw [if_neg hs] at hcs
      rw [d5, d4] at hs
      dsimp only at hcs
      have hsoft : r1.soft = true ↔ Given invs .update ∧ ¬ Locating invs := by
        rw [← A.instab, ← A.soft]
        exact ⟨fun h => ⟨h, fun hi => hs ⟨hi, h⟩⟩, fun h => h.1⟩
      split at hcs
      · cases hcs
      · split at hcs
        · rename_i hpr
          cases hcs
          rw [d7, hfil] at hpr
          exact ⟨rfl, by simp [d1, A.recovery], by simp [d2, A.dump], by simp [d3, A.verbose], by simp only [d4]; exact hsoft, by simp [d5, ← A.instab], by simp [hpr.2],
            by simp [d7, hfilt], by simp only [d8, d1, d2]; exact hconc, htest _ d10 d9⟩
        · rename_i hpr
          cases hcs
          rw [d7, hfil, d6, A.pruning] at hpr
          exact ⟨rfl, by simp [d1, A.recovery], by simp [d2, A.dump], by simp [d3, A.verbose], by simp only [d4]; exact hsoft, by simp [d5, ← A.instab],
            by simp only [d6, A.pruning]; exact ⟨fun hg => ⟨hg, fun hs => hpr ⟨hg, hs⟩⟩, fun hg => hg.1⟩,
            by simp [d7, hfilt], by simp only [d8, d1, d2]; exact hconc, htest _ d10 d9⟩

/-- **C73** Whatever the command line, if it is accepted then tests are not run concurrently when a recovery file or a dump is to be written, materials are not updated when instabilities
are looked for, and tests are not pruned when they are selected. -/
theorem C73_consistent {w : World} {d : Bool} {args : List Str} {r : Runner} {b : Bool} (h : processArgs w (start d) args = .ret r b) :
    (r.recovery = true ∨ r.dump = true → r.conc = .serial) ∧ (r.instab ≠ .none → r.soft = false) ∧ (r.filter.suites.isSome = true ∨ r.filter.items.isSome = true → r.pruning = false) := by
  unfold processArgs at h
  cases hp : parseInvoke forest args with
  | throws => rw [hp] at h; cases h
  | ub => rw [hp] at h; cases h
  | ok x =>
    obtain ⟨help, invs⟩ := x
    rw [hp] at h
    cases help with
    | some F => cases h; simp [start]
    | none =>
      dsimp only at h
      cases h1 : invokeAll w invs (start d) with
      | threw => rw [h1] at h; cases h
      | ub => rw [h1] at h; cases h
      | ret r1 u =>
        rw [h1] at h
        dsimp only at h
        generalize defaultMode r1 = r2 at h
        cases hcs : consistency r2 with
        | threw => rw [hcs] at h; cases h
        | ub => rw [hcs] at h; cases h
        | ret r3 u =>
          rw [hcs] at h
          cases h
          unfold consistency at hcs
          split at hcs <;> dsimp only at hcs <;> split at hcs
          · cases hcs
          · rename_i hs hn
            split at hcs
            · cases hcs; refine ⟨fun h => Decidable.byContradiction fun hc => hn ⟨hc, h⟩, fun _ => rfl, fun _ => rfl⟩
            · rename_i hpr
              cases hcs
              refine ⟨fun h => Decidable.byContradiction fun hc => hn ⟨hc, h⟩, fun _ => rfl, fun h => ?_⟩
              cases hpp : r2.pruning
              · rfl
              · exact absurd ⟨hpp, by simpa [selective] using h⟩ hpr
          · cases hcs
          · rename_i hs hn
            split at hcs
            · cases hcs
              refine ⟨fun h => Decidable.byContradiction fun hc => hn ⟨hc, h⟩, fun h => ?_, fun _ => rfl⟩
              cases hss : r2.soft
              · rfl
              · exact absurd ⟨h, hss⟩ hs
            · rename_i hpr
              cases hcs
              refine ⟨fun h => Decidable.byContradiction fun hc => hn ⟨hc, h⟩, fun h => ?_, fun h => ?_⟩
              · cases hss : r.soft
                · rfl
                · exact absurd ⟨h, hss⟩ hs
              · cases hpp : r.pruning
                · rfl
                · exact absurd ⟨hpp, by simpa [selective] using h⟩ hpr

/-- **C73** If help is asked for then nothing else is done: no tests are run, and nothing is created or removed. -/
theorem C73_help {w : World} {d : Bool} {args : List Str} {F : List OptTree} {invs : Invs} (h : parseInvoke forest args = .ok (some F, invs)) :
    processArgs w (start d) args = .ret { start d with test := false, create := false, init := false } true := by
  unfold processArgs
  rw [h]

/-- **C73 (part)** The behaviour is defined for each command line whose words are clear: they are options, or words which the parser does not mistake for concatenated one-letter aliases, or
such concatenations in which each of the letters stands for an option without parameters.
What is missing: other command lines, for which see `C73_defined_violated`. -/
theorem C73_defined_partial (w : World) (d : Bool) {args : List Str} (h : Orderly forest args) : processArgs w (start d) args ≠ .ub := by
  unfold processArgs
  rcases C34_help (opts := forest) (by simp [forest]) h forest_bound with hp | ⟨F, hp⟩ | ⟨cs, hl, hp⟩
  · rw [hp]; simp
  · rw [hp]; simp
  · rw [hp]
    dsimp only
    cases h1 : invokeAll w (runAll (opsOf cs)) (start d) with
    | ub => exact absurd h1 (line_defined w (callsOf hl) _)
    | threw => simp
    | ret r1 u =>
      dsimp only
      cases hc : consistency (defaultMode r1) with
      | ub => exact absurd hc (consistency_defined _)
      | threw => simp
      | ret => simp

/-- **C73** The numbers: the cutoff, the number of repetitions and the identifier are those of the last occurrence of the respective option, the size of the thread pool is that of the last positive
choice; the number of repetitions is at least two if there is one, and the size of a thread pool is positive. -/
theorem C73_numbers {w : World} {d : Bool} {args : List Str} {invs : Invs} (hp : parseInvoke forest args = .ok (none, invs)) {r : Runner} {b : Bool}
    (h : processArgs w (start d) args = .ret r b) :
    (r.cutoff = match (firsts invs .cutoff).getLast? with | none => [] | some c => c) ∧
    (match (firsts invs .locate).getLast? with | none => r.reps = 1 | some a => stoi a = some (r.reps : Int) ∧ 2 ≤ r.reps) ∧
    (match (firsts invs .runnerId).getLast? with | none => r.id = 0 | some a => ∃ n, stoi a = some n ∧ r.id = (n % 2 ^ 64).toNat) ∧
    (match ((invs.filterMap choice).filterMap id).getLast? with | none => r.pool = 8 | some n => r.pool = n) ∧ 0 < r.pool ∧ r.pool < 2 ^ 31 := by
  unfold processArgs at h
  rw [hp] at h
  dsimp only at h
  cases h1 : invokeAll w invs (start d) with
  | threw => rw [h1] at h; cases h
  | ub => rw [h1] at h; cases h
  | ret r1 u =>
    rw [h1] at h
    dsimp only at h
    have N := numbers invs h1
    cases hcs : consistency (defaultMode r1) with
    | threw => rw [hcs] at h; cases h
    | ub => rw [hcs] at h; cases h
    | ret r2 u =>
      rw [hcs] at h
      cases h
      obtain ⟨k1, k2, k3, -, -, -, -⟩ := unchanged _ _ hcs
      simp only [Prod.mk.injEq] at k2
      rw [k1, k2.2.1, k2.2.2, k3]
      exact ⟨N.cutoff, N.reps, N.id, N.pool, N.poolLt.2, N.poolLt.1⟩

/-- **C73** A command line which creates nothing, and which does not ask for a recovery file or a dump if there is no output directory, is refused if and only if what should be a number is not one, or fewer than two repetitions are asked for, or a recovery file or a dump is asked for
and the last choice is a thread pool. -/
theorem C73_accepted {w : World} {d : Bool} {args : List Str} {invs : Invs} (hp : parseInvoke forest args = .ok (none, invs)) (hub : processArgs w (start d) args ≠ .ub)
    (hc : ∀ i ∈ invs, ∀ f ∈ creating, i.1 ≠ f.code) (ho : w.outputDir = true ∨ ¬ Recovering invs) :
    (∃ r, processArgs w (start d) args = .ret r false) ↔ (∀ i ∈ invs, Numeric i) ∧ ¬ (Recovering invs ∧ ∃ n, lastChoice invs = some (some n)) := by
  have hcons : ∀ r : Runner, (∃ r', consistency r = .ret r' ()) ↔ ¬ (r.conc ≠ .serial ∧ (r.recovery = true ∨ r.dump = true)) := by
    intro r
    unfold consistency
    dsimp only
    constructor
    · rintro ⟨r', h⟩ hn
      split at h <;> cases h
    · intro hn
      split <;> split <;> exact ⟨_, rfl⟩
  have hconc : ∀ r : Runner, After w invs r → ((defaultMode r).conc ≠ .serial ∧ ((defaultMode r).recovery = true ∨ (defaultMode r).dump = true) ↔
      Recovering invs ∧ ∃ n, lastChoice invs = some (some n)) := by
    intro r A
    have h1 : (defaultMode r).conc = r.conc := by unfold defaultMode; split <;> rfl
    have h2 : (defaultMode r).recovery = r.recovery := by unfold defaultMode; split <;> rfl
    have h3 : (defaultMode r).dump = r.dump := by unfold defaultMode; split <;> rfl
    rw [h1, h2, h3, A.conc]
    unfold Recovering
    rw [← A.recovery, ← A.dump]
    unfold concOf
    cases lastChoice invs with
    | none => cases r.recovery <;> cases r.dump <;> simp
    | some c => cases c <;> simp
  unfold processArgs at hub ⊢
  rw [hp] at hub ⊢
  dsimp only at hub ⊢
  cases h1 : invokeAll w invs (start d) with
  | ub => rw [h1] at hub; exact absurd rfl hub
  | threw r1 =>
    constructor
    · rintro ⟨r, h⟩; cases h
    · rintro ⟨hn, _⟩
      rcases invokeAll_accepts ho hc hn (start d) with h | ⟨r', h⟩ <;> rw [h1] at h <;> cases h
  | ret r1 u =>
    have A := after invs h1
    dsimp only
    rw [← hconc r1 A]
    constructor
    · rintro ⟨r, h⟩
      refine ⟨A.numeric, (hcons _).1 ?_⟩
      cases hcs : consistency (defaultMode r1) with
      | ub => exact absurd hcs (consistency_defined _)
      | threw => rw [hcs] at h; cases h
      | ret r' u => exact ⟨r', rfl⟩
    · rintro ⟨_, hn⟩
      obtain ⟨r', h⟩ := (hcons _).2 hn
      exact ⟨r', by rw [h]⟩

/-- **C73 (violated)** The behaviour is undefined for `prune -cc`: the word is taken for two one-letter aliases of `--cutoff`, which is run without the argument which it needs. -/
theorem C73_defined_violated (w : World) (d : Bool) : processArgs w (start d) ["prune".toList, "-cc".toList] = .ub := by rfl

/-- **C73 (violated)** A command line which is refused has an effect: the recovery file of the previous run is removed. -/
theorem C73_refused_violated (w : World) :
    ∃ r, processArgs w (start true) ["recover".toList, "--thread-pool".toList, "4".toList] = .threw r ∧ r.removed = [true] := ⟨_, rfl, rfl⟩

/-- **C73 (violated)** A recovery file cannot be asked for as long as there is no directory for output: the directory is created only after the command line has been read. -/
theorem C73_recover_violated (w : World) (h : w.outputDir = false) : ∃ r, processArgs w (start false) ["recover".toList] = .threw r := by
  refine ⟨start false, ?_⟩
  have : parseInvoke forest ["recover".toList] = .ok (none, [(Fn.recover.code, [])]) := rfl
  unfold processArgs
  rw [this]
  simp only [invokeAll, ofCode_code, invoke, clearRecovery, start, h]
  rfl

/-- A world. -/
def exWorld : World := ⟨true, fun _ => true, id, id⟩

/-- Tests are selected and pruned, materials are to be updated, there is a recovery file. -/
example : ∃ r, processArgs exWorld (start true) (["test", "Maths", "p", "u", "recover", "select", "Foo.cpp", "-v", "t", "Slow Suite"].map String.toList) = .ret r false ∧
    r.recovery = true ∧ r.conc = .serial ∧ r.pruning = false ∧ r.soft = true ∧
    r.filter = ⟨some [("Maths".toList, false), ("Slow Suite".toList, false)], some [("Foo.cpp".toList, false)]⟩ := ⟨_, rfl, rfl, rfl, rfl, rfl, rfl⟩

/-- The words of a command line are clear. -/
example : Orderly forest (["t", "Maths", "p", "-c", "namespace"].map String.toList) := orderly_of_clearly (by decide)

/-- **C74** The order of the options does not matter: if two command lines consist of the same options, with the same arguments and the same options below them, in different orders,
and if neither of them creates anything, and if of `--serial` and `--thread-pool` there is at most one, and at most one of `locate-instabilities` and of `prune`, then if one of them is accepted so is the
other, and the same will be done. -/
theorem C74_order {w : World} (ho : w.outputDir = true) {d : Bool} {args args' : List Str} (hord : Orderly forest args) (hord' : Orderly forest args') {cs cs' : List Call}
    (hl : Line true forest args cs []) (hl' : Line true forest args' cs' []) (hperm : cs.Perm cs') (hcreate : ∀ c ∈ cs, Is ["create", "init"] c = false)
    (hconc : cs.countP (Is ["--serial", "--thread-pool"]) ≤ 1) (hloc : cs.countP (Is ["locate-instabilities"]) ≤ 1) (hprune : cs.countP (Is ["prune"]) ≤ 1)
    {r : Runner} {b : Bool} (h : processArgs w (start d) args = .ret r b) : ∃ r', processArgs w (start d) args' = .ret r' b ∧ Same r r' := by
  have hne : forest ≠ [] := by simp [forest]
  have hp := C34_accepts hne hord hl
  have hp' := C34_accepts hne hord' hl'
  have hub := C73_defined_partial w d hord'
  have C := callsOf hl
  have P := run_perm hperm
  generalize hi : runAll (opsOf cs) = invs at hp P
  generalize hi' : runAll (opsOf cs') = invs' at hp' P
  have hq : ∀ i ∈ invs, ∀ f ∈ creating, i.1 ≠ f.code := by
    have := not_is (names := ["create", "init"]) (fs := creating) (forest_cases (by decide)) (by decide) C
    intro i hii
    rw [← hi, run_blocks] at hii
    obtain ⟨l, hl, hil⟩ := List.mem_flatten.1 hii
    obtain ⟨c, hc, rfl⟩ := List.mem_map.1 hl
    exact this c hc (hcreate c hc) i hil
  have hq' : ∀ i ∈ invs', ∀ f ∈ creating, i.1 ≠ f.code := fun i h => hq i (P.mem_iff.2 h)
  have hfm : ∀ (names : List String) (fs : List Fn) (hd : ∀ t ∈ forest, (names.any fun n => n.toList = t.opt.name) = false → ∀ f ∈ fs, f.code ∉ codes t) (hv : Fn.verbose ∉ fs)
      (h1 : cs.countP (Is names) ≤ 1) (β : Type) (g : Nat × List Str → Option β) (hg : ∀ i, (∀ f ∈ fs, i.1 ≠ f.code) → g i = none), invs.filterMap g = invs'.filterMap g := by
    intro names fs hd hv h1 β g hg
    rw [← hi, ← hi']
    refine filterMap_blocks g hperm (Is names) (fun c hc hn => ?_) h1
    rw [List.filterMap_eq_nil_iff]
    exact fun i hii => hg i (not_is hd hv C c hc hn i hii)
  have hchoice : invs.filterMap choice = invs'.filterMap choice := by
    refine hfm ["--serial", "--thread-pool"] [.serial, .pool] (forest_cases (by decide)) (by decide) hconc _ _ fun i hii => ?_
    have h1 := hii .serial (by simp)
    have h2 := hii .pool (by simp)
    simp [choice, h1, h2]
  have hlast : lastChoice invs = lastChoice invs' := by unfold lastChoice; rw [hchoice]
  have hcut : firsts invs .cutoff = firsts invs' .cutoff := by
    refine hfm ["prune"] [.cutoff] (forest_cases (by decide)) (by decide) hprune _ _ fun i hii => ?_
    have h1 := hii .cutoff (by simp)
    simp [h1]
  have hlocf : invs.filter isLocating = invs'.filter isLocating := by
    have key := hfm ["locate-instabilities"] [.locate, .sandbox, .runnerId] (forest_cases (by decide)) (by decide) hloc _ (fun i => if isLocating i then some i else none) fun i hii => by
      have h1 := hii .locate (by simp)
      have h2 := hii .sandbox (by simp)
      have h3 := hii .runnerId (by simp)
      simp [isLocating, h1, h2, h3]
    have heq : ∀ l : Invs, l.filterMap (fun i => if isLocating i then some i else none) = l.filter isLocating := by
      intro l; induction l with
      | nil => rfl
      | cons i l ih => rw [List.filterMap_cons, List.filter_cons]; cases isLocating i <;> simp [ih]
    rw [heq, heq] at key
    exact key
  have hgiven : ∀ f, Given invs f ↔ Given invs' f := fun f => by
    unfold Given
    exact ⟨fun ⟨a, ha⟩ => ⟨a, P.mem_iff.1 ha⟩, fun ⟨a, ha⟩ => ⟨a, P.mem_iff.2 ha⟩⟩
  have M := C73_meaning hp h
  obtain rfl := M.1
  have acc := (C73_accepted hp (by rw [h]; simp) hq (.inl ho)).1 ⟨r, h⟩
  have acc' : (∀ i ∈ invs', Numeric i) ∧ ¬ (Recovering invs' ∧ ∃ n, lastChoice invs' = some (some n)) := by
    refine ⟨fun i hii => acc.1 i (P.mem_iff.2 hii), ?_⟩
    have := acc.2
    unfold Recovering at this ⊢
    rw [hgiven, hgiven, hlast] at this
    exact this
  obtain ⟨r', h'⟩ := (C73_accepted hp' hub hq' (.inl ho)).2 acc'
  refine ⟨r', h', ?_⟩
  have M' := C73_meaning hp' h'
  obtain ⟨a1, a2, a3, a4, a5, a6, a7⟩ := final hp h hq
  obtain ⟨b1, b2, b3, b4, b5, b6, b7⟩ := final hp' h' hq'
  obtain ⟨-, m1, m2, m3, m4, m5, m6, m7, m8, m9⟩ := M
  obtain ⟨-, n1, n2, n3, n4, n5, n6, n7, n8, n9⟩ := M'
  have bool : ∀ {x y : Bool}, (x = true ↔ y = true) → x = y := fun {x y} h => by cases x <;> cases y <;> simp_all
  have hrec : r.recovery = r'.recovery := bool (by rw [m1, n1, hgiven])
  have hdump : r.dump = r'.dump := bool (by rw [m2, n2, hgiven])
  have hfirst : ∀ f, (firsts invs f).Perm (firsts invs' f) := fun f => P.filterMap _
  have hi3 : (r.instab, r.reps, r.id) = (r'.instab, r'.reps, r'.id) := by rw [a2, b2, hlocf]
  simp only [Prod.mk.injEq] at hi3
  constructor
  · exact ⟨bool (by rw [m9, n9, a6, b6, hgiven, hgiven, hgiven, hgiven, hgiven]), a6.trans b6.symm, a7.trans b7.symm⟩
  · exact ⟨_, _, hfirst .test, by rw [m7], by rw [n7]⟩
  · exact ⟨_, _, (hfirst .select).map _, by rw [m7], by rw [n7]⟩
  · refine ⟨bool ?_, by rw [a1, b1, hcut]⟩
    rw [m6, n6]; unfold Selecting; rw [hgiven, hgiven, hgiven]
  · exact bool (by rw [m3, n3, hgiven])
  · refine bool ?_
    rw [m4, n4]; unfold Locating; rw [hgiven, hgiven, hgiven, hgiven]
  · exact ⟨hrec, hdump⟩
  · exact ⟨by rw [m8, n8, hlast, hrec, hdump], by rw [a3, b3, hchoice]⟩
  · exact hi3
  · exact ⟨a4.trans b4.symm, a5.trans b5.symm⟩

/-- **C74 (violated)** Without these conditions the order matters: the last one of `--serial` and `--thread-pool` counts. -/
theorem C74_order_violated (w : World) (d : Bool) : ∃ r r', processArgs w (start d) (["--serial", "--thread-pool", "2"].map String.toList) = .ret r false ∧
    processArgs w (start d) (["--thread-pool", "2", "--serial"].map String.toList) = .ret r' false ∧ r.conc = .fixed ∧ r'.conc = .serial := ⟨_, _, rfl, rfl, rfl, rfl⟩

/-- Two orders of the same options. -/
example : ∃ cs cs' : List Call, Line true forest (["--serial", "test", "Maths", "prune"].map String.toList) cs [] ∧
    Line true forest (["test", "Maths", "--serial", "prune"].map String.toList) cs' [] ∧ cs.Perm cs' ∧ cs.length = 3 ∧
    cs.countP (Is ["--serial", "--thread-pool"]) = 1 ∧ ∀ c ∈ cs, Is ["create", "init"] c = false := by
  refine ⟨_, _, .one (args := []) (by decide) rfl (fun _ => rfl) rfl (.stop (.inl rfl))
      (.one (args := ["Maths".toList]) (by decide) rfl (fun _ => rfl) rfl (.stop (.inl rfl)) (.one (args := []) (by decide) rfl (fun _ => rfl) rfl (.stop (.inr (.inl rfl))) (.stop (.inr (.inl rfl))))),
    .one (args := ["Maths".toList]) (by decide) rfl (fun _ => rfl) rfl (.stop (.inl rfl))
      (.one (args := []) (by decide) rfl (fun _ => rfl) rfl (.stop (.inl rfl)) (.one (args := []) (by decide) rfl (fun _ => rfl) rfl (.stop (.inr (.inl rfl))) (.stop (.inr (.inl rfl))))), ?_, rfl, by decide, ?_⟩
  · exact List.Perm.swap _ _ _
  · intro c hc
    simp only [List.mem_cons, List.not_mem_nil, or_false] at hc
    rcases hc with rfl | rfl | rfl <;> decide

end Verif.Props
