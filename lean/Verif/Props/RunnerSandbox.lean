import Verif.Props.RunnerArgs
import Verif.Lemmas.RunnerSandbox
import Verif.Lemmas.RunnerCreate

set_option linter.unusedSimpArgs false

/-! C75 and C76: sandboxes, and the creation of tests. -/
namespace Verif.Props
open Verif.Cmd Verif.Suites Verif.RunnerArgs Verif.Spec Verif.Spec.RunnerArgs Verif.Spec.Suites

namespace Sandbox

theorem reps_lt {w : World} {d : Bool} {args : List Str} {r : Runner} (h : processArgs w (start d) args = .ret r false) :
    r.reps < 2 ^ 31 ∧ 0 < r.pool ∧ r.pool < 2 ^ 31 ∧ ∀ ks, keys r.filter.items = some ks → ∀ k ∈ ks, ∃ a, k = w.normal a := by
  unfold processArgs at h
  cases hp : parseInvoke forest args with
  | throws => rw [hp] at h; cases h
  | ub => rw [hp] at h; cases h
  | ok p =>
    obtain ⟨x, invs⟩ := p
    cases x with
    | some x => rw [hp] at h; cases h
    | none =>
      have h' : processArgs w (start d) args = .ret r false := by unfold processArgs; exact h
      obtain ⟨-, n1, -, -, n2, n3⟩ := C73_numbers hp h'
      refine ⟨?_, n2, n3, ?_⟩
      · cases hl : (firsts invs .locate).getLast? with
        | none => rw [hl] at n1; dsimp only at n1; omega
        | some a =>
          rw [hl] at n1
          have := stoi_lt n1.1
          omega
      · have hf := (C73_meaning hp h').2.2.2.2.2.2.2.1
        rw [hf]
        intro ks hk k hks
        dsimp only at hk
        rw [keys_selection] at hk
        split at hk
        · cases hk
        · cases hk
          obtain ⟨a, _, rfl⟩ := List.mem_map.1 hks
          exact ⟨a, rfl⟩

theorem prune_same (w : World) (toRun : Option (List Str)) (r : Runner) :
    (doPrune w toRun r).reps = r.reps ∧ (doPrune w toRun r).conc = r.conc ∧ (doPrune w toRun r).pool = r.pool ∧
    ((∀ ks, keys r.filter.items = some ks → ∀ k ∈ ks, ∃ a, k = w.normal a) → ∀ ks, keys (doPrune w toRun r).filter.items = some ks → ∀ k ∈ ks, ∃ a, k = w.normal a) := by
  have hfold : ∀ (l : List Str) (f : Granular Str Str), (∀ ks, keys f.items = some ks → ∀ k ∈ ks, ∃ a, k = w.normal a) →
      ∀ ks, keys (l.foldl (fun f src => ⟨f.suites, addSelection f.items (w.normal src)⟩) f).items = some ks → ∀ k ∈ ks, ∃ a, k = w.normal a := by
    intro l
    induction l with
    | nil => intro f h; exact h
    | cons s l ih =>
      intro f h
      refine ih _ ?_
      intro ks hk k hks
      dsimp only at hk
      cases hi : f.items with
      | none =>
        rw [hi] at hk
        simp only [addSelection, keys, Option.map_some, List.map_cons, List.map_nil, Option.some.injEq] at hk
        subst hk
        simp only [List.mem_singleton] at hks
        exact ⟨s, hks⟩
      | some m =>
        rw [hi] at hk
        simp only [addSelection, keys, Option.map_some, List.map_append, List.map_cons, List.map_nil, Option.some.injEq] at hk
        subst hk
        rcases List.mem_append.1 hks with hks | hks
        · exact h _ (by rw [hi]; rfl) k hks
        · simp only [List.mem_singleton] at hks
          exact ⟨s, hks⟩
  unfold doPrune
  split
  · exact ⟨rfl, rfl, rfl, fun h => h⟩
  · cases toRun with
    | none => exact ⟨rfl, rfl, rfl, fun h => h⟩
    | some l =>
      dsimp only
      split
      · exact ⟨rfl, rfl, rfl, fun h => hfold l _ h⟩
      · refine ⟨rfl, rfl, rfl, fun _ ks hk k hks => ?_⟩
        simp only [keys, Option.map_some, List.map_nil, Option.some.injEq] at hk
        subst hk
        cases hks

/-- What a command for a sandbox does. -/
theorem child (w : World) (d : Bool) (r : Runner) (i : Nat) (hreps : 2 ≤ r.reps) (hlt : r.reps < 2 ^ 31) (hi : i < 2 ^ 31) (hpool : 0 < r.pool) (hpl : r.pool < 2 ^ 31) :
    ∃ r', processArgs w (start d) (childWords r i) = .ret r' false ∧ r'.instab = .sandbox ∧ r'.test = true ∧ r'.soft = false ∧ r'.pruning = false ∧ r'.recovery = false ∧ r'.dump = false ∧ r'.reps = r.reps ∧ r'.id = i ∧
      r'.conc = r.conc ∧ (r.conc = .fixed → r'.pool = r.pool) ∧ r'.filter = ⟨selection (foundKeys r.filter.suites), selection ((foundKeys r.filter.items).map w.normal)⟩ := by
  have hp := parse_child r i
  have hmem : ∀ x ∈ childInvs r i, (x = (Fn.locate.code, [Nat.toDigits 10 r.reps])) ∨ (x = (Fn.runnerId.code, [Nat.toDigits 10 i])) ∨ (∃ k, x = (Fn.select.code, [k])) ∨
      (∃ k, x = (Fn.test.code, [k])) ∨ (x = (Fn.serial.code, [])) ∨ (x = (Fn.pool.code, [Nat.toDigits 10 r.pool])) := by
    intro x hx
    unfold childInvs at hx
    simp only [List.mem_append, List.mem_cons, List.not_mem_nil, or_false, List.mem_map] at hx
    rcases hx with (((hx | hx) | ⟨k, _, hx⟩) | ⟨k, _, hx⟩) | hx
    · exact .inl hx
    · exact .inr (.inl hx)
    · exact .inr (.inr (.inl ⟨k, hx.symm⟩))
    · exact .inr (.inr (.inr (.inl ⟨k, hx.symm⟩)))
    · unfold asyncInvs at hx
      cases hc : r.conc with
      | serial => rw [hc] at hx; simp at hx; exact .inr (.inr (.inr (.inr (.inl hx))))
      | dynamic => rw [hc] at hx; simp at hx
      | fixed => rw [hc] at hx; dsimp only at hx; rw [List.mem_singleton] at hx; exact .inr (.inr (.inr (.inr (.inr hx))))
  have hcode : ∀ x ∈ childInvs r i, ∃ f ∈ [Fn.locate, Fn.runnerId, Fn.select, Fn.test, Fn.serial, Fn.pool], x.1 = f.code ∧ x.2.length = arity f := by
    intro x hx
    rcases hmem x hx with rfl | rfl | ⟨k, rfl⟩ | ⟨k, rfl⟩ | rfl | rfl
    · exact ⟨.locate, by simp, rfl, rfl⟩
    · exact ⟨.runnerId, by simp, rfl, rfl⟩
    · exact ⟨.select, by simp, rfl, rfl⟩
    · exact ⟨.test, by simp, rfl, rfl⟩
    · exact ⟨.serial, by simp, rfl, rfl⟩
    · exact ⟨.pool, by simp, rfl, rfl⟩
  have hnot : ∀ f : Fn, f ∉ [Fn.locate, Fn.runnerId, Fn.select, Fn.test, Fn.serial, Fn.pool] → ∀ x ∈ childInvs r i, x.1 ≠ f.code := by
    intro f hf x hx he
    obtain ⟨g, hg, hxg, _⟩ := hcode x hx
    exact hf (code_inj (hxg.symm.trans he) ▸ hg)
  have hgiven : ∀ f : Fn, f ∉ [Fn.locate, Fn.runnerId, Fn.select, Fn.test, Fn.serial, Fn.pool] → ¬ Given (childInvs r i) f := by
    rintro f hf ⟨a, ha⟩
    exact hnot f hf _ ha rfl
  have hrec : ¬ Recovering (childInvs r i) := by
    rintro (h | h)
    · exact hgiven _ (by decide) h
    · exact hgiven _ (by decide) h
  have hcreate : ∀ x ∈ childInvs r i, ∀ f ∈ creating, x.1 ≠ f.code := by
    intro x hx f hf
    have : f ∉ [Fn.locate, Fn.runnerId, Fn.select, Fn.test, Fn.serial, Fn.pool] := by
      revert f; decide
    exact hnot f this x hx
  have hnum : ∀ x ∈ childInvs r i, Numeric x := by
    intro x hx
    have hne : ∀ f : Fn, f ≠ .locate → f ≠ .runnerId → f ≠ .pool → ∀ a, Numeric (f.code, a) := by
      intro f h1 h2 h3 a
      exact ⟨fun e => absurd (code_inj e) h1, fun e => absurd (code_inj e) h2, fun e => absurd (code_inj e) h3⟩
    rcases hmem x hx with rfl | rfl | ⟨k, rfl⟩ | ⟨k, rfl⟩ | rfl | rfl
    · refine ⟨fun _ => ⟨r.reps, stoi_digits hlt, by omega⟩, (fun e => by cases e), (fun e => by cases e)⟩
    · exact ⟨(fun e => by cases e), fun _ => ⟨i, stoi_digits hi⟩, (fun e => by cases e)⟩
    · exact hne .select (by decide) (by decide) (by decide) _
    · exact hne .test (by decide) (by decide) (by decide) _
    · exact hne .serial (by decide) (by decide) (by decide) _
    · exact ⟨(fun e => by cases e), (fun e => by cases e), fun _ => ⟨r.pool, stoi_digits hpl⟩⟩
  have hub : processArgs w (start d) (childWords r i) ≠ .ub := by
    unfold processArgs
    rw [hp]
    dsimp only
    have := invokeAll_defined w (childInvs r i) (start d) (fun x hx => by obtain ⟨f, _, h1, h2⟩ := hcode x hx; exact ⟨f, h1, h2⟩)
      (.inr fun x hx f hf => by
        obtain ⟨g, hg, hxg, _⟩ := hcode x hx
        obtain rfl := code_inj (hxg.symm.trans hf)
        have : ∀ g ∈ [Fn.locate, Fn.runnerId, Fn.select, Fn.test, Fn.serial, Fn.pool], needsProject g = false := by decide
        exact this _ hg)
    cases h1 : invokeAll w (childInvs r i) (start d) with
    | ub => exact absurd h1 this
    | threw => simp
    | ret r1 u =>
      dsimp only
      cases h2 : consistency (defaultMode r1) with
      | ub => exact absurd h2 (consistency_defined _)
      | threw => simp
      | ret => simp
  obtain ⟨r', h'⟩ := (C73_accepted hp hub hcreate (.inr hrec)).2 ⟨hnum, fun h => hrec h.1⟩
  have M := C73_meaning hp h'
  have F := final hp h' hcreate
  refine ⟨r', h', ?_⟩
  have nil : ∀ {α : Type} (l : List α) (f : Fn) (g : α → List Str) (f' : Fn), f ≠ f' → firsts (l.map fun k => (f.code, g k)) f' = [] := by
    intro α l f g f' hne
    unfold firsts
    rw [List.filterMap_eq_nil_iff]
    intro x hx
    obtain ⟨k, _, rfl⟩ := List.mem_map.1 hx
    rw [if_neg fun e => hne (code_inj e)]
  have all : ∀ (l : List Str) (f : Fn), firsts (l.map fun k => (f.code, [k])) f = l := by
    intro l f
    induction l with
    | nil => rfl
    | cons k l ih => unfold firsts at ih ⊢; rw [List.map_cons, List.filterMap_cons, ih]; simp
  have happ : ∀ a b f, firsts (a ++ b) f = firsts a f ++ firsts b f := fun a b f => List.filterMap_append
  have hasync : ∀ f : Fn, f = .test ∨ f = .select → firsts (asyncInvs r.conc r.pool) f = [] := by
    rintro f (rfl | rfl) <;> cases r.conc <;> rfl
  have hhead : ∀ f : Fn, f = .test ∨ f = .select → firsts [(Fn.locate.code, [Nat.toDigits 10 r.reps]), (Fn.runnerId.code, [Nat.toDigits 10 i])] f = [] := by
    rintro f (rfl | rfl) <;> rfl
  have hsuites : firsts (childInvs r i) .test = foundKeys r.filter.suites := by
    unfold childInvs
    rw [happ, happ, happ, hhead _ (.inl rfl), hasync _ (.inl rfl), nil _ _ _ _ (by decide), all]
    simp
  have hitems : firsts (childInvs r i) .select = foundKeys r.filter.items := by
    unfold childInvs
    rw [happ, happ, happ, hhead _ (.inr rfl), hasync _ (.inr rfl), nil (foundKeys r.filter.suites) .test _ _ (by decide), all]
    simp
  have hnoc : ∀ (l : List Str) (f : Fn), f ≠ .serial → f ≠ .pool → (l.map fun k => (f.code, [k])).filterMap choice = [] := by
    intro l f h1 h2
    rw [List.filterMap_eq_nil_iff]
    intro x hx
    obtain ⟨k, _, rfl⟩ := List.mem_map.1 hx
    unfold choice
    rw [if_neg fun e => h1 (code_inj e), if_neg fun e => h2 (code_inj e)]
  have hchoice : (childInvs r i).filterMap choice = match r.conc with | .serial => [none] | .dynamic => [] | .fixed => [some r.pool] := by
    unfold childInvs
    rw [List.filterMap_append, List.filterMap_append, List.filterMap_append, hnoc _ .select (by decide) (by decide), hnoc _ .test (by decide) (by decide)]
    have h0 : [(Fn.locate.code, [Nat.toDigits 10 r.reps]), (Fn.runnerId.code, [Nat.toDigits 10 i])].filterMap choice = [] := rfl
    rw [h0]
    simp only [List.nil_append]
    unfold asyncInvs
    cases r.conc with
    | serial => rfl
    | dynamic => rfl
    | fixed =>
      have : choice (Fn.pool.code, [Nat.toDigits 10 r.pool]) = some (some r.pool) := by
        unfold choice
        rw [if_neg (fun e => by cases e), if_pos rfl]
        simp only [List.head?_cons, Option.bind_some, stoi_digits hpl]
        rw [if_pos (by omega)]
        simp
      simp [List.filterMap_cons, this]
  have hloc : (childInvs r i).filter isLocating = [(Fn.locate.code, [Nat.toDigits 10 r.reps]), (Fn.runnerId.code, [Nat.toDigits 10 i])] := by
    have hno : ∀ (l : List Str) (f : Fn), f ≠ .locate → f ≠ .sandbox → f ≠ .runnerId → (l.map fun k => (f.code, [k])).filter isLocating = [] := by
      intro l f h1 h2 h3
      rw [List.filter_eq_nil_iff]
      intro x hx
      obtain ⟨k, _, rfl⟩ := List.mem_map.1 hx
      unfold isLocating
      have e1 : ¬ f.code = Fn.locate.code := fun e => h1 (code_inj e)
      have e2 : ¬ f.code = Fn.sandbox.code := fun e => h2 (code_inj e)
      have e3 : ¬ f.code = Fn.runnerId.code := fun e => h3 (code_inj e)
      simp [e1, e2, e3]
    unfold childInvs
    rw [List.filter_append, List.filter_append, List.filter_append, hno _ .select (by decide) (by decide) (by decide), hno _ .test (by decide) (by decide) (by decide)]
    have h1 : (asyncInvs r.conc r.pool).filter isLocating = [] := by cases r.conc <;> rfl
    rw [h1]
    simp only [List.append_nil]
    rfl
  have F2 := F.2.1
  rw [hloc] at F2
  simp only [List.foldl_cons, List.foldl_nil, locStep] at F2
  rw [if_pos trivial, if_neg (by decide), if_neg (by decide), if_pos trivial] at F2
  simp only [List.head?_cons, Option.bind_some, stoi_digits hlt, stoi_digits hi, Option.map_some, Option.getD_some, Prod.mk.injEq] at F2
  have hid : toSize (i : Int) = i := by
    unfold toSize
    omega
  have b : ∀ {x : Bool} {P : Prop}, (x = true ↔ P) → ¬ P → x = false := fun {x P} h hn => by cases x; rfl; exact absurd (h.1 rfl) hn
  obtain ⟨-, m1, m2, m3, m4, m5, m6, m7, m8, m9⟩ := M
  refine ⟨F2.1, ?_, ?_, ?_, ?_, ?_, ?_, ?_, ?_, ?_, ?_⟩
  · exact m9.2 (.inr (.inr (.inr (.inr ⟨F.2.2.2.2.2.1, hgiven _ (by decide)⟩))))
  · exact b m4 fun h => hgiven _ (by decide) h.1
  · exact b m6 fun h => hgiven _ (by decide) h.1
  · exact b m1 (hgiven _ (by decide))
  · exact b m2 (hgiven _ (by decide))
  · rw [F2.2.1]; simp
  · rw [F2.2.2, hid]
  · rw [m8, b m1 (hgiven _ (by decide)), b m2 (hgiven _ (by decide))]
    unfold lastChoice
    rw [hchoice]
    cases r.conc <;> rfl
  · intro hc
    rw [F.2.2.1, hchoice, hc]
    rfl
  · rw [m7, hsuites, hitems]

end Sandbox

/-- **C75 (part)** Sandboxes.  When a command line has been accepted, tests have been pruned if this is asked for, and the tests have been filtered, then if any are selected, and if the name of the executable and the names of
the selected suites and files are plain text, and if there are at least two repetitions, then there are as many commands as repetitions, and each of them runs the executable in a sandbox: with the number of the
command as its identifier, the same number of repetitions, the same concurrency, without updating materials, and selecting exactly the tests which are selected here.  What is missing: `--verbose`, `recover` and `dump` are
not passed on (see `C75_recovery_violated`), nor is anything quoted (see `C75_spaces_violated`). -/
theorem C75_sandboxes_partial {L S : Type} (m : Str → L → Bool) (name : S → Str) {w : World} (hnorm : ∀ a, w.normal (w.normal a) = w.normal a) {d : Bool} {args : List Str} {r0 : Runner}
    (h : processArgs w (start d) args = .ret r0 false) (hreps : 2 ≤ r0.reps) (toRun : Option (List Str)) {r1 : Runner} (hr1 : r1 = doPrune w toRun r0)
    (tests : List (L × List S)) (hsome : ∃ t ∈ tests, (r1.filter.apply m name t.1 t.2).1 = true) {exe : Str} (hexe : Plain exe)
    (hsuites : ∀ ks, keys r1.filter.suites = some ks → ∀ k ∈ ks, Plain k) (hitems : ∀ ks, keys r1.filter.items = some ks → ∀ k ∈ ks, Plain k) {r : Runner}
    (hr : r = { r1 with filter := visited (fun f l p => f.apply m name l p) r1.filter tests }) :
    ∃ cmds, childCommands exe r = .ok cmds ∧ cmds.length = r0.reps ∧ ∀ i, i < r0.reps → ∃ cmd words, cmds[i]? = some cmd ∧ shellWords cmd = some (exe :: words) ∧
      ∀ d', ∃ r', processArgs w (start d') words = .ret r' false ∧ r'.instab = .sandbox ∧ r'.test = true ∧ r'.soft = false ∧ r'.pruning = false ∧ r'.reps = r0.reps ∧ r'.id = i ∧
        r'.conc = r0.conc ∧ (r0.conc = .fixed → r'.pool = r0.pool) ∧ ∀ t ∈ tests, (r'.filter.apply m name t.1 t.2).1 = (r1.filter.apply m name t.1 t.2).1 := by
  obtain ⟨hlt, hp0, hpl, hnk⟩ := Sandbox.reps_lt h
  obtain ⟨e1, e2, e3, e4⟩ := Sandbox.prune_same w toRun r0
  rw [← hr1] at e1 e2 e3 e4
  have hrr : r.reps = r0.reps := by rw [hr]; exact e1
  have hrc : r.conc = r0.conc := by rw [hr]; exact e2
  have hrp : r.pool = r0.pool := by rw [hr]; exact e3
  have hrf : r.filter = visited (fun f l p => f.apply m name l p) r1.filter tests := by rw [hr]
  have hk := visited_keys m name tests r1.filter
  rw [← hrf] at hk
  refine ⟨_, by unfold childCommands; rw [if_neg (by simpa using hexe.1)], by simp [hrr], fun i hi => ?_⟩
  refine ⟨childCommand exe r i, childWords r i, ?_, ?_, fun d' => ?_⟩
  · rw [List.getElem?_map, List.getElem?_range (by omega)]; rfl
  · rw [command_words]
    refine shell_words hexe fun x hx => ?_
    unfold childWords at hx
    simp only [List.mem_append] at hx
    rcases hx with (hx | hx) | hx
    · simp only [List.mem_cons, List.not_mem_nil, or_false] at hx
      rcases hx with rfl | rfl | rfl | rfl
      · exact ⟨by decide, by decide⟩
      · exact digits_plain
      · exact ⟨by decide, by decide⟩
      · exact digits_plain
    · unfold selWords at hx
      rcases List.mem_append.1 hx with hx | hx
      · obtain ⟨k, hk1, hx⟩ := List.mem_flatMap.1 hx
        simp only [List.mem_cons, List.not_mem_nil, or_false] at hx
        rcases hx with rfl | rfl
        · exact ⟨by decide, by decide⟩
        · obtain ⟨ks, h1, h2⟩ := foundKeys_sub hk1
          rw [hk.2] at h1
          exact hitems ks h1 _ h2
      · obtain ⟨k, hk1, hx⟩ := List.mem_flatMap.1 hx
        simp only [List.mem_cons, List.not_mem_nil, or_false] at hx
        rcases hx with rfl | rfl
        · exact ⟨by decide, by decide⟩
        · obtain ⟨ks, h1, h2⟩ := foundKeys_sub hk1
          rw [hk.1] at h1
          exact hsuites ks h1 _ h2
    · unfold asyncWords at hx
      cases hc : r.conc with
      | serial => rw [hc] at hx; dsimp only at hx; rw [List.mem_singleton] at hx; subst hx; exact ⟨by decide, by decide⟩
      | dynamic => rw [hc] at hx; cases hx
      | fixed =>
        rw [hc] at hx
        dsimp only at hx
        simp only [List.mem_cons, List.not_mem_nil, or_false] at hx
        rcases hx with rfl | rfl
        · exact ⟨by decide, by decide⟩
        · exact digits_plain
  · obtain ⟨r', h1, h2, h3, h4, h5, _, _, h6, h7, h8, h9, h10⟩ := Sandbox.child w d' r i (by omega) (by omega) (by omega) (by omega) (by omega)
    refine ⟨r', h1, h2, h3, h4, h5, h6.trans hrr, h7, h8.trans hrc, fun hc => (h9 (hrc.trans hc)).trans hrp, fun t ht => ?_⟩
    have hmap : (foundKeys r.filter.items).map w.normal = foundKeys r.filter.items := by
      conv => rhs; rw [← List.map_id (foundKeys r.filter.items)]
      refine List.map_congr_left fun k hk1 => ?_
      obtain ⟨ks, h1, h2⟩ := foundKeys_sub hk1
      rw [hk.2] at h1
      obtain ⟨a, rfl⟩ := e4 hnk ks h1 k h2
      exact hnorm a
    rw [h10, hmap, hrf]
    exact found_accepts m name hsome ht

/-- A world, in which paths are in normal form. -/
def plainWorld : World := ⟨true, fun _ => true, id, id⟩

/-- Two suites with three tests. -/
def threeTests : List (Str × List Str) := [("a.cpp".toList, ["Maths".toList]), ("b.cpp".toList, ["Maths".toList]), ("c.cpp".toList, ["Core".toList])]

/-- The hypotheses can be met, and the commands are as expected. -/
example : ∃ r0, processArgs plainWorld (start true) (["locate", "3", "--sandbox", "test", "Maths", "select", "c.cpp", "test", "Absent", "--thread-pool", "4"].map String.toList) = .ret r0 false ∧
    r0.instab = .coordinator ∧ 2 ≤ r0.reps ∧ (∃ t ∈ threeTests, (r0.filter.apply (fun k l => k = l) id t.1 t.2).1 = true) ∧
    childCommand "./tests".toList { r0 with filter := visited (fun f l p => f.apply (fun k l => k = l) id l p) r0.filter threeTests } 1 =
      "./tests locate 3 --runner-id 1 select c.cpp test Maths --thread-pool 4".toList := by
  refine ⟨_, rfl, rfl, by decide, ⟨_, by simp only [threeTests, List.mem_cons]; exact .inl rfl, by decide⟩, by decide⟩

/-- **C75** Pruning: if it is in force then, when it is known which tests have to be run, exactly these are selected, and otherwise all tests are. -/
theorem C75_pruning {L S : Type} (m : Str → L → Bool) (name : S → Str) {w : World} {d : Bool} {args : List Str} {r0 : Runner} (h : processArgs w (start d) args = .ret r0 false)
    (hp : r0.pruning = true) (l : L) (path : List S) :
    (∀ srcs, ((doPrune w (some srcs) r0).filter.apply m name l path).1 = true ↔ ∃ s ∈ srcs, m (w.normal s) l = true) ∧
    ((doPrune w none r0).filter.apply m name l path).1 = true := by
  have hf : r0.filter = ⟨none, none⟩ := by
    unfold processArgs at h
    cases hpi : parseInvoke forest args with
    | throws => rw [hpi] at h; cases h
    | ub => rw [hpi] at h; cases h
    | ok p =>
      obtain ⟨x, invs⟩ := p
      cases x with
      | some x => rw [hpi] at h; cases h
      | none =>
        have h' : processArgs w (start d) args = .ret r0 false := by unfold processArgs; exact h
        obtain ⟨-, -, -, -, -, -, m6, m7, -⟩ := C73_meaning hpi h'
        have hns := (m6.1 hp).2
        have e : ∀ f : Fn, ¬ Given invs f → firsts invs f = [] := by
          intro f hg
          unfold firsts
          rw [List.filterMap_eq_nil_iff]
          intro i hi
          rw [if_neg]
          intro he
          exact hg ⟨i.2, by rw [← he]; exact hi⟩
        rw [m7, e .test fun g => hns (.inl g), e .select fun g => hns (.inr g)]
        rfl
  constructor
  · intro srcs
    have hfold : ∀ (l : List Str) (f : Granular Str Str), f.suites = none →
        (l.foldl (fun f src => (⟨f.suites, addSelection f.items (w.normal src)⟩ : Granular Str Str)) f).suites = none ∧
        keys (l.foldl (fun f src => (⟨f.suites, addSelection f.items (w.normal src)⟩ : Granular Str Str)) f).items =
          if l = [] then keys f.items else some ((keys f.items).toList.flatten ++ l.map w.normal) := by
      intro l
      induction l with
      | nil => intro f h; exact ⟨h, rfl⟩
      | cons s l ih =>
        intro f h
        have := ih ⟨f.suites, addSelection f.items (w.normal s)⟩ h
        rw [List.foldl_cons]
        refine ⟨this.1, ?_⟩
        rw [this.2]
        cases hi : f.items with
        | none => by_cases hl : l = [] <;> simp [hl, addSelection, keys]
        | some x => by_cases hl : l = [] <;> simp [hl, addSelection, keys, Function.comp_def]
    rw [(C42_accepts m name _ l path).1]
    unfold doPrune
    rw [if_neg (by rw [hp]; simp), hf]
    dsimp only
    obtain ⟨h1, h2⟩ := hfold srcs ⟨none, none⟩ rfl
    generalize srcs.foldl (fun f src => (⟨f.suites, addSelection f.items (w.normal src)⟩ : Granular Str Str)) ⟨none, none⟩ = f at h1 h2
    by_cases hs : srcs = []
    · subst hs
      rw [if_pos rfl] at h2
      have h3 : f.items = none := by cases hq : f.items <;> simp_all [keys]
      have hsel : selective f = false := by simp [selective, h1, h3]
      rw [hsel]
      simp [Accepts, keys]
    · rw [if_neg hs] at h2
      have h3 : f.items ≠ none := by intro hq; rw [hq] at h2; simp [keys] at h2
      have hsel : selective f = true := by unfold selective; cases hq : f.items <;> simp_all
      rw [hsel, if_pos rfl]
      dsimp only
      rw [h1, h2]
      simp [Accepts, keys]
  · rw [(C42_accepts m name _ l path).1]
    unfold doPrune
    rw [if_neg (by rw [hp]; simp), hf]
    exact .inl ⟨rfl, rfl⟩

example : ∃ r0, processArgs plainWorld (start true) (["prune", "locate", "2", "--sandbox"].map String.toList) = .ret r0 false ∧ r0.pruning = true := ⟨_, rfl, rfl⟩

/-- **C75 (violated)** Names are not quoted: for a suite with a blank in its name, as in the tests of this library, the commands select other suites, and the word which is left over is refused. -/
theorem C75_spaces_violated : ∃ r0, processArgs plainWorld (start true) (["locate", "2", "--sandbox", "test", "Slow Suite"].map String.toList) = .ret r0 false ∧
    ∃ words, shellWords (childCommand "tests".toList { r0 with filter := ⟨some [("Slow Suite".toList, true)], none⟩ } 0) = some ("tests".toList :: words) ∧
      ∃ r', processArgs plainWorld (start true) words = .threw r' := by
  refine ⟨_, rfl, ["locate", "2", "--runner-id", "0", "test", "Slow", "Suite"].map String.toList, by decide, _, rfl⟩

/-- **C75 (violated)** A recovery file which is asked for together with sandboxes is never written: it is not asked for in the sandboxes, where the tests are run. -/
theorem C75_recovery_violated : ∃ r0, processArgs plainWorld (start true) (["locate", "2", "--sandbox", "recover"].map String.toList) = .ret r0 false ∧ r0.recovery = true ∧ r0.instab = .coordinator ∧
    ∃ words, shellWords (childCommand "tests".toList r0 0) = some ("tests".toList :: words) ∧ ∃ r', processArgs plainWorld (start true) words = .ret r' false ∧ r'.recovery = false := by
  refine ⟨_, rfl, rfl, rfl, ["locate", "2", "--runner-id", "0", "--serial"].map String.toList, by decide, _, rfl, rfl⟩

/-! ### C76 -/

/-- **C76 (part)** If there is exactly one test below each `create` of an accepted command line then the tests which are created are those which are asked for, in this order, each with its arguments and
settings, and each is finalized exactly once.  What is missing: `create` with no test or with several tests below it, for which this is false. -/
theorem C76_created_partial {w : World} {d : Bool} {args : List Str} (hord : Orderly forest args) {cs : List Call} (hl : Line true forest args cs []) (ho : OneEach cs) {r : Runner} {b : Bool}
    (h : processArgs w (start d) args = .ret r b) : r.nascent = created cs ∧ (r.create = true ↔ created cs ≠ []) := by
  have hp := C34_accepts (by simp [forest]) hord hl
  unfold processArgs at h
  rw [hp] at h
  dsimp only at h
  cases h1 : invokeAll w (runAll (opsOf cs)) (start d) with
  | threw => rw [h1] at h; cases h
  | ub => rw [h1] at h; cases h
  | ret r1 u =>
    rw [h1] at h
    dsimp only at h
    cases hcs : consistency (defaultMode r1) with
    | threw => rw [hcs] at h; cases h
    | ub => rw [hcs] at h; cases h
    | ret r2 u =>
      rw [hcs] at h
      cases h
      obtain ⟨-, -, -, k1, -, k2, -⟩ := unchanged _ _ hcs
      have := created_run (callsOf hl) ho h1
      rw [k1, k2]
      simpa [start] using this

/-- A command line which creates two tests. -/
example : ∃ r, processArgs plainWorld (start true) (["create", "free", "Utils.h", "--suite", "Core", "create", "regular", "Foo", "int", "-h", "Foo.hpp"].map String.toList) = .ret r false ∧
    r.nascent = [⟨.behavioural, "free", ["Utils.h".toList], [("suite", ["Core".toList])], 1⟩, ⟨.semantic, "regular", ["Foo".toList, "int".toList], [("header", ["Foo.hpp".toList])], 1⟩] ∧
    r.create = true ∧ r.test = false := ⟨_, rfl, rfl, rfl, rfl⟩

example : ∃ cs : List Call, Line true forest (["create", "free", "Utils.h", "-s", "Core"].map String.toList) cs [] ∧ OneEach cs ∧ Orderly forest (["create", "free", "Utils.h", "-s", "Core"].map String.toList) ∧
    created cs = [⟨.behavioural, "free", ["Utils.h".toList], [("suite", ["Core".toList])], 1⟩] := by
  refine ⟨_, .one (args := []) (by decide) rfl (fun _ => rfl) rfl (.one (args := ["Utils.h".toList]) (by decide) rfl (fun h => by cases h) rfl
    (.one (args := ["Core".toList]) (by decide) rfl (fun h => by cases h) rfl (.stop (.inl rfl)) (.stop (.inr (.inl rfl)))) (.stop (.inr (.inl rfl)))) (.stop (.inr (.inl rfl))), ?_, orderly_of_clearly (by decide), by decide⟩
  intro c hc w t a subs e _
  rw [List.mem_singleton] at hc
  rw [hc] at e
  cases e
  exact ⟨_, _, _, _, rfl⟩

/-- **C76 (violated)** Of two tests below one `create` only the second is finalized. -/
theorem C76_several_violated (d : Bool) : ∃ r, processArgs plainWorld (start d) (["create", "free", "A.h", "free", "B.h"].map String.toList) = .ret r false ∧
    r.nascent.map Nascent.args = [["A.h".toList], ["B.h".toList]] ∧ r.nascent.map Nascent.finalized = [0, 1] := ⟨_, rfl, rfl, rfl⟩

/-- **C76 (violated)** With no test below a second `create`, the test of the first one is finalized twice. -/
theorem C76_none_violated (d : Bool) : ∃ r, processArgs plainWorld (start d) (["create", "free", "A.h", "create"].map String.toList) = .ret r false ∧
    r.nascent.map Nascent.args = [["A.h".toList]] ∧ r.nascent.map Nascent.finalized = [2] := ⟨_, rfl, rfl, rfl⟩

end Verif.Props
