import Verif.Spec.RunnerArgs
import Mathlib.Data.List.Induction

set_option linter.unusedSimpArgs false
set_option linter.unusedVariables false
set_option linter.unnecessarySeqFocus false
set_option linter.unusedTactic false
set_option linter.unreachableTactic false

/-! Lemmas about the command line of the test runner. -/
namespace Verif.RunnerArgs
open Verif.Cmd Verif.Suites Verif.Spec.RunnerArgs

theorem ofCode_code (f : Fn) : Fn.ofCode f.code = some f := by cases f <;> rfl

theorem code_inj {f g : Fn} (h : f.code = g.code) : f = g := by
  have := congrArg Fn.ofCode h
  rw [ofCode_code, ofCode_code] at this
  exact Option.some.inj this

theorem code_of {n : Nat} {f : Fn} (h : Fn.ofCode n = some f) : n = f.code := by
  unfold Fn.ofCode at h
  obtain ⟨hn, rfl⟩ := List.getElem?_eq_some_iff.1 h
  have : n < 32 := hn
  clear h
  revert n
  decide

theorem invokeAll_append (w : World) (l l' : Invs) (r : Runner) :
    invokeAll w (l ++ l') r = match invokeAll w l r with
      | .ret r' _ => invokeAll w l' r'
      | .threw r' => .threw r'
      | .ub => .ub := by
  induction l generalizing r with
  | nil => rfl
  | cons i l ih =>
    obtain ⟨n, args⟩ := i
    simp only [List.cons_append, invokeAll]
    cases Fn.ofCode n with
    | none => rfl
    | some f =>
      dsimp only
      cases invoke w f args r with
      | ret r' u => exact ih r'
      | threw => rfl
      | ub => rfl

theorem invokeAll_concat {w : World} {l : Invs} {n : Nat} {args : List Str} {r r' : Runner} {u : Unit} (h : invokeAll w (l ++ [(n, args)]) r = .ret r' u) :
    ∃ r1 f, invokeAll w l r = .ret r1 () ∧ n = f.code ∧ invoke w f args r1 = .ret r' () := by
  rw [invokeAll_append] at h
  cases h1 : invokeAll w l r with
  | threw => rw [h1] at h; cases h
  | ub => rw [h1] at h; cases h
  | ret r1 u1 =>
    rw [h1] at h
    simp only [invokeAll] at h
    cases hf : Fn.ofCode n with
    | none => rw [hf] at h; cases h
    | some f =>
      rw [hf] at h
      dsimp only at h
      cases h2 : invoke w f args r1 with
      | threw => rw [h2] at h; cases h
      | ub => rw [h2] at h; cases h
      | ret r2 u2 =>
        rw [h2] at h
        cases h
        exact ⟨r1, f, rfl, code_of hf, h2⟩

/-- What one function object does to the fields which do not belong to new tests or projects. -/
structure Step (w : World) (f : Fn) (args : List Str) (r r' : Runner) : Prop where
  recovery : r'.recovery = (r.recovery || decide (f = .recover))
  dump : r'.dump = (r.dump || decide (f = .dump))
  verbose : r'.verbose = (r.verbose || decide (f = .verbose))
  soft : r'.soft = (r.soft || decide (f = .update))
  pruning : r'.pruning = (r.pruning || decide (f = .prune))
  test : r'.test = (r.test || decide (f = .test ∨ f = .select ∨ f = .prune ∨ f = .update))
  init : r'.init = (r.init || decide (f = .init))
  instab : r'.instab = (if f = .locate then .single else if f = .sandbox then .coordinator else if f = .runnerId then .sandbox else r.instab)
  suites : r'.filter.suites = (if f = .test then match args with | a :: _ => addSelection r.filter.suites a | [] => r.filter.suites else r.filter.suites)
  items : r'.filter.items = (if f = .select then match args with | a :: _ => addSelection r.filter.items (w.normal a) | [] => r.filter.items else r.filter.items)
  conc : r'.conc = (match choice (f.code, args) with
    | some none => .serial
    | some (some _) => .fixed
    | none => if f = .recover ∨ f = .dump then serialIfDynamic r.conc else r.conc)
  pool : r'.pool = (match choice (f.code, args) with | some (some n) => n | _ => r.pool)
  cutoff : r'.cutoff = (if f = .cutoff then args.head?.getD r.cutoff else r.cutoff)
  reps : r'.reps = (if f = .locate then ((args.head?.bind stoi).map Int.toNat).getD r.reps else r.reps)
  id : r'.id = (if f = .runnerId then ((args.head?.bind stoi).map toSize).getD r.id else r.id)
  given : (f = .test ∨ f = .select) → args ≠ []
  numeric : Numeric (f.code, args)

theorem step {w : World} {f : Fn} {args : List Str} {r r' : Runner} (h : invoke w f args r = .ret r' ()) : Step w f args r r' := by
  have hserial : choice (Fn.serial.code, args) = some none := rfl
  have hc : ∀ f : Fn, f ≠ .serial → f ≠ .pool → choice (f.code, args) = none := by
    intro f h1 h2
    have n1 : f.code ≠ Fn.serial.code := fun e => h1 (code_inj e)
    have n2 : f.code ≠ Fn.pool.code := fun e => h2 (code_inj e)
    simp [choice, n1, n2]
  have hnum : f ≠ .locate → f ≠ .runnerId → f ≠ .pool → Numeric (f.code, args) := by
    intro h1 h2 h3
    exact ⟨fun e => absurd (code_inj e) h1, fun e => absurd (code_inj e) h2, fun e => absurd (code_inj e) h3⟩
  cases f
  case locate =>
    cases args with
    | nil => cases h
    | cons a args =>
      simp only [invoke, withFront] at h
      cases hs : stoi a with
      | none => rw [hs] at h; cases h
      | some i =>
        rw [hs] at h
        dsimp only at h
        split at h
        · cases h
        · rename_i hi
          cases h
          constructor <;> first | (simp [hc, *]; done) | skip
          exact ⟨fun _ => ⟨i, hs, by omega⟩, (fun e => by cases e), (fun e => by cases e)⟩
  case runnerId =>
    cases args with
    | nil => cases h
    | cons a args =>
      simp only [invoke, withFront] at h
      cases hs : stoi a with
      | none => rw [hs] at h; cases h
      | some i =>
        rw [hs] at h
        cases h
        constructor <;> first | (simp [hc, *]; done) | skip
        exact ⟨(fun e => by cases e), fun _ => ⟨i, hs⟩, (fun e => by cases e)⟩
  case pool =>
    cases args with
    | nil => cases h
    | cons a args =>
      simp only [invoke, withFront] at h
      cases hs : stoi a with
      | none => rw [hs] at h; cases h
      | some i =>
        rw [hs] at h
        dsimp only at h
        have hch : choice (Fn.pool.code, a :: args) = if i > 0 then some (some i.toNat) else none := by
          have : Fn.pool.code ≠ Fn.serial.code := by decide
          simp [choice, this, hs]
        have hn : Numeric (Fn.pool.code, a :: args) :=
          ⟨(fun e => by cases e), (fun e => by cases e), fun _ => ⟨i, hs⟩⟩
        split at h
        · rename_i hi
          cases h
          rw [if_pos hi] at hch
          constructor <;> first | (simp [hch]; done) | exact hn
        · rename_i hi
          cases h
          rw [if_neg hi] at hch
          constructor <;> first | (simp [hch]; done) | exact hn
  case recover =>
    simp only [invoke, clearRecovery] at h
    split at h
    · rename_i h'
      split at h'
      · cases h'; cases h; constructor <;> first | (simp [hc, *]; done) | exact hnum (by decide) (by decide) (by decide)
      · split at h'
        · cases h'; cases h; constructor <;> first | (simp [hc, *]; done) | exact hnum (by decide) (by decide) (by decide)
        · cases h'
    · rename_i h'
      exact absurd h (h' r' _)
  case dump =>
    simp only [invoke, clearRecovery] at h
    split at h
    · rename_i h'
      split at h'
      · cases h'; cases h; constructor <;> first | (simp [hc, *]; done) | exact hnum (by decide) (by decide) (by decide)
      · split at h'
        · cases h'; cases h; constructor <;> first | (simp [hc, *]; done) | exact hnum (by decide) (by decide) (by decide)
        · cases h'
    · rename_i h'
      exact absurd h (h' r' _)
  all_goals
    simp only [invoke, withFront, setNascent, setProject, addNascent] at h
    repeat' split at h
    all_goals first
      | (cases h; done)
      | (cases h; constructor <;> first | (simp [hc, hserial]; done) | exact hnum (by decide) (by decide) (by decide))

theorem given_concat {l : Invs} {f g : Fn} {args : List Str} : Given (l ++ [(f.code, args)]) g ↔ Given l g ∨ f = g := by
  unfold Given
  constructor
  · rintro ⟨a, h⟩
    rcases List.mem_append.1 h with h | h
    · exact .inl ⟨a, h⟩
    · simp at h; exact .inr (code_inj h.1.symm)
  · rintro (⟨a, h⟩ | rfl)
    · exact ⟨a, by simp [h]⟩
    · exact ⟨args, by simp⟩

theorem lastChoice_concat (l : Invs) (i : Nat × List Str) : lastChoice (l ++ [i]) = (match choice i with | some c => some c | none => lastChoice l) := by
  unfold lastChoice
  rw [List.filterMap_append]
  cases h : choice i <;> simp [List.filterMap_cons, h]

theorem add_selection (l : List Str) (k : Str) : addSelection (selection l) k = selection (l ++ [k]) := by
  unfold selection addSelection
  by_cases h : l = [] <;> simp [h]

/-- The concurrency which results. -/
def concOf (c : Option (Option Nat)) (rec : Bool) : Conc :=
  match c with
  | none => if rec then .serial else .dynamic
  | some none => .serial
  | some (some _) => .fixed

/-- The state after a list of function objects. -/
structure After (w : World) (invs : Invs) (r : Runner) : Prop where
  recovery : r.recovery = true ↔ Given invs .recover
  dump : r.dump = true ↔ Given invs .dump
  verbose : r.verbose = true ↔ Given invs .verbose
  soft : r.soft = true ↔ Given invs .update
  pruning : r.pruning = true ↔ Given invs .prune
  test : r.test = true ↔ Given invs .test ∨ Given invs .select ∨ Given invs .prune ∨ Given invs .update
  init : r.init = true ↔ Given invs .init
  instab : r.instab ≠ .none ↔ Locating invs
  suites : r.filter.suites = selection (firsts invs .test)
  items : r.filter.items = selection ((firsts invs .select).map w.normal)
  tests : ∀ i ∈ invs, i.1 = Fn.test.code ∨ i.1 = Fn.select.code → i.2 ≠ []
  conc : r.conc = concOf (lastChoice invs) (r.recovery || r.dump)
  numeric : ∀ i ∈ invs, Numeric i

theorem firsts_concat (l : Invs) (f g : Fn) (args : List Str) : firsts (l ++ [(f.code, args)]) g = if f = g then (match args with | a :: _ => firsts l g ++ [a] | [] => firsts l g) else firsts l g := by
  unfold firsts
  rw [List.filterMap_append]
  by_cases h : f = g
  · subst h; cases args <;> simp
  · have : f.code ≠ g.code := fun e => h (code_inj e)
    simp [h, this]

theorem after {w : World} {d : Bool} (invs : Invs) : ∀ {r : Runner} {u : Unit}, invokeAll w invs (start d) = .ret r u → After w invs r := by
  induction invs using List.reverseRecOn with
  | nil =>
    intro r u h
    simp only [invokeAll] at h
    cases h
    constructor <;> simp [Given, start, Locating, firsts, selection, lastChoice, concOf]
  | append_singleton l i ih =>
    intro r u h
    obtain ⟨n, args⟩ := i
    obtain ⟨r1, f, h1, rfl, h2⟩ := invokeAll_concat h
    have A := ih h1
    have S := step h2
    constructor
    · rw [S.recovery, given_concat, ← A.recovery]; simp
    · rw [S.dump, given_concat, ← A.dump]; simp
    · rw [S.verbose, given_concat, ← A.verbose]; simp
    · rw [S.soft, given_concat, ← A.soft]; simp
    · rw [S.pruning, given_concat, ← A.pruning]; simp
    · rw [S.test]
      simp only [given_concat, Bool.or_eq_true, A.test, decide_eq_true_eq]
      grind
    · rw [S.init, given_concat, ← A.init]; simp
    · have := A.instab
      rw [S.instab]
      simp only [Locating, given_concat] at this ⊢
      split
      · simp_all
      · split
        · simp_all
        · split
          · simp_all
          · simp_all
    · rw [S.suites, A.suites, firsts_concat]
      split
      · split <;> simp [add_selection]
      · rfl
    · rw [S.items, A.items, firsts_concat]
      split
      · split <;> simp [add_selection]
      · rfl
    · intro i hi
      rcases List.mem_append.1 hi with hi | hi
      · exact A.tests i hi
      · simp at hi
        subst hi
        intro h'
        exact S.given (h'.imp code_inj code_inj)
    · rw [S.conc, lastChoice_concat, S.recovery, S.dump, A.conc]
      cases hch : choice (f.code, args) with
      | some c => cases c <;> rfl
      | none =>
        dsimp only
        by_cases hf : f = .recover ∨ f = .dump
        · rw [if_pos hf]
          have : (r1.recovery || decide (f = .recover) || (r1.dump || decide (f = .dump))) = true := by rcases hf with rfl | rfl <;> simp
          rw [this]
          cases lastChoice l with
          | none => cases (r1.recovery || r1.dump) <;> rfl
          | some c => cases c <;> rfl
        · have h1 : decide (f = .recover) = false := by simp; exact fun e => hf (.inl e)
          have h2 : decide (f = .dump) = false := by simp; exact fun e => hf (.inr e)
          rw [if_neg hf, h1, h2, Bool.or_false, Bool.or_false]
    · intro i hi
      rcases List.mem_append.1 hi with hi | hi
      · exact A.numeric i hi
      · simp at hi; subst hi; exact S.numeric

end Verif.RunnerArgs
