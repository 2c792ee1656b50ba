import Verif.Lemmas.RunnerOrder
import Verif.Props.Suite
import Verif.Props.FailureInfo

/-! Lemmas about the commands for sandboxes. -/
set_option linter.unusedSimpArgs false
set_option linter.unusedVariables false
namespace Verif.RunnerArgs
open Verif.Cmd Verif.Spec Verif.Spec.RunnerArgs Verif.Suites

/-! ### Numbers -/

theorem value_digits (ds : Str) : value ds = Nat.ofDigitChars 10 ds 0 := by
  unfold value Nat.ofDigitChars
  congr 1
  funext n c
  rw [Nat.mul_comm]

theorem stoi_digits {n : Nat} (h : n < 2 ^ 31) : stoi (Nat.toDigits 10 n) = some (n : Int) := by
  have hdig : ∀ x ∈ Nat.toDigits 10 n, Char.isDigit x = true := fun x hx => Nat.isDigit_of_mem_toDigits (by decide) (by decide) hx
  have hval : value (Nat.toDigits 10 n) = n := by rw [value_digits, Nat.ofDigitChars_ten_toDigits]
  obtain ⟨d, ds, hds⟩ : ∃ d ds, Nat.toDigits 10 n = d :: ds := by
    cases h : Nat.toDigits 10 n with
    | nil => exact absurd h Nat.toDigits_ne_nil
    | cons d ds => exact ⟨d, ds, rfl⟩
  have hd := hdig d (by simp [hds])
  have hall : (Nat.toDigits 10 n).takeWhile Char.isDigit = Nat.toDigits 10 n := by
    have : ∀ l : Str, (∀ x ∈ l, Char.isDigit x = true) → l.takeWhile Char.isDigit = l := by
      intro l; induction l with
      | nil => intro _; rfl
      | cons c l ih => intro h; rw [List.takeWhile_cons_of_pos (h c (by simp)), ih fun x hx => h x (by simp [hx])]
    exact this _ hdig
  unfold stoi
  rw [hds, List.dropWhile_cons_of_neg (by simp [Verif.Props.Failure.digit_not_space hd])]
  have hm : d ≠ '-' := by rintro rfl; exact absurd hd (by decide)
  have hp : d ≠ '+' := by rintro rfl; exact absurd hd (by decide)
  have hmatch : signed (d :: ds) = (false, d :: ds) := by
    unfold signed
    split
    · rename_i heq; cases heq; exact absurd rfl hm
    · rename_i heq; cases heq; exact absurd rfl hp
    · rfl
  rw [hds] at hval hall
  simp only [hmatch, hall, hval, List.isEmpty_cons]
  rw [if_neg (by simp), if_pos (by simp; omega)]
  simp

/-! ### Words -/

theorem blankSplit_word {u : Str} (hu : ∀ c ∈ u, c ≠ ' ') : ∀ (cur s : Str), blankSplit cur (u ++ s) = blankSplit (cur ++ u) s := by
  induction u with
  | nil => intro cur s; simp
  | cons c u ih =>
    intro cur s
    rw [List.cons_append, blankSplit, if_neg (hu c (by simp)), ih fun x hx => hu x (by simp [hx])]
    simp

theorem blankSplit_words {u : Str} {ws : List Str} (hne : u ≠ []) (hu : ∀ c ∈ u, c ≠ ' ') (hws : ∀ w ∈ ws, w ≠ [] ∧ ∀ c ∈ w, c ≠ ' ') :
    blankSplit [] (u ++ ws.flatMap (' ' :: ·)) = u :: ws := by
  induction ws generalizing u with
  | nil =>
    rw [blankSplit_word hu]
    simp [blankSplit, hne]
  | cons w ws ih =>
    rw [blankSplit_word hu, List.flatMap_cons, List.cons_append, blankSplit, if_pos rfl]
    have := ih (hws w (by simp)).1 (hws w (by simp)).2 fun x hx => hws x (by simp [hx])
    rw [this]
    simp [hne]

/-- The keys which have been found. -/
def foundKeys {K : Type} (m : Selection K) : List K :=
  match m with
  | none => []
  | some l => (l.filter (·.2)).map (·.1)

/-- The words for the selection. -/
def selWords (f : Granular Str Str) : List Str :=
  (foundKeys f.items).flatMap (fun k => ["select".toList, k]) ++ (foundKeys f.suites).flatMap (fun k => ["test".toList, k])

/-- The words for the concurrency. -/
def asyncWords (c : Conc) (pool : Nat) : List Str :=
  match c with
  | .serial => ["--serial".toList]
  | .dynamic => []
  | .fixed => ["--thread-pool".toList, Nat.toDigits 10 pool]

/-- The words of a command, apart from the executable. -/
def childWords (r : Runner) (i : Nat) : List Str :=
  ["locate".toList, Nat.toDigits 10 r.reps, "--runner-id".toList, Nat.toDigits 10 i] ++ selWords r.filter ++ asyncWords r.conc r.pool

theorem prefix_words (word : String) (u : Str) (h : u = ' ' :: (word.toList ++ [' '])) (k : Str) : u ++ k = ' ' :: (word.toList ++ ' ' :: k) := by rw [h]; simp

theorem keys_words (word : String) (l : List (Str × Bool)) :
    (l.flatMap fun e => if e.2 then ' ' :: (word.toList ++ ' ' :: e.1) else []) = (((l.filter (·.2)).map (·.1)).flatMap fun k => [word.toList, k]).flatMap (' ' :: ·) := by
  induction l with
  | nil => rfl
  | cons e l ih =>
    rw [List.flatMap_cons, ih]
    cases h : e.2 <;> simp [h]

theorem specified_words (f : Granular Str Str) : specified f = (selWords f).flatMap (' ' :: ·) := by
  unfold specified selWords
  rw [List.flatMap_append]
  congr 1
  · cases f.items with
    | none => rfl
    | some l =>
      refine Eq.trans ?_ (keys_words "select" l)
      dsimp only
      simp only [prefix_words "select" " select ".toList rfl]
  · cases f.suites with
    | none => rfl
    | some l =>
      refine Eq.trans ?_ (keys_words "test" l)
      dsimp only
      simp only [prefix_words "test" " test ".toList rfl]

theorem async_words (c : Conc) (pool : Nat) : asyncOption c pool = (asyncWords c pool).flatMap (' ' :: ·) := by
  cases c with
  | serial => rfl
  | dynamic => rfl
  | fixed =>
    unfold asyncOption asyncWords
    dsimp only
    generalize Nat.toDigits 10 pool = b
    rw [prefix_words "--thread-pool" " --thread-pool ".toList rfl b]
    simp only [List.flatMap_cons, List.flatMap_nil, List.append_nil, List.cons_append]

theorem command_words (exe : Str) (r : Runner) (i : Nat) : childCommand exe r i = exe ++ (childWords r i).flatMap (' ' :: ·) := by
  unfold childCommand childWords
  rw [specified_words, async_words]
  generalize Nat.toDigits 10 r.reps = a
  generalize Nat.toDigits 10 i = b
  have h1 : " locate ".toList = ' ' :: ("locate".toList ++ [' ']) := rfl
  have h2 : " --runner-id ".toList = ' ' :: ("--runner-id".toList ++ [' ']) := rfl
  rw [h1, h2, List.flatMap_append, List.flatMap_append]
  simp only [List.flatMap_cons, List.flatMap_nil, List.append_assoc, List.cons_append, List.nil_append, List.append_nil]

theorem plain_not_blank {c : Char} (h : plainChar c = true) : c ≠ ' ' := by rintro rfl; exact absurd h (by decide)

theorem digits_plain {n : Nat} : Nat.toDigits 10 n ≠ [] ∧ ∀ c ∈ Nat.toDigits 10 n, plainChar c = true := by
  refine ⟨Nat.toDigits_ne_nil, fun c hc => ?_⟩
  have := Nat.isDigit_of_mem_toDigits (b := 10) (n := n) (by decide) (by decide) hc
  simp [plainChar, Char.isAlphanum, this]

theorem shell_words {exe : Str} {ws : List Str} (he : exe ≠ [] ∧ ∀ c ∈ exe, plainChar c = true) (hws : ∀ w ∈ ws, w ≠ [] ∧ ∀ c ∈ w, plainChar c = true) :
    shellWords (exe ++ ws.flatMap (' ' :: ·)) = some (exe :: ws) := by
  unfold shellWords
  rw [if_pos, blankSplit_words he.1 (fun c hc => plain_not_blank (he.2 c hc)) fun w hw => ⟨(hws w hw).1, fun c hc => plain_not_blank ((hws w hw).2 c hc)⟩]
  rw [List.all_eq_true]
  intro c hc
  rcases List.mem_append.1 hc with hc | hc
  · simp [he.2 c hc]
  · obtain ⟨w, hw, hc⟩ := List.mem_flatMap.1 hc
    rcases List.mem_cons.1 hc with rfl | hc
    · simp
    · simp [(hws w hw).2 c hc]

/-! ### Parsing -/

theorem loop_leaf1 {opts : List OptTree} {o : Opt} {a b : Str} {p : Str} (hf : findOption opts a = some (.node o [])) (hp : o.params = [p]) (hb : o.early.isSome) (ha : a ≠ [])
    (f : Nat) (ops : List (List Op)) (rest : List Str) :
    loop (f + 2) opts none true none none ⟨ops, none⟩ (a :: b :: rest) = loop f opts none true none none ⟨ops ++ [[⟨none, o.early, o.late, [b]⟩]], none⟩ rest := by
  have hml : ∀ (x : List Op) (g : List Op → List Op), modLast g (ops ++ [x]) = ops ++ [g x] := by
    intro x g
    induction ops with
    | nil => rfl
    | cons y ys ih =>
      cases ys with
      | nil => rfl
      | cons z zs => simpa [modLast] using ih
  simp [loop, body, ha, hf, processOption, OptTree.bound, OptTree.opt, OptTree.children, hb, Res.bind, complete, argCount, hp, hml, enter]

theorem loop_leaf0 {opts : List OptTree} {o : Opt} {a : Str} (hf : findOption opts a = some (.node o [])) (hp : o.params = []) (hb : o.early.isSome) (ha : a ≠ [])
    (f : Nat) (ops : List (List Op)) (rest : List Str) :
    loop (f + 1) opts none true none none ⟨ops, none⟩ (a :: rest) = loop f opts none true none none ⟨ops ++ [[⟨none, o.early, o.late, []⟩]], none⟩ rest := by
  simp [loop, body, ha, hf, processOption, OptTree.bound, OptTree.opt, OptTree.children, hb, Res.bind, complete, argCount, hp, enter]

/-- The tree below `locate-instabilities`. -/
def locateSubs : List OptTree := [leaf "--sandbox" [] [] .sandbox, leaf "--runner-id" [] ["private option, best avoided"] .runnerId]

theorem loop_locate (a b : Str) (f : Nat) (rest : List Str)
    (hrest : rest = [] ∨ ∃ x xs, rest = x :: xs ∧ x ∈ ["select".toList, "test".toList, "--serial".toList, "--thread-pool".toList]) (hf : rest.length ≤ f) :
    loop (f + 4) forest none true none none ⟨[], none⟩ ("locate".toList :: a :: "--runner-id".toList :: b :: rest) =
      loop (f + 2) forest none true none none ⟨[[⟨none, some Fn.locate.code, none, [a]⟩, ⟨some 0, some Fn.runnerId.code, none, [b]⟩]], none⟩ rest := by
  have h1 : findOption forest "locate".toList = some (.node (opt "locate-instabilities" ["locate"] ["number of repetitions >= 2"] .locate) locateSubs) := rfl
  have h2 : findOption locateSubs "--runner-id".toList = some (leaf "--runner-id" [] ["private option, best avoided"] .runnerId) := rfl
  have h3 : ∀ st : St, ∀ d, loop f locateSubs (some d) false none (some d) st rest = .ok (st, rest) := by
    intro st d
    rcases hrest with rfl | ⟨x, xs, rfl, hx⟩
    · cases f <;> rfl
    · cases f with
      | zero => simp at hf
      | succ f =>
        simp only [List.mem_cons, List.not_mem_nil, or_false] at hx
        rcases hx with rfl | rfl | rfl | rfl <;> rfl
  have e1 : "locate".toList ≠ [] := by decide
  have e2 : "--runner-id".toList ≠ [] := by decide
  generalize "locate".toList = x at h1 e1
  generalize "--runner-id".toList = y at h2 e2
  have e3 : locateSubs.isEmpty = false := rfl
  generalize locateSubs = subs at h1 h2 h3 e3
  have hp : (opt "locate-instabilities" ["locate"] ["number of repetitions >= 2"] .locate).params.length = 1 := rfl
  have hb : (opt "locate-instabilities" ["locate"] ["number of repetitions >= 2"] .locate).early = some Fn.locate.code := rfl
  have hl : (opt "locate-instabilities" ["locate"] ["number of repetitions >= 2"] .locate).late = none := rfl
  generalize opt "locate-instabilities" ["locate"] ["number of repetitions >= 2"] .locate = o at h1 hp hb hl
  have hp' : (opt "--runner-id" [] ["private option, best avoided"] .runnerId).params.length = 1 := rfl
  have hb' : (opt "--runner-id" [] ["private option, best avoided"] .runnerId).early = some Fn.runnerId.code := rfl
  have hl' : (opt "--runner-id" [] ["private option, best avoided"] .runnerId).late = none := rfl
  unfold leaf at h2
  generalize opt "--runner-id" [] ["private option, best avoided"] .runnerId = o' at h2 hp' hb' hl'
  simp [loop, body, e1, h1, processOption, OptTree.bound, OptTree.opt, OptTree.children, hb, hl, Res.bind, complete, argCount, hp, enter, modLast, e2, h2, hb', hl', hp', e3, h3]

theorem loop_pairs {opts : List OptTree} {o : Opt} {a : Str} {p : Str} (hf : findOption opts a = some (.node o [])) (hp : o.params = [p]) (hb : o.early.isSome) (ha : a ≠ [])
    (ks : List Str) (f : Nat) (ops : List (List Op)) (rest : List Str) :
    loop (f + 2 * ks.length) opts none true none none ⟨ops, none⟩ (ks.flatMap (fun k => [a, k]) ++ rest) =
      loop f opts none true none none ⟨ops ++ ks.map (fun k => [⟨none, o.early, o.late, [k]⟩]), none⟩ rest := by
  induction ks generalizing ops with
  | nil => simp
  | cons k ks ih =>
    have := loop_leaf1 (b := k) hf hp hb ha (f + 2 * ks.length) ops (ks.flatMap (fun k => [a, k]) ++ rest)
    rw [List.length_cons, show f + 2 * (ks.length + 1) = f + 2 * ks.length + 2 by omega]
    simp only [List.flatMap_cons, List.cons_append, List.nil_append]
    rw [this, ih]
    simp

/-- What the words for the concurrency mean. -/
def asyncInvs (c : Conc) (pool : Nat) : Invs :=
  match c with
  | .serial => [(Fn.serial.code, [])]
  | .dynamic => []
  | .fixed => [(Fn.pool.code, [Nat.toDigits 10 pool])]

/-- What the words for a sandbox mean. -/
def childInvs (r : Runner) (i : Nat) : Invs :=
  [(Fn.locate.code, [Nat.toDigits 10 r.reps]), (Fn.runnerId.code, [Nat.toDigits 10 i])] ++ (foundKeys r.filter.items).map (fun k => (Fn.select.code, [k])) ++
    (foundKeys r.filter.suites).map (fun k => (Fn.test.code, [k])) ++ asyncInvs r.conc r.pool

theorem visit_single (e : Nat) (args : List Str) : visit 1 [⟨none, some e, none, args⟩] 0 = [(e, args)] := by
  simp [visit, kidsOf]

theorem visit_pair (e e' : Nat) (args args' : List Str) : visit 2 [⟨none, some e, none, args⟩, ⟨some 0, some e', none, args'⟩] 0 = [(e, args), (e', args')] := by
  simp [visit, kidsOf, List.range, List.range.loop]

theorem parse_child (r : Runner) (i : Nat) : parseInvoke forest (childWords r i) = .ok (none, childInvs r i) := by
  unfold parseInvoke parse
  rw [if_neg (by simp [forest])]
  unfold childWords childInvs selWords
  generalize Nat.toDigits 10 r.reps = n
  generalize Nat.toDigits 10 i = b
  generalize foundKeys r.filter.items = is
  generalize foundKeys r.filter.suites = ss
  have hsel : findOption forest "select".toList = some (.node (opt "select" ["s"] ["source file name"] .select) []) := rfl
  have htest : findOption forest "test".toList = some (.node (opt "test" ["t"] ["test suite name"] .test) []) := rfl
  have hser : findOption forest "--serial".toList = some (.node (opt "--serial" [] [] .serial) []) := rfl
  have hpool : findOption forest "--thread-pool".toList = some (.node (opt "--thread-pool" [] ["Number of threads, must be >= 1"] .pool) []) := rfl
  have key : ∀ (g : Nat) (ops : List (List Op)), loop (g + (asyncWords r.conc r.pool).length) forest none true none none ⟨ops, none⟩ (asyncWords r.conc r.pool) =
      .ok (⟨ops ++ (asyncInvs r.conc r.pool).map (fun i => [⟨none, some i.1, none, i.2⟩]), none⟩, []) := by
    intro g ops
    unfold asyncWords asyncInvs
    cases r.conc with
    | serial =>
      dsimp only
      rw [List.length_singleton, loop_leaf0 hser rfl rfl (by decide)]
      cases g <;> rfl
    | dynamic =>
      dsimp only
      simp only [List.map_nil, List.append_nil]
      cases g <;> rfl
    | fixed =>
      dsimp only
      generalize Nat.toDigits 10 r.pool = p
      rw [show [("--thread-pool".toList : Str), p].length = 2 from rfl, loop_leaf1 hpool rfl rfl (by decide)]
      cases g <;> rfl
  have hrest : (is.flatMap (fun k => ["select".toList, k]) ++ (ss.flatMap (fun k => ["test".toList, k]) ++ asyncWords r.conc r.pool)) = [] ∨
      ∃ x xs, (is.flatMap (fun k => ["select".toList, k]) ++ (ss.flatMap (fun k => ["test".toList, k]) ++ asyncWords r.conc r.pool)) = x :: xs ∧
        x ∈ ["select".toList, "test".toList, "--serial".toList, "--thread-pool".toList] := by
    cases is with
    | cons k is => exact .inr ⟨_, _, rfl, by simp⟩
    | nil =>
      cases ss with
      | cons k ss => exact .inr ⟨_, _, rfl, by simp⟩
      | nil =>
        cases h : r.conc with
        | serial => exact .inr ⟨_, _, rfl, by simp⟩
        | dynamic => exact .inl rfl
        | fixed => exact .inr ⟨_, _, rfl, by simp⟩
  have hlen : ∀ (a : Str) (l : List Str), (l.flatMap fun k => [a, k]).length = 2 * l.length := by
    intro a l
    induction l with
    | nil => rfl
    | cons k l ih => rw [List.flatMap_cons, List.length_append, ih]; simp; omega
  have hl := loop_locate n b _ _ hrest (Nat.le_refl _)
  simp only [List.append_assoc, List.cons_append, List.nil_append]
  rw [show ("locate".toList :: n :: "--runner-id".toList :: b :: (is.flatMap (fun k => ["select".toList, k]) ++ (ss.flatMap (fun k => ["test".toList, k]) ++ asyncWords r.conc r.pool))).length =
    (is.flatMap (fun k => ["select".toList, k]) ++ (ss.flatMap (fun k => ["test".toList, k]) ++ asyncWords r.conc r.pool)).length + 4 from rfl, hl]
  simp only [List.length_append, hlen]
  rw [show 2 * is.length + (2 * ss.length + (asyncWords r.conc r.pool).length) + 2 = (2 + (asyncWords r.conc r.pool).length + 2 * ss.length) + 2 * is.length by omega]
  rw [loop_pairs hsel rfl rfl (by decide), loop_pairs htest rfl rfl (by decide), key]
  simp only [Res.bind, Option.isSome_none, Bool.false_eq_true, if_false]
  simp only [List.flatMap_append, List.append_assoc, List.flatMap_cons, List.flatMap_nil, List.append_nil]
  have hv : ∀ {α : Type} (l : List α) (e : α → Nat) (g : α → List Str), (l.map fun k => [(⟨none, some (e k), none, g k⟩ : Op)]).flatMap (fun N => visit N.length N 0) = l.map fun k => (e k, g k) := by
    intro α l e g
    induction l with
    | nil => rfl
    | cons k l ih =>
      rw [List.map_cons, List.flatMap_cons, ih]
      have := visit_single (e k) (g k)
      simp [this]
  have h1 := hv is (fun _ => Fn.select.code) (fun k => [k])
  have h2 := hv ss (fun _ => Fn.test.code) (fun k => [k])
  have h3 := hv (asyncInvs r.conc r.pool) (·.1) (·.2)
  have h4 := visit_pair Fn.locate.code Fn.runnerId.code [n] [b]
  simp only [opt]
  rw [h1, h2, h3]
  simp only [List.length_cons, List.length_nil, Nat.zero_add, Nat.reduceAdd]
  rw [h4]
  simp

end Verif.RunnerArgs

namespace Verif.RunnerArgs
open Verif.Cmd Verif.Spec Verif.Spec.RunnerArgs Verif.Suites Verif.Spec.Suites

/-! ### What has been found -/

section
variable {K I S L : Type} [DecidableEq K]

/-- The keys of a list which have been found. -/
def found (l : List (K × Bool)) : List K := (l.filter (·.2)).map (·.1)

omit [DecidableEq K] in
theorem found_keys {l : List (K × Bool)} {k : K} (h : k ∈ found l) : k ∈ l.map Prod.fst := by
  unfold found at h
  obtain ⟨e, he, rfl⟩ := List.mem_map.1 h
  exact List.mem_map.2 ⟨e, (List.mem_filter.1 he).1, rfl⟩

omit [DecidableEq K] in
theorem markFirst_mono (eq : K → Bool) {l : List (K × Bool)} {k : K} (h : k ∈ found l) : k ∈ found (markFirst eq l).1 := by
  induction l with
  | nil => exact h
  | cons e l ih =>
    unfold markFirst
    unfold found at h ih ⊢
    split
    · cases he : e.2 <;> simp_all [List.filter_cons]
    · cases he : e.2 <;> simp_all [List.filter_cons]
      rcases h with h | h
      · exact .inl h
      · exact .inr (ih h)

omit [DecidableEq K] in
theorem markFirst_hit (eq : K → Bool) {l : List (K × Bool)} (h : ∃ k ∈ l.map Prod.fst, eq k = true) : ∃ k ∈ found (markFirst eq l).1, eq k = true := by
  induction l with
  | nil => obtain ⟨k, hk, _⟩ := h; cases hk
  | cons e l ih =>
    unfold markFirst
    by_cases he : eq e.1 = true
    · rw [if_pos he]
      exact ⟨e.1, by simp [found], he⟩
    · rw [if_neg he]
      obtain ⟨k, hk, hq⟩ := h
      rcases List.mem_cons.1 hk with rfl | hk
      · exact absurd hq he
      · obtain ⟨k', hk', hq'⟩ := ih ⟨k, hk, hq⟩
        refine ⟨k', ?_, hq'⟩
        unfold found at hk' ⊢
        dsimp only
        cases hb : e.2 <;> simp_all [List.filter_cons]

omit [DecidableEq K] in
theorem foundKeys_some (l : List (K × Bool)) : foundKeys (some l) = found l := rfl

omit [DecidableEq K] in
theorem findSelection_mono (eq : K → Bool) {m : Selection K} {k : K} (h : k ∈ foundKeys m) : k ∈ foundKeys (findSelection eq m).1 := by
  cases m with
  | none => exact h
  | some l => exact markFirst_mono eq h

omit [DecidableEq K] in
theorem findSelection_hit (eq : K → Bool) {m : Selection K} {ks : List K} (hk : keys m = some ks) (h : ∃ k ∈ ks, eq k = true) : ∃ k ∈ foundKeys (findSelection eq m).1, eq k = true := by
  cases m with
  | none => cases hk
  | some l =>
    simp only [keys, Option.map_some, Option.some.injEq] at hk
    subst hk
    exact markFirst_hit eq h

theorem findSuites_mono (name : S → K) (path : List S) {m : Selection K} {k : K} (h : k ∈ foundKeys m) : k ∈ foundKeys (findSuites name path m).1 := by
  induction path generalizing m with
  | nil => exact h
  | cons s path ih => exact ih (findSelection_mono _ h)

theorem findSuites_hit (name : S → K) {path : List S} {m : Selection K} {ks : List K} (hk : keys m = some ks) {s : S} (hs : s ∈ path) (hn : name s ∈ ks) :
    name s ∈ foundKeys (findSuites name path m).1 := by
  induction path generalizing m with
  | nil => cases hs
  | cons s' path ih =>
    rcases List.mem_cons.1 hs with rfl | hs
    · obtain ⟨k, hk', hq⟩ := findSelection_hit (fun k => decide (k = name s)) hk ⟨name s, hn, by simp⟩
      simp only [decide_eq_true_eq] at hq
      subst hq
      exact findSuites_mono name path hk'
    · exact ih (by rw [findSelection_keys]; exact hk) hs

theorem apply_mono (m : I → L → Bool) (name : S → K) (f : Granular K I) (l : L) (path : List S) :
    (∀ k ∈ foundKeys f.suites, k ∈ foundKeys (f.apply m name l path).2.suites) ∧ ∀ k ∈ foundKeys f.items, k ∈ foundKeys (f.apply m name l path).2.items := by
  unfold Granular.apply
  split
  · exact ⟨fun _ h => h, fun _ h => h⟩
  · exact ⟨fun _ h => findSuites_mono name path h, fun _ h => findSelection_mono _ h⟩

theorem visited_mono (m : I → L → Bool) (name : S → K) (tests : List (L × List S)) (f : Granular K I) :
    (∀ k ∈ foundKeys f.suites, k ∈ foundKeys (visited (fun f l p => f.apply m name l p) f tests).suites) ∧
    ∀ k ∈ foundKeys f.items, k ∈ foundKeys (visited (fun f l p => f.apply m name l p) f tests).items := by
  induction tests generalizing f with
  | nil => exact ⟨fun _ h => h, fun _ h => h⟩
  | cons t tests ih =>
    have h1 := apply_mono m name f t.1 t.2
    have h2 := ih (f.apply m name t.1 t.2).2
    exact ⟨fun k h => h2.1 k (h1.1 k h), fun k h => h2.2 k (h1.2 k h)⟩

theorem visited_keys (m : I → L → Bool) (name : S → K) (tests : List (L × List S)) (f : Granular K I) :
    keys (visited (fun f l p => f.apply m name l p) f tests).suites = keys f.suites ∧ keys (visited (fun f l p => f.apply m name l p) f tests).items = keys f.items := by
  induction tests generalizing f with
  | nil => exact ⟨rfl, rfl⟩
  | cons t tests ih =>
    have h1 := (Verif.Props.C42_accepts m name f t.1 t.2).2
    have h2 := ih (f.apply m name t.1 t.2).2
    exact ⟨h2.1.trans h1.1, h2.2.trans h1.2⟩

omit [DecidableEq K] in
theorem foundKeys_sub {m : Selection K} {k : K} (h : k ∈ foundKeys m) : ∃ ks, keys m = some ks ∧ k ∈ ks := by
  cases m with
  | none => cases h
  | some l => exact ⟨_, rfl, found_keys h⟩

/-- What has been found accepts the same of the items which have been considered. -/
theorem visited_hit (m : I → L → Bool) (name : S → K) {tests : List (L × List S)} {f : Granular K I} {t : L × List S} (ht : t ∈ tests)
    (hsel : ¬ (f.suites = none ∧ f.items = none)) (ha : Accepts m name (keys f.suites) (keys f.items) t.1 t.2) :
    (∃ k ∈ foundKeys (visited (fun f l p => f.apply m name l p) f tests).items, m k t.1 = true) ∨
    ∃ s ∈ t.2, name s ∈ foundKeys (visited (fun f l p => f.apply m name l p) f tests).suites := by
  induction tests generalizing f with
  | nil => cases ht
  | cons x tests ih =>
    obtain ⟨h1, h2⟩ := (Verif.Props.C42_accepts m name f x.1 x.2).2
    rcases List.mem_cons.1 ht with rfl | ht
    · have hm := visited_mono m name tests (f.apply m name t.1 t.2).2
      have happ : f.apply m name t.1 t.2 = ((findSelection (fun k => m k t.1) f.items).2 || (findSuites name t.2 f.suites).2,
          ⟨(findSuites name t.2 f.suites).1, (findSelection (fun k => m k t.1) f.items).1⟩) := by
        unfold Granular.apply
        rw [if_neg]
        simpa using hsel
      rcases ha with ⟨a, b⟩ | ⟨ks, hk, h⟩ | ⟨ks, hk, s, hs, hn⟩
      · refine absurd ⟨?_, ?_⟩ hsel
        · cases hq : f.suites <;> simp_all [keys]
        · cases hq : f.items <;> simp_all [keys]
      · obtain ⟨k, hk', hq⟩ := findSelection_hit (fun k => m k t.1) hk h
        exact .inl ⟨k, hm.2 k (by rw [happ]; exact hk'), hq⟩
      · have := findSuites_hit name hk hs hn
        exact .inr ⟨s, hs, hm.1 _ (by rw [happ]; exact this)⟩
    · refine ih ht ?_ (by rw [h1, h2]; exact ha)
      rintro ⟨e1, e2⟩
      rw [e1] at h1
      rw [e2] at h2
      refine hsel ⟨?_, ?_⟩
      · cases hq : f.suites <;> simp_all [keys]
      · cases hq : f.items <;> simp_all [keys]

end

theorem keys_selection (l : List Str) : keys (selection l) = if l = [] then none else some l := by
  unfold selection keys
  split <;> simp [Function.comp_def]

/-- The filter of what has been found accepts the same as the filter itself, of the items which have been considered, if it accepts any of them. -/
theorem found_accepts {L S : Type} (m : Str → L → Bool) (name : S → Str) {tests : List (L × List S)} {f : Granular Str Str}
    (hsome : ∃ t ∈ tests, (f.apply m name t.1 t.2).1 = true) {t : L × List S} (ht : t ∈ tests) :
    ((⟨selection (foundKeys (visited (fun f l p => f.apply m name l p) f tests).suites), selection (foundKeys (visited (fun f l p => f.apply m name l p) f tests).items)⟩ : Granular Str Str).apply m name t.1 t.2).1 =
      (f.apply m name t.1 t.2).1 := by
  have bool : ∀ {x y : Bool}, (x = true ↔ y = true) → x = y := fun {x y} h => by cases x <;> cases y <;> simp_all
  apply bool
  rw [(Verif.Props.C42_accepts m name _ t.1 t.2).1, (Verif.Props.C42_accepts m name f t.1 t.2).1]
  dsimp only
  rw [keys_selection, keys_selection]
  by_cases hsel : f.suites = none ∧ f.items = none
  · have hv := visited_keys m name tests f
    have e1 : (visited (fun f l p => f.apply m name l p) f tests).suites = none := by
      have := hv.1; rw [hsel.1] at this; cases hq : (visited (fun f l p => f.apply m name l p) f tests).suites <;> simp_all [keys]
    have e2 : (visited (fun f l p => f.apply m name l p) f tests).items = none := by
      have := hv.2; rw [hsel.2] at this; cases hq : (visited (fun f l p => f.apply m name l p) f tests).items <;> simp_all [keys]
    rw [e1, e2, hsel.1, hsel.2]
    exact ⟨fun _ => .inl ⟨rfl, rfl⟩, fun _ => .inl ⟨rfl, rfl⟩⟩
  · obtain ⟨t0, ht0, ha0⟩ := hsome
    have h0 := visited_hit m name ht0 hsel ((Verif.Props.C42_accepts m name f t0.1 t0.2).1.1 ha0)
    constructor
    · rintro (⟨a, b⟩ | ⟨ks, hk, k, hk', hm⟩ | ⟨ks, hk, s, hs, hn⟩)
      · have e1 : foundKeys (visited (fun f l p => f.apply m name l p) f tests).suites = [] := by
          by_cases e : foundKeys (visited (fun f l p => f.apply m name l p) f tests).suites = []
          · exact e
          · rw [if_neg e] at a; cases a
        have e2 : foundKeys (visited (fun f l p => f.apply m name l p) f tests).items = [] := by
          by_cases e : foundKeys (visited (fun f l p => f.apply m name l p) f tests).items = []
          · exact e
          · rw [if_neg e] at b; cases b
        rw [e1, e2] at h0
        rcases h0 with ⟨k, hk, _⟩ | ⟨s, _, hk⟩ <;> cases hk
      · split at hk
        · cases hk
        · cases hk
          obtain ⟨ks, h1, h2⟩ := foundKeys_sub hk'
          rw [(visited_keys m name tests f).2] at h1
          exact .inr (.inl ⟨ks, h1, k, h2, hm⟩)
      · split at hk
        · cases hk
        · cases hk
          obtain ⟨ks, h1, h2⟩ := foundKeys_sub hn
          rw [(visited_keys m name tests f).1] at h1
          exact .inr (.inr ⟨ks, h1, s, hs, h2⟩)
    · intro ha
      rcases visited_hit m name ht hsel ha with ⟨k, hk, hm⟩ | ⟨s, hs, hn⟩
      · exact .inr (.inl ⟨_, if_neg (List.ne_nil_of_mem hk), k, hk, hm⟩)
      · exact .inr (.inr ⟨_, if_neg (List.ne_nil_of_mem hn), s, hs, hn⟩)

end Verif.RunnerArgs
