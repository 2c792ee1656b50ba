import Verif.Spec.Instability
import Verif.Props.FailureInfo
import Verif.Lemmas.Text
import Mathlib.Data.List.Pairwise
set_option linter.unusedSimpArgs false
set_option linter.unusedVariables false
/-
Proofs about the analysis of instabilities.
-/
namespace Verif.Instability
open Verif.Text Verif.FailureInfo Verif.Spec.Instability Verif.Props

/-! ### Reading with indentation -/

theorem indent_line {l : Str} (h : '\n' ∉ l) : indent l ['\t'] = tabbed true l := by
  have hf : ∀ {l : Str}, '\n' ∉ l → tabbed false l = l := by
    intro l
    induction l with
    | nil => intro _; rfl
    | cons c t ih =>
      intro h
      simp only [List.mem_cons, not_or] at h
      rw [tabbed, if_neg (fun e => h.1 e.symm), ih h.2]
      rfl
  cases l with
  | nil => rfl
  | cons c t =>
    have hs : search ['\n'] (c :: t) = none := by
      rw [search_none]
      intro hi
      exact h (hi.subset (by simp))
    have h' := h
    simp only [List.mem_cons, not_or] at h'
    have hc : c ≠ '\n' := fun e => h'.1 e.symm
    rw [indent, if_neg (by simp), if_neg (by simp), tabbed, if_neg hc, if_pos rfl, hf h'.2]
    show indentFrom _ (_ + 1) _ = _
    rw [indentFrom]
    simp [hs, hc]

theorem tabbed_line {l m : Str} (b : Bool) (h : '\n' ∉ l) : tabbed b (l ++ '\n' :: m) = tabbed b l ++ '\n' :: tabbed true m := by
  induction l generalizing b with
  | nil => simp [tabbed]
  | cons c t ih =>
    simp only [List.mem_cons, not_or] at h
    have hc : c ≠ '\n' := fun e => h.1 e.symm
    rw [List.cons_append, tabbed, tabbed, if_neg hc, if_neg hc, ih false h.2]
    cases b <;> simp

/-- Undoes `tabbed`. -/
def untabbed : Bool → Str → Str
  | _, [] => []
  | start, c :: t => if c = '\n' then c :: untabbed true t else if start then untabbed false t else c :: untabbed false t

theorem untabbed_tabbed (b : Bool) (s : Str) : untabbed b (tabbed b s) = s := by
  induction s generalizing b with
  | nil => rfl
  | cons c t ih =>
    by_cases hc : c = '\n'
    · simp [tabbed, untabbed, hc, ih]
    · cases b <;> simp [tabbed, untabbed, hc, ih]

theorem readMessage_tabbed (rest : Str) : ∀ (fuel : Nat) (m acc : Str), m.length + 2 ≤ fuel → ¬ DollarLine m →
    readMessage ['\t'] fuel acc (m ++ '\n' :: '$' :: '\n' :: rest) = some (acc ++ tabbed true m, rest) := by
  intro fuel
  induction fuel with
  | zero => intro m acc h; omega
  | succ fuel ih =>
    intro m acc hf hd
    rcases Failure.first_line m with h | ⟨l, m', rfl, hl⟩
    · rw [readMessage, Failure.getline_line h]
      have hne : m ≠ ['$'] := fun e => hd ((Failure.dollar_single h).mpr e)
      obtain ⟨fuel', rfl⟩ : ∃ k, fuel = k + 1 := ⟨fuel - 1, by omega⟩
      have h2 : getline ('$' :: '\n' :: rest) = some (['$'], rest) := Failure.getline_line (l := ['$']) (by decide)
      simp only [if_neg hne, readMessage, h2, if_true, indent_line h]
      rw [Failure.popBreak_append]
    · rw [List.append_assoc, List.cons_append, readMessage, Failure.getline_line hl]
      rw [Failure.dollar_cons hl] at hd
      have hne : l ≠ ['$'] := fun e => hd (.inl e)
      simp only [List.length_append, List.length_cons] at hf
      simp only [if_neg hne, indent_line hl]
      rw [ih m' _ (by omega) (fun h => hd (.inr h)), tabbed_line _ hl]
      simp

/-- As `Failure.readInfo_written`, for any indentation. -/
theorem readInfo_written (ind sp : Str) (hsp : ∀ c ∈ sp, isSpace c = true) (info : Info) (hi : info.checkIndex < 2 ^ 64) (rest : Str) :
    readInfo ind (sp ++ writeInfo info ++ rest) =
      match readMessage ind ((info.message ++ '\n' :: '$' :: '\n' :: rest).length + 1) [] (info.message ++ '\n' :: '$' :: '\n' :: rest) with
      | none => .throws
      | some (m, r) => .ok (some (⟨info.checkIndex, m⟩, r)) := by
  have e0 : writeInfo info ++ rest = marker ++ ' ' :: (Nat.toDigits 10 info.checkIndex ++ '\n' :: (info.message ++ '\n' :: '$' :: '\n' :: rest)) := by
    simp only [writeInfo, List.append_assoc, List.cons_append, List.nil_append]
  have e1 : (sp ++ writeInfo info ++ rest).dropWhile isSpace =
      marker ++ ' ' :: (Nat.toDigits 10 info.checkIndex ++ '\n' :: (info.message ++ '\n' :: '$' :: '\n' :: rest)) := by
    rw [List.append_assoc, e0]
    exact Failure.dropWhile_append_stop hsp (by decide)
  have hword : ∀ x ∈ marker, (!isSpace x) = true := by decide
  have hdig : ∀ x ∈ Nat.toDigits 10 info.checkIndex, Char.isDigit x = true := fun x hx => Nat.isDigit_of_mem_toDigits (by decide) (by decide) hx
  obtain ⟨d, ds, hds⟩ : ∃ d ds, Nat.toDigits 10 info.checkIndex = d :: ds := by
    cases h : Nat.toDigits 10 info.checkIndex with
    | nil => exact absurd h Nat.toDigits_ne_nil
    | cons d ds => exact ⟨d, ds, rfl⟩
  have e2 : (' ' :: (Nat.toDigits 10 info.checkIndex ++ '\n' :: (info.message ++ '\n' :: '$' :: '\n' :: rest))).dropWhile isSpace =
      Nat.toDigits 10 info.checkIndex ++ '\n' :: (info.message ++ '\n' :: '$' :: '\n' :: rest) := by
    have hd := Failure.digit_not_space (hdig d (by simp [hds]))
    rw [hds, List.dropWhile_cons_of_pos (by decide), List.cons_append, List.dropWhile_cons_of_neg (by simp [hd])]
  unfold readInfo
  rw [e1]
  simp only
  rw [if_neg (by simp [marker]), Failure.takeWhile_append_stop hword (by decide), if_neg (by simp), Failure.dropWhile_append_stop hword (by decide), e2]
  rw [Failure.takeWhile_append_stop (p := Char.isDigit) hdig (by decide), Failure.dropWhile_append_stop (p := Char.isDigit) hdig (by decide), Nat.ofDigitChars_ten_toDigits,
    if_neg (by simp only [not_or, not_le]; exact ⟨Nat.toDigits_ne_nil, hi⟩)]
  have e3 : ('\n' :: (info.message ++ '\n' :: '$' :: '\n' :: rest)).dropWhile (fun x => decide (x ≠ '\n')) = '\n' :: (info.message ++ '\n' :: '$' :: '\n' :: rest) := by simp
  rw [e3]
  rfl

theorem readOutput_nil (ind sp : Str) (hsp : ∀ c ∈ sp, isSpace c = true) (fuel : Nat) : readOutputFrom ind (fuel + 1) sp = .ok [] := by
  have : sp.dropWhile isSpace = [] := by
    induction sp with
    | nil => rfl
    | cons c l ih => rw [List.dropWhile_cons_of_pos (hsp c (by simp))]; exact ih (fun x hx => hsp x (by simp [hx]))
  simp only [readOutputFrom, readInfo, this, if_true]

/-- The failure as it is read. -/
def shown (i : Info) : Info := ⟨i.checkIndex, tabbed true i.message⟩

theorem readFrom_written (rs : List Info) : ∀ (sp : Str) (fuel : Nat), (∀ i ∈ rs, i.checkIndex < 2 ^ 64) → (∀ c ∈ sp, isSpace c = true) → rs.length < fuel →
    (∀ i ∈ rs, ¬ DollarLine i.message) → readOutputFrom ['\t'] fuel (sp ++ writeOutput rs) = .ok (rs.map shown) := by
  induction rs with
  | nil =>
    intro sp fuel _ hsp hf _
    obtain ⟨k, rfl⟩ : ∃ k, fuel = k + 1 := ⟨fuel - 1, by simp at hf; omega⟩
    simp only [writeOutput, List.flatMap_nil, List.append_nil, readOutput_nil _ sp hsp, List.map_nil]
  | cons i rs ih =>
    intro sp fuel hi hsp hf hd
    obtain ⟨k, rfl⟩ : ∃ k, fuel = k + 1 := ⟨fuel - 1, by simp at hf; omega⟩
    have e : sp ++ writeOutput (i :: rs) = sp ++ writeInfo i ++ ('\n' :: writeOutput rs) := by
      simp only [writeOutput, List.flatMap_cons, List.append_assoc, List.cons_append, List.nil_append]
    rw [e, readOutputFrom, readInfo_written _ sp hsp i (hi i (by simp))]
    have ih' := ih ['\n'] k (fun j hj => hi j (by simp [hj])) (by decide) (by simp at hf; omega) (fun j hj => hd j (by simp [hj]))
    simp only [List.cons_append, List.nil_append] at ih'
    rw [readMessage_tabbed ('\n' :: writeOutput rs) _ i.message [] (by simp) (hd i (by simp))]
    simp only [List.nil_append, ih', Res.bind, List.map_cons, shown]

theorem length_writeOutput (rs : List Info) : rs.length ≤ (writeOutput rs).length := by
  induction rs with
  | nil => simp
  | cons i rs ih =>
    have e : writeOutput (i :: rs) = writeInfo i ++ ['\n'] ++ writeOutput rs := by simp [writeOutput]
    rw [e]
    simp only [List.length_cons, List.length_append, List.length_nil]
    omega

theorem read_written (rs : List Info) (hi : ∀ i ∈ rs, i.checkIndex < 2 ^ 64) (hd : ∀ i ∈ rs, ¬ DollarLine i.message) :
    readOutput ['\t'] (writeOutput rs) = .ok (rs.map shown) :=
  readFrom_written rs [] _ hi (by simp) (by have := length_writeOutput rs; omega) hd

theorem shown_injective {i j : Info} (h : shown i = shown j) : i = j := by
  have h1 := congrArg Info.checkIndex h
  have h2 := congrArg (fun x => untabbed true x.message) h
  simp only [shown, untabbed_tabbed] at h1 h2
  cases i; cases j
  simp_all

theorem key_injective {i j : Info} (h : key i = key j) : i = j := by
  have : ofLex (key i) = ofLex (key j) := by rw [h]
  simp only [key, ofLex_toLex, Prod.mk.injEq] at this
  cases i; cases j
  simp_all

/-! ### Names of files -/

theorem reverse_beyond {c : Char} {a b : Str} (h : c ∉ b) : ((a ++ c :: b).reverse.takeWhile (· ≠ c)).length = b.length := by
  have e : (a ++ c :: b).reverse = b.reverse ++ c :: a.reverse := by simp
  have h1 : ∀ x ∈ b.reverse, (decide (x ≠ c)) = true := fun x hx => decide_eq_true (fun e => h (e ▸ List.mem_reverse.1 hx))
  rw [e, Failure.takeWhile_append_stop (p := fun x => decide (x ≠ c)) h1 (by simp), List.length_reverse]

theorem splitExtension_proper {stem ext : Str} (hs : stem ≠ []) (he : ext ≠ []) (h : '.' ∉ ext) : splitExtension (stem ++ '.' :: ext) = (stem, '.' :: ext) := by
  have hs' : 0 < stem.length := List.length_pos_iff.mpr hs
  have he' : 0 < ext.length := List.length_pos_iff.mpr he
  have hne : stem ++ '.' :: ext ≠ ['.', '.'] := by
    intro e
    have := congrArg List.length e
    simp at this
    omega
  rw [splitExtension, if_neg hne]
  simp only [reverse_beyond h]
  rw [if_neg (by simp; omega)]
  have e : (stem ++ '.' :: ext).length - ext.length - 1 = stem.length := by simp; omega
  rw [e, List.take_left', List.drop_left'] <;> rfl

theorem splitLast_of {c : Char} {a b : Str} (h : c ∉ b) : splitLast c (a ++ c :: b) = some (a, b) := by
  rw [splitLast]
  simp only [reverse_beyond h]
  rw [if_neg (by simp; omega)]
  have e1 : (a ++ c :: b).length - b.length - 1 = a.length := by simp; omega
  have e2 : (a ++ c :: b).length - b.length = (a ++ [c]).length := by simp; omega
  have e3 : (a ++ c :: b).drop (a ++ [c]).length = b := by
    rw [show a ++ c :: b = (a ++ [c]) ++ b by simp]
    exact List.drop_left' rfl
  rw [e1, e2, e3, List.take_left' rfl]

theorem folder_proper {stem ext : Str} (hs : stem ≠ []) (he : ext ≠ []) (h : '.' ∉ ext) : folder (stem ++ '.' :: ext) = stem ++ '_' :: ext := by
  rw [folder, splitExtension_proper hs he h]
  rfl

theorem sourceOf_outputFile {t : Test} (h : ProperSource t.file) (i : Nat) : sourceOf (outputFile t i) = t.file := by
  obtain ⟨stem, ext, e, hs, he, hd, hu⟩ := h
  simp only [sourceOf, outputFile, List.dropLast, List.getLast?_singleton, e, folder_proper hs he hd, splitLast_of hu]

theorem folder_injective {f g : Str} (hf : ProperSource f) (hg : ProperSource g) (h : folder f = folder g) : f = g := by
  obtain ⟨s, e, rfl, hs, he, hd, hu⟩ := hf
  obtain ⟨s', e', rfl, hs', he', hd', hu'⟩ := hg
  rw [folder_proper hs he hd, folder_proper hs' he' hd'] at h
  have := splitLast_of (c := '_') (a := s) hu
  rw [h, splitLast_of hu'] at this
  simp only [Option.some.injEq, Prod.mk.injEq] at this
  rw [this.1, this.2]

theorem underscored_same {a b : Str} (h : underscored a = underscored b) : SameName a b := by
  induction a generalizing b with
  | nil =>
    cases b with
    | nil => exact .nil
    | cons => simp [underscored] at h
  | cons x a ih =>
    cases b with
    | nil => simp [underscored] at h
    | cons y b =>
      simp only [underscored, List.map_cons, List.cons.injEq] at h
      refine .cons ?_ (ih h.2)
      have h1 := h.1
      by_cases hx : x = ' ' <;> by_cases hy : y = ' '
      · exact .inl (hx.trans hy.symm)
      · rw [if_pos hx, if_neg hy] at h1
        exact .inr ⟨.inl hx, .inr h1.symm⟩
      · rw [if_neg hx, if_pos hy] at h1
        exact .inr ⟨.inr h1, .inl hy⟩
      · rw [if_neg hx, if_neg hy] at h1
        exact .inl h1

theorem outputName_injective {i j : Nat} (h : outputName i = outputName j) : i = j := by
  simp only [outputName, List.append_assoc, List.append_cancel_left_eq, List.append_cancel_right_eq] at h
  have := congrArg (fun l => Nat.ofDigitChars 10 l 0) h
  simpa only [Nat.ofDigitChars_ten_toDigits] using this

theorem extension_outputFile (t : Test) (i : Nat) : extension (outputFile t i) = ['.', 't', 'x', 't'] := by
  have e : outputName i = (['O', 'u', 't', 'p', 'u', 't', '_'] ++ Nat.toDigits 10 i) ++ '.' :: ['t', 'x', 't'] := by simp [outputName]
  have h : (outputFile t i).getLast? = some (outputName i) := rfl
  simp only [extension, h, e]
  rw [splitExtension_proper (by simp) (by simp) (by decide)]

/-! ### The files that were written -/

/-- Where the files of a test are. -/
def place (t : Test) : Path := [folder t.file, underscored t.name]

theorem place_apart {t u : Test} (ht : ProperSource t.file) (hu : ProperSource u.file) (h : Distinct t u) : place t ≠ place u := by
  intro e
  simp only [place, List.cons.injEq, and_true] at e
  exact h (folder_injective ht hu e.1) (underscored_same e.2)

/-- The files of a test. -/
def entry (e : Test × Nat) : Path × Str := (outputFile e.1 e.2, writeOutput (e.1.failures e.2))

theorem execute_perm {history : List (Test × Nat)} (h : history.Pairwise fun e f => outputFile e.1 e.2 ≠ outputFile f.1 f.2) :
    (execute history).Perm (history.map entry) := by
  have key : ∀ (history : List (Test × Nat)) (files : List (Path × Str)), (∀ f ∈ files, ∀ e ∈ history, f.1 ≠ outputFile e.1 e.2) →
      history.Pairwise (fun e f => outputFile e.1 e.2 ≠ outputFile f.1 f.2) →
      (history.foldl (fun files e => writeResult files e.1 e.2) files).Perm (files ++ history.map entry) := by
    intro history
    induction history with
    | nil => intro files _ _; simp
    | cons e history ih =>
      intro files hf hp
      rw [List.pairwise_cons] at hp
      have hw : writeResult files e.1 e.2 = entry e :: files := by
        rw [writeResult, write, List.filter_eq_self.2]
        · rfl
        · intro f hf'
          simpa using hf f hf' e (by simp)
      rw [List.foldl_cons, hw]
      refine (ih (entry e :: files) ?_ hp.2).trans ?_
      · intro f hf' e' he'
        rcases List.mem_cons.1 hf' with rfl | hf'
        · exact hp.1 e' he'
        · exact hf f hf' e' (by simp [he'])
      · rw [List.map_cons, List.cons_append]
        exact List.perm_middle.symm
  simpa [execute] using key history [] (by simp) h

/-- The repetitions in the order of the names of their files. -/
def order (trials : Nat) : List Nat := (List.range trials).insertionSort fun i j => outputName i ≤ outputName j

/-- The files of the tests, in the order of their names. -/
def arranged (trials : Nat) (tests : List Test) : List (Path × Str) := tests.flatMap fun t => (order trials).map fun i => entry (t, i)

theorem lt_of_place {t u : Test} {i j : Nat} (h : place t < place u) : outputFile t i < outputFile u j := by
  simp only [place, outputFile] at *
  simp only [List.cons_lt_cons_iff] at *
  rcases h with h | ⟨h1, h | ⟨h2, h⟩⟩
  · exact .inl h
  · exact .inr ⟨h1, .inl h⟩
  · exact absurd h (by simp)

theorem le_of_name {t : Test} {i j : Nat} (h : outputName i ≤ outputName j) : outputFile t i ≤ outputFile t j := by
  rcases lt_or_eq_of_le h with h | h
  · refine le_of_lt ?_
    simp only [outputFile, List.cons_lt_cons_iff, true_and]
    exact .inr (.inr (.inl h))
  · simp only [outputFile, h, le_refl]

theorem arranged_sorted {trials : Nat} {tests : List Test} (h : tests.Pairwise fun t u => place t < place u) :
    (arranged trials tests).Pairwise fun a b => a.1 ≤ b.1 := by
  have hord : (order trials).Pairwise fun i j => outputName i ≤ outputName j := by
    have : Std.Total fun i j : Nat => outputName i ≤ outputName j := ⟨fun a b => le_total _ _⟩
    have : IsTrans Nat fun i j : Nat => outputName i ≤ outputName j := ⟨fun a b c => le_trans⟩
    exact List.pairwise_insertionSort _ _
  induction tests with
  | nil => exact .nil
  | cons t tests ih =>
    rw [List.pairwise_cons] at h
    rw [arranged, List.flatMap_cons, List.pairwise_append]
    refine ⟨?_, ih h.2, ?_⟩
    · rw [List.pairwise_map]
      exact hord.imp fun h => le_of_name h
    · intro a ha b hb
      simp only [List.mem_map, List.mem_flatMap] at ha hb
      obtain ⟨i, _, rfl⟩ := ha
      obtain ⟨u, hu, j, _, rfl⟩ := hb
      exact le_of_lt (lt_of_place (h.1 u hu))

theorem arranged_perm {trials : Nat} {tests tests' : List Test} (h : tests'.Perm tests) :
    (arranged trials tests').Perm ((tests.flatMap fun t => (List.range trials).map fun i => (t, i)).map entry) := by
  rw [List.map_flatMap]
  refine (h.flatMap_right _).trans ?_
  clear h
  induction tests with
  | nil => exact .nil
  | cons t tests ih =>
    rw [List.flatMap_cons, List.flatMap_cons, List.map_map]
    exact ((List.perm_insertionSort _ _).map _).append ih

/-! ### The reports -/

/-- What is asked of the failures of a test. -/
def Good (trials : Nat) (t : Test) : Prop := ∀ i < trials, ∀ f ∈ t.failures i, f.checkIndex < 2 ^ 64 ∧ ¬ DollarLine f.message

/-- What is read from the file of a repetition. -/
def readBack (t : Test) (i : Nat) : List Key := (t.failures i).map fun f => toLex (f.checkIndex, tabbed true f.message)

theorem readAll_block {trials : Nat} {t : Test} (h : Good trials t) {is : List Nat} (hi : ∀ i ∈ is, i < trials) :
    readAll (is.map fun i => entry (t, i)) = .ok (is.map (readBack t)) := by
  induction is with
  | nil => rfl
  | cons i is ih =>
    have h1 := read_written (t.failures i) (fun f hf => (h i (hi i (by simp)) f hf).1) (fun f hf => (h i (hi i (by simp)) f hf).2)
    rw [List.map_cons, readAll, ih (fun j hj => hi j (by simp [hj]))]
    simp only [entry, h1, Res.bind, List.map_map, List.map_cons]
    rfl

theorem readBack_injective {t : Test} {i j : Nat} (h : readBack t i = readBack t j) : t.failures i = t.failures j := by
  have hinj : Function.Injective fun f : Info => (toLex (f.checkIndex, tabbed true f.message) : Key) := by
    intro a b hab
    exact shown_injective (key_injective (i := shown a) (j := shown b) hab)
  exact List.map_injective_iff.2 hinj h

theorem order_mem {trials i : Nat} : i ∈ order trials ↔ i < trials := by
  rw [order, (List.perm_insertionSort _ _).mem_iff, List.mem_range]

theorem order_length (trials : Nat) : (order trials).length = trials := by
  rw [order, (List.perm_insertionSort _ _).length_eq, List.length_range]

theorem reports_arranged {trials : Nat} (ht : 0 < trials) {tests : List Test} (hg : ∀ t ∈ tests, Good trials t ∧ ProperSource t.file) :
    ∀ fuel, (arranged trials tests).length < fuel → ∃ rs us, reports trials fuel (arranged trials tests) = .ok rs ∧ us.Sublist tests ∧
      (∀ t, t ∈ us ↔ t ∈ tests ∧ Unstable trials t) ∧ List.Forall₂ (fun t r => r.1 = t.file ∧ ReportOf keyMessage (runs trials t) r.2) us rs := by
  induction tests with
  | nil =>
    intro fuel hf
    obtain ⟨k, rfl⟩ : ∃ k, fuel = k + 1 := ⟨fuel - 1, by omega⟩
    exact ⟨[], [], rfl, .slnil, by simp, .nil⟩
  | cons t tests ih =>
    intro fuel hf
    obtain ⟨k, rfl⟩ : ∃ k, fuel = k + 1 := ⟨fuel - 1, by omega⟩
    have e : arranged trials (t :: tests) = ((order trials).map fun i => entry (t, i)) ++ arranged trials tests := by
      rw [arranged, List.flatMap_cons, ← arranged]
    have hlen : ((order trials).map fun i => entry (t, i)).length = trials := by rw [List.length_map, order_length]
    obtain ⟨i0, is, hord⟩ : ∃ i is, order trials = i :: is := by
      cases h : order trials with
      | nil => have := order_length trials; rw [h] at this; simp at this; omega
      | cons i is => exact ⟨i, is, rfl⟩
    have htake : (arranged trials (t :: tests)).take trials = (order trials).map fun i => entry (t, i) := by rw [e, List.take_left' hlen]
    have hdrop : (arranged trials (t :: tests)).drop trials = arranged trials tests := by rw [e, List.drop_left' hlen]
    have hlen' : (arranged trials tests).length < k := by
      rw [e, List.length_append, hlen] at hf
      omega
    obtain ⟨rs, us, h1, h2, h3, h4⟩ := ih (fun u hu => hg u (by simp [hu])) k hlen'
    have hstep : reports trials (k + 1) (arranged trials (t :: tests)) =
        (readAll ((arranged trials (t :: tests)).take trials)).bind fun outputs =>
          (analyseOutput keyMessage (outputs.insertionSort (· ≤ ·))).bind fun r =>
            (reports trials k ((arranged trials (t :: tests)).drop trials)).bind fun rs =>
              .ok (r.toList.map (fun r => (sourceOf (entry (t, i0)).1, r)) ++ rs) := by
      rw [e, hord]
      rfl
    rw [hstep, htake, hdrop, readAll_block (hg t (by simp)).1 (fun i hi => order_mem.1 hi)]
    have hperm : (((order trials).map (readBack t)).insertionSort (· ≤ ·)).Perm (runs trials t) :=
      (List.perm_insertionSort _ _).trans ((List.perm_insertionSort _ _).map _)
    obtain ⟨r, r1, r2, r3⟩ := C48_analysis keyMessage (List.pairwise_insertionSort (· ≤ ·) ((order trials).map (readBack t)))
    have r1' : analyseOutput keyMessage (((order trials).map (readBack t)).insertionSort (· ≤ ·)) = .ok r := by
      rw [← r1]
      congr
    have hun : r = none ↔ ¬ Unstable trials t := by
      rw [r2]
      constructor
      · rintro h ⟨i, hi, j, hj, hne⟩
        refine hne (readBack_injective (h _ ?_ _ ?_))
        · exact (List.perm_insertionSort _ _).mem_iff.2 (List.mem_map.2 ⟨i, order_mem.2 hi, rfl⟩)
        · exact (List.perm_insertionSort _ _).mem_iff.2 (List.mem_map.2 ⟨j, order_mem.2 hj, rfl⟩)
      · intro h a ha b hb
        obtain ⟨i, hi, rfl⟩ := List.mem_map.1 ((List.perm_insertionSort _ _).mem_iff.1 ha)
        obtain ⟨j, hj, rfl⟩ := List.mem_map.1 ((List.perm_insertionSort _ _).mem_iff.1 hb)
        have : t.failures i = t.failures j := Classical.byContradiction fun hne => h ⟨i, order_mem.1 hi, j, order_mem.1 hj, hne⟩
        simp only [readBack, this]
    simp only [Res.bind, r1', h1]
    cases r with
    | none =>
      have hst := hun.1 rfl
      refine ⟨_, us, rfl, h2.trans (List.sublist_cons_self _ _), ?_, by simpa using h4⟩
      intro u
      rw [h3, List.mem_cons]
      constructor
      · exact fun h => ⟨.inr h.1, h.2⟩
      · rintro ⟨rfl | h, hu⟩
        · exact absurd hu hst
        · exact ⟨h, hu⟩
    | some report =>
      have hst : Unstable trials t := Classical.byContradiction fun h => absurd (hun.2 h) (by simp)
      refine ⟨_, t :: us, rfl, h2.cons_cons _, ?_, ?_⟩
      · intro u
        rw [List.mem_cons, h3, List.mem_cons]
        constructor
        · rintro (rfl | h)
          · exact ⟨.inl rfl, hst⟩
          · exact ⟨.inr h.1, h.2⟩
        · rintro ⟨rfl | h, hu⟩
          · exact .inl rfl
          · exact .inr ⟨h, hu⟩
      · refine .cons ⟨?_, Failure.report_perm hperm (r3 report rfl)⟩ h4
        exact sourceOf_outputFile (hg t (by simp)).2 _

theorem pairwise_history {trials : Nat} {tests : List Test} (h : tests.Pairwise fun t u => place t ≠ place u) :
    (tests.flatMap fun t => (List.range trials).map fun i => (t, i)).Pairwise fun e f => outputFile e.1 e.2 ≠ outputFile f.1 f.2 := by
  induction tests with
  | nil => exact .nil
  | cons t tests ih =>
    rw [List.pairwise_cons] at h
    rw [List.flatMap_cons, List.pairwise_append]
    refine ⟨?_, ih h.2, ?_⟩
    · rw [List.pairwise_map]
      refine List.nodup_range.imp fun {i j} hij e => hij (outputName_injective ?_)
      simp only [outputFile, List.cons.injEq, and_true, true_and] at e
      exact e
    · intro a ha b hb e
      simp only [List.mem_map, List.mem_flatMap] at ha hb
      obtain ⟨i, _, rfl⟩ := ha
      obtain ⟨u, hu, j, _, rfl⟩ := hb
      refine h.1 u hu ?_
      simp only [outputFile, List.cons.injEq, and_true] at e
      simp only [place, e.1, e.2.1]

theorem analysed {trials : Nat} (ht : 1 < trials) {tests : List Test} (hg : ∀ t ∈ tests, Good trials t ∧ ProperSource t.file)
    (hd : tests.Pairwise Distinct) {history : List (Test × Nat)} (hh : Complete trials tests history) {listing : List (Path × Str)}
    (hl : listing.Perm (execute history)) :
    ∃ rs us, analyse trials listing = .ok rs ∧ us.Subperm tests ∧ (∀ t, t ∈ us ↔ t ∈ tests ∧ Unstable trials t) ∧
      List.Forall₂ (fun t r => r.1 = t.file ∧ ReportOf keyMessage (runs trials t) r.2) us rs := by
  have hplace : tests.Pairwise fun t u => place t ≠ place u :=
    hd.imp_of_mem fun hx hy h => place_apart (hg _ hx).2 (hg _ hy).2 h
  have hsym : ∀ {e f : Test × Nat}, outputFile e.1 e.2 ≠ outputFile f.1 f.2 → outputFile f.1 f.2 ≠ outputFile e.1 e.2 := fun h => Ne.symm h
  have hpair : history.Pairwise fun e f => outputFile e.1 e.2 ≠ outputFile f.1 f.2 :=
    (hh.pairwise_iff hsym).2 (pairwise_history hplace)
  let sorted := tests.insertionSort fun t u => place t ≤ place u
  have hsp : sorted.Perm tests := List.perm_insertionSort _ _
  have hss : sorted.Pairwise fun t u => place t < place u := by
    have : Std.Total fun t u : Test => place t ≤ place u := ⟨fun a b => le_total _ _⟩
    have : IsTrans Test fun t u : Test => place t ≤ place u := ⟨fun a b c => le_trans⟩
    have h1 : sorted.Pairwise fun t u => place t ≤ place u := List.pairwise_insertionSort _ _
    have h2 : sorted.Pairwise fun t u => place t ≠ place u := (hsp.pairwise_iff fun h => Ne.symm h).2 hplace
    exact (h1.and h2).imp fun h => lt_of_le_of_ne h.1 h.2
  have hperm : listing.Perm (arranged trials sorted) :=
    hl.trans ((execute_perm hpair).trans ((hh.map entry).trans (arranged_perm hsp).symm))
  have hfilter : (listing.filter fun f => extension f.1 = ['.', 't', 'x', 't']) = listing := by
    rw [List.filter_eq_self]
    intro f hf
    have := hperm.mem_iff.1 hf
    simp only [arranged, List.mem_flatMap, List.mem_map] at this
    obtain ⟨t, _, i, _, rfl⟩ := this
    exact decide_eq_true (extension_outputFile t i)
  have hsort : (listing.insertionSort fun a b => a.1 ≤ b.1) = arranged trials sorted := by
    have : Std.Total fun a b : Path × Str => a.1 ≤ b.1 := ⟨fun a b => le_total _ _⟩
    have : IsTrans (Path × Str) fun a b : Path × Str => a.1 ≤ b.1 := ⟨fun a b c => le_trans⟩
    refine List.Perm.eq_of_pairwise (le := fun a b : Path × Str => a.1 ≤ b.1) ?_ (List.pairwise_insertionSort _ _) (arranged_sorted hss) ((List.perm_insertionSort _ _).trans hperm)
    intro a b ha hb h1 h2
    have he : a.1 = b.1 := le_antisymm h1 h2
    have ha' := ((List.perm_insertionSort _ _).trans hl).mem_iff.1 ha
    have hb' := (hperm.symm.trans hl).mem_iff.1 hb
    have ha2 := (execute_perm hpair).mem_iff.1 ha'
    have hb2 := (execute_perm hpair).mem_iff.1 hb'
    obtain ⟨e, h3, rfl⟩ := List.mem_map.1 ha2
    obtain ⟨f, h4, rfl⟩ := List.mem_map.1 hb2
    have : e = f := Classical.byContradiction fun hne => (@List.Pairwise.forall _ _ _ ⟨fun _ _ h => Ne.symm h⟩ hpair _ h3 _ h4 hne) he
    rw [this]
  have hlen : (arranged trials sorted).length % trials = 0 := by
    have : ∀ l : List Test, (arranged trials l).length % trials = 0 := by
      intro l
      induction l with
      | nil => simp [arranged]
      | cons t l ih =>
        rw [arranged, List.flatMap_cons, ← arranged, List.length_append, List.length_map, order_length, Nat.add_mod_left]
        exact ih
    exact this _
  rw [analyse, if_neg (by omega)]
  simp only [hfilter, hsort]
  rw [if_neg (by simp [hlen])]
  obtain ⟨rs, us, h1, h2, h3, h4⟩ := reports_arranged (by omega : 0 < trials) (tests := sorted) (fun t h => hg t (hsp.mem_iff.1 h)) _ (Nat.lt_succ_self _)
  exact ⟨rs, us, h1, h2.subperm.trans hsp.subperm, fun t => by rw [h3, hsp.mem_iff], h4⟩

end Verif.Instability
