import Verif.Spec.AddSuites
set_option linter.unusedSimpArgs false
set_option linter.unusedVariables false
set_option linter.unusedSectionVars false
/- Lemmas about selections which are not found. -/
namespace Verif.AddSuites
open Verif.Graph Verif.Text Verif.Suites Verif.RunTests Verif.RunReport Verif.Spec Verif.Spec.Suites Verif.Spec.AddSuites

/-- The selections, each with whether it has been the first which one of the searches has found. -/
def mark {K : Type} (ks : List K) (hits : List (K → Bool)) : List (K × Bool) := ks.zipIdx.map fun (k, i) => (k, hits.any fun p => ks.findIdx? p == some i)

theorem markFirst_get {K : Type} (p : K → Bool) : ∀ (l : List (K × Bool)) (i : Nat),
    (markFirst p l).1[i]? = l[i]?.map fun e => (e.1, e.2 || ((l.map Prod.fst).findIdx? p == some i))
  | [], i => by simp [markFirst]
  | e :: l, i => by
    rw [markFirst]
    by_cases h : p e.1 = true
    · rw [if_pos h]
      cases i with
      | zero => simp [List.findIdx?_cons, h]
      | succ i => simp [List.findIdx?_cons, h]
    · rw [if_neg h]
      cases i with
      | zero =>
        simp only [List.getElem?_cons_zero, Option.map_some, List.map_cons, List.findIdx?_cons, h]
        cases (l.map Prod.fst).findIdx? p <;> simp
      | succ i =>
        simp only [List.getElem?_cons_succ, markFirst_get p l i, List.map_cons, List.findIdx?_cons, h]
        congr 1
        funext e'
        cases (l.map Prod.fst).findIdx? p <;> simp

theorem mark_keys {K : Type} (ks : List K) (hits : List (K → Bool)) : (mark ks hits).map Prod.fst = ks := by
  unfold mark
  rw [List.map_map]
  conv => rhs; rw [← List.zipIdx_map_fst 0 ks]
  rfl

theorem markFirst_mark {K : Type} (p : K → Bool) (ks : List K) (hits : List (K → Bool)) : (markFirst p (mark ks hits)).1 = mark ks (hits ++ [p]) := by
  apply List.ext_getElem?
  intro i
  rw [markFirst_get, mark_keys]
  unfold mark
  simp only [List.getElem?_map, List.getElem?_zipIdx, Option.map_map]
  cases ks[i]? with
  | none => rfl
  | some k => simp [Function.comp]

theorem findSuites_mark {S K : Type} [DecidableEq K] (name : S → K) : ∀ (path : List S) (ks : List K) (hits : List (K → Bool)),
    (findSuites name path (some (mark ks hits))).1 = some (mark ks (hits ++ path.map fun s => (fun k => decide (k = name s))))
  | [], ks, hits => by simp [findSuites]
  | s :: path, ks, hits => by
    simp only [findSuites, findSelection, markFirst_mark]
    rw [findSuites_mark name path ks]
    simp

theorem findSuites_none {S K : Type} [DecidableEq K] (name : S → K) : ∀ (path : List S), (findSuites name path (none : Selection K)).1 = none
  | [] => rfl
  | s :: path => by simp only [findSuites, findSelection]; exact findSuites_none name path

theorem apply_mark {K I S L : Type} [DecidableEq K] (m : I → L → Bool) (name : S → K) (ks : Option (List K)) (is : Option (List I)) (hs : List (K → Bool)) (hi : List (I → Bool)) (l : L)
    (path : List S) : ((⟨ks.map (mark · hs), is.map (mark · hi)⟩ : Granular K I).apply m name l path).2 =
      ⟨ks.map (mark · (hs ++ path.map fun s => (fun k => decide (k = name s)))), is.map (mark · (hi ++ [fun k => m k l]))⟩ := by
  unfold Granular.apply
  cases ks <;> cases is <;>
    simp [findSelection, markFirst_mark, findSuites_mark, findSuites_none]

theorem visited_mark {K I S L : Type} [DecidableEq K] (m : I → L → Bool) (name : S → K) (ks : Option (List K)) (is : Option (List I)) : ∀ (tests : List (L × List S)) (hs : List (K → Bool))
    (hi : List (I → Bool)), visited (fun (f : Granular K I) l path => f.apply m name l path) ⟨ks.map (mark · hs), is.map (mark · hi)⟩ tests =
      ⟨ks.map (mark · (hs ++ (tests.flatMap Prod.snd).map fun s => (fun k => decide (k = name s)))), is.map (mark · (hi ++ (tests.map Prod.fst).map fun l => (fun k => m k l)))⟩
  | [], hs, hi => by simp [visited]
  | x :: tests, hs, hi => by
    have : visited (fun (f : Granular K I) l path => f.apply m name l path) ⟨ks.map (mark · hs), is.map (mark · hi)⟩ (x :: tests) =
        visited (fun (f : Granular K I) l path => f.apply m name l path) ((⟨ks.map (mark · hs), is.map (mark · hi)⟩ : Granular K I).apply m name x.1 x.2).2 tests := rfl
    rw [this, apply_mark, visited_mark m name ks is tests]
    simp

theorem makeSelection_mark {K : Type} (ks : Option (List K)) : makeSelection ks = ks.map (mark · []) := by
  cases ks with
  | none => rfl
  | some l =>
    simp only [makeSelection, Option.map_some, Option.some.injEq, mark, List.any_nil]
    conv => lhs; rw [← List.zipIdx_map_fst 0 l, List.map_map]
    rfl

/-- What is printed for the entries which have not been found. -/
theorem flatMap_mark {X : Type} (text : Str → Str) (hit : Str → X → Bool) (ks : List Str) (cands : List X) :
    ((mark ks (cands.map fun x => (fun k => hit k x))).flatMap fun e => if !e.2 then text e.1 else []) = (unmatched hit (some ks) cands).flatMap text := by
  unfold mark unmatched
  simp only [List.flatMap_map, List.any_map, Function.comp_def]
  induction ks.zipIdx with
  | nil => rfl
  | cons e l ih =>
    rw [List.flatMap_cons, ih, List.filter_cons]
    obtain ⟨k, i⟩ := e
    simp only
    split <;> simp

theorem check_mark {X : Type} (type : Str) (hint text : Str → Str) (hit : Str → X → Bool) (ks : Option (List Str)) (cands : List X)
    (ht : ∀ k, warning ("Test ".toList ++ type ++ " '".toList ++ k ++ "' not found\n".toList ++ hint k) = text k) :
    check type hint (ks.map (mark · (cands.map fun x => (fun k => hit k x)))) = (unmatched hit ks cands).flatMap text := by
  cases ks with
  | none => rfl
  | some l =>
    rw [← flatMap_mark]
    simp only [Option.map_some, check, ht]

theorem missing_spec {L T P : Type} (a : About L T P) (suites files : Option (List Str)) (adds : List (Addition L)) :
    checkForMissingTests false (visited (fun (f : Granular Str Str) l path => f.apply a.selects String.toList l path) ⟨makeSelection suites, makeSelection files⟩ (adds.flatMap given)) =
      notFound a suites files adds := by
  rw [makeSelection_mark, makeSelection_mark, visited_mark]
  unfold checkForMissingTests notFound
  simp only [Bool.false_eq_true, if_false, List.nil_append]
  rw [check_mark (text := suiteNotFound) (hit := fun name (s : String) => decide (name = s.toList)),
    check_mark (text := fileNotFound) (hit := a.selects)]
  · intro k
    have h : "  Warning: Test File '".toList = "  ".toList ++ ("Warning".toList ++ (": ".toList ++ ("Test ".toList ++ ("File".toList ++ " '".toList)))) := by decide
    unfold warning fileNotFound
    rw [h]
    cases Includes.hasExtension k <;> simp only [List.append_assoc, Bool.not_true, Bool.not_false, if_true, if_false, Bool.false_eq_true]
  · intro k
    have h : "  Warning: Test Suite '".toList = "  ".toList ++ ("Warning".toList ++ (": ".toList ++ ("Test ".toList ++ ("Suite".toList ++ " '".toList)))) := by decide
    unfold warning suiteNotFound
    rw [h]
    by_cases hk : '.' ∈ k
    · simp only [List.append_assoc, if_pos hk, if_pos (List.contains_iff_mem.mpr hk)]
    · simp only [List.append_assoc, if_neg hk, if_neg (fun h => hk (List.contains_iff_mem.mp h))]

end Verif.AddSuites
