import Verif.Lemmas.TestCreatorText

/-! C80 and C81: how the names of classes, their template parameters and equivalent types are understood when a test is created, and how the text of files is made. -/
namespace Verif.Props
open Verif.TestCreator Verif.Text Verif.Spec.Text Verif.Spec.TestCreator

/-! ### C80: templates and names -/

/-- **C80 (part)** If the parameters of a template consist of a kind in one word, possibly with an ellipsis, and a name, with any number of spaces around them, then they are recognized, in order.
What is missing: kinds which consist of several words, see `C80_words_violated`, or contain commas, see `C80_commas_violated`, and text after the parameters with a comma, see `C80_comma_after_violated`. -/
theorem C80_parameters_partial {name rest : Str} {ss : List Str} {ds : List TemplateSpec} (h : Params ss ds) (hname : '<' ∉ name) (hrest : '>' ∉ rest ∧ ',' ∉ rest) :
    templateData (name ++ "<".toList ++ commas ss ++ ">".toList ++ rest) = .ok ds := by
  have := templateData_spec h hname hrest
  simpa using this

/-- **C80 (part)** Parameters which have been written are read again.  What is missing: as for `C80_parameters_partial`. -/
theorem C80_roundtrip_partial {name rest : Str} {ds : List TemplateSpec} (hne : ds ≠ []) (h : ∀ d ∈ ds, Species d.species ∧ Word d.symbol ∧ '.' ∉ d.symbol ∧ ',' ∉ d.species ∧ ',' ∉ d.symbol)
    (hname : '<' ∉ name) (hrest : '>' ∉ rest ∧ ',' ∉ rest) : templateData (name ++ dataText ds ++ rest) = .ok ds := templateData_written hne h hname hrest

/-- **C80** What is written for the parameters of a template. -/
theorem C80_text {ds : List TemplateSpec} (hne : ds ≠ []) : dataText ds = "<".toList ++ listed (ds.map fun d => d.species ++ " ".toList ++ d.symbol) ++ ">".toList := by
  rw [dataText_eq hne]
  simp

/-- **C80 (part)** The name of a class template is split into the namespace, the name and the parameters; wherever the class is used, it is followed by the names of the parameters, with packs expanded.  Colons in the
parameters do not matter.  What is missing: as for `C80_parameters_partial`. -/
theorem C80_names_partial {old name rest : Str} {q : Option Str} {ss : List Str} {ds : List TemplateSpec} (h : Params ss ds) (hq : '<' ∉ qualifier q) (hname : '<' ∉ name ∧ ':' ∉ name) (hrest : '>' ∉ rest ∧ ',' ∉ rest) :
    semanticNames old (qualifier q ++ name ++ "<".toList ++ commas ss ++ ">".toList ++ rest) =
      .ok { nameSpace := q.elim [] id, forename := name, qualified := qualifier q ++ name ++ "<".toList ++ listed (ds.map argument) ++ ">".toList, params := ds } := by
  have := semanticNames_template (old := old) h hq hname hrest
  simpa using this

/-- **C80** The name of a class which is not a template is split into the namespace and the name. -/
theorem C80_plain {old name : Str} {q : Option Str} (hq : '<' ∉ qualifier q) (hname : '<' ∉ name ∧ ':' ∉ name ∧ name ≠ []) :
    semanticNames old (qualifier q ++ name) = .ok { nameSpace := q.elim [] id, forename := name, qualified := qualifier q ++ name, params := [] } := semanticNames_plain hq hname

/-- **C80** Text with an opening but no closing angle, or with the last closing one in front of all the opening ones, is refused. -/
theorem C80_refused {str : Str} (h : '<' ∈ str) (hc : '>' ∉ str ∨ ∃ a b, str = a ++ '>' :: b ∧ '<' ∉ a ∧ '>' ∉ b) : templateData str = .throws := by
  unfold templateData
  have hf : ∃ o, find str ['<'] 0 = some o := by
    cases hh : find str ['<'] 0 with
    | none => exact absurd (by simpa using h) (find_char_none.1 hh)
    | some o => exact ⟨o, rfl⟩
  obtain ⟨o, ho⟩ := hf
  rw [ho]
  dsimp only
  rcases hc with hc | ⟨a, b, rfl, ha, hb⟩
  · rw [rsearch_char_none hc]
  · rw [rsearch_char hb]
    dsimp only
    rw [if_pos]
    obtain ⟨x, y, hxy, rfl, -, -⟩ := find_char.1 ho
    apply Classical.byContradiction
    intro hle
    have h1 : (a ++ '>' :: b)[x.length]? = some '<' := by rw [hxy]; simp
    by_cases he : x.length < a.length
    · rw [List.getElem?_append_left he] at h1
      exact ha (List.mem_of_getElem? h1)
    · have : x.length = a.length := by omega
      rw [this] at h1
      simp at h1

/-- **C80 (violated)** Of a kind in two words only the second one is kept. -/
theorem C80_words_violated : templateData "array<unsigned long N>".toList = .ok [⟨"long".toList, "N".toList⟩] := by decide +kernel

/-- **C80 (violated)** A concept with two arguments is split. -/
theorem C80_commas_violated : templateData "f<invocable<int, float> F>".toList = .throws := by decide +kernel

/-- **C80 (violated)** With a comma after the parameters, text with a negative length is read. -/
theorem C80_comma_after_violated : templateData "f<class T>,".toList = .ub := by decide +kernel

/-- Two parameters, one of them a pack. -/
example : Params [" class  T".toList, "std::size_t ... N ".toList] [⟨"class".toList, "T".toList⟩, ⟨"std::size_t ...".toList, "N".toList⟩] ∧ '<' ∉ "tuple".toList ∧ ':' ∉ "tuple".toList ∧ '<' ∉ qualifier (some "std".toList) ∧
    semanticNames [] "std::tuple< class  T,std::size_t ... N >".toList =
      .ok ⟨"std".toList, "tuple".toList, "std::tuple<T, N...>".toList, [⟨"class".toList, "T".toList⟩, ⟨"std::size_t ...".toList, "N".toList⟩]⟩ := by
  refine ⟨.cons (.some (d := ⟨"class".toList, "T".toList⟩) (pad := []) 1 1 (.inl ?_) ?_ (by decide +kernel) (by unfold Padding; decide +kernel)) (by decide +kernel)
    (.one (.some (d := ⟨"std::size_t ...".toList, "N".toList⟩) (pad := " ".toList) 0 0 (.inr ⟨"std::size_t".toList, "...".toList, by decide +kernel, ?_, ?_, by decide +kernel⟩) ?_ (by decide +kernel) (by unfold Padding; decide +kernel)) (by decide +kernel)),
    by decide +kernel, by decide +kernel, by decide +kernel, by decide +kernel⟩
  all_goals unfold Word; decide +kernel

/-- Refusals. -/
example : templateData "a>b<c".toList = .throws ∧ templateData "a<b".toList = .throws :=
  ⟨C80_refused (by decide +kernel) (.inr ⟨"a".toList, "b<c".toList, by decide +kernel, by decide +kernel, by decide +kernel⟩), C80_refused (by decide +kernel) (.inl (by decide +kernel))⟩

/-! ### C81: types and the text of files -/

/-- **C81 (part)** Pointers, references and types which start with one of eight words for fundamental types, as well as `std::size_t` and `size_t`, are passed by value, everything else by reference, whatever the
spaces; text without a word is refused.  What is missing: other fundamental types and integers of fixed width should be passed by value, too, see `C81_unsigned_violated` and `C81_fixed_violated`. -/
theorem C81_value_partial (type : Str) : handleAsRef type = if firstWord type = [] then .throws else .ok (!byValue type) := by
  split
  · rename_i h; exact handleAsRef_throws h
  · rename_i h; exact handleAsRef_spec h

/-- **C81 (part)** The parameters of the check of equivalence: one for each type, in order, each of them constant, by value or by reference as above, with different names.  What is missing: types must not be
empty, see `C81_empty_violated`. -/
theorem C81_arguments_partial {types : List Str} (h : ∀ t ∈ types, firstWord t ≠ []) :
    equivalentArgs types.length 0 types = .ok (listed (types.mapIdx fun i t => parameter types.length i t)) ∧
      ∀ i j, i < types.length → j < types.length → predictionName types.length i = predictionName types.length j → i = j := by
  refine ⟨?_, fun i j hi hj he => predictionName_inj hi hj he⟩
  rw [equivalentArgs_spec types 0 (by simp) h]
  have : ∀ (num i : Nat) (ts : List Str), parametersFrom num i ts = ts.mapIdx fun j t => parameter num (i + j) t := by
    intro num i ts
    induction ts generalizing i with
    | nil => rfl
    | cons t ts ih =>
      rw [parametersFrom, ih, List.mapIdx_cons]
      simp [Nat.add_comm, Nat.add_left_comm]
  rw [this]
  simp

/-- **C81** Of the two variants in a template for a test, the one for the kind of the test is kept, and the other one is removed; nothing else changes. -/
theorem C81_kind {a r m b : Str} (h1 : First "$Regular".toList a (r ++ "$Move".toList ++ m ++ "$\n".toList ++ b)) (h2 : First "$Move".toList r (m ++ "$\n".toList ++ b)) (h3 : First "$\n".toList m b) (regular : Bool) :
    chooseKind regular (a ++ "$Regular".toList ++ (r ++ "$Move".toList ++ (m ++ "$\n".toList ++ b))) = a ++ (if regular then r else m) ++ b := chooseKind_spec h1 h2 h3 regular

/-- **C81** If there is a namespace then it is put into the text, and the braces stay. -/
theorem C81_namespace {pre body post : List Str} {ns : Str} (hpost : post ≠ []) (hne : ns ≠ []) (hns : ¬ "?{".toList <:+: "namespace ".toList ++ ns ∧ ¬ "?}".toList <:+: "namespace ".toList ++ ns)
    (h : ∀ l ∈ pre ++ body ++ post, ¬ "namespace".toList <:+: l ∧ ¬ "?{".toList <:+: l ∧ ¬ "?}".toList <:+: l) :
    Returns (fun fuel => processNamespace fuel (unlines (pre ++ ["namespace".toList, "?{".toList] ++ body ++ ["?}".toList] ++ post)) ns)
      (unlines (pre ++ ["namespace ".toList ++ ns, "{".toList] ++ body ++ ["}".toList] ++ post)) := processNamespace_some hpost hne hns h

/-- **C81** If there is none then the lines for it and its braces are removed, and all lines but the first lose one tab. -/
theorem C81_global {pre body post : List Str} (hpost : post ≠ []) (h : ∀ l ∈ pre ++ body ++ post, '\n' ∉ l ∧ ¬ "namespace".toList <:+ l ∧ ¬ "?{".toList <:+ l ∧ ¬ "?}".toList <:+ l)
    {l : Str} {rest : List Str} (hl : pre ++ body ++ post = l :: rest) :
    Returns (fun fuel => processNamespace fuel (unlines (pre ++ ["namespace".toList, "?{".toList] ++ body ++ ["?}".toList] ++ post)) []) (unlines (l :: rest.map untab)) := processNamespace_none hpost h hl

/-- **C81 (violated)** `unsigned` is among the words which are looked for, but it contains `signed`, and is passed by reference. -/
theorem C81_unsigned_violated : "unsigned".toList ∈ funTypes ∧ handleAsRef "unsigned".toList = .ok true ∧ handleAsRef "unsigned int".toList = .ok true ∧ handleAsRef "signed int".toList = .ok false := by decide +kernel

/-- **C81 (violated)** Integers of fixed width are among the types which are looked for, but they contain `int`, and are passed by reference; other than `size_t`, which is not. -/
theorem C81_fixed_violated :
    (∀ t ∈ ["uint8_t", "uint16_t", "uint32_t", "uint64_t", "int8_t", "int16_t", "int32_t", "int64_t"], t.toList ∈ otherTypes ∧ handleAsRef t.toList = .ok true) ∧
    (∀ t ∈ ["std::size_t", "size_t"], t.toList ∈ otherTypes ∧ handleAsRef t.toList = .ok false) ∧ otherTypes.length = 10 := by decide +kernel

/-- **C81 (violated)** An empty type leaves a comma behind, or makes the name of a single parameter look like one of several. -/
theorem C81_empty_violated : equivalentArgs 2 0 ["int".toList, []] = .ok "const int prediction_0, ".toList ∧ equivalentArgs 2 0 [[], "int".toList] = .ok "const int prediction_1".toList := by decide +kernel

/-- Two types. -/
example : (∀ t ∈ ["int".toList, "const std::string".toList], firstWord t ≠ []) ∧ equivalentArgs 2 0 ["int".toList, "const std::string".toList] = .ok "const int prediction_0, const std::string& prediction_1".toList := by decide +kernel

/-- Two variants. -/
example : First "$Regular".toList "a".toList ("r".toList ++ "$Move".toList ++ "m".toList ++ "$\n".toList ++ "b".toList) ∧ First "$Move".toList "r".toList ("m".toList ++ "$\n".toList ++ "b".toList) ∧ First "$\n".toList "m".toList "b".toList :=
  ⟨FileEditors.search_first (by decide +kernel), FileEditors.search_first (by decide +kernel), FileEditors.search_first (by decide +kernel)⟩

/-- A file with a class. -/
example : (∀ l ∈ ["#pragma once".toList, "\tclass ?type".toList, "".toList], ¬ "namespace".toList <:+: l ∧ ¬ "?{".toList <:+: l ∧ ¬ "?}".toList <:+: l) ∧
    (∀ l ∈ ["#pragma once".toList, "\tclass ?type".toList, "".toList], '\n' ∉ l ∧ ¬ "namespace".toList <:+ l ∧ ¬ "?{".toList <:+ l ∧ ¬ "?}".toList <:+ l) ∧
    ¬ "?{".toList <:+: "namespace ".toList ++ "maths".toList ∧ ¬ "?}".toList <:+: "namespace ".toList ++ "maths".toList := by decide +kernel

end Verif.Props
