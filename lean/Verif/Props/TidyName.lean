import Verif.Lemmas.TidyFuel

/-
C98: the names of types do not depend on the compiler.
-/
namespace Verif.Props
open Verif Verif.Text Verif.Spec.Text Verif.Spec.TidyName
open Verif.TidyName (Env tidy tidyClang tidyGcc tidyMsvc removeCasts)

section
open Verif.TidyName

theorem tidy_ends (t : Ty) (ho : t.Ok) : ∃ n, ∀ m, n ≤ m → tidy true m (t.show noSuffix) = some (.ok (t.show common)) := by
  refine ⟨(t.show noSuffix).length + (t.show longOnly).length + (t.show longLong).length + (t.show yesPass).length + (t.show noPass).length + 3, fun m hm => ?_⟩
  rw [tidy, if_pos rfl, replaceAll_of (by decide) (pass_long1 t ho) m (by omega)]
  simp only [lift, Out.then, Option.map_some]
  rw [replaceAll_of (by decide) (pass_long2 t ho) m (by omega)]
  simp only [Option.map_some]
  rw [pass_true t ho m (by omega)]
  simp only [Option.map_some]
  rw [pass_false t ho m (by omega)]
  exact pass_casts t ho m (by omega)

/-- **C98 (part)** The name of a type which Clang gives is made into a name in which nothing depends on the compiler: no inline namespaces, no suffixes of integers, one name for the integers of 64
bits, numbers for booleans and enumerators, and blanks between closing brackets.  What is missing: types in the names of which there is something special, such as pointers, functions and floating
point numbers; with three enumerators, digits in the names of inner templates, or names which contain a keyword, the claim is false, as shown below. -/
theorem C98_clang_partial (env : Env) (spaced : Bool) (t : Ty) (ho : t.Ok) : Ends (fun m => tidyClang env true m (t.show (clang spaced))) (t.show common) := by
  obtain ⟨n, hn⟩ := tidy_ends t ho
  refine ⟨n + (t.show (clang spaced)).length + (t.show (plainStd spaced)).length + (t.show (plainStd true)).length + 3, fun m hm => ?_⟩
  simp only [tidyClang]
  rw [replaceAll_of (by decide) (pass_clang1 spaced t ho) m (by omega)]
  simp only [lift, Out.then, Option.map_some]
  rw [replaceAll_of (by decide) (pass_clang2 spaced t ho) m (by omega)]
  simp only [Option.map_some]
  rw [replaceRec_gaps _ m (by omega), pass_gaps spaced t ho]
  simp only [Option.map_some]
  rw [pass_literals env t ho m (by omega)]
  simp only [pass_spans t ho]
  exact hn m (by omega)

/-- **C98 (part)** The name which GCC gives is made into the same name.  What is missing: as for Clang. -/
theorem C98_gcc_partial (env : Env) (spaced : Bool) (t : Ty) (ho : t.Ok) : Ends (fun m => tidyGcc env true m (t.show (gcc spaced))) (t.show common) := by
  obtain ⟨n, hn⟩ := tidy_ends t ho
  refine ⟨n + (t.show (gcc spaced)).length + (t.show (plainStd spaced)).length + (t.show (plainStd true)).length + 3, fun m hm => ?_⟩
  simp only [tidyGcc]
  rw [replaceAll_of (by decide) (pass_gcc1 spaced t ho) m (by omega)]
  simp only [lift, Out.then, Option.map_some]
  rw [replaceAll_of (by decide) (pass_gcc2 spaced t ho) m (by omega)]
  simp only [Option.map_some]
  rw [replaceRec_gaps _ m (by omega), pass_gaps spaced t ho]
  simp only [Option.map_some]
  rw [pass_literals env t ho m (by omega)]
  simp only [pass_spans t ho]
  exact hn m (by omega)

/-- **C98 (part)** So is the name which MSVC gives.  What is missing: as for Clang. -/
theorem C98_msvc_partial (t : Ty) (ho : t.Ok) : Ends (fun m => tidyMsvc (some "long long".toList) m (t.show msvc)) (t.show common) := by
  have habs : ∀ {p to : Str} (c : Char), c ∈ p → c.isAlphanum = false → c ∉ ['_', ':', '-', ' ', '(', ')'] → c ∉ ['<', '>', ','] → Replaced p to (t.show spacedDialect) (t.show spacedDialect) :=
    fun c hc h1 h2 h3 => .none fun hi => type_chars c h1 h2 h3 t ho (hi.subset hc)
  have hcd : ¬ "__cdecl(void)".toList <:+: t.show common := fun hi => cdecl_absent t ho (List.IsInfix.trans ⟨[], "(void)".toList, rfl⟩ hi)
  refine ⟨(Ty.bare (fun _ => true) t).length + (Ty.bare (without (fun _ => true) .struct_) t).length + (Ty.bare (without (without (fun _ => true) .struct_) .class_) t).length +
    (t.show bareDialect).length + (t.show spacedDialect).length + (t.show common).length + 3, fun m hm => ?_⟩
  simp only [tidyMsvc]
  have hpe := pass_peel t ho
  simp only [peels] at hpe
  have hstruct := pass_keyword (fun _ => true) .struct_ t ho m (by omega)
  have hclass := pass_keyword (without (fun _ => true) .struct_) .class_ t ho m (by omega)
  have henum := pass_keyword (without (without (fun _ => true) .struct_) .class_) .enum_ t ho m (by omega)
  rw [bare_none] at henum
  simp only [Kind.text] at hstruct hclass henum
  rw [hpe, hstruct]
  simp only [lift, Out.then, Option.map_some]
  rw [hclass]
  simp only [Option.map_some]
  rw [henum]
  simp only [Option.map_some]
  rw [replaceAll_of (by decide) (pass_commas t ho) m (by omega)]
  simp only [Option.map_some]
  rw [replaceAll_of (by decide) (.none (pass_blanks t ho)) m (by omega)]
  simp only [Option.map_some]
  rw [replaceAll_of (by decide) (habs '&' (by decide) (by decide) (by decide) (by decide)) m (by omega)]
  simp only [Option.map_some]
  rw [replaceAll_of (by decide) (habs '*' (by decide) (by decide) (by decide) (by decide)) m (by omega)]
  simp only [Option.map_some]
  rw [replaceAll_of (by decide) (habs '`' (by decide) (by decide) (by decide) (by decide)) m (by omega)]
  simp only [Option.map_some]
  rw [replaceAll_of (by decide) (pass_int64 t ho) m (by omega)]
  simp only [Option.map_some]
  rw [replaceAll_of (by decide) (.none hcd) m (by omega)]
  simp only [Option.map_some]
  rw [replaceAll_of (by decide) (.none (cdecl_absent t ho)) m (by omega)]
  exact arrayIterators_absent t ho m (by omega)

end

/-- A type with each of the things which compilers write differently. -/
def mapTy : Ty :=
  .mk (.std .class_ false "map".toList) (.cons (.mk (.std .class_ true "string".toList) .nil)
    (.cons (.mk (.user .struct_ "my::array".toList) (.cons (.mk (.int64 true false) .nil) (.cons (.mk (.enumerator "my::colour".toList "2".toList) .nil)
      (.cons (.mk (.integer false "3".toList "ul".toList) .nil) (.cons (.mk (.boolean true) .nil) .nil))))) .nil))

theorem plain_mk {n : Str} (h1 : n ≠ []) (h2 : ∀ c ∈ n, c.isAlpha = true ∨ c = '_' ∨ c = ':') (h3 : ∀ p ∈ reserved, search p n = none) (h4 : n ≠ "true".toList ∧ n ≠ "false".toList)
    (h5 : search "::span".toList n = none ∧ search "std::_Array_const_iterator".toList n = none) : Plain n where
  nonempty := h1
  chars := fun c hc => by
    rcases h2 c hc with h | h
    · exact .inl (by simp [Char.isAlphanum, h])
    · exact .inr h
  digits := by
    have hd : ∀ c ∈ n, c.isDigit = false := fun c hc => by
      rcases h2 c hc with h | rfl | rfl
      · simp only [Char.isAlpha, Char.isUpper, Char.isLower, Char.isDigit, Bool.or_eq_true, Bool.and_eq_true, decide_eq_true_eq, ge_iff_le, UInt32.le_iff_toNat_le, Bool.and_eq_false_iff,
          decide_eq_false_iff_not] at h ⊢
        rcases h with h | h
        · right; simp at h ⊢; omega
        · right; simp at h ⊢; omega
      · decide
      · decide
    refine ⟨fun c hc => hd c (List.mem_of_mem_head? hc), ?_⟩
    rintro a c b rfl
    exact hd c (by simp)
  reserved := fun p hp => search_none.1 (h3 p hp)
  notBool := h4
  notSpecial := ⟨fun h => search_none.1 h5.1 h.isInfix, fun h => search_none.1 h5.2 h.isInfix⟩

theorem mapTy_ok : mapTy.Ok := by
  have h1 : Plain "std::map".toList := plain_mk (by decide) (by decide) (by decide) (by decide) (by decide)
  have h2 : Plain "std::string".toList := plain_mk (by decide) (by decide) (by decide) (by decide) (by decide)
  have h3 : Plain "my::array".toList := plain_mk (by decide) (by decide) (by decide) (by decide) (by decide)
  have h4 : Plain "my::colour".toList := plain_mk (by decide) (by decide) (by decide) (by decide) (by decide)
  simp only [mapTy, Ty.Ok, Args.Ok, Ty.OkArg, Word.Ok, Word.isType, Word.template, Word.noDigits, Args.enumerators, Ty.enumerators, Word.enumerators, and_true, true_and]
  exact ⟨h1, fun _ => trivial, ⟨⟨h2, fun h => absurd rfl h⟩, h3, fun _ => by decide, fun h => absurd rfl h, ⟨⟨h4, by decide⟩, fun h => absurd rfl h⟩, ⟨by decide, fun h => absurd rfl h⟩,
    fun h => absurd rfl h⟩, by decide⟩

/-- The names of this type. -/
example : mapTy.Ok ∧ mapTy.show (clang false) = "std::__1::map<std::__1::string, my::array<unsigned long, (my::colour)2, 3ul, true>>".toList ∧
    mapTy.show (gcc false) = "std::map<std::__cxx11::string, my::array<unsigned long, (my::colour)2, 3ul, true>>".toList ∧
    mapTy.show msvc = "class std::map<class std::string,struct my::array<unsigned __int64,2,3,1> >".toList ∧
    mapTy.show common = "std::map<std::string, my::array<unsigned long long, 2, 3, 1> >".toList := ⟨mapTy_ok, by decide, by decide, by decide, by decide⟩

/-! ### Where the names differ -/

section
open Verif.TidyName (tidyClang_step tidyGcc_step tidyMsvc_step ends_of)

theorem clang_parts {env : Env} {n : Nat} {s s₁ s₂ s₃ s₄ s₅ r : Str} (h₁ : replaceAll n s "::__1::".toList "::".toList = some s₁) (h₂ : replaceAll n s₁ "::__fs::".toList "::".toList = some s₂)
    (h₃ : replaceRec n s₂ ">>".toList "> >".toList = some s₃) (h₄ : Verif.TidyName.lit .find s₃ = some s₄ ∧ s₃.length < n) (h₅ : Verif.TidyName.processSpans s₄ = .ok s₅)
    (h₆ : tidy true n s₅ = some (.ok r)) : tidyClang env true n s = some (.ok r) := by
  have h := Verif.TidyName.processLiterals_lit env n s₃ [] s₄ h₄.1 h₄.2
  simp only [List.nil_append, List.length_nil] at h
  simp only [tidyClang, h₁, h₂, h₃, h, h₅, h₆, Verif.TidyName.lift, Verif.TidyName.Out.then, Option.map_some]

/-- **C98 (violated)** A suffix is not removed if there is a digit in the name of the template: `A<B2<3>>` has different names. -/
theorem C98_digits_violated (env : Env) :
    ∃ t : Ty, Ends (fun m => tidyClang env true m (t.show (clang true))) "A<B2<3ul> >".toList ∧ Ends (fun m => tidyGcc env true m (t.show (gcc true))) "A<B2<3ul> >".toList ∧
      Ends (fun m => tidyMsvc (some "long long".toList) m (t.show msvc)) "A<B2<3> >".toList :=
  ⟨.mk (.user .struct_ "A".toList) (.cons (.mk (.user .struct_ "B2".toList) (.cons (.mk (.integer false "3".toList "ul".toList) .nil) .nil)) .nil),
    ends_of (tidyClang_step env true _) 30 rfl, ends_of (tidyGcc_step env true _) 30 rfl, ends_of (tidyMsvc_step _ _) 30 rfl⟩

/-- **C98 (violated)** Of three enumerators one may stay. -/
theorem C98_enumerators_violated (env : Env) :
    ∃ t : Ty, t.show (clang true) = "X<(ns::colour)1, (EE)2, (E)3>".toList ∧ Ends (fun m => tidyClang env true m (t.show (clang true))) "X<1, 2, (E)3>".toList ∧
      Ends (fun m => tidyMsvc (some "long long".toList) m (t.show msvc)) "X<1, 2, 3>".toList :=
  ⟨.mk (.user .struct_ "X".toList) (.cons (.mk (.enumerator "ns::colour".toList "1".toList) .nil) (.cons (.mk (.enumerator "EE".toList "2".toList) .nil)
      (.cons (.mk (.enumerator "E".toList "3".toList) .nil) .nil))),
    rfl, ends_of (tidyClang_step env true _) 60 (clang_parts (s₁ := "X<(ns::colour)1, (EE)2, (E)3>".toList) (s₂ := "X<(ns::colour)1, (EE)2, (E)3>".toList)
      (s₃ := "X<(ns::colour)1, (EE)2, (E)3>".toList) (s₄ := "X<(ns::colour)1, (EE)2, (E)3>".toList) (s₅ := "X<(ns::colour)1, (EE)2, (E)3>".toList) (by decide +kernel) (by decide +kernel)
      (by decide +kernel) (by decide +kernel) (by decide +kernel) (by decide +kernel)), ends_of (tidyMsvc_step _ _) 30 rfl⟩

/-- **C98 (violated)** A name is changed if `long` is a part of it. -/
theorem C98_long_violated (env : Env) :
    ∃ t : Ty, t.show (clang true) = "Belongs".toList ∧ Ends (fun m => tidyClang env true m (t.show (clang true))) "Belong longs".toList ∧
      Ends (fun m => tidyMsvc (some "long long".toList) m (t.show msvc)) "Belongs".toList :=
  ⟨.mk (.user .struct_ "Belongs".toList) .nil, rfl, ends_of (tidyClang_step env true _) 20 rfl, ends_of (tidyMsvc_step _ _) 20 rfl⟩

/-- **C98 (violated)** The extent of a span is made independent of the compiler only once. -/
theorem C98_spans_violated (env : Env) :
    ∃ t : Ty, Ends (fun m => tidyClang env true m (t.show (clang true))) "std::pair<std::span<int, -1>, std::span<int, 18446744073709551615> >".toList :=
  let span : Ty := .mk (.std .class_ false "span".toList) (.cons (.mk (.fundamental "int".toList) .nil) (.cons (.mk (.integer false "18446744073709551615".toList "ul".toList) .nil) .nil))
  ⟨.mk (.std .struct_ false "pair".toList) (.cons span (.cons span .nil)), ends_of (tidyClang_step env true _) 100 (clang_parts
    (s₁ := "std::pair<std::span<int, 18446744073709551615ul>, std::span<int, 18446744073709551615ul> >".toList) (s₂ := "std::pair<std::span<int, 18446744073709551615ul>, std::span<int, 18446744073709551615ul> >".toList)
    (s₃ := "std::pair<std::span<int, 18446744073709551615ul>, std::span<int, 18446744073709551615ul> >".toList) (s₄ := "std::pair<std::span<int, 18446744073709551615>, std::span<int, 18446744073709551615> >".toList)
    (s₅ := "std::pair<std::span<int, -1>, std::span<int, 18446744073709551615> >".toList) (by decide +kernel) (by decide +kernel) (by decide +kernel) (by decide +kernel) (by decide +kernel) (by decide +kernel))⟩

/-- **C98 (violated)** Enumerators with a negative value keep the name of the enumeration. -/
theorem C98_negative_violated (env : Env) : Ends (fun m => tidyClang env true m "X<(E)-1>".toList) "X<(E)-1>".toList ∧ Ends (fun m => tidyMsvc (some "long long".toList) m "struct X<-1>".toList) "X<-1>".toList :=
  ⟨ends_of (tidyClang_step env true _) 20 rfl, ends_of (tidyMsvc_step _ _) 20 rfl⟩

/-- **C98 (part)** The extent of a span is replaced by `-1` exactly if it is the largest number of 64 bits, whatever the type of the elements, and whatever else follows.  What is missing: types of
elements the names of which contain commas or brackets, and further spans, see `C98_spans_violated`. -/
theorem C98_span_partial (type extent rest : Str) (ht : ',' ∉ type ∧ '>' ∉ type) (he : '>' ∉ extent) (hn : extent ≠ []) :
    Verif.TidyName.processSpans ("std::span<".toList ++ type ++ ", ".toList ++ extent ++ '>' :: rest) =
      .ok ("std::span<".toList ++ type ++ ", ".toList ++ (if (∀ c ∈ extent, c.isDigit = true) ∧ Nat.ofDigitChars 10 extent 0 = 18446744073709551615 then "-1".toList else extent) ++ '>' :: rest) := by
  have hlen : 0 < extent.length := List.length_pos_iff.2 hn
  have h1 : Verif.Text.findSandwiched ("std::span<".toList ++ type ++ ", ".toList ++ extent ++ '>' :: rest) "::span<".toList ['>'] 0 = (some 10, some (12 + type.length + extent.length)) := by
    have e1 : find ("std::span<".toList ++ type ++ ", ".toList ++ extent ++ '>' :: rest) "::span<".toList 0 = some 3 := by
      simp [find, search, List.isPrefixOf]
    have e2 : find ("std::span<".toList ++ type ++ ", ".toList ++ extent ++ '>' :: rest) ['>'] 10 = some (12 + type.length + extent.length) := by
      rw [find_char]
      refine ⟨"std::span<".toList ++ type ++ ", ".toList ++ extent, rest, rfl, by simp; omega, by omega, ?_⟩
      simp [ht.2, he]
    simp only [findSandwiched, e1]
    exact congrArg (Prod.mk (some 10)) e2
  have h2 : find ("std::span<".toList ++ type ++ ", ".toList ++ extent ++ '>' :: rest) [','] 10 = some (10 + type.length) := by
    rw [find_char]
    refine ⟨"std::span<".toList ++ type, ' ' :: (extent ++ '>' :: rest), by simp, by simp; omega, by omega, ?_⟩
    simp [ht.1]
  have h3 : Verif.TidyName.charAt ("std::span<".toList ++ type ++ ", ".toList ++ extent ++ '>' :: rest) (10 + type.length + 1) = ' ' := by
    have : ("std::span<".toList ++ type ++ ", ".toList ++ extent ++ '>' :: rest) = ("std::span<".toList ++ type ++ [',']) ++ ' ' :: (extent ++ '>' :: rest) := by simp
    rw [this, Verif.TidyName.charAt, List.getElem?_append_right (by simp; omega)]
    simp
    rw [show 10 + type.length - (type.length + 10) = 0 by omega]; rfl
  have hd : (("std::span<".toList ++ type ++ ", ".toList) ++ (extent ++ '>' :: rest)).drop (10 + type.length + 2) = extent ++ '>' :: rest := by
    rw [List.drop_append_of_le_length (by simp; omega), List.drop_of_length_le (by simp; omega)]; rfl
  have hd2 : (("std::span<".toList ++ type ++ ", ".toList) ++ (extent ++ '>' :: rest)).take (10 + type.length + 2) = "std::span<".toList ++ type ++ ", ".toList := by
    rw [List.take_append_of_le_length (by simp; omega), List.take_of_length_le (by simp; omega)]
  have hassoc : "std::span<".toList ++ type ++ ", ".toList ++ extent ++ '>' :: rest = ("std::span<".toList ++ type ++ ", ".toList) ++ (extent ++ '>' :: rest) := by simp
  have hm : (Verif.TidyName.isMax extent = true) ↔ ((∀ c ∈ extent, c.isDigit = true) ∧ Nat.ofDigitChars 10 extent 0 = 18446744073709551615) := by
    simp [Verif.TidyName.isMax, hn, List.all_eq_true]
  unfold Verif.TidyName.processSpans
  simp only [h1, h2, h3]
  rw [if_neg (by simp; omega), if_pos (by omega)]
  simp only [if_true]
  rw [hassoc, hd]
  rw [show 12 + type.length + extent.length - (10 + type.length + 2) = extent.length by omega, List.take_left]
  by_cases hmax : Verif.TidyName.isMax extent = true
  · rw [if_pos hmax, if_pos (hm.1 hmax)]
    unfold splice
    rw [hd2, ← List.drop_drop, hd, List.drop_left]
  · rw [if_neg hmax, if_neg fun h => hmax (hm.2 h)]
    simp

example : Nat.ofDigitChars 10 "18446744073709551615".toList 0 = 18446744073709551615 := by decide +kernel

/-- **C98 (part)** Floating point numbers as Clang and GCC write them become decimal fractions, the suffix being removed, and iterators of arrays as MSVC writes them become pointers.  What is missing: this is said of
some names only; the functions of the standard library are as required for these. -/
theorem C98_special_partial :
    Ends (fun m => tidyClang ⟨fun _ => none, fun _ => [], fun _ => [], fun s => if s = "0x1p+0f>".toList then (6, "1.000000".toList) else (0, [])⟩ true m "A<0x1p+0f>".toList) "A<1.000000>".toList ∧
    Ends (fun m => tidyGcc ⟨fun s => if s = "3f800000".toList then some 7 else none, fun n => if n = 7 then "1.000000".toList else [], fun _ => [], fun _ => (0, [])⟩ true m "A<(float)[3f800000], 2u>".toList)
      "A<1.000000, 2>".toList ∧
    Ends (fun m => tidyGcc ⟨fun s => if s = "3ff0000000000000".toList then some 8 else none, fun _ => [], fun n => if n = 8 then "1.000000".toList else [], fun _ => (0, [])⟩ true m "A<(double)[3ff0000000000000]>".toList)
      "A<1.000000>".toList ∧
    Ends (fun m => tidyMsvc (some "long long".toList) m "class A<class std::_Array_const_iterator<int,1>,int>".toList) "A<int const*, int>".toList ∧
    Ends (fun m => tidyMsvc (some "long long".toList) m "class A<class std::_Array_const_iterator<int,1> >".toList) "A<int const*>".toList ∧
    Ends (fun m => tidyMsvc (some "long long".toList) m "class A<class std::_Array_const_iterator<int,1>,class std::_Array_const_iterator<char,1> >".toList) "A<int const*, char const*>".toList :=
  ⟨ends_of (tidyClang_step _ true _) 60 (by decide +kernel), ends_of (tidyGcc_step _ true _) 60 (by decide +kernel), ends_of (tidyGcc_step _ true _) 60 (by decide +kernel), ends_of (tidyMsvc_step _ _) 100 (by decide +kernel), ends_of (tidyMsvc_step _ _) 100 (by decide +kernel),
    ends_of (tidyMsvc_step _ _) 100 (by decide +kernel)⟩

end

end Verif.Props
