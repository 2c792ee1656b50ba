import Verif.Model.TestFiles
/- C99: the texts of headers and of files of tests, for templates with the marks which occur in the templates in /repo/aux_files. -/
namespace Verif.Props

open Verif.TestFiles Verif.Text

/-- What is given for a project. -/
def briefRequest : Request :=
  { header := ⟨false, []⟩, forename := [], suite := [], surname := [], testType := "move_only".toList, diagnostics := false, owner := "Jo".toList, year := "2026".toList, indent := "  ".toList, project := "q".toList }

/-- The header which is generated for a class. -/
def briefHeader (q : Str) : Res Str :=
  (semantics briefRequest q [] (some ⟨false, ["D"]⟩)).bind fun t =>
    match t.generate with
    | some g => g.headerText "// Copyright A 2020. //\nnamespace\n?{\n\ttemplate<?>\n\tclass ?type;\n?}\n".toList
    | none => .throws

/-- A file of a test of semantics. -/
def briefSemantics (q : Str) (types : List Str) : Res Str :=
  (semantics briefRequest q types none).bind fun t =>
    t.text ["q", "B.hpp"] "// Copyright A 2020. //\n?Class.hpp\n?::testing ?forename_?surname ?_test ?Test ?Class\n\ttemplate<?> v<::?_class>(?args ?predictions)};".toList

/-- **C99** Headers which are generated: for a class template in a namespace, and for a class which is no template and is in no namespace. -/
theorem C99_sample_class : briefHeader "a::b<class T>".toList = .ok "// Copyright Jo 2026.//\nnamespace a\n{\n  template<class T>\n  class b;\n}\n".toList ∧
    briefHeader "b".toList = .ok "// Copyright Jo 2026.//\nclass b;\n".toList := by decide +kernel

/-- **C99** Files of tests of semantics: for a class template with an equivalent type, and for a class without one. -/
theorem C99_sample_semantics :
    briefSemantics "a::b<class T>".toList ["T".toList] =
      .ok "// Copyright Jo 2026.//\nq/B.hpp\nq::testing b_test move_only_test MoveOnlyTest B\n  template<class T>\n  v<a::b<T>>(const T& prediction prediction)};".toList ∧
    briefSemantics "b".toList [] = .ok "// Copyright Jo 2026.//\nq/B.hpp\nq::testing b_test move_only_test MoveOnlyTest B\n  ".toList := by decide +kernel

/-- **C99** The comparison with an equivalent type is removed up to the last `};`; if that is directly before it then nothing is, and if it is further before then everything that follows is lost. -/
theorem C99_sample_equivalence :
    eraseEquivalence "atemplate<?>b};c};d".toList = "ad".toList ∧ eraseEquivalence "a};template<?>b".toList = "a};template<?>b".toList ∧
      eraseEquivalence "a}; template<?>b".toList = "a}; ".toList ∧ eraseEquivalence "template<?>template<?>};".toList = "template<?>".toList ∧
      eraseEquivalence "template<?>".toList = "template<?>".toList ∧ eraseEquivalence "};".toList = "};".toList := by decide +kernel

end Verif.Props
