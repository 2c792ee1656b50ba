import Verif.Spec.ProjectCreator

/-
Specifications for the texts of new projects: forms with blanks, which are filled with names.
-/
namespace Verif.Spec.ProjectCreator
open Verif.Text Verif.ProjectCreator

/-- A blank for the name of a project, as it is or beginning with a small letter. -/
inductive Blank where
  | capital
  | small
  deriving DecidableEq

/-- A form: a text, and blanks with the text after each of them. -/
structure Form where
  start : Str
  rest : List (Blank × Str)

/-- What is put in a blank. -/
def Blank.filled (big little : Str) : Blank → Str
  | .capital => big
  | .small => little

/-- A form is filled. -/
def Form.filled (big little : Str) (f : Form) : Str := f.start ++ f.rest.flatMap fun e => e.1.filled big little ++ e.2

/-- What stands for blanks in templates. -/
def bigMark : Str := ['M', 'y', 'P', 'r', 'o', 'j', 'e', 'c', 't']
def littleMark : Str := ['m', 'y', 'P', 'r', 'o', 'j', 'e', 'c', 't']

/-- A character is not one of those of the marks. -/
def Clear (c : Char) : Prop := c ∉ bigMark ∧ c ∉ littleMark
instance (c : Char) : Decidable (Clear c) := inferInstanceAs (Decidable (_ ∧ _))

/-- The text before a blank does not contain a mark, and does not end with a character of a mark. -/
def Clean (s : Str) : Prop := (∃ c ∈ s.getLast?, Clear c) ∧ ¬ bigMark <:+: s ∧ ¬ littleMark <:+: s

/-- So does all of the text of a form, and the text after a blank does not begin with such a character, either. -/
def Form.Clean (f : Form) : Prop := ProjectCreator.Clean f.start ∧ ∀ e ∈ f.rest, (∃ c ∈ e.2.head?, Clear c) ∧ ProjectCreator.Clean e.2

/-- A text, given line by line. -/
def ofLines (l : List String) : Str := l.flatMap String.toList

/-- /repo/aux_files/ProjectTemplate/TestAll/CMakeLists.txt -/
def testAllForm : Form := ⟨ofLines ["cmake_minimum_required(VERSION 3.20)\n", "\n", "project("], [
    (.capital, ofLines ["Tests LANGUAGES CXX)\n", "\n", "set(Dependencies ${CMAKE_CURRENT_LIST_DIR}/../dependencies)\n", "set(BuildSystem ${Dependencies}/sequoia/build_system)\n", "set(TestDir ${CMAKE_CURRENT_LIST_DIR}/../Tests)\n", "set(SourceDir ${CMAKE_CURRENT_LIST_DIR}/../Source)\n", "\n", "include(${BuildSystem}/Utilities.cmake)\n", "\n", "sequoia_init()\n", "\n", "add_executable(TestAll TestAllMain.cpp)\n", "\n", "#!add_subdirectory(${SourceDir}/"]),
    (.small, " ".toList),
    (.capital, ofLines [")\n", "#!target_link_libraries(TestAll PUBLIC "]),
    (.capital, ofLines [")\n", "\n", "target_sources(TestAll PRIVATE)\n", "\n", "target_include_directories(TestAll PRIVATE ${SourceDir})\n", "target_include_directories(TestAll PRIVATE ${TestDir})\n", "\n", "add_subdirectory(${Dependencies}/sequoia/Source/sequoia sequoia)\n", "target_link_libraries(TestAll PRIVATE sequoia)\n", "\n", "sequoia_finalize_tests(TestAll ${TestDir} Tests)\n", "\n"])]⟩

/-- /repo/aux_files/ProjectTemplate/Source/projectTemplate/CMakeLists.txt -/
def sourceForm : Form := ⟨ofLines ["cmake_minimum_required(VERSION 3.20)\n", "\n", "set(BuildSystem ${CMAKE_CURRENT_LIST_DIR}/../../dependencies/sequoia/build_system)\n", "include(${BuildSystem}/Utilities.cmake)\n", "\n", "sequoia_init()\n", "\n", "set(SourceList)\n", "\n", "add_library("], [
    (.capital, ofLines [" STATIC ${SourceList})\n", "\n", "target_include_directories("]),
    (.capital, ofLines [" PUBLIC ${CMAKE_CURRENT_LIST_DIR}/../)\n", "\n", "sequoia_finalize_library("]),
    (.capital, ")\n".toList)]⟩

/-- Parts of /repo/aux_files/ProjectTemplate/TestAll/TestAllMain.cpp. -/
def main₀ : Str := ofLines ["////////////////////////////////////////////////////////////////////\n", "//"]
def mainTop : Str := ofLines ["                Copyright Oliver J. Rosten 2020.                "]
def main₁ : Str := ofLines ["//\n", "// Distributed under the GNU GENERAL PUBLIC LICENSE, Version 3.0. //\n", "//    (See accompanying file LICENSE.md or copy at                //\n", "//          https://www.gnu.org/licenses/gpl-3.0.en.html)         //\n", "////////////////////////////////////////////////////////////////////\n", "\n", "/*! \\file */\n", "\n", "#include \"sequoia/TestFramework/TestRunner.hpp\"\n", "\n", "#include <iostream>\n", "\n", "namespace "]
def main₂ : Str := ofLines ["::testing{};\n", "\n", "int main(int argc, char** argv)\n", "{\n", "\ttry\n", "\t{\n", "\t\tusing namespace "]
def main₃ : Str := ofLines ["::testing;\n", "\t\tusing namespace std::literals::chrono_literals;\n", "\n", "\t\tsequoia::testing::test_runner runner{argc, argv, \""]
def main₄ : Str := "\", \"".toList
def main₅ : Str := ofLines ["\"};\n", "\n", "\t\trunner.execute(sequoia::timer_resolution{1ms});\n", "\t}\n", "\tcatch(const std::exception& e)\n", "\t{\n", "\t\tstd::cout << e.what();\n", "\t}\n", "\tcatch(...)\n", "\t{\n", "\t\tstd::cout << \"Unrecognized error\\n\"; \n", "\t}\n", "\n", "\treturn 0;\n", "}\n", "\n"]

/-- /repo/aux_files/ProjectTemplate/TestAll/TestAllMain.cpp -/
def mainTemplate : Str := main₀ ++ mainTop ++ main₁ ++ littleMark ++ main₂ ++ littleMark ++ main₃ ++ "Oliver J. Rosten".toList ++ main₄ ++ ['\\', 't'] ++ main₅

/-- Each tab is replaced. -/
def untab (indent s : Str) : Str := s.flatMap fun c => if c = '\t' then indent else [c]

/-- The notice in the middle of a line of 64 characters, or more if it is longer than that. -/
def notice (owner year : Str) : Str :=
  let n := "Copyright ".toList ++ owner ++ " ".toList ++ year ++ ".".toList
  List.replicate ((64 - n.length) - (64 - n.length) / 2) ' ' ++ n ++ List.replicate ((64 - n.length) / 2) ' '

/-- What the main file of a new project should be. -/
def mainWanted (owner year indent name : Str) : Str :=
  main₀ ++ notice owner year ++ main₁ ++ uncapitalize name ++ untab indent main₂ ++ uncapitalize name ++ untab indent main₃ ++ owner ++ main₄ ++
    (indent.flatMap fun c => if c = '\t' then ['\\', 't'] else [c]) ++ untab indent main₅

end Verif.Spec.ProjectCreator
