import Verif.Lemmas.TestFilesFrame
set_option linter.unusedSimpArgs false
set_option linter.unusedVariables false

/-
Lemmas about the creation of the files of a test: what there is if it has succeeded.
-/
namespace Verif.TestFiles
open Text FileEditors Materials ProjectCreator TestCreator Spec.TestFiles

variable {env : Env} {P : Project} {t : Test}

theorem edited_append (q : Path) (a b : List (Path × (Str → Res Str))) (c : Str) : edited q (a ++ b) c = (edited q a c).bind (edited q b) := by
  induction a generalizing c with
  | nil => rfl
  | cons e a ih =>
    rw [List.cons_append, edited, edited]
    split
    · cases e.2 c with
      | ok t => exact ih t
      | throws => rfl
      | ub => rfl
    · exact ih c

theorem edited_none {q : Path} {es : List (Path × (Str → Res Str))} (h : ∀ e ∈ es, e.1 ≠ q) (c : Str) : edited q es c = .ok c := by
  induction es generalizing c with
  | nil => rfl
  | cons e es ih =>
    rw [edited, if_neg (h e (List.mem_cons_self ..))]
    exact ih (fun e' he => h e' (List.mem_cons_of_mem _ he)) c

/-- The files at the path have been edited. -/
def EditsAt (q : Path) (es : List (Path × (Str → Res Str))) (fs fs' : Disk) : Prop :=
  ∀ c, get fs q = some (.file c) → ∃ c', edited q es c = .ok c' ∧ get fs' q = some (.file c')

theorem EditsAt.trans {q : Path} {a b : List (Path × (Str → Res Str))} {x y z : Disk} (h1 : EditsAt q a x y) (h2 : EditsAt q b y z) : EditsAt q (a ++ b) x z := by
  intro c hc
  obtain ⟨c1, e1, g1⟩ := h1 c hc
  obtain ⟨c2, e2, g2⟩ := h2 c1 g1
  exact ⟨c2, by rw [edited_append, e1]; exact e2, g2⟩

theorem EditsAt.same {q : Path} {x y : Disk} (h : ∀ c, get x q = some (.file c) → get y q = some (.file c)) : EditsAt q [] x y :=
  fun c hc => ⟨c, rfl, h c hc⟩

/-- Edits, one after the other. -/
def perform (es : List (Path × (Str → Res Str))) : St → Ending St := each (fun e => modify e.1 e.2) es

theorem perform_ok {es : List (Path × (Str → Res Str))} {s s' : St} (h : perform es s = .ok s') (q : Path) :
    EditsAt q es s.fs s'.fs ∧ ((∀ e ∈ es, e.1 ≠ q) → get s'.fs q = get s.fs q) := by
  induction es generalizing s with
  | nil => cases h; exact ⟨.same fun c hc => hc, fun _ => rfl⟩
  | cons e es ih =>
    obtain ⟨s1, h1, h2⟩ := ending_ok h
    obtain ⟨i1, i2⟩ := ih h2
    obtain ⟨c, u, g1, g2, g3⟩ := modify_ok h1
    refine ⟨fun d hd => ?_, fun hn => ?_⟩
    · rw [edited]
      split
      · next he =>
        rw [← he, g1] at hd
        cases hd
        rw [g2]
        exact i1 u (by rw [g3, he, if_pos rfl])
      · next he => exact i1 d (by rw [g3, if_neg (Ne.symm he)]; exact hd)
    · rw [i2 fun e' he' => hn e' (List.mem_cons_of_mem _ he'), g3, if_neg (Ne.symm (hn e (List.mem_cons_self ..)))]

theorem each_map {α β : Type} (f : β → St → Ending St) (g : α → β) (l : List α) (s : St) : each (fun x => f (g x)) l s = each f (l.map g) s := by
  induction l generalizing s with
  | nil => rfl
  | cons x l ih => rw [List.map_cons, each, each]; congr 1; funext s; exact ih s

theorem directories_ok {p : Path} {s s' : St} (h : change (createDirectories p) s = .ok s') {q : Path} (hq : get s.fs q ≠ none ∨ ¬ q <+: p) : get s'.fs q = get s.fs q := by
  have := Safe.directories (A := fun q => q <+: p) (E := fun _ => False) (p := p) (fun _ h => h) s s' (.inl h) q
  rcases Classical.em (get s'.fs q = get s.fs q) with he | he
  · exact he
  · rcases this he with h | ⟨h1, h2⟩
    · exact h.2.elim
    · rcases hq with hq | hq
      · exact absurd h1 hq
      · exact absurd h2 hq

theorem fill_ok {src out : Path} {s s' : St} (h : fillFile P t src out s = .ok s') :
    ∃ c text, get s.fs out = some (.file c) ∧ Content (t.text (includedAs P src)) c text ∧ ∀ q, get s'.fs q = if q = out then some (.file text) else get s.fs q := by
  unfold fillFile at h
  split at h
  · next c hc =>
    split at h
    · next he =>
      cases h
      refine ⟨c, [], hc, by simp [Content, he], fun q => ?_⟩
      by_cases hq : q = out
      · rw [hq, if_pos rfl, hc, he]
      · rw [if_neg hq]
    · next he =>
      split at h
      · next text ht => exact ⟨c, text, hc, by simp [Content, he, ht], write_ok h⟩
      · cases h
      · cases h
  · cases h

theorem extension_hpp {camel x : Str} (hx : x ≠ []) : extension (String.ofList (camel ++ (x ++ ".hpp".toList))) = ".hpp".toList := by
  rw [extension, String.toList_ofList, splitExtension_of (a := camel ++ x) (x := ".hpp".toList)]
  exact ⟨by simp, .inr ⟨by simp [hx], by
    intro h
    have := congrArg (List.getLast?) h
    simp at this, "hpp".toList, by decide, by rfl⟩⟩

theorem extension_cpp {camel x : Str} (hx : x ≠ []) : extension (String.ofList (camel ++ (x ++ ".cpp".toList))) = ".cpp".toList := by
  rw [extension, String.toList_ofList, splitExtension_of (a := camel ++ x) (x := ".cpp".toList)]
  exact ⟨by simp, .inr ⟨by simp [hx], by
    intro h
    have := congrArg (List.getLast?) h
    simp at this, "cpp".toList, by decide, by rfl⟩⟩

theorem not_hpp (x : Str) : ¬ ".hpp".toList <:+ x ++ ".cpp".toList := by
  rintro ⟨y, hy⟩
  have := List.append_inj_right' hy rfl
  exact absurd this (by decide)

theorem fromTests_below (d : List String) (stub : Str) : fromTests P (Spec.TestFiles.file P t d stub) = slashes (d ++ [String.ofList (t.camel ++ stub)]) := by
  rw [fromTests, Spec.TestFiles.file, List.append_assoc, ProjectPaths.relative_append, if_neg (by simp)]; rfl

theorem register_eq {d : List String} {stub : Str} (hs : ∃ x, x ≠ [] ∧ (stub = x ++ ".hpp".toList ∨ stub = x ++ ".cpp".toList)) (s : St) :
    registerFile env P (Spec.TestFiles.file P t d stub) s = perform (fileEdits env.sort P t d stub) s := by
  have hl : (Spec.TestFiles.file P t d stub).getLast? = some (String.ofList (t.camel ++ stub)) := by simp [Spec.TestFiles.file]
  unfold registerFile fileEdits
  rw [hl]
  simp only [fromTests_below]
  obtain ⟨x, hx, rfl | rfl⟩ := hs
  · rw [if_pos (extension_hpp hx), if_pos (List.suffix_append ..)]
    change (if search _ ('/' :: slashes _) = none then _ else _) = _
    split
    · rw [perform, each]
      cases modify P.includes (addInclude env.sort (slashes (d ++ [String.ofList (t.camel ++ (x ++ ".hpp".toList))]))) s <;> rfl
    · rfl
  · have he := extension_cpp (camel := t.camel) hx
    rw [if_neg (by rw [he]; decide), if_pos he, if_neg (not_hpp x), if_pos (List.suffix_append ..)]
    exact each_map (fun e : Path × (Str → Res Str) => modify e.1 e.2) (fun m : Main => (m.cmake, _)) P.mains s

theorem fileEdits_edited {d : List String} {stub : Str} {e : Path × (Str → Res Str)} {sort : (Str → Str → Bool) → List Str → List Str} (h : e ∈ fileEdits sort P t d stub) : Edited P e.1 := by
  unfold fileEdits at h
  dsimp only at h
  split at h
  · split at h
    · rw [List.mem_singleton] at h; subst h; exact .inl rfl
    · cases h
  · split at h
    · obtain ⟨m, hm, rfl⟩ := List.mem_map.1 h
      exact (edited_mains hm).2
    · cases h

theorem createFile_ok {src : Path} {d : List String} (hb : Below P src d) {stub : Str} (hs : ∃ x, x ≠ [] ∧ (stub = x ++ ".hpp".toList ∨ stub = x ++ ".cpp".toList)) {s s' : St}
    (ho : ¬ Edited P (Spec.TestFiles.file P t d stub)) (h : createFile env P t src stub s = .ok s') :
    (get s.fs (Spec.TestFiles.file P t d stub) ≠ none ∧ s' = s) ∨
    (get s.fs (Spec.TestFiles.file P t d stub) = none ∧
      (∃ c text, get s.fs (templateFile P t stub) = some (.file c) ∧ Content (t.text (includedAs P src)) c text ∧ get s'.fs (Spec.TestFiles.file P t d stub) = some (.file text)) ∧
      ∀ q, q ≠ Spec.TestFiles.file P t d stub → EditsAt q (fileEdits env.sort P t d stub) s.fs s'.fs ∧ (¬ Edited P q → get s'.fs q = get s.fs q)) := by
  unfold createFile at h
  rw [outputFile_below hb] at h
  split at h
  · next he => cases h; exact .inl ⟨exists'_iff.1 he, rfl⟩
  · obtain ⟨s1, h1, h2⟩ := ending_ok h
    obtain ⟨s2, h2, h3⟩ := ending_ok h2
    obtain ⟨c, c1, c2, c3⟩ := copyFile_ok (change_ok h1).1
    obtain ⟨c', text, f1, f2, f3⟩ := fill_ok h2
    rw [c3, if_pos rfl] at f1
    cases f1
    rw [register_eq hs] at h3
    refine .inr ⟨c2, ⟨c, text, c1, f2, ?_⟩, fun q hq => ?_⟩
    · rw [(perform_ok h3 (Spec.TestFiles.file P t d stub)).2 fun e he heq => ho (heq ▸ fileEdits_edited he), f3, if_pos rfl]
    · have hg : get s2.fs q = get s.fs q := by rw [f3, if_neg hq, c3, if_neg hq]
      have := perform_ok h3 q
      refine ⟨fun c hc => this.1 c (hg ▸ hc), fun hne => ?_⟩
      rw [this.2 fun e he heq => hne (heq ▸ fileEdits_edited he), hg]

theorem file_inj {d : List String} {a b : Str} (h : Spec.TestFiles.file P t d a = Spec.TestFiles.file P t d b) : a = b := by
  have := List.append_cancel_left h
  simp only [List.cons.injEq, and_true] at this
  have := congrArg String.toList this
  simpa using this

theorem template_ne {d : List String} (h : ¬ P.tests <+: P.testTemplates) (a b : Str) : templateFile P t a ≠ Spec.TestFiles.file P t d b := by
  intro he
  refine h ⟨d, ?_⟩
  have := congrArg List.dropLast he
  rw [templateFile, Spec.TestFiles.file, List.dropLast_concat, List.dropLast_concat] at this
  exact this.symm

theorem createEach_ok {src : Path} {d : List String} (hb : Below P src d) {stubs : List Str} (hn : stubs.Nodup)
    (hs : ∀ stub ∈ stubs, ∃ x, x ≠ [] ∧ (stub = x ++ ".hpp".toList ∨ stub = x ++ ".cpp".toList))
    (hsep : Separate P t) {s s' : St} (h : each (createFile env P t src) stubs s = .ok s') :
    (∀ stub ∈ stubs, get s.fs (Spec.TestFiles.file P t d stub) = none →
      ∃ c text, get s.fs (templateFile P t stub) = some (.file c) ∧ Content (t.text (includedAs P src)) c text ∧ get s'.fs (Spec.TestFiles.file P t d stub) = some (.file text)) ∧
    ∀ q, ((∀ stub ∈ stubs, q = Spec.TestFiles.file P t d stub → get s.fs q ≠ none) →
        EditsAt q ((stubs.filter fun stub => get s.fs (Spec.TestFiles.file P t d stub) = none).flatMap (fileEdits env.sort P t d)) s.fs s'.fs ∧ (¬ Edited P q → get s'.fs q = get s.fs q)) := by
  have hout : ∀ stub, ¬ Edited P (Spec.TestFiles.file P t d stub) := fun stub he =>
    (hsep.edited _ he).1 (by unfold Spec.TestFiles.file; rw [List.append_assoc]; exact List.prefix_append ..)
  have htem : ∀ stub, ¬ Edited P (templateFile P t stub) := fun stub he => (hsep.edited _ he).2.1 (List.prefix_append ..)
  induction stubs generalizing s with
  | nil => cases h; exact ⟨by simp, fun q _ => ⟨.same fun c hc => hc, fun _ => rfl⟩⟩
  | cons stub stubs ih =>
    obtain ⟨s1, h1, h2⟩ := ending_ok h
    rw [List.nodup_cons] at hn
    obtain ⟨i1, i2⟩ := ih hn.2 (fun x hx => hs x (List.mem_cons_of_mem _ hx)) h2
    rcases createFile_ok hb (hs stub (List.mem_cons_self ..)) (hout stub) h1 with ⟨e1, rfl⟩ | ⟨e1, e2, e3⟩
    · refine ⟨fun x hx hnone => ?_, fun q hq => ?_⟩
      · rcases List.mem_cons.1 hx with rfl | hx
        · exact absurd hnone e1
        · exact i1 x hx hnone
      · rw [List.filter_cons, if_neg (by simpa using e1)]
        exact i2 q fun x hx => hq x (List.mem_cons_of_mem _ hx)
    · have hkeep : ∀ x, x ≠ stub → get s1.fs (Spec.TestFiles.file P t d x) = get s.fs (Spec.TestFiles.file P t d x) := fun x hx =>
        (e3 _ fun he => hx (file_inj he)).2 (hout x)
      have hne : ∀ x ∈ stubs, x ≠ stub := fun x hx he => hn.1 (he ▸ hx)
      have hT : ∀ x, get s1.fs (templateFile P t x) = get s.fs (templateFile P t x) := fun x => (e3 _ (template_ne hsep.templates x stub)).2 (htem x)
      refine ⟨fun x hx hnone => ?_, fun q hq => ?_⟩
      · rcases List.mem_cons.1 hx with rfl | hx
        · obtain ⟨c, text, g1, g2, g3⟩ := e2
          refine ⟨c, text, g1, g2, ?_⟩
          rw [((i2 _) fun y hy heq => by rw [g3]; simp).2 (hout x), g3]
        · obtain ⟨c, text, g1, g2, g3⟩ := i1 x hx (by rw [hkeep x (hne x hx)]; exact hnone)
          exact ⟨c, text, by rw [← hT]; exact g1, g2, g3⟩
      · have hq0 : q ≠ Spec.TestFiles.file P t d stub := fun he => hq stub (List.mem_cons_self ..) he (he ▸ e1)
        have hf : (stubs.filter fun x => decide (get s1.fs (Spec.TestFiles.file P t d x) = none)) = stubs.filter fun x => decide (get s.fs (Spec.TestFiles.file P t d x) = none) :=
          List.filter_congr fun x hx => by rw [hkeep x (hne x hx)]
        obtain ⟨j1, j2⟩ := e3 q hq0
        have hqs : ∀ x ∈ stubs, q = Spec.TestFiles.file P t d x → get s1.fs q ≠ none := fun x hx he => by
          rw [he, hkeep x (hne x hx), ← he]; exact hq x (List.mem_cons_of_mem _ hx) he
        obtain ⟨k1, k2⟩ := i2 q hqs
        rw [hf] at k1
        rw [List.filter_cons, if_pos (by simpa using e1), List.flatMap_cons]
        exact ⟨j1.trans k1, fun hq => (k2 hq).trans (j2 hq)⟩

/-- The edits which are made because of the test. -/
def testEdits (sort : (Str → Str → Bool) → List Str → List Str) (P : Project) (t : Test) (d : List String) (fs : Disk) : List (Path × (Str → Res Str)) :=
  (t.stubs.filter fun stub => get fs (Spec.TestFiles.file P t d stub) = none).flatMap (fileEdits sort P t d) ++ suiteEdits P t

theorem createFiles_ok {src : Path} {d : List String} (hb : Below P src d) (hs : Stubs t) (hsep : Separate P t) {s s' : St} (h : createFiles env P t src s = .ok s') :
    (∀ stub ∈ t.stubs, get s.fs (Spec.TestFiles.file P t d stub) = none →
      ∃ c text, get s.fs (templateFile P t stub) = some (.file c) ∧ Content (t.text (includedAs P src)) c text ∧ get s'.fs (Spec.TestFiles.file P t d stub) = some (.file text)) ∧
    ∀ q c, get s.fs q = some (.file c) → ∃ c', edited q (testEdits env.sort P t d s.fs) c = .ok c' ∧ get s'.fs q = some (.file c') := by
  obtain ⟨s1, h1, h2⟩ := ending_ok h
  obtain ⟨s2, h2, h3⟩ := ending_ok h2
  rw [hostDir_below hb] at h1
  have hout : ∀ stub, ¬ Edited P (Spec.TestFiles.file P t d stub) := fun stub he =>
    (hsep.edited _ he).1 (by unfold Spec.TestFiles.file; rw [List.append_assoc]; exact List.prefix_append ..)
  have hfile : ∀ stub, get s1.fs (Spec.TestFiles.file P t d stub) = get s.fs (Spec.TestFiles.file P t d stub) := fun stub =>
    directories_ok h1 (.inr fun hp => by
      have := hp.length_le
      simp [Spec.TestFiles.file] at this
      omega)
  have hpart : ∀ q c, get s.fs q = some (.file c) → get s1.fs q = some (.file c) := fun q c hc => by rw [directories_ok h1 (.inl (by simp [hc])), hc]
  have hback : ∀ q c, get s1.fs q = some (.file c) → get s.fs q = some (.file c) := fun q c hc => by
    by_cases hp : get s.fs q ≠ none ∨ ¬ q <+: P.tests ++ d
    · rw [← directories_ok h1 hp]; exact hc
    · have := createDirectories_ok (change_ok h1).1 q
      rw [if_pos (Classical.not_not.1 fun hn => hp (.inr hn)), hc] at this
      cases this
  obtain ⟨i1, i2⟩ := createEach_ok hb hs.distinct hs.names hsep h2
  have hp : perform (suiteEdits P t) s2 = .ok s' := by
    rw [← h3]
    exact (each_map (fun e : Path × (Str → Res Str) => modify e.1 e.2) (fun m : Main => (m.file, addToSuite t.suite t.indent t.constructors)) P.mains s2).symm
  have hsuite : ∀ e ∈ suiteEdits P t, Edited P e.1 := fun e he => by
    obtain ⟨m, hm, rfl⟩ := List.mem_map.1 he
    exact (edited_mains hm).1
  have hf : (t.stubs.filter fun x => decide (get s1.fs (Spec.TestFiles.file P t d x) = none)) = t.stubs.filter fun x => decide (get s.fs (Spec.TestFiles.file P t d x) = none) :=
    List.filter_congr fun x _ => by rw [hfile x]
  refine ⟨fun stub hm hn => ?_, fun q c hc => ?_⟩
  · obtain ⟨c, text, g1, g2, g3⟩ := i1 stub hm (by rw [hfile]; exact hn)
    exact ⟨c, text, hback _ _ g1, g2, by rw [(perform_ok hp (Spec.TestFiles.file P t d stub)).2 fun e he heq => hout stub (heq ▸ hsuite e he), g3]⟩
  · obtain ⟨k1, -⟩ := i2 q fun stub _ he => by rw [hpart q c hc]; simp
    rw [hf] at k1
    exact (k1.trans (perform_ok hp q).1) c (hpart q c hc)

theorem cppPath_below {src : Path} {d : List String} {f : String} (h : src = P.sourceProject ++ d ++ [f]) : cppPath src = P.sourceProject ++ d ++ [replaceExtension ".cpp".toList f] := by
  subst h
  simp [cppPath]

theorem cppName_replace (f : String) : CppName f (replaceExtension ".cpp".toList f) := ⟨_, _, splitExtension_extension _, by simp [replaceExtension]⟩

theorem setCpp_ok {f : Str → Str → Res Str} {d : List String} {n : String} {s s' : St}
    (hed : ¬ Edited P (P.sourceProject ++ d ++ [replaceExtension ".cpp".toList n])) (h : setCpp env P f (P.sourceProject ++ d ++ [n]) s = .ok s') :
    get s.fs (P.sourceProject ++ d ++ [replaceExtension ".cpp".toList n]) = none ∧
    (∃ c text, get s.fs (P.sourceTemplates ++ ["MyCpp.cpp"]) = some (.file c) ∧ f (slashes (PathEquivalence.relative (P.sourceProject ++ d ++ [n]) P.sourceRepo)) c = .ok text ∧
      get s'.fs (P.sourceProject ++ d ++ [replaceExtension ".cpp".toList n]) = some (.file text)) ∧
    ∀ q, q ≠ P.sourceProject ++ d ++ [replaceExtension ".cpp".toList n] →
      EditsAt q (sourceEdits env.sort P (d ++ [replaceExtension ".cpp".toList n])) s.fs s'.fs ∧ (¬ Edited P q → get s'.fs q = get s.fs q) := by
  unfold setCpp at h
  rw [cppPath_below (P := P) rfl] at h
  obtain ⟨s1, h1, h2⟩ := ending_ok h
  obtain ⟨s2, h2, h3⟩ := ending_ok h2
  have hp : perform (sourceEdits env.sort P (d ++ [replaceExtension ".cpp".toList n])) s2 = .ok s' := by
    rw [← h3]
    have : pathText (PathEquivalence.relative (P.sourceProject ++ d ++ [replaceExtension ".cpp".toList n]) P.sourceProject) = slashes (d ++ [replaceExtension ".cpp".toList n]) := by
      rw [List.append_assoc, ProjectPaths.relative_append, if_neg (by simp)]; rfl
    rw [this]
    unfold perform sourceEdits
    rw [each]
    congr 1
    funext s
    rw [each]
    cases modify P.main.cmake (fun t => match replaceAll (t.length + 1) t "#!".toList [] with | some t => .ok t | none => .ub) s <;> rfl
  have hE : ∀ e ∈ sourceEdits env.sort P (d ++ [replaceExtension ".cpp".toList n]), Edited P e.1 := fun e he => by
    simp only [sourceEdits, List.mem_cons, List.not_mem_nil, or_false] at he
    rcases he with rfl | rfl
    · exact .inr (.inl rfl)
    · exact (edited_mains (P := P) (m := P.main) (List.mem_cons_self ..)).2
  obtain ⟨c, c1, c2, c3⟩ := copyFile_ok (change_ok h1).1
  obtain ⟨c', text, f1, f2, f3⟩ := modify_ok h2
  rw [c3, if_pos rfl] at f1
  cases f1
  refine ⟨c2, ⟨c, text, c1, f2, ?_⟩, fun q hq => ?_⟩
  · rw [(perform_ok hp (P.sourceProject ++ d ++ [replaceExtension ".cpp".toList n])).2 fun e he heq => hed (heq ▸ hE e he), f3, if_pos rfl]
  · have hg : get s2.fs q = get s.fs q := by rw [f3, if_neg hq, c3, if_neg hq]
    have := perform_ok hp q
    exact ⟨fun c hc => this.1 c (hg ▸ hc), fun hne => by rw [this.2 fun e he heq => hne (heq ▸ hE e he), hg]⟩

theorem parent_project (d : List String) (n : String) : parent (P.sourceProject ++ d ++ [n]) = P.sourceProject ++ d := parent_snoc _ _

/-- What there is in the new sources. -/
structure Generated (P : Project) (g : Generate) (src cpp : Path) (fs fs' : Disk) : Prop where
  header : get fs src = none ∧ ∃ c text, get fs (P.sourceTemplates ++ [g.template]) = some (.file c) ∧ g.headerText c = .ok text ∧ get fs' src = some (.file text)
  source : ∀ f, g.cppText = some f → src ≠ cpp ∧ get fs cpp = none ∧ ∃ c text, get fs (P.sourceTemplates ++ ["MyCpp.cpp"]) = some (.file c) ∧
    f (slashes (PathEquivalence.relative src P.sourceRepo)) c = .ok text ∧ get fs' cpp = some (.file text)

theorem generate_ok {g : Generate} {d : List String} {n : String} {s s' : St}
    (hed : ∀ m, ¬ Edited P (P.sourceProject ++ d ++ [m]) ∧ ¬ P.sourceTemplates <+: P.sourceProject ++ d ++ [m])
    (h : generateSource env P g (P.sourceProject ++ d ++ [n]) s = .ok s') :
    Generated P g (P.sourceProject ++ d ++ [n]) (P.sourceProject ++ d ++ [replaceExtension ".cpp".toList n]) s.fs s'.fs ∧
    (∀ q c, get s.fs q = some (.file c) → EditsAt q (created env.sort P (d ++ [replaceExtension ".cpp".toList n]) (some g)) s.fs s'.fs) ∧
    ∀ q, ¬ Edited P q → q ≠ P.sourceProject ++ d ++ [n] → q ≠ P.sourceProject ++ d ++ [replaceExtension ".cpp".toList n] → ¬ q <+: P.sourceProject ++ d → get s'.fs q = get s.fs q := by
  unfold generateSource at h
  rw [parent_project] at h
  obtain ⟨s1, h1, h2⟩ := ending_ok h
  obtain ⟨s2, h2, h3⟩ := ending_ok h2
  obtain ⟨s3, h3, h4⟩ := ending_ok h3
  have hback : ∀ q c, get s1.fs q = some (.file c) → get s.fs q = some (.file c) := fun q c hc => by
    by_cases hp : get s.fs q ≠ none ∨ ¬ q <+: P.sourceProject ++ d
    · rw [← directories_ok h1 hp]; exact hc
    · have := createDirectories_ok (change_ok h1).1 q
      rw [if_pos (Classical.not_not.1 fun hn => hp (.inr hn)), hc] at this
      cases this
  have hlong : ∀ m, ¬ P.sourceProject ++ d ++ [m] <+: P.sourceProject ++ d := fun m hp => by
    have := hp.length_le
    simp at this
    omega
  obtain ⟨c, c1, c2, c3⟩ := copyFile_ok (change_ok h2).1
  rw [directories_ok h1 (.inr (hlong n))] at c2
  obtain ⟨c', text, f1, f2, f3⟩ := modify_ok h3
  rw [c3, if_pos rfl] at f1
  cases f1
  have hstep : ∀ q, q ≠ P.sourceProject ++ d ++ [n] → get s3.fs q = get s1.fs q := fun q hq => by rw [f3, if_neg hq, c3, if_neg hq]
  have hfile : ∀ q c, get s.fs q = some (.file c) → get s3.fs q = some (.file c) := fun q c hc => by
    have hq : q ≠ P.sourceProject ++ d ++ [n] := fun he => by
      rw [he, c2] at hc
      cases hc
    rw [hstep q hq, directories_ok h1 (.inl (by simp [hc])), hc]
  have htext : get s3.fs (P.sourceProject ++ d ++ [n]) = some (.file text) := by rw [f3, if_pos rfl]
  split at h4
  · next hg =>
    cases h4
    refine ⟨⟨⟨c2, c, text, hback _ _ c1, f2, htext⟩, fun f hf => by rw [hg] at hf; cases hf⟩, fun q c hc => ?_, fun q _ h1' _ h2' => ?_⟩
    · rw [created, hg]
      exact .same fun c hc => hfile q c hc
    · rw [hstep q h1', directories_ok h1 (.inr h2')]
  · next f hg =>
    obtain ⟨k1, ⟨u, text', k2, k3, k4⟩, k5⟩ := setCpp_ok (hed _).1 h4
    have hne : P.sourceProject ++ d ++ [n] ≠ P.sourceProject ++ d ++ [replaceExtension ".cpp".toList n] := fun he => by
      rw [← he, htext] at k1; cases k1
    have hT : P.sourceTemplates ++ ["MyCpp.cpp"] ≠ P.sourceProject ++ d ++ [n] := fun he => (hed n).2 (he ▸ List.prefix_append ..)
    rw [hstep _ hT] at k2
    refine ⟨⟨⟨c2, c, text, hback _ _ c1, f2, ?_⟩, fun f' hf' => ?_⟩, fun q c hc => ?_, fun q hq h1' h3' h2' => ?_⟩
    · rw [(k5 _ hne).2 (hed n).1, htext]
    · rw [hg] at hf'
      cases hf'
      refine ⟨hne, ?_, u, text', hback _ _ k2, k3, k4⟩
      rw [← directories_ok h1 (.inr (hlong _)), ← hstep _ (Ne.symm hne)]
      exact k1
    · have hq : q ≠ P.sourceProject ++ d ++ [replaceExtension ".cpp".toList n] := fun he => by
        have := hfile q c hc
        rw [he, k1] at this
        cases this
      rw [created, hg]
      intro c' hc'
      exact (k5 q hq).1 c' (hfile q c' hc')
    · rw [(k5 q h3').2 hq, hstep q h1', directories_ok h1 (.inr h2')]

theorem includedAs_repo {src : Path} {r : List String} (h : src = P.sourceRepo ++ r) (hr : r ≠ []) : includedAs P src = r := by
  rw [includedAs, h, ProjectPaths.relative_append, if_neg hr]

theorem testEdits_edited {sort : (Str → Str → Bool) → List Str → List Str} {d : List String} {fs : Disk} {e : Path × (Str → Res Str)} (h : e ∈ testEdits sort P t d fs) : Edited P e.1 := by
  unfold testEdits at h
  rcases List.mem_append.1 h with h | h
  · obtain ⟨x, _, hx⟩ := List.mem_flatMap.1 h
    exact fileEdits_edited hx
  · obtain ⟨m, hm, rfl⟩ := List.mem_map.1 h
    exact (edited_mains hm).1

theorem finalize_done (hw : Walks env.walk) (hs : Stubs t) (hsep : Separate P t) {s s' : St} (h : finalize env P t s = .ok s') :
    ∃ src g, Used P t s.fs src g ∧ ∀ d f r, src = P.sourceProject ++ d ++ [f] → (∀ x ∈ P.tests ++ d, x ≠ "." ∧ x ≠ "..") → src = P.sourceRepo ++ r → r ≠ [] →
      ∃ cpp, CppName f cpp ∧ Done env.sort P t src g d r cpp s.fs s'.fs := by
  unfold finalize at h
  split at h
  · cases h
  · split at h
    · next src hsrc =>
      refine ⟨src, none, .found (locate_some hw hsrc), fun d f r h1 h2 h3 h4 => ⟨_, cppName_replace f, ?_⟩⟩
      obtain ⟨k1, k2⟩ := createFiles_ok ⟨f, h1, h2⟩ hs hsep h
      rw [includedAs_repo h3 h4] at k1
      refine ⟨k1, fun q c hc => ?_, fun g' hg => (by cases hg), fun g' f hg => (by cases hg)⟩
      obtain ⟨c', e1, e2⟩ := k2 q c hc
      exact ⟨c', e2, by rw [List.append_assoc]; exact e1⟩
    · next hsrc =>
      split at h
      · cases h
      · next g hg =>
        split at h
        · next src hp =>
          refine ⟨src, some g, .created (locate_none hw hsrc) hg hp, fun d f r h1 h2 h3 h4 => ⟨_, cppName_replace f, ?_⟩⟩
          obtain ⟨s1, h, hf⟩ := ending_ok h
          obtain ⟨k1, k2⟩ := createFiles_ok ⟨f, h1, h2⟩ hs hsep hf
          have hgen := fun m => hsep.generated g src hg hp m
          rw [h1, List.dropLast_concat] at hgen
          rw [includedAs_repo h3 h4] at k1
          have hrel : PathEquivalence.relative src P.sourceRepo = r := includedAs_repo h3 h4
          subst h1
          obtain ⟨⟨⟨g0, tm, tx, g1, g2, g3⟩, gs⟩, j1, j2⟩ := generate_ok (fun m => ⟨(hgen m).1, (hgen m).2.2.2⟩) h
          have keep : ∀ q, ¬ Edited P q → (P.tests <+: q ∨ P.testTemplates <+: q) → get s1.fs q = get s.fs q := by
            intro q hq ht
            refine j2 q hq ?_ ?_ ?_
            · rintro rfl; rcases ht with ht | ht
              · exact (hgen f).2.1 ht
              · exact (hgen f).2.2.1 ht
            · rintro rfl; rcases ht with ht | ht
              · exact (hgen _).2.1 ht
              · exact (hgen _).2.2.1 ht
            · intro hpre
              have hpre := hpre.trans (List.prefix_append (P.sourceProject ++ d) [f])
              rcases ht with ht | ht
              · exact (hgen f).2.1 (ht.trans hpre)
              · exact (hgen f).2.2.1 (ht.trans hpre)
          have hout : ∀ stub, ¬ Edited P (Spec.TestFiles.file P t d stub) := fun stub he =>
            (hsep.edited _ he).1 (by unfold Spec.TestFiles.file; rw [List.append_assoc]; exact List.prefix_append ..)
          have hF : ∀ stub, get s1.fs (Spec.TestFiles.file P t d stub) = get s.fs (Spec.TestFiles.file P t d stub) := fun stub =>
            keep _ (hout stub) (.inl (by unfold Spec.TestFiles.file; rw [List.append_assoc]; exact List.prefix_append ..))
          have hT : ∀ stub, get s1.fs (templateFile P t stub) = get s.fs (templateFile P t stub) := fun stub =>
            keep _ (fun he => (hsep.edited _ he).2.1 (List.prefix_append ..)) (.inr (List.prefix_append ..))
          have hE : testEdits env.sort P t d s1.fs = testEdits env.sort P t d s.fs := by
            unfold testEdits
            rw [List.filter_congr fun x _ => by rw [hF x]]
          rw [hE] at k2
          have hstay : ∀ m c, get s1.fs (P.sourceProject ++ d ++ [m]) = some (.file c) → get s'.fs (P.sourceProject ++ d ++ [m]) = some (.file c) := by
            intro m c hc
            obtain ⟨c', e1, e2⟩ := k2 _ c hc
            rw [edited_none (q := P.sourceProject ++ d ++ [m]) fun e he heq => (hgen m).1 (heq ▸ testEdits_edited he)] at e1
            cases e1
            exact e2
          refine ⟨fun stub hm hn => ?_, fun q c hc => ?_, fun g' hg' => ?_, fun g' f' hg' hf' => ?_⟩
          · obtain ⟨c, text, e1, e2, e3⟩ := k1 stub hm (by rw [hF]; exact hn)
            exact ⟨c, text, by rw [hT] at e1; exact e1, e2, e3⟩
          · obtain ⟨c', e1, e2⟩ := (j1 q c hc).trans (k2 q) c hc
            exact ⟨c', e2, by rw [List.append_assoc]; exact e1⟩
          · cases hg'
            exact ⟨g0, tm, tx, g1, g2, hstay _ _ g3⟩
          · cases hg'
            obtain ⟨-, e1, c, text, e2, e3, e4⟩ := gs f' hf'
            rw [hrel] at e3
            exact ⟨e1, c, text, e2, e3, hstay _ _ e4⟩
        · cases h
        · cases h

end Verif.TestFiles
