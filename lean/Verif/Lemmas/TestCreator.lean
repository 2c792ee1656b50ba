import Verif.Lemmas.AddInclude
import Verif.Spec.TestCreator

/-
Lemmas about the creation of tests.
-/
set_option linter.unusedSimpArgs false
set_option linter.unusedVariables false

namespace Verif.TestCreator
open Text FileEditors Verif.Spec.Text Verif.Spec.TestCreator

/-! ### Positions -/

theorem lastWhere_none {p : Char → Bool} : ∀ {s : Str}, (∀ c ∈ s, p c = false) → lastWhere p s = none
  | [], _ => rfl
  | c :: t, h => by
    rw [lastWhere, lastWhere_none fun x hx => h x (by simp [hx])]
    simp [h c (by simp)]

theorem lastWhere_some {p : Char → Bool} {c : Char} {b : Str} (hc : p c = true) (hb : ∀ x ∈ b, p x = false) : ∀ a : Str, lastWhere p (a ++ c :: b) = some a.length
  | [] => by
    rw [List.nil_append, lastWhere, lastWhere_none hb]
    simp [hc]
  | x :: a => by
    rw [List.cons_append, lastWhere, lastWhere_some hc hb a]
    simp

theorem rsearch_char {c : Char} {b : Str} (hb : c ∉ b) (a : Str) : rsearch [c] (a ++ c :: b) = some a.length := by
  have : Last [c] a b := by
    intro a' b' he
    apply Classical.byContradiction
    intro hlt
    simp only [Nat.not_le] at hlt
    have h1 : (a ++ [c] ++ b)[a'.length]? = some c := by rw [← he]; simp
    rw [List.getElem?_append_right (by simp; omega)] at h1
    exact hb (List.mem_of_getElem? h1)
  simpa using rsearch_eq this

theorem rsearch_char_none {c : Char} {s : Str} (h : c ∉ s) : rsearch [c] s = none := rsearch_none.2 fun hi => h (hi.subset (by simp))

theorem first_word (m : Nat) {w : Str} (h : ' ' ∉ w) : (rsearch [' '] (List.replicate m ' ' ++ w)).elim 0 (· + 1) = m := by
  cases m with
  | zero => simp [rsearch_char_none h]
  | succ m =>
    rw [List.replicate_succ', List.append_assoc, List.singleton_append, rsearch_char h]
    simp

/-! ### Parameters -/

theorem templateSpec_some {m n : Nat} {sp sym pad : Str} (hsp : Species sp) (hsym : Word sym) (hdot : '.' ∉ sym) (hpad : Padding pad) :
    templateSpec (List.replicate m ' ' ++ sp ++ List.replicate (n + 1) ' ' ++ sym ++ pad) = .ok ⟨sp, sym⟩ := by
  obtain ⟨hne, hsp1⟩ := hsym
  obtain ⟨sym', c, rfl⟩ : ∃ s' c, sym = s' ++ [c] := ⟨_, _, (List.dropLast_concat_getLast hne).symm⟩
  have hc1 : c ≠ ' ' := by rintro rfl; simp at hsp1
  have hc2 : c ≠ '.' := by rintro rfl; simp at hdot
  have hsym' : ' ' ∉ sym' := by intro h; exact hsp1 (by simp [h])
  have hsplast : ∃ sp' d, sp = sp' ++ [d] ∧ d ≠ ' ' := by
    rcases hsp with ⟨⟨h1, h2⟩, -⟩ | ⟨w, e, rfl, -, ⟨h1, h2⟩, -⟩
    · exact ⟨_, _, (List.dropLast_concat_getLast h1).symm, fun h => h2 (h ▸ List.getLast_mem h1)⟩
    · refine ⟨w ++ ' ' :: e.dropLast, e.getLast h1, ?_, fun h => h2 (h ▸ List.getLast_mem h1)⟩
      rw [List.append_assoc, List.cons_append, List.dropLast_concat_getLast h1]
  obtain ⟨sp', d, hspe, hd⟩ := hsplast
  generalize hT : List.replicate m ' ' ++ sp ++ List.replicate (n + 1) ' ' ++ (sym' ++ [c]) ++ pad = T
  have e1 : T = (List.replicate m ' ' ++ sp ++ List.replicate (n + 1) ' ' ++ sym') ++ c :: pad := by rw [← hT]; simp
  have h1 : lastWhere (fun c => c != ' ' && c != '.') T = some (List.replicate m ' ' ++ sp ++ List.replicate (n + 1) ' ' ++ sym').length := by
    rw [e1]
    refine lastWhere_some (by simp [hc1, hc2]) ?_ _
    intro x hx
    rcases hpad x hx with rfl | rfl <;> decide
  have h2 : rsearch [' '] (T.take (List.replicate m ' ' ++ sp ++ List.replicate (n + 1) ' ' ++ sym').length) = some (List.replicate m ' ' ++ sp ++ List.replicate n ' ').length := by
    rw [e1, List.take_left, List.replicate_succ', show List.replicate m ' ' ++ sp ++ (List.replicate n ' ' ++ [' ']) ++ sym' = (List.replicate m ' ' ++ sp ++ List.replicate n ' ') ++ ' ' :: sym' by simp, rsearch_char hsym']
  have h3 : (List.replicate m ' ' ++ sp ++ List.replicate (n + 1) ' ' ++ sym').length - (List.replicate m ' ' ++ sp ++ List.replicate n ' ').length = sym'.length + 1 := by
    simp; omega
  have h4 : lastWhere (fun c => c != ' ') (T.take ((List.replicate m ' ' ++ sp ++ List.replicate (n + 1) ' ' ++ sym').length + 1 - (sym'.length + 1))) = some (List.replicate m ' ' ++ sp').length := by
    have : (List.replicate m ' ' ++ sp ++ List.replicate (n + 1) ' ' ++ sym').length + 1 - (sym'.length + 1) = (List.replicate m ' ' ++ sp ++ List.replicate (n + 1) ' ').length := by simp; omega
    rw [this, e1, show (List.replicate m ' ' ++ sp ++ List.replicate (n + 1) ' ' ++ sym') ++ c :: pad = (List.replicate m ' ' ++ sp ++ List.replicate (n + 1) ' ') ++ (sym' ++ c :: pad) by simp, List.take_left, hspe,
      show List.replicate m ' ' ++ (sp' ++ [d]) ++ List.replicate (n + 1) ' ' = (List.replicate m ' ' ++ sp') ++ d :: List.replicate (n + 1) ' ' by simp]
    exact lastWhere_some (by simp [hd]) (by intro x hx; simp [(List.mem_replicate.1 hx).2]) _
  have h5 : (firstOfSpecies T (List.replicate m ' ' ++ sp').length).elim 0 (· + 1) = m := by
    have e2 : T = (List.replicate m ' ' ++ sp') ++ (d :: (List.replicate (n + 1) ' ' ++ (sym' ++ c :: pad))) := by rw [e1, hspe]; simp
    unfold firstOfSpecies
    rw [show T.take (List.replicate m ' ' ++ sp').length = List.replicate m ' ' ++ sp' by rw [e2, List.take_left]]
    rcases hsp with ⟨⟨g1, g2⟩, g3⟩ | ⟨w, e, rfl, ⟨g1, g2⟩, ⟨g3, g4⟩, g5⟩
    · have g2' : ' ' ∉ sp' := by intro h; exact g2 (by simp [hspe, h])
      have hfw := first_word m g2'
      cases hr : rsearch [' '] (List.replicate m ' ' ++ sp') with
      | none => rw [hr] at hfw; exact hfw
      | some pos =>
        rw [hr] at hfw
        simp only [Option.elim_some] at hfw
        dsimp only
        rw [if_neg]
        · exact hfw
        · rw [hfw, ← hT, List.append_assoc, List.append_assoc, List.append_assoc, List.getElem?_append_right (by simp)]
          cases sp with
          | nil => exact absurd rfl g1
          | cons x y => simpa using g3
    · obtain ⟨e', y, he⟩ : ∃ e' y, e = e' ++ [y] := ⟨_, _, (List.dropLast_concat_getLast g3).symm⟩
      have hsp'' : sp' = w ++ ' ' :: e' := by
        rw [he, show w ++ ' ' :: (e' ++ [y]) = (w ++ ' ' :: e') ++ [y] by simp] at hspe
        exact (List.append_inj' hspe rfl).1.symm
      have g4' : ' ' ∉ e' := by intro h; exact g4 (by simp [he, h])
      rw [hsp'', ← List.append_assoc, rsearch_char g4']
      dsimp only
      have e3 : T = (List.replicate m ' ' ++ w) ++ ' ' :: (e ++ (List.replicate (n + 1) ' ' ++ (sym' ++ c :: pad))) := by rw [← hT]; simp
      rw [if_pos]
      · rw [e3, List.take_left]
        exact first_word m g2
      · rw [e3, List.getElem?_append_right (by simp)]
        cases e with
        | nil => exact absurd rfl g3
        | cons x z => simpa using g5
  unfold templateSpec
  rw [h1]
  dsimp only
  rw [h2]
  dsimp only
  rw [h3, h4]
  dsimp only
  rw [h5]
  congr 2
  · rw [substr, ← hT, List.append_assoc, List.append_assoc, List.append_assoc, List.drop_left' (by simp)]
    rw [List.take_left']
    rw [hspe]; simp; omega
  · rw [substr, ← hT, List.replicate_succ', show List.replicate m ' ' ++ sp ++ (List.replicate n ' ' ++ [' ']) ++ (sym' ++ [c]) ++ pad = (List.replicate m ' ' ++ sp ++ List.replicate n ' ' ++ [' ']) ++ ((sym' ++ [c]) ++ pad) by simp,
      List.drop_left' (by simp; omega), List.take_left' (by simp)]

theorem templateSpec_param {s : Str} {d : TemplateSpec} (h : Param s d) : templateSpec s = .ok d := by
  cases h with
  | none h =>
    unfold templateSpec
    rw [lastWhere_none]
    intro c hc
    rcases h c hc with rfl | rfl <;> decide
  | some m n h1 h2 h3 h4 => exact templateSpec_some h1 h2 h3 h4

theorem params_ne {ss : List Str} {ds : List TemplateSpec} (h : Params ss ds) : ss ≠ [] ∧ ds ≠ [] := by cases h <;> simp

theorem find_comma {d l r : Str} {c : Char} (hl : c ∉ l) : find (d ++ (l ++ c :: r)) [c] d.length = some (d.length + l.length) := by
  rw [find_char]
  exact ⟨d ++ l, r, by simp, by simp, by omega, by simpa using hl⟩

theorem splitParams_spec {Z : Str} (hZ : ',' ∉ Z) : ∀ {ss : List Str} {ds : List TemplateSpec}, Params ss ds → ∀ (f : Nat) (A : Str), ss.length < f →
    splitParams (A ++ (commas ss ++ Z)) (A.length + (commas ss).length) f A.length = .ok ds := by
  intro ss ds h
  induction h with
  | @one s d hp hc =>
    intro f A hf
    cases f with
    | zero => simp at hf
    | succ f =>
      rw [splitParams, find_char_none.2 (by rw [List.drop_left]; simp [commas, hc, hZ])]
      dsimp only
      rw [if_pos (by omega), substr, List.drop_left, Nat.add_sub_cancel_left, List.take_left, commas, templateSpec_param hp]
      rfl
  | @cons s d ss ds hp hc h ih =>
    intro f A hf
    cases f with
    | zero => simp at hf
    | succ f =>
      have hcom : commas (s :: ss) = s ++ ',' :: commas ss := by
        cases ss with
        | nil => exact absurd rfl (params_ne h).1
        | cons => rfl
      have e1 : A ++ (commas (s :: ss) ++ Z) = A ++ (s ++ ',' :: (commas ss ++ Z)) := by rw [hcom]; simp
      have e2 : A ++ (commas (s :: ss) ++ Z) = (A ++ s ++ [',']) ++ (commas ss ++ Z) := by rw [hcom]; simp
      rw [splitParams]
      rw [show find (A ++ (commas (s :: ss) ++ Z)) [','] A.length = some (A.length + s.length) by rw [e1]; exact find_comma hc]
      dsimp only
      rw [show substr (A ++ (commas (s :: ss) ++ Z)) A.length (A.length + s.length - A.length) = s by
        rw [substr, e1, List.drop_left, Nat.add_sub_cancel_left, List.take_left], templateSpec_param hp]
      have := ih f (A ++ s ++ [',']) (by simp at hf; omega)
      rw [← e2] at this
      simp only [Res.bind]
      rw [show A.length + s.length + 1 = (A ++ s ++ [',']).length by simp; omega, show A.length + (commas (s :: ss)).length = (A ++ s ++ [',']).length + (commas ss).length by rw [hcom]; simp; omega, this]

theorem commas_length : ∀ ss : List Str, ss.length ≤ (commas ss).length + 1
  | [] => by simp
  | [s] => by simp
  | s :: t :: ss => by
    have := commas_length (t :: ss)
    simp [commas] at this ⊢
    omega

theorem templateData_spec {name rest : Str} {ss : List Str} {ds : List TemplateSpec} (h : Params ss ds) (hname : '<' ∉ name) (hrest : '>' ∉ rest ∧ ',' ∉ rest) :
    templateData (name ++ '<' :: (commas ss ++ '>' :: rest)) = .ok ds := by
  unfold templateData
  have h1 : find (name ++ '<' :: (commas ss ++ '>' :: rest)) ['<'] 0 = some name.length := by
    have := find_comma (d := []) (r := commas ss ++ '>' :: rest) hname
    simpa using this
  have h2 : rsearch ['>'] (name ++ '<' :: (commas ss ++ '>' :: rest)) = some (name ++ '<' :: commas ss).length := by
    rw [show name ++ '<' :: (commas ss ++ '>' :: rest) = (name ++ '<' :: commas ss) ++ '>' :: rest by simp, rsearch_char hrest.1]
  rw [h1]
  dsimp only
  rw [h2]
  dsimp only
  rw [if_neg (by simp)]
  have h3 := splitParams_spec (Z := '>' :: rest) (by simp [hrest.2]) h ((name ++ '<' :: (commas ss ++ '>' :: rest)).length + 1) (name ++ ['<']) (by
    have := commas_length ss
    simp; omega)
  rw [show (name ++ ['<']) ++ (commas ss ++ '>' :: rest) = name ++ '<' :: (commas ss ++ '>' :: rest) by simp] at h3
  rw [show name.length + 1 = (name ++ ['<']).length by simp, show (name ++ '<' :: commas ss).length = (name ++ ['<']).length + (commas ss).length by simp; omega]
  exact h3

/-! ### Text of parameters -/

theorem fold_listed {α : Type} (f : α → Str) : ∀ (l : List α) (a : Str), l ≠ [] → l.foldl (fun s d => s ++ f d ++ [',', ' ']) a = a ++ listed (l.map f) ++ [',', ' ']
  | [], _, h => absurd rfl h
  | [d], a, _ => by simp [listed]
  | d :: e :: l, a, _ => by
    have := fold_listed f (e :: l) (a ++ f d ++ [',', ' ']) (by simp)
    rw [List.foldl_cons, this]
    simp [listed]

theorem dataText_eq {data : List TemplateSpec} (h : data ≠ []) : dataText data = '<' :: listed (data.map fun d => d.species ++ ' ' :: d.symbol) ++ ['>'] := by
  unfold dataText
  rw [if_neg h]
  have := fold_listed (fun d : TemplateSpec => d.species ++ [' '] ++ d.symbol) data ['<'] h
  simp only [List.append_assoc] at this ⊢
  rw [this, splice]
  rw [show ['<'] ++ (listed (data.map fun d => d.species ++ ([' '] ++ d.symbol)) ++ [',', ' ']) = ('<' :: listed (data.map fun d => d.species ++ ' ' :: d.symbol)) ++ [',', ' '] by simp]
  rw [List.take_left' (by simp), List.drop_eq_nil_of_le (by simp)]
  simp

theorem argsText_eq {data : List TemplateSpec} (h : data ≠ []) : argsText data = '<' :: listed (data.map argument) ++ ['>'] := by
  unfold argsText
  have := fold_listed argument data ['<'] h
  have e : (fun (s : Str) (d : TemplateSpec) => s ++ d.symbol ++ (if d.species.getLast? = some '.' then ['.', '.', '.'] else []) ++ [',', ' ']) = fun s d => s ++ argument d ++ [',', ' '] := by
    funext s d
    simp only [argument, List.append_assoc]
    rfl
  rw [e, this]
  dsimp only
  rw [show ['<'] ++ listed (data.map argument) ++ [',', ' '] = (('<' :: listed (data.map argument)) ++ [',']) ++ [' '] by simp, List.dropLast_concat, List.dropLast_concat]

/-- How parameters are written in a list. -/
def writtenParams : List TemplateSpec → List Str
  | [] => []
  | d :: ds => (d.species ++ ' ' :: d.symbol) :: ds.map fun d => ' ' :: (d.species ++ ' ' :: d.symbol)

theorem written_commas : ∀ ds : List TemplateSpec, commas (writtenParams ds) = listed (ds.map fun d => d.species ++ ' ' :: d.symbol)
  | [] => rfl
  | [d] => by simp [writtenParams, commas, listed]
  | d :: e :: ds => by
    have := written_commas (e :: ds)
    have h2 : ∀ (x : Str) (ss : List Str), commas ((' ' :: x) :: ss) = ' ' :: commas (x :: ss) := by
      intro x ss
      cases ss <;> simp [commas]
    simp only [writtenParams, List.map_cons, listed] at this ⊢
    rw [← this, commas, h2]
    · simp
    · simp

theorem written_params {ds : List TemplateSpec} (hne : ds ≠ []) (h : ∀ d ∈ ds, Species d.species ∧ Word d.symbol ∧ '.' ∉ d.symbol ∧ ',' ∉ d.species ∧ ',' ∉ d.symbol) : Params (writtenParams ds) ds := by
  have key : ∀ (m : Nat) (d : TemplateSpec), d ∈ ds → Param (List.replicate m ' ' ++ (d.species ++ ' ' :: d.symbol)) d ∧ ',' ∉ List.replicate m ' ' ++ (d.species ++ ' ' :: d.symbol) := by
    intro m d hd
    obtain ⟨h1, h2, h3, h4, h5⟩ := h d hd
    refine ⟨?_, by simp [h4, h5]⟩
    have := Param.some (d := d) (pad := []) m 0 h1 h2 h3 (by intro c hc; cases hc)
    simpa using this
  have tail : ∀ es : List TemplateSpec, es ≠ [] → (∀ e ∈ es, e ∈ ds) → Params (es.map fun d => ' ' :: (d.species ++ ' ' :: d.symbol)) es := by
    intro es
    induction es with
    | nil => intro h; exact absurd rfl h
    | cons e es ih =>
      intro _ hm
      obtain ⟨k1, k2⟩ := key 1 e (hm e (by simp))
      cases es with
      | nil => exact .one k1 k2
      | cons f es => exact .cons k1 k2 (ih (by simp) fun x hx => hm x (by simp at hx ⊢; right; exact hx))
  cases ds with
  | nil => exact absurd rfl hne
  | cons d ds =>
    obtain ⟨k1, k2⟩ := key 0 d (by simp)
    cases ds with
    | nil => exact .one (by simpa using k1) (by simpa using k2)
    | cons e es => exact .cons (by simpa using k1) (by simpa using k2) (tail (e :: es) (by simp) fun x hx => by simp at hx ⊢; right; exact hx)

theorem templateData_written {name rest : Str} {ds : List TemplateSpec} (hne : ds ≠ []) (h : ∀ d ∈ ds, Species d.species ∧ Word d.symbol ∧ '.' ∉ d.symbol ∧ ',' ∉ d.species ∧ ',' ∉ d.symbol)
    (hname : '<' ∉ name) (hrest : '>' ∉ rest ∧ ',' ∉ rest) : templateData (name ++ dataText ds ++ rest) = .ok ds := by
  have := templateData_spec (written_params hne h) hname hrest
  rw [written_commas] at this
  rw [dataText_eq hne]
  simpa using this

/-! ### Names -/

theorem last_colons {ns name : Str} {b : Str} (hname : ':' ∉ name) (hb : ':' ∉ b) : rsearch [':', ':'] (ns ++ [':', ':'] ++ (name ++ b)) = some ns.length := by
  refine rsearch_eq ?_
  intro a' b' he
  apply Classical.byContradiction
  intro hlt
  simp only [Nat.not_le] at hlt
  have h1 : (ns ++ [':', ':'] ++ (name ++ b))[a'.length + 1]? = some ':' := by
    rw [← he, List.append_assoc, List.getElem?_append_right (by omega)]
    simp
  rw [List.getElem?_append_right (by simp; omega)] at h1
  have := List.mem_of_getElem? h1
  simp [hname, hb] at this

theorem semanticNames_template {old name rest : Str} {q : Option Str} {ss : List Str} {ds : List TemplateSpec} (h : Params ss ds) (hq : '<' ∉ qualifier q) (hname : '<' ∉ name ∧ ':' ∉ name)
    (hrest : '>' ∉ rest ∧ ',' ∉ rest) :
    semanticNames old (qualifier q ++ name ++ '<' :: (commas ss ++ '>' :: rest)) = .ok ⟨q.elim [] id, name, qualifier q ++ name ++ '<' :: (listed (ds.map argument) ++ ['>']), ds⟩ := by
  have hd := templateData_spec h hname.1 hrest
  have h1 : ∀ p : Str, '<' ∉ p → ∀ b, find (p ++ '<' :: b) ['<'] 0 = some p.length := by
    intro p hp b
    have := find_comma (d := []) (r := b) hp
    simpa using this
  have hqn : '<' ∉ qualifier q ++ name := by simp [hq, hname.1]
  have hne := (params_ne h).2
  obtain ⟨x, y, hxy⟩ : ∃ x y, commas ss ++ '>' :: rest = x :: y := by
    cases hc : commas ss ++ '>' :: rest with
    | nil => simp at hc
    | cons x y => exact ⟨x, y, rfl⟩
  have hsplit : splitQualified old (qualifier q ++ name ++ '<' :: (commas ss ++ '>' :: rest)) = (some (qualifier q).length, q.elim [] id, name ++ '<' :: (commas ss ++ '>' :: rest)) := by
    unfold splitQualified
    rw [h1 _ hqn]
    dsimp only
    rw [rfind]
    have htake : (qualifier q ++ name ++ '<' :: (commas ss ++ '>' :: rest)).take ((qualifier q ++ name).length + [':', ':'].length) = qualifier q ++ name ++ ['<', x] := by
      rw [hxy, show qualifier q ++ name ++ '<' :: x :: y = (qualifier q ++ name ++ ['<', x]) ++ y by simp, List.take_left' (by simp; omega)]
    rw [htake]
    cases q with
    | none =>
      have : rsearch [':', ':'] (qualifier none ++ name ++ ['<', x]) = none := by
        rw [rsearch_none]
        rintro ⟨u, v, he⟩
        -- the first colon of the two is not the last character
        have h2 : (qualifier none ++ name ++ ['<', x])[u.length]? = some ':' := by rw [← he]; simp
        have h3 : (u ++ [':', ':'] ++ v).length = (qualifier none ++ name ++ ['<', x]).length := by rw [he]
        simp [qualifier] at h2 h3
        rw [show name ++ ['<', x] = (name ++ ['<']) ++ [x] by simp, List.getElem?_append_left (by simp; omega)] at h2
        have := List.mem_of_getElem? h2
        simp [hname.2] at this
      rw [this]
      simp [qualifier]
    | some ns =>
      have : rsearch [':', ':'] (qualifier (some ns) ++ name ++ ['<', x]) = some ns.length := by
        by_cases hx : x = ':'
        · subst hx
          have : Last [':', ':'] ns (name ++ ['<', ':']) := by
            intro a' b' he
            apply Classical.byContradiction
            intro hlt
            simp only [Nat.not_le] at hlt
            have hlen := congrArg List.length he
            have h1 : (ns ++ [':', ':'] ++ (name ++ ['<', ':']))[a'.length]? = some ':' := by rw [← he]; simp
            have h2 : (ns ++ [':', ':'] ++ (name ++ ['<', ':']))[a'.length + 1]? = some ':' := by
              rw [← he, List.append_assoc, List.getElem?_append_right (by omega)]
              simp
            simp at hlen
            rw [List.getElem?_append_right (by simp; omega)] at h2
            rw [show name ++ ['<', ':'] = (name ++ ['<']) ++ [':'] by simp] at h2
            by_cases hl : a'.length + 1 - (ns ++ [':', ':']).length < (name ++ ['<']).length
            · rw [List.getElem?_append_left hl] at h2
              have := List.mem_of_getElem? h2
              simp [hname.2] at this
            · simp at hl
              rw [List.getElem?_append_right (by simp; omega)] at h1
              rw [show name ++ ['<', ':'] = (name ++ ['<']) ++ [':'] by simp, List.getElem?_append_left (by simp; omega)] at h1
              have := List.mem_of_getElem? h1
              simp [hname.2] at this
          have := rsearch_eq this
          simpa [qualifier] using this
        · have := last_colons (ns := ns) (name := name) (b := ['<', x]) hname.2 (by simp; exact fun h => hx h.symm)
          simpa [qualifier] using this
      rw [this]
      dsimp only
      rw [if_pos (by simp [qualifier]; omega)]
      rw [show qualifier (some ns) ++ name ++ '<' :: (commas ss ++ '>' :: rest) = ns ++ ([':', ':'] ++ (name ++ '<' :: (commas ss ++ '>' :: rest))) by simp [qualifier], List.take_left,
        show ns.length + 2 = (ns ++ [':', ':']).length by simp, ← List.append_assoc ns, List.drop_left]
      simp [qualifier]
  unfold semanticNames
  simp only [hsplit, hd, Res.bind, if_neg hne, h1 _ hname.1]
  rw [List.take_left]
  rw [show (qualifier q ++ name ++ '<' :: (commas ss ++ '>' :: rest)).take ((qualifier q).length + name.length) = qualifier q ++ name by rw [← List.length_append, List.take_left], argsText_eq hne]
  simp

theorem semanticNames_plain {old name : Str} {q : Option Str} (hq : '<' ∉ qualifier q) (hname : '<' ∉ name ∧ ':' ∉ name ∧ name ≠ []) :
    semanticNames old (qualifier q ++ name) = .ok ⟨q.elim [] id, name, qualifier q ++ name, []⟩ := by
  have h1 : ∀ p : Str, '<' ∉ p → find p ['<'] 0 = none := by
    intro p hp
    rw [find_char_none]; simpa using hp
  have hd : templateData name = .ok [] := by
    unfold templateData
    rw [h1 _ hname.1]
  have h2 := h1 (qualifier q ++ name) (by simp [hq, hname.1])
  unfold semanticNames splitQualified
  rw [h2]
  cases q with
  | none =>
    have : rsearch [':', ':'] (qualifier none ++ name) = none := by
      rw [rsearch_none]
      intro hi
      exact hname.2.1 (by simpa [qualifier] using hi.subset (a := ':') (by simp))
    simp only [this]
    simp [qualifier, hd, Res.bind]
  | some ns =>
    have := last_colons (ns := ns) (name := name) (b := []) hname.2.1 (by simp)
    rw [List.append_nil] at this
    rw [show qualifier (some ns) ++ name = ns ++ [':', ':'] ++ name by simp [qualifier]]
    have hl : 0 < name.length := List.length_pos_iff.2 hname.2.2
    have h3 : ns.length < (ns ++ [':', ':'] ++ name).length - 2 := by simp; omega
    simp only [this, if_pos h3]
    rw [show ns.length + 2 = (ns ++ [':', ':']).length by simp, List.drop_left, hd, List.append_assoc, List.take_left]
    simp [Res.bind]

end Verif.TestCreator
