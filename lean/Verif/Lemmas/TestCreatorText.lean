import Verif.Lemmas.TestCreator

/-
Lemmas about types and the text of files for new tests.
-/
set_option linter.unusedSimpArgs false
set_option linter.unusedVariables false

namespace Verif.TestCreator
open Text FileEditors Verif.Spec.Text Verif.Spec.TestCreator

/-! ### Types -/

theorem fundamental_append (token : Str) (b : List Str) : ∀ a : List Str, fundamental token (a ++ b) = (fundamental token a).or (fundamental token b)
  | [] => rfl
  | t :: a => by
    rw [List.cons_append, fundamental, fundamental]
    split
    · rfl
    · exact fundamental_append token b a

theorem fundamental_none {token : Str} : ∀ {ts : List Str}, fundamental token ts = none ↔ ∀ t ∈ ts, ¬ t <:+: token
  | [] => by simp [fundamental]
  | t :: ts => by
    rw [fundamental]
    split
    · rename_i h
      have : t <:+: token := Classical.not_not.1 fun hn => h (search_none.2 hn)
      simp [this]
    · rename_i h
      simp only [Classical.not_not, ne_eq] at h
      rw [fundamental_none]
      simp [search_none.1 h]

theorem fundamental_false {token : Str} (hs : ' ' ∉ token) : ∀ {ts : List Str}, (ts.Pairwise fun t t' => ¬ t <:+: t') → (fundamental token ts = some false ↔ token ∈ ts)
  | [], _ => by simp [fundamental]
  | t :: ts, h => by
    rw [List.pairwise_cons] at h
    rw [fundamental]
    split
    · rename_i hf
      have hi : t <:+: token := Classical.not_not.1 fun hn => hf (search_none.2 hn)
      by_cases he : token.length = t.length
      · have : t = token := hi.eq_of_length he.symm
        subst this
        simp
      · have hlt : t.length < token.length := by
          have := hi.length_le
          omega
        rw [if_neg he]
        have h1 : token[t.length]? ≠ some ' ' := fun hh => hs (List.mem_of_getElem? hh)
        simp only [hlt, h1, ne_eq, not_false_eq_true, decide_true, Bool.and_self, Option.some.injEq, Bool.true_eq_false, List.mem_cons, false_iff, not_or]
        refine ⟨fun hh => he (by rw [hh]), fun hm => h.1 token hm hi⟩
    · rename_i hf
      simp only [Classical.not_not, ne_eq] at hf
      rw [fundamental_false hs h.2]
      have : token ≠ t := by
        rintro rfl
        exact search_none.1 hf (List.infix_refl _)
      simp [this]

def eight : List Str := ["int", "float", "double", "bool", "char", "short", "long", "signed"].map String.toList

theorem funTypes_eq : funTypes = eight ++ ["unsigned".toList] := rfl

theorem funTypes_false {token : Str} (hs : ' ' ∉ token) : fundamental token funTypes = some false ↔ token ∈ eight := by
  rw [funTypes_eq, fundamental_append]
  have h1 := fundamental_false hs (ts := eight) (by decide +kernel)
  cases h : fundamental token eight with
  | some b =>
    rw [h] at h1
    simpa using h1
  | none =>
    rw [h] at h1
    simp only [reduceCtorEq, false_iff] at h1
    simp only [Option.none_or, h1, iff_false]
    rw [fundamental_false hs (by simp)]
    intro hm
    simp only [List.mem_cons, List.not_mem_nil, or_false] at hm
    subst hm
    exact absurd (fundamental_none.1 h "signed".toList (by decide +kernel)) (by decide +kernel)

theorem handleAsRef_spec {type : Str} (h : firstWord type ≠ []) : handleAsRef type = .ok (!byValue type) := by
  unfold handleAsRef byValue
  dsimp only
  rw [if_neg (by intro he; exact h (by simp [firstWord, he]))]
  by_cases h1 : type.getLast? = some '*' ∨ type.getLast? = some '&'
  · rw [if_pos h1]
    rcases h1 with h1 | h1 <;> simp [h1]
  · rw [if_neg h1]
    simp only [not_or] at h1
    have hsp : ' ' ∉ firstWord type := by
      intro hm
      have := List.all_eq_true.1 (List.all_takeWhile (p := fun x : Char => decide (x ≠ ' ')) (l := type.dropWhile (· = ' '))) ' ' hm
      simp at this
    have e : (type.dropWhile (· = ' ')).takeWhile (· ≠ ' ') = firstWord type := rfl
    rw [e]
    have hkey := funTypes_false hsp
    simp only [h1.1, h1.2, decide_false, Bool.false_or]
    cases hf : fundamental (firstWord type) funTypes with
    | some b =>
      dsimp only
      rw [hf] at hkey
      congr 1
      cases b with
      | false =>
        have : (eight.contains (firstWord type)) = true := by simpa using hkey
        change false = !((eight.contains (firstWord type)) || _)
        rw [this]; simp
      | true =>
        have hn : (eight.contains (firstWord type)) = false := by simpa using hkey
        change true = !((eight.contains (firstWord type)) || _)
        rw [hn]
        have : (["std::size_t", "size_t"].map String.toList).contains type = false := by
          apply Classical.byContradiction
          intro hc
          simp only [List.map_cons, List.map_nil, Bool.not_eq_false, List.contains_eq_mem, decide_eq_true_eq, List.mem_cons, List.not_mem_nil, or_false] at hc
          rcases hc with rfl | rfl
          · exact absurd hf (by decide +kernel)
          · exact absurd hf (by decide +kernel)
        rw [this]; rfl
    | none =>
      dsimp only
      rw [hf] at hkey
      have hn : (eight.contains (firstWord type)) = false := by simpa using hkey
      congr 2
      change _ = ((eight.contains (firstWord type)) || _)
      rw [hn, Bool.false_or]
      rw [Bool.eq_iff_iff]
      constructor
      · intro hc
        simp only [otherTypes, List.map_cons, List.map_nil, List.contains_eq_mem, decide_eq_true_eq, List.mem_cons, List.not_mem_nil, or_false] at hc
        rcases hc with rfl | rfl | rfl | rfl | rfl | rfl | rfl | rfl | rfl | rfl
        · decide +kernel
        · decide +kernel
        all_goals exact absurd hf (by decide +kernel)
      · intro hc
        simp only [List.map_cons, List.map_nil, List.contains_eq_mem, decide_eq_true_eq, List.mem_cons, List.not_mem_nil, or_false] at hc
        rcases hc with rfl | rfl <;> decide +kernel

theorem handleAsRef_throws {type : Str} (h : firstWord type = []) : handleAsRef type = .throws := by
  unfold handleAsRef
  dsimp only
  rw [if_pos]
  cases hr : type.dropWhile (fun x => decide (x = ' ')) with
  | nil => rfl
  | cons c t =>
    exfalso
    have hc : c ≠ ' ' := by
      have := List.head?_dropWhile_not (fun x : Char => decide (x = ' ')) type
      rw [hr] at this
      simpa using this
    rw [firstWord, hr] at h
    simp [hc] at h

theorem prediction_eq {num i : Nat} (hi : i < num) : prediction num i [','] = predictionName num i ++ if i + 1 < num then ", ".toList else [] := by
  unfold prediction predictionName
  have : (1 < num) ↔ num ≠ 1 := by omega
  by_cases h1 : num = 1
  · subst h1
    simp
  · rw [if_pos (this.2 h1), if_neg h1]
    by_cases h2 : i < num - 1
    · rw [if_pos ⟨h2, by simp⟩, if_pos (by omega)]
      rfl
    · rw [if_neg (by simp [h2]), if_neg (by omega)]
      simp

/-- The parameters with their numbers. -/
def parametersFrom (num : Nat) : Nat → List Str → List Str
  | _, [] => []
  | i, t :: ts => parameter num i t :: parametersFrom num (i + 1) ts

theorem const_eq (type : Str) : ((if type.take 6 = "const ".toList then [] else "const ".toList) ++ type) = if "const ".toList.isPrefixOf type then type else "const ".toList ++ type := by
  have : type.take 6 = "const ".toList ↔ "const ".toList.isPrefixOf type = true := by
    rw [List.isPrefixOf_iff_prefix]
    constructor
    · intro h
      rw [← h]
      exact List.take_prefix _ _
    · intro h
      have := List.prefix_iff_eq_take.1 h
      rw [this]
      rfl
  by_cases h : type.take 6 = "const ".toList
  · rw [if_pos h, if_pos (this.1 h)]; rfl
  · rw [if_neg h, if_neg (fun hh => h (this.2 hh))]

theorem equivalentArgs_spec {num : Nat} : ∀ (ts : List Str) (i : Nat), i + ts.length = num → (∀ t ∈ ts, firstWord t ≠ []) → equivalentArgs num i ts = .ok (listed (parametersFrom num i ts))
  | [], _, _, _ => rfl
  | t :: ts, i, hi, h => by
    have h1 := h t (by simp)
    have hne : t ≠ [] := by rintro rfl; exact h1 rfl
    rw [equivalentArgs, if_neg hne, handleAsRef_spec h1]
    simp only [Res.bind]
    rw [equivalentArgs_spec ts (i + 1) (by simp at hi; omega) fun x hx => h x (by simp [hx])]
    simp only [Res.bind]
    have hlen : (t :: ts).length = ts.length + 1 := rfl
    rw [prediction_eq (by omega)]
    congr 1
    rw [const_eq t]
    have hp : ∀ C : Str, C = (if "const ".toList.isPrefixOf t then t else "const ".toList ++ t) → parameter num i t = C ++ ((if byValue t then [] else ['&']) ++ ' ' :: predictionName num i) := by
      rintro C rfl
      simp only [parameter, List.append_assoc]
    generalize hC : (if "const ".toList.isPrefixOf t then t else "const ".toList ++ t) = C
    have hp := hp C hC.symm
    clear hC
    rw [parametersFrom]
    cases ts with
    | nil =>
      have : ¬ i + 1 < num := by simp only [List.length_cons, List.length_nil] at hi; omega
      rw [if_neg this]
      simp only [parametersFrom, listed, hp]
      cases byValue t <;> simp
    | cons u us =>
      have : i + 1 < num := by simp only [List.length_cons] at hi; omega
      rw [if_pos this]
      have e : ∀ x : Str, listed (x :: parametersFrom num (i + 1) (u :: us)) = x ++ ", ".toList ++ listed (parametersFrom num (i + 1) (u :: us)) := fun x => rfl
      rw [e, hp]
      cases byValue t <;> simp

theorem predictionName_inj {num i j : Nat} (hi : i < num) (hj : j < num) (h : predictionName num i = predictionName num j) : i = j := by
  unfold predictionName at h
  by_cases h1 : num = 1
  · omega
  · rw [if_neg h1, if_neg h1] at h
    have := List.append_cancel_left h
    simp only [List.cons.injEq, true_and] at this
    have := congrArg (Nat.ofDigitChars 10 · 0) this
    simpa [Nat.ofDigitChars_ten_toDigits] using this

/-! ### Kinds -/

theorem chooseKind_spec {a r m b : Str} (h1 : First "$Regular".toList a (r ++ "$Move".toList ++ m ++ "$\n".toList ++ b)) (h2 : First "$Move".toList r (m ++ "$\n".toList ++ b)) (h3 : First "$\n".toList m b) (regular : Bool) :
    chooseKind regular (a ++ "$Regular".toList ++ (r ++ "$Move".toList ++ (m ++ "$\n".toList ++ b))) = a ++ (if regular then r else m) ++ b := by
  unfold chooseKind
  generalize "$Regular".toList = R at *
  generalize "$Move".toList = M at *
  generalize "$\n".toList = F at *
  dsimp only
  rw [show find (a ++ R ++ (r ++ M ++ (m ++ F ++ b))) R 0 = some a.length by
    have := find_at (d := []) h1
    simpa using this]
  dsimp only
  rw [show find (a ++ R ++ (r ++ M ++ (m ++ F ++ b))) M (a.length + R.length) = some (a ++ R ++ r).length by
    have := find_at (d := a ++ R) h2
    rw [List.length_append] at this
    rw [this]
    simp; omega]
  dsimp only
  rw [show find (a ++ R ++ (r ++ M ++ (m ++ F ++ b))) F ((a ++ R ++ r).length + M.length) = some (a ++ R ++ r ++ M ++ m).length by
    have := find_at (d := a ++ R ++ (r ++ M)) h3
    rw [show a ++ R ++ (r ++ M ++ (m ++ F ++ b)) = a ++ R ++ (r ++ M) ++ (m ++ F ++ b) by simp, show (a ++ R ++ r).length + M.length = (a ++ R ++ (r ++ M)).length by simp; omega, this]
    simp; omega]
  dsimp only
  cases regular with
  | true =>
    rw [if_pos rfl, if_pos rfl]
    have e1 : splice (a ++ R ++ (r ++ M ++ (m ++ F ++ b))) (a ++ R ++ r).length ((a ++ R ++ r ++ M ++ m).length + F.length - (a ++ R ++ r).length) [] = a ++ R ++ (r ++ b) := by
      rw [splice, show (a ++ R ++ r).length + ((a ++ R ++ r ++ M ++ m).length + F.length - (a ++ R ++ r).length) = (a ++ R ++ r ++ M ++ m ++ F).length by simp; omega,
        show a ++ R ++ (r ++ M ++ (m ++ F ++ b)) = (a ++ R ++ r ++ M ++ m ++ F) ++ b by simp, List.drop_left,
        show (a ++ R ++ r ++ M ++ m ++ F) ++ b = (a ++ R ++ r) ++ (M ++ m ++ F ++ b) by simp, List.take_left]
      simp
    rw [e1, splice, ← List.length_append, List.drop_left, List.append_assoc a R, List.take_left]
    simp
  | false =>
    rw [if_neg (by simp), if_neg (by simp)]
    have e1 : splice (a ++ R ++ (r ++ M ++ (m ++ F ++ b))) (a ++ R ++ r ++ M ++ m).length F.length [] = a ++ R ++ r ++ M ++ (m ++ b) := by
      rw [splice, ← List.length_append, show a ++ R ++ (r ++ M ++ (m ++ F ++ b)) = (a ++ R ++ r ++ M ++ m ++ F) ++ b by simp, List.drop_left,
        show (a ++ R ++ r ++ M ++ m ++ F) ++ b = (a ++ R ++ r ++ M ++ m) ++ (F ++ b) by simp, List.take_left]
      simp
    rw [e1, splice, show a.length + ((a ++ R ++ r).length + M.length - a.length) = (a ++ R ++ r ++ M).length by simp; omega, List.drop_left,
      show a ++ R ++ r ++ M ++ (m ++ b) = a ++ (R ++ r ++ M ++ (m ++ b)) by simp, List.take_left]
    simp

/-! ### Namespaces -/

theorem removeTabs_spec : ∀ (ls : List Str) (l d : Str) (f : Nat), ls.length < f → '\n' ∉ l → (∀ k ∈ ls, '\n' ∉ k) →
    removeTabs f (d ++ unlines (l :: ls)) d.length = some (d ++ unlines (l :: ls.map untab))
  | [], l, d, f, hf, hl, _ => by
    cases f with
    | zero => simp at hf
    | succ f =>
      rw [removeTabs, find_char_none.2 (by rw [List.drop_left]; simpa [unlines] using hl)]
      rfl
  | k :: ls, l, d, f, hf, hl, h => by
    cases f with
    | zero => simp at hf
    | succ f =>
      have e1 : ∀ x : Str, unlines (l :: x :: ls) = l ++ '\n' :: unlines (x :: ls) := fun x => rfl
      rw [removeTabs, e1, find_newline hl]
      dsimp only
      have hstep : (if d.length + l.length + 1 < (d ++ (l ++ '\n' :: unlines (k :: ls))).length ∧ (d ++ (l ++ '\n' :: unlines (k :: ls)))[d.length + l.length + 1]? = some '\t'
          then splice (d ++ (l ++ '\n' :: unlines (k :: ls))) (d.length + l.length + 1) 1 [] else d ++ (l ++ '\n' :: unlines (k :: ls))) = (d ++ l ++ ['\n']) ++ unlines (untab k :: ls) := by
        have e2 : d ++ (l ++ '\n' :: unlines (k :: ls)) = (d ++ l ++ ['\n']) ++ unlines (k :: ls) := by simp
        have e3 : d.length + l.length + 1 = (d ++ l ++ ['\n']).length := by simp; omega
        rw [e2, e3, List.getElem?_append_right (Nat.le_refl _), Nat.sub_self]
        have hk := h k (by simp)
        cases k with
        | nil =>
          rw [if_neg]
          · rfl
          · rintro ⟨-, hh⟩
            cases ls <;> simp [unlines] at hh
        | cons c k =>
          have e4 : unlines ((c :: k) :: ls) = c :: unlines (k :: ls) := by cases ls <;> rfl
          rw [e4]
          by_cases hc : c = '\t'
          · subst hc
            rw [if_pos ⟨by simp, by simp⟩, splice, List.take_left, show (d ++ l ++ ['\n']) ++ '\t' :: unlines (k :: ls) = (d ++ l ++ ['\n'] ++ ['\t']) ++ unlines (k :: ls) by simp,
              show (d ++ l ++ ['\n']).length + 1 = (d ++ l ++ ['\n'] ++ ['\t']).length by simp; omega, List.drop_left]
            simp [untab]
          · rw [if_neg (by rintro ⟨-, hh⟩; simp at hh; exact hc hh)]
            have : untab (c :: k) = c :: k := by
              unfold untab
              split
              · rename_i heq
                simp at heq
                exact absurd heq.1 hc
              · rfl
            rw [this, e4]
      rw [hstep]
      have hu : '\n' ∉ untab k := by
        have hk := h k (by simp)
        unfold untab
        split
        · intro hm; exact hk (by simp [hm])
        · exact hk
      have ih := removeTabs_spec ls (untab k) (d ++ l ++ ['\n']) f (by simp at hf; omega) hu fun x hx => h x (by simp [hx])
      rw [show (d ++ l ++ ['\n']).length = d.length + l.length + 1 by simp; omega] at ih
      rw [ih]
      simp [unlines]

theorem split_newline {x v l R : Str} (hl : '\n' ∉ l) (h : x ++ '\n' :: v = l ++ '\n' :: R) : (x = l ∧ v = R) ∨ ∃ x', x = l ++ '\n' :: x' ∧ R = x' ++ '\n' :: v := by
  rcases List.append_eq_append_iff.1 h with ⟨z, h1, h2⟩ | ⟨z, h1, h2⟩
  · cases z with
    | nil => simp at h1 h2; exact .inl ⟨h1.symm, h2⟩
    | cons c z =>
      simp at h2
      exact absurd (by rw [h1]; simp [← h2.1]) hl
  · cases z with
    | nil => simp at h1 h2; exact .inl ⟨h1, h2.symm⟩
    | cons c z =>
      simp at h2
      exact .inr ⟨z, by rw [h1, ← h2.1], h2.2⟩

/-- An occurrence of a piece with a newline at its end, in text whose first line does not end with the piece. -/
theorem occurrence_next {p u v l R : Str} (hp : '\n' ∉ p) (hl : '\n' ∉ l) (hs : ¬ p <:+ l) (h : u ++ (p ++ ['\n']) ++ v = l ++ '\n' :: R) : ∃ u', u = l ++ '\n' :: u' ∧ u' ++ (p ++ ['\n']) ++ v = R := by
  have h' : (u ++ p) ++ '\n' :: v = l ++ '\n' :: R := by rw [← h]; simp
  rcases split_newline hl h' with ⟨h1, -⟩ | ⟨x', h1, h2⟩
  · exact absurd ⟨u, h1⟩ hs
  · rcases List.append_eq_append_iff.1 h1 with ⟨z, h3, h4⟩ | ⟨z, h3, h4⟩
    · exact absurd (by rw [h4]; simp) hp
    · cases z with
      | nil => exact absurd (by simp at h4; rw [← h4]; simp) hp
      | cons c z =>
        simp at h4
        refine ⟨z, by rw [h3, ← h4.1], ?_⟩
        rw [h2, h4.2]; simp

theorem ended_cons (l : Str) (ls : List Str) (s : Str) : ended (l :: ls) ++ s = l ++ '\n' :: (ended ls ++ s) := by simp [ended]

theorem not_in_ended {p last : Str} (hp : '\n' ∉ p) (hlast : '\n' ∉ last) : ∀ {ls : List Str}, (∀ l ∈ ls, '\n' ∉ l ∧ ¬ p <:+ l) → ¬ p ++ ['\n'] <:+: ended ls ++ last
  | [], _ => by
    intro h
    exact hlast (by simpa [ended] using h.subset (a := '\n') (by simp))
  | l :: ls, h => by
    rintro ⟨u, v, he⟩
    rw [ended_cons] at he
    obtain ⟨h1, h2⟩ := h l (by simp)
    obtain ⟨u', -, h3⟩ := occurrence_next hp h1 h2 he
    exact not_in_ended hp hlast (fun k hk => h k (by simp [hk])) ⟨u', v, h3⟩

theorem first_ended {p b : Str} (hp : '\n' ∉ p) : ∀ {ls : List Str}, (∀ l ∈ ls, '\n' ∉ l ∧ ¬ p <:+ l) → First (p ++ ['\n']) (ended ls) b
  | [], _ => by intro u v _; simp [ended]
  | l :: ls, h => by
    intro u v he
    obtain ⟨h1, h2⟩ := h l (by simp)
    rw [List.append_assoc (ended (l :: ls)), ended_cons] at he
    obtain ⟨u', h3, h4⟩ := occurrence_next hp h1 h2 he
    have := first_ended (b := b) (ls := ls) hp (fun k hk => h k (by simp [hk])) u' v (by rw [h4]; simp)
    rw [h3]
    simp [ended] at this ⊢
    omega

theorem last_split {b : List Str} (hb : b ≠ []) : ∃ bs last, b = bs ++ [last] := ⟨_, _, (List.dropLast_concat_getLast hb).symm⟩

theorem remove_line {p : Str} {a b : List Str} (hb : b ≠ []) (hp : '\n' ∉ p) (h : ∀ l ∈ a ++ b, '\n' ∉ l ∧ ¬ p <:+ l) : Replaced (p ++ ['\n']) [] (unlines (a ++ [p] ++ b)) (unlines (a ++ b)) := by
  obtain ⟨bs, last, rfl⟩ := last_split hb
  have e1 : unlines (a ++ [p] ++ (bs ++ [last])) = ended a ++ (p ++ ['\n']) ++ (ended bs ++ last) := by
    rw [← List.append_assoc, unlines_ended (by simp), ended_append, ended_append]
    simp [ended, unlines]
  have e2 : unlines (a ++ (bs ++ [last])) = ended a ++ [] ++ (ended bs ++ last) := by
    rw [← List.append_assoc, unlines_ended (by simp), ended_append]
    simp [unlines]
  rw [e1, e2]
  exact .step (first_ended hp fun l hl => h l (by simp [hl])) (.none (not_in_ended hp (h last (by simp)).1 fun l hl => h l (by simp [hl])))

theorem replace_line {p to : Str} {c : Char} {p' : Str} {a b : List Str} (hb : b ≠ []) (hc : p = c :: p') (hp : '\n' ∉ p) (h : ∀ l ∈ a ++ b, ¬ p <:+: l) : Replaced p to (unlines (a ++ [p] ++ b)) (unlines (a ++ [to] ++ b)) := by
  obtain ⟨bs, last, rfl⟩ := last_split hb
  have e : ∀ x : Str, unlines (a ++ [x] ++ (bs ++ [last])) = ended a ++ x ++ ('\n' :: (ended bs ++ last)) := by
    intro x
    rw [← List.append_assoc, unlines_ended (by simp), ended_append, ended_append]
    simp [ended, unlines]
  have hne : p ≠ [] := by rw [hc]; simp
  rw [e, e]
  refine .step ?_ (.none ?_)
  · have := first_of (b := '\n' :: (ended bs ++ last)) (x := []) hc hp (a := ended a) (by
      intro hi
      rcases infix_lines hp hne (ls := a) (s := []) (by simpa [ended] using hi) with ⟨l, hl, hi⟩ | hi
      · exact h l (by simp [hl]) hi
      · exact hne (List.eq_nil_of_infix_nil hi)) (by simp) (ended_end a)
    simpa using this
  · intro hi
    rcases infix_split (x := []) hp hi with hi | hi
    · exact hne (List.eq_nil_of_infix_nil hi)
    · rcases infix_lines hp hne hi with ⟨l, hl, hi⟩ | hi
      · exact h l (by simp [hl]) hi
      · exact h last (by simp) hi

theorem replaceAll_of {p to s r : Str} (hp : p ≠ []) (h : Replaced p to s r) {fuel : Nat} (hf : s.length < fuel) : replaceAll fuel s p to = some r := by
  obtain ⟨r', h1⟩ := replaceAllFrom_total (to := to) hp fuel s [] hf
  have h2 := h1
  simp only [List.nil_append, List.length_nil] at h1
  obtain ⟨u, h3, h4⟩ := replaceAllFrom_spec (d := []) h2
  rw [replaceAll, h1, h3, List.nil_append, replaced_functional h h4]

theorem processNamespace_none {pre body post : List Str} (hpost : post ≠ []) (h : ∀ l ∈ pre ++ body ++ post, '\n' ∉ l ∧ ¬ "namespace".toList <:+ l ∧ ¬ "?{".toList <:+ l ∧ ¬ "?}".toList <:+ l)
    {l : Str} {rest : List Str} (hl : pre ++ body ++ post = l :: rest) :
    Returns (fun fuel => processNamespace fuel (unlines (pre ++ ["namespace".toList, "?{".toList] ++ body ++ ["?}".toList] ++ post)) []) (unlines (l :: rest.map untab)) := by
  have r1 := remove_line (p := "namespace".toList) (a := pre) (b := ["?{".toList] ++ body ++ ["?}".toList] ++ post) (by simp) (by decide +kernel) (by
    intro k hk
    simp only [List.append_assoc, List.mem_append, List.mem_cons, List.not_mem_nil, or_false] at hk
    rcases hk with hk | rfl | hk | rfl | hk
    · exact ⟨(h k (by simp [hk])).1, (h k (by simp [hk])).2.1⟩
    · decide +kernel
    · exact ⟨(h k (by simp [hk])).1, (h k (by simp [hk])).2.1⟩
    · decide +kernel
    · exact ⟨(h k (by simp [hk])).1, (h k (by simp [hk])).2.1⟩)
  have r2 := remove_line (p := "?{".toList) (a := pre) (b := body ++ ["?}".toList] ++ post) (by simp) (by decide +kernel) (by
    intro k hk
    simp only [List.append_assoc, List.mem_append, List.mem_cons, List.not_mem_nil, or_false] at hk
    rcases hk with hk | hk | rfl | hk
    · exact ⟨(h k (by simp [hk])).1, (h k (by simp [hk])).2.2.1⟩
    · exact ⟨(h k (by simp [hk])).1, (h k (by simp [hk])).2.2.1⟩
    · decide +kernel
    · exact ⟨(h k (by simp [hk])).1, (h k (by simp [hk])).2.2.1⟩)
  have r3 := remove_line (p := "?}".toList) (a := pre ++ body) (b := post) hpost (by decide +kernel) (by
    intro k hk
    exact ⟨(h k (by simpa using hk)).1, (h k (by simpa using hk)).2.2.2⟩)
  rw [show pre ++ ["namespace".toList] ++ (["?{".toList] ++ body ++ ["?}".toList] ++ post) = pre ++ ["namespace".toList, "?{".toList] ++ body ++ ["?}".toList] ++ post by simp,
    show pre ++ (["?{".toList] ++ body ++ ["?}".toList] ++ post) = pre ++ ["?{".toList] ++ (body ++ ["?}".toList] ++ post) by simp] at r1
  rw [show pre ++ (body ++ ["?}".toList] ++ post) = pre ++ body ++ ["?}".toList] ++ post by simp] at r2
  rw [hl] at r3
  generalize unlines (pre ++ ["namespace".toList, "?{".toList] ++ body ++ ["?}".toList] ++ post) = t0 at *
  generalize unlines (pre ++ ["?{".toList] ++ (body ++ ["?}".toList] ++ post)) = t1 at *
  generalize unlines (pre ++ body ++ ["?}".toList] ++ post) = t2 at *
  refine ⟨t0.length + t1.length + t2.length + rest.length + 1, ?_⟩
  dsimp only
  unfold processNamespace
  rw [if_pos rfl, replaceAlls, show "namespace\n".toList = "namespace".toList ++ ['\n'] from rfl, show "?{\n".toList = "?{".toList ++ ['\n'] from rfl, show "?}\n".toList = "?}".toList ++ ['\n'] from rfl]
  dsimp only
  rw [replaceAll_of (by simp) r1 (by omega), Option.bind_some, replaceAlls]
  dsimp only
  rw [replaceAll_of (by simp) r2 (by omega), Option.bind_some, replaceAlls]
  dsimp only
  rw [replaceAll_of (by simp) r3 (by omega), Option.bind_some, replaceAlls, Option.bind_some]
  have hn : ∀ k ∈ l :: rest, '\n' ∉ k := by
    intro k hk
    rw [← hl] at hk
    exact (h k hk).1
  have := removeTabs_spec rest l [] (t0.length + t1.length + t2.length + rest.length + 1) (by omega) (hn l (by simp)) fun k hk => hn k (by simp [hk])
  simpa using this

theorem processNamespace_some {pre body post : List Str} {ns : Str} (hpost : post ≠ []) (hne : ns ≠ []) (hns : ¬ "?{".toList <:+: "namespace ".toList ++ ns ∧ ¬ "?}".toList <:+: "namespace ".toList ++ ns)
    (h : ∀ l ∈ pre ++ body ++ post, ¬ "namespace".toList <:+: l ∧ ¬ "?{".toList <:+: l ∧ ¬ "?}".toList <:+: l) :
    Returns (fun fuel => processNamespace fuel (unlines (pre ++ ["namespace".toList, "?{".toList] ++ body ++ ["?}".toList] ++ post)) ns)
      (unlines (pre ++ ["namespace ".toList ++ ns, "{".toList] ++ body ++ ["}".toList] ++ post)) := by
  have r1 := replace_line (p := "namespace".toList) (to := "namespace ".toList ++ ns) (a := pre) (b := ["?{".toList] ++ body ++ ["?}".toList] ++ post) (by simp) (by rfl) (by decide +kernel) (by
    intro k hk
    simp only [List.append_assoc, List.mem_append, List.mem_cons, List.not_mem_nil, or_false] at hk
    rcases hk with hk | rfl | hk | rfl | hk
    · exact (h k (by simp [hk])).1
    · decide +kernel
    · exact (h k (by simp [hk])).1
    · decide +kernel
    · exact (h k (by simp [hk])).1)
  have r2 := replace_line (p := "?{".toList) (to := "{".toList) (a := pre ++ ["namespace ".toList ++ ns]) (b := body ++ ["?}".toList] ++ post) (by simp) (by rfl) (by decide +kernel) (by
    intro k hk
    simp only [List.append_assoc, List.mem_append, List.mem_cons, List.not_mem_nil, or_false] at hk
    rcases hk with hk | rfl | hk | rfl | hk
    · exact (h k (by simp [hk])).2.1
    · exact hns.1
    · exact (h k (by simp [hk])).2.1
    · decide +kernel
    · exact (h k (by simp [hk])).2.1)
  have r3 := replace_line (p := "?}".toList) (to := "}".toList) (a := pre ++ ["namespace ".toList ++ ns, "{".toList] ++ body) (b := post) hpost (by rfl) (by decide +kernel) (by
    intro k hk
    simp only [List.append_assoc, List.mem_append, List.mem_cons, List.not_mem_nil, or_false] at hk
    rcases hk with hk | (rfl | rfl) | hk | hk
    · exact (h k (by simp [hk])).2.2
    · exact hns.2
    · decide +kernel
    · exact (h k (by simp [hk])).2.2
    · exact (h k (by simp [hk])).2.2)
  rw [show pre ++ ["namespace".toList] ++ (["?{".toList] ++ body ++ ["?}".toList] ++ post) = pre ++ ["namespace".toList, "?{".toList] ++ body ++ ["?}".toList] ++ post by simp,
    show pre ++ ["namespace ".toList ++ ns] ++ (["?{".toList] ++ body ++ ["?}".toList] ++ post) = pre ++ ["namespace ".toList ++ ns] ++ ["?{".toList] ++ (body ++ ["?}".toList] ++ post) by simp only [List.append_assoc]] at r1
  rw [show pre ++ ["namespace ".toList ++ ns] ++ ["{".toList] ++ (body ++ ["?}".toList] ++ post) = pre ++ ["namespace ".toList ++ ns, "{".toList] ++ body ++ ["?}".toList] ++ post by simp only [List.append_assoc, List.cons_append, List.nil_append]] at r2
  generalize unlines (pre ++ ["namespace".toList, "?{".toList] ++ body ++ ["?}".toList] ++ post) = t0 at *
  generalize unlines (pre ++ ["namespace ".toList ++ ns] ++ ["?{".toList] ++ (body ++ ["?}".toList] ++ post)) = t1 at *
  generalize unlines (pre ++ ["namespace ".toList ++ ns, "{".toList] ++ body ++ ["?}".toList] ++ post) = t2 at *
  refine ⟨t0.length + t1.length + t2.length + 1, ?_⟩
  dsimp only
  unfold processNamespace
  rw [if_neg hne, replaceAlls]
  dsimp only
  rw [replaceAll_of (by decide +kernel) r1 (by omega), Option.bind_some, replaceAlls]
  dsimp only
  rw [replaceAll_of (by decide +kernel) r2 (by omega), Option.bind_some, replaceAlls]
  dsimp only
  rw [replaceAll_of (by decide +kernel) r3 (by omega), Option.bind_some, replaceAlls]

end Verif.TestCreator
