import Verif.Lemmas.ProjectCreatorText
import Verif.Spec.Copyright
/- Lemmas about notices of copyright. -/
namespace Verif.ProjectCreator
open Verif.Text Verif.FileEditors Verif.Spec.Text Verif.Spec.Copyright

theorem word_eq : "Copyright".toList = word := by decide +kernel
theorem bar_eq : "//".toList = bar := by decide +kernel

/-- What has no slash at its beginning adds no bars. -/
theorem rsearch_bar {c : Str} (hc : rsearch bar c = none) (hh : c.head? ≠ some '/') : ∀ a : Str, rsearch bar (a ++ c) = rsearch bar a
  | [] => by rw [List.nil_append, hc]; rfl
  | d :: t => by
    rw [List.cons_append, rsearch, rsearch, rsearch_bar hc hh t]
    have : bar.isPrefixOf (d :: (t ++ c)) = bar.isPrefixOf (d :: t) := by
      cases t with
      | cons e t => simp [bar, List.isPrefixOf]
      | nil =>
        cases c with
        | nil => rfl
        | cons x c =>
          simp only [List.head?_cons, ne_eq, Option.some.injEq] at hh
          simp [bar, List.isPrefixOf, Ne.symm hh]
    rw [this]

/-- The same when searching forwards. -/
theorem infix_bar {b : Str} (w : Str) (hw : '/' ∉ w) : bar <:+: w ++ b ↔ bar <:+: b := by
  constructor
  · intro h
    induction w with
    | nil => exact h
    | cons c w ih =>
      simp only [List.mem_cons, not_or] at hw
      rw [List.cons_append, List.infix_cons_iff] at h
      rcases h with h | h
      · obtain ⟨r, hr⟩ := h
        simp [bar] at hr
        exact absurd hr.1 hw.1
      · exact ih hw.2 h
  · rintro ⟨x, y, rfl⟩
    exact ⟨w ++ x, y, by simp⟩

/-- The bar to the left. -/
theorem rfind_framed {text before left right after : Str} (h : Framed text before left right after) :
    rfind text bar (before ++ bar ++ left).length = some before.length := by
  unfold rfind
  have e : text.take ((before ++ bar ++ left).length + bar.length) = before ++ bar ++ (left ++ ['C', 'o']) := by
    rw [h.text, show before ++ bar ++ left ++ word ++ right ++ bar ++ after = (before ++ bar ++ left ++ ['C', 'o']) ++ (['p', 'y', 'r', 'i', 'g', 'h', 't'] ++ right ++ bar ++ after) by simp [word]]
    rw [List.take_left' (by simp [bar]; omega)]
    simp
  rw [e, show before ++ bar ++ (left ++ ['C', 'o']) = (before ++ bar ++ left) ++ ['C', 'o'] by simp]
  rw [rsearch_bar (by decide) (by decide)]
  rw [rsearch_bar (rsearch_none.2 h.near_left.1) h.near_left.2]
  have := rsearch_eq (p := bar) (a := before) (b := []) (by
    intro a' b' he
    have := congrArg List.length he
    simp [bar] at this
    omega)
  simpa using this

theorem setTop_framed {text before left right after : Str} (h : Framed text before left right after) (year owner : Str) :
    let n := notice owner year
    let room := (left ++ word ++ right).length
    setTopCopyright year owner text = some (before ++ bar ++ (spaces (room - n.length - (room - n.length) / 2) ++ n ++ spaces ((room - n.length) / 2)) ++ bar ++ after) := by
  intro n room
  have h1 : find text word 0 = some (before ++ bar ++ left).length := by
    have := find_at (d := []) h.first
    rw [h.text, show before ++ bar ++ left ++ word ++ right ++ bar ++ after = before ++ bar ++ left ++ word ++ (right ++ bar ++ after) by simp]
    simpa using this
  have h2 := rfind_framed h
  have h3 : find text bar (before ++ bar ++ left).length = some ((before ++ bar ++ left).length + (word ++ right).length) := by
    have := find_at (d := before ++ bar ++ left) h.near_right
    rw [h.text, show before ++ bar ++ left ++ word ++ right ++ bar ++ after = before ++ bar ++ left ++ (word ++ right ++ bar ++ after) by simp]
    exact this
  have hn : "Copyright ".toList ++ owner ++ " ".toList ++ year ++ ".".toList = n := by
    rw [show "Copyright ".toList = word ++ [' '] by decide +kernel, show " ".toList = [' '] by decide +kernel, show ".".toList = ['.'] by decide +kernel]
    simp [n, notice]
  unfold setTopCopyright
  rw [word_eq, bar_eq, h1]
  simp only [h2, h3, hn]
  have hr : (before ++ bar ++ left).length + (word ++ right).length - before.length - 2 = room := by
    simp [room, bar]; omega
  rw [hr]
  congr 1
  unfold splice
  have e1 : text.take (before.length + 2) = before ++ bar := by
    rw [h.text, show before ++ bar ++ left ++ word ++ right ++ bar ++ after = (before ++ bar) ++ (left ++ word ++ right ++ bar ++ after) by simp, List.take_left' (by simp [bar])]
  have e2 : text.drop (before.length + 2 + room) = bar ++ after := by
    rw [h.text, show before ++ bar ++ left ++ word ++ right ++ bar ++ after = (before ++ bar ++ left ++ word ++ right) ++ (bar ++ after) by simp,
      List.drop_left' (by simp [bar, room]; omega)]
  rw [e1, e2]
  simp

theorem framed_or (text : Str) : Unframed text ∨ ∃ before left right after, Framed text before left right after := by
  by_cases hw : word <:+: text
  · obtain ⟨k, hk⟩ := Option.ne_none_iff_exists'.1 (fun h => search_none.1 h hw)
    obtain ⟨a, b, h1, h2, h3⟩ := search_some hk
    by_cases ha : bar <:+: a
    · by_cases hb : bar <:+: b
      · right
        obtain ⟨i, hi⟩ := Option.ne_none_iff_exists'.1 (fun h => rsearch_none.1 h ha)
        obtain ⟨before, left, e1, e2, e3⟩ := rsearch_some hi
        have hb' : bar <:+: word ++ b := (infix_bar word (by decide)).2 hb
        obtain ⟨j, hj⟩ := Option.ne_none_iff_exists'.1 (fun h => search_none.1 h hb')
        obtain ⟨c, after, f1, f2, f3⟩ := search_some hj
        -- the bar is not in the word
        have hc : word <+: c := by
          have hle : word.length ≤ c.length := by
            apply Classical.byContradiction
            intro hlt
            have hlt : c.length < 9 := by simpa [word] using hlt
            have hcar : (word ++ b)[c.length]? = some '/' := by
              rw [f1]; simp [bar]
            rw [List.getElem?_append_left (by simpa [word] using hlt)] at hcar
            have : ∀ k < 9, word[k]? ≠ some '/' := by decide
            exact this _ hlt hcar
          exact List.prefix_of_prefix_length_le (l₃ := word ++ b) (List.prefix_append _ _) ⟨bar ++ after, by rw [f1]; simp⟩ hle
        obtain ⟨right, rfl⟩ := hc
        have hb2 : b = right ++ bar ++ after := by
          have : word ++ b = word ++ (right ++ bar ++ after) := by rw [f1]; simp
          exact List.append_cancel_left this
        refine ⟨before, left, right, after, ⟨?_, ?_, ⟨?_, ?_⟩, f3⟩⟩
        · rw [h1, e1, hb2]; simp
        · rw [← e1, ← hb2]; exact h3
        · rintro ⟨x, y, hx⟩
          have := e3 (before ++ bar ++ x) y (by rw [← hx]; simp)
          simp [bar] at this
          omega
        · intro hh
          cases left with
          | nil => simp at hh
          | cons d left =>
            simp at hh; subst hh
            have := e3 (before ++ ['/']) left (by simp [bar])
            simp at this
            omega
      · exact .inl (.inr ⟨a, b, h1, h3, .inr hb⟩)
    · exact .inl (.inr ⟨a, b, h1, h3, .inl ha⟩)
  · exact .inl (.inl hw)

theorem setTop_unframed {text : Str} (h : Unframed text) (year owner : Str) : setTopCopyright year owner text = none := by
  unfold setTopCopyright
  rw [word_eq, bar_eq]
  rcases h with h | ⟨a, b, rfl, h1, h2⟩
  · have : find text word 0 = none := by simp [find, search_none.2 h]
    rw [this]
  · have hf : find (a ++ word ++ b) word 0 = some a.length := by
      have := find_at (d := []) h1
      simpa using this
    rw [hf]
    rcases h2 with h2 | h2
    · have : rfind (a ++ word ++ b) bar a.length = none := by
        unfold rfind
        rw [show a ++ word ++ b = (a ++ ['C', 'o']) ++ (['p', 'y', 'r', 'i', 'g', 'h', 't'] ++ b) by simp [word], List.take_left' (by simp [bar]), rsearch_bar (by decide) (by decide)]
        exact rsearch_none.2 h2
      simp only [this]
    · have : find (a ++ word ++ b) bar a.length = none := by
        unfold find
        rw [List.append_assoc, List.drop_left, search_none.2 (fun h => h2 ((infix_bar word (by decide)).1 h))]
        simp
      simp only [this]
      generalize rfind (a ++ word ++ b) bar a.length = r
      cases r <;> rfl

end Verif.ProjectCreator
