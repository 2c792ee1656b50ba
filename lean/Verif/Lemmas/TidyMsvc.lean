import Verif.Lemmas.TidyPasses

/-
Lemmas about the names of types, as MSVC gives them.
-/
set_option linter.unusedSimpArgs false
set_option linter.unusedVariables false

namespace Verif.TidyName
open Verif.Text Verif.Spec.Text Verif.Spec.TidyName

/-! ### Keywords -/

/-- The keywords which are still there. -/
def keywords (f : Kind → Bool) : Dialect := { msvc with keyword := fun k => if f k then k.text else [] }

def kwLeft (c : Char) : Bool := "<,".toList.isEmpty || "<,".toList.contains c
def kwRight (c : Char) : Bool := ([] : Str).isEmpty || ([] : Str).contains c

theorem kwLeft_false {c : Char} : kwLeft c = false ↔ c ≠ '<' ∧ c ≠ ',' := by
  simp [kwLeft]

theorem plain_noKw {n : Str} (h : Plain n) : ∀ c ∈ n, kwLeft c = false := by
  intro c hc
  rw [kwLeft_false]
  rcases h.chars c hc with h1 | h1 | h1
  · constructor <;> rintro rfl <;> simp [Char.isAlphanum] at h1
  · subst h1; decide
  · subst h1; decide

theorem plain_blank {n : Str} (h : Plain n) : ' ' ∉ n := by
  intro hc
  rcases h.chars ' ' hc with h1 | h1 | h1
  · simp [Char.isAlphanum] at h1
  · simp at h1
  · simp at h1

theorem kw_blank (k : Kind) : ' ' ∈ k.text := by cases k <;> decide
theorem kw_stops (k : Kind) : ∀ c ∈ [',', '<', '>'], c ∉ k.text := by cases k <;> decide

/-- Names are not mistaken for keywords. -/
theorem plain_keyword {n s : Str} (k : Kind) (h : Plain n) (hs : Stop s) : ¬ k.text <+: n ++ s := by
  intro hp
  rcases List.prefix_or_prefix_of_prefix hp (List.prefix_append n s) with h1 | ⟨z, hz⟩
  · exact plain_blank h (h1.subset (kw_blank k))
  · rw [← hz] at hp
    have hz' := (List.prefix_append_right_inj _).1 hp
    cases z with
    | nil =>
      rw [List.append_nil] at hz
      exact plain_blank h (by rw [hz]; exact kw_blank k)
    | cons c z =>
      rcases hs with rfl | ⟨c', t, rfl, hc⟩
      · simp at hz'
      · have := (List.cons_prefix_cons.1 hz').1
        subst this
        exact kw_stops k c hc (by rw [← hz]; simp)

theorem kw_cons (k : Kind) : ∃ c t, k.text = c :: t ∧ c ∈ ['s', 'c', 'e'] := by
  cases k
  · exact ⟨'s', _, rfl, by simp⟩
  · exact ⟨'c', _, rfl, by simp⟩
  · exact ⟨'e', _, rfl, by simp⟩

theorem kw_other {k k' : Kind} (h : k ≠ k') (s : Str) : ¬ k.text <+: k'.text ++ s := by
  intro hp
  cases k <;> cases k' <;> first | exact absurd rfl h | (simp [Kind.text] at hp)

theorem kw_final (k : Kind) (prev : Char) : final prev k.text = ' ' := by cases k <;> rfl

theorem kw_word {f : Kind → Bool} {k : Kind} {w : Word} {s u : Str} (hw : w.Ok) (hk : ∀ k', (∃ n, w = .user k' n) ∨ (∃ abi n, w = .std k' abi n) → f k' = true → k' ≠ k) (hs : Stop s)
    (hr : ∀ prev, ReplacedIf kwLeft kwRight k.text [] prev s u) (prev : Char) :
    ReplacedIf kwLeft kwRight k.text [] prev (w.show (keywords f) ++ s) (w.show (keywords f) ++ u) := by
  obtain ⟨c₀, t₀, hkt, hc₀⟩ := kw_cons k
  have habs : ∀ {t : Str}, search k.text t = none → ReplacedIf kwLeft kwRight k.text [] prev (t ++ s) (t ++ u) := fun ht => skip_absent (search_none.1 ht) (kw_stops k) hs hr
  have hnot : ∀ {t : Str}, c₀ ∉ t → ReplacedIf kwLeft kwRight k.text [] prev (t ++ s) (t ++ u) := fun ht =>
    skip_absent (fun hi => ht (hi.subset (by rw [hkt]; simp))) (kw_stops k) hs hr
  have hn : ∀ {n : Str} (k' : Kind), Plain n → (f k' = true → k' ≠ k) →
      ReplacedIf kwLeft kwRight k.text [] prev ((if f k' then k'.text else []) ++ n ++ s) ((if f k' then k'.text else []) ++ n ++ u) := by
    intro n k' hn hne
    refine skip_first ?_ ?_ hr
    · intro c hc
      rcases List.mem_append.1 hc with hc | hc
      · split at hc
        · have : ∀ c ∈ k'.text, kwLeft c = false := by cases k' <;> decide
          exact this c hc
        · simp at hc
      · exact plain_noKw hn c hc
    · rintro _ ⟨_, b, hb, _⟩
      have hp : k.text <+: (if f k' then k'.text else []) ++ n ++ s := ⟨b, hb.symm⟩
      by_cases hf : f k' = true
      · rw [if_pos hf, List.append_assoc] at hp
        exact kw_other (fun e => hne hf e.symm) _ hp
      · rw [if_neg hf, List.nil_append] at hp
        exact plain_keyword k hn hs hp
  match w, hw, hk with
  | .user k' n, hw, hk => exact hn k' hw (hk k' (.inl ⟨n, rfl⟩))
  | .std k' abi n, hw, hk => exact hn (n := "std::".toList ++ n) k' hw (hk k' (.inr ⟨abi, n, rfl⟩))
  | .fundamental n, hw, _ =>
    have : ∀ n ∈ fundamentals, search k.text n = none := by cases k <;> decide
    exact habs (this n hw)
  | .int64 u l, _, _ =>
    refine habs ?_
    cases u <;> cases l <;> cases k <;> rfl
  | .integer neg ds sfx, hw, _ =>
    simp only [Word.Ok] at hw
    refine hnot ?_
    have hd : c₀.isDigit = false ∧ c₀ ≠ '-' := by
      simp only [List.mem_cons, List.not_mem_nil, or_false] at hc₀
      rcases hc₀ with rfl | rfl | rfl <;> decide
    intro hm
    simp only [Word.show, List.mem_append] at hm
    rcases hm with (hm | hm) | hm
    · split at hm
      · simp at hm; exact hd.2 hm
      · simp at hm
    · exact digit_mem hw.2.1 hd.1 hm
    · simp [keywords, msvc] at hm
  | .boolean b, _, _ =>
    refine habs ?_
    cases b <;> cases k <;> rfl
  | .enumerator e ds, hw, _ =>
    simp only [Word.Ok] at hw
    refine hnot ?_
    have hd : c₀.isDigit = false := by
      simp only [List.mem_cons, List.not_mem_nil, or_false] at hc₀
      rcases hc₀ with rfl | rfl | rfl <;> decide
    intro hm
    simp [Word.show, keywords, msvc] at hm
    exact digit_mem hw.2.2 hd hm

def without (f : Kind → Bool) (k : Kind) : Kind → Bool := fun k' => f k' && decide (k' ≠ k)

theorem kw_skip {l r : Char → Bool} {k : Kind} {to : Str} {c prev : Char} {s u : Str} (hc : c ∉ ['s', 'c', 'e']) (hr : ReplacedIf l r k.text to c s u) : ReplacedIf l r k.text to prev (c :: s) (c :: u) := by
  refine .skip ?_ hr
  rintro ⟨_, b, hb, _⟩
  obtain ⟨c₀, t₀, hkt, hc₀⟩ := kw_cons k
  rw [hkt] at hb
  simp only [List.cons_append, List.cons.injEq] at hb
  exact hc (by rw [hb.1]; exact hc₀)

theorem walk_keywords (f : Kind → Bool) (k : Kind) : Walk (keywords f) (keywords (without f k)) (fun _ s u => ∀ prev ∈ ['<', ','], ReplacedIf kwLeft kwRight k.text [] prev s u)
    (fun _ s u => ∀ prev, ReplacedIf kwLeft kwRight k.text [] prev s u) (fun _ s u => ∀ prev, ReplacedIf kwLeft kwRight k.text [] prev s u) := by
  refine ⟨?_, fun hr _ => kw_skip (by decide) (hr _ (by simp)), fun hr _ => kw_skip (by decide) (hr _ (by simp)), fun hr _ => kw_skip (by decide) (hr _ (by simp)),
    fun hr _ => kw_skip (by decide) (hr _), fun hr _ => kw_skip (by decide) (kw_skip (by decide) (hr _))⟩
  intro w n s u ho hf hr prev hp
  have hhit : ∀ {n : Str}, Plain n → ReplacedIf kwLeft kwRight k.text [] prev (k.text ++ n ++ s) (n ++ u) := by
    intro n hn
    rw [List.append_assoc]
    refine (ReplacedIf.hit (to := []) (u := n ++ u) ⟨?_, n ++ s, rfl, by simp [kwRight]⟩ ?_ : ReplacedIf kwLeft kwRight k.text [] prev (k.text ++ (n ++ s)) ([] ++ (n ++ u)))
    · simp at hp; rcases hp with rfl | rfl <;> decide
    · refine skip_first (plain_noKw hn) ?_ hr
      rintro _ ⟨h1, _⟩
      rw [kw_final] at h1
      exact absurd h1 (by decide)
  by_cases hx : ∃ k', ((∃ n, w = .user k' n) ∨ (∃ abi n, w = .std k' abi n)) ∧ f k' = true ∧ k' = k
  · obtain ⟨k', hx, hfk, rfl⟩ := hx
    rcases hx with ⟨n, rfl⟩ | ⟨abi, n, rfl⟩
    · have e1 : Word.show (keywords f) (.user k' n) = k'.text ++ n := by simp [Word.show, keywords, hfk]
      have e2 : Word.show (keywords (without f k')) (.user k' n) = n := by simp [Word.show, keywords, without]
      rw [e1, e2]
      exact hhit ho
    · have e1 : Word.show (keywords f) (.std k' abi n) = k'.text ++ ("std::".toList ++ n) := by simp [Word.show, keywords, msvc, hfk]
      have e2 : Word.show (keywords (without f k')) (.std k' abi n) = "std::".toList ++ n := by simp [Word.show, keywords, msvc, without]
      rw [e1, e2]
      exact hhit ho
  · have hk : ∀ k', (∃ n, w = .user k' n) ∨ (∃ abi n, w = .std k' abi n) → f k' = true → k' ≠ k := fun k' h1 h2 h3 => hx ⟨k', h1, h2, h3⟩
    have e : Word.show (keywords (without f k)) w = Word.show (keywords f) w := by
      match w, hk with
      | .user k' n, hk =>
        have := hk k' (.inl ⟨n, rfl⟩)
        by_cases hf : f k' = true
        · simp [Word.show, keywords, without, hf, this hf]
        · simp [Word.show, keywords, without, hf]
      | .std k' abi n, hk =>
        have := hk k' (.inr ⟨abi, n, rfl⟩)
        by_cases hf : f k' = true
        · simp [Word.show, keywords, without, msvc, hf, this hf]
        · simp [Word.show, keywords, without, msvc, hf]
      | .fundamental _, _ => rfl
      | .int64 _ _, _ => rfl
      | .integer _ _ _, _ => rfl
      | .boolean _, _ => rfl
      | .enumerator _ _, _ => rfl
    rw [e]
    exact kw_word ho hk hf.stop hr prev

/-- The type without a keyword in front, but with keywords in front of its arguments. -/
def Ty.bare (f : Kind → Bool) : Ty → Str
  | .mk w as => w.show (keywords fun _ => false) ++ as.show (keywords f)

theorem args_stop {d : Dialect} (as : Args) : Stop (as.show d) := by
  cases as with
  | nil => exact .inl rfl
  | cons a as => exact .inr ⟨_, _, rfl, by simp⟩

theorem pass_keyword (f : Kind → Bool) (k : Kind) (t : Ty) (ho : t.Ok) : ∀ m, (Ty.bare f t).length + 2 ≤ m →
    replaceDelim m (Ty.bare f t) "<,".toList k.text [] [] = some (Ty.bare (without f k) t) := by
  refine replaceDelim_of (by cases k <;> decide) (by cases k <;> decide) ?_
  match t, ho with
  | .mk w as, ho =>
    simp only [Ty.Ok] at ho
    simp only [Ty.bare]
    refine kw_word ho.1 (fun _ _ h => absurd h (by simp)) (args_stop as) ?_ _
    intro prev
    cases as with
    | nil => exact .nil
    | cons a as =>
      have := (walk_keywords f k).args ⟨_, rfl⟩ (.cons a as) (by simp) ho.2.2.2.1 (n := 0) (s := []) (r := []) (fun _ => .nil)
      rw [List.append_nil, List.append_nil] at this
      exact this prev

theorem peel_hit (p s : Str) : peel (p ++ s) p = s := by
  have : p.isPrefixOf (p ++ s) = true := List.isPrefixOf_iff_prefix.2 (List.prefix_append p s)
  rw [peel, if_pos this, List.drop_left]

theorem peel_miss {p s : Str} (h : ¬ p <+: s) : peel s p = s := by
  rw [peel, if_neg]
  rwa [List.isPrefixOf_iff_prefix]

def peels (s : Str) : Str := peel (peel (peel s "struct ".toList) "class ".toList) "enum ".toList

theorem peels_plain {n s : Str} (k : Kind) (h : Plain n) (hs : Stop s) : peels (k.text ++ (n ++ s)) = n ++ s := by
  have h1 := plain_keyword .struct_ h hs
  have h2 := plain_keyword .class_ h hs
  have h3 := plain_keyword .enum_ h hs
  simp only [Kind.text] at h1 h2 h3
  cases k <;> simp only [peels, Kind.text]
  · rw [peel_hit, peel_miss h2, peel_miss h3]
  · rw [peel_miss (p := "struct ".toList) (by simp), peel_hit, peel_miss h3]
  · rw [peel_miss (p := "struct ".toList) (by simp), peel_miss (p := "class ".toList) (by simp), peel_hit]

theorem pass_peel (t : Ty) (ho : t.Ok) : peels (t.show msvc) = Ty.bare (fun _ => true) t := by
  match t, ho with
  | .mk w as, ho =>
    simp only [Ty.Ok] at ho
    have hk : keywords (fun _ => true) = msvc := rfl
    simp only [Ty.show, Ty.bare, hk]
    have hnil : ¬ w.template → as = .nil := fun h => by
      cases as with
      | nil => rfl
      | cons a as => exact absurd (ho.2.2.1 (by simp)) h
    match w, ho.1, ho.2.1, hnil with
    | .user k n, hw, _, _ =>
      have e : Word.show msvc (.user k n) ++ as.show msvc = k.text ++ (n ++ as.show msvc) := by simp [Word.show, msvc]
      rw [e, peels_plain k hw (args_stop as)]
      simp [Word.show, keywords]
    | .std k abi n, hw, _, _ =>
      have e : Word.show msvc (.std k abi n) ++ as.show msvc = k.text ++ (("std::".toList ++ n) ++ as.show msvc) := by simp [Word.show, msvc]
      rw [e, peels_plain k hw (args_stop as)]
      simp [Word.show, keywords, msvc]
    | .fundamental n, hw, _, hnil =>
      rw [hnil (by simp [Word.template])]
      simp only [Args.show, List.append_nil, Word.show]
      have : ∀ n ∈ fundamentals, peels n = n := by decide
      exact this n hw
    | .int64 u l, hw, _, hnil =>
      rw [hnil (by simp [Word.template])]
      cases u <;> cases l <;> decide
    | .integer _ _ _, _, h, _ => simp [Word.isType] at h
    | .boolean _, _, h, _ => simp [Word.isType] at h
    | .enumerator _ _, _, h, _ => simp [Word.isType] at h

def bareDialect : Dialect := keywords fun _ => false
def spacedDialect : Dialect := { bareDialect with comma := [',', ' '] }

theorem bare_none (t : Ty) : Ty.bare (without (without (without (fun _ => true) .struct_) .class_) .enum_) t = t.show bareDialect := by
  have : without (without (without (fun _ => true) .struct_) .class_) .enum_ = fun _ => false := by
    funext k; cases k <;> rfl
  rw [this]
  cases t; rfl

/-! ### Commas -/

theorem type_walk {d d' : Dialect} {C : Str → Str → Prop} (hc : ∃ t, d.comma = ',' :: t) (hwalk : Walk d d' (fun _ => C) (fun _ => C) (fun _ => C)) (hnil : C [] [])
    (hroot : ∀ {w : Word} {s r : Str}, w.Ok → Stop s → C s r → C (w.show d ++ s) (w.show d' ++ r)) (t : Ty) (ho : t.Ok) : C (t.show d) (t.show d') := by
  match t, ho with
  | .mk w as, ho =>
    simp only [Ty.Ok] at ho
    simp only [Ty.show]
    refine hroot ho.1 (args_stop as) ?_
    cases as with
    | nil => exact hnil
    | cons a as =>
      have := hwalk.args hc (.cons a as) (by simp) ho.2.2.2.1 (n := 0) (s := []) (r := []) hnil
      rwa [List.append_nil, List.append_nil] at this

theorem pass_commas (t : Ty) (ho : t.Ok) : Replaced ",".toList ", ".toList (t.show bareDialect) (t.show spacedDialect) := by
  have hword : ∀ {w : Word} {s r : Str}, w.Ok → Replaced [','] [',', ' '] s r → Replaced [','] [',', ' '] (w.show bareDialect ++ s) (w.show spacedDialect ++ r) := by
    intro w s r hw hr
    have hx := word_chars (d := bareDialect) (fun _ => rfl) (fun _ => rfl) ',' (by decide) (by decide) (by decide) w hw
    have e : w.show spacedDialect = w.show bareDialect := by cases w <;> rfl
    rw [e]
    exact replaced_chars (fun c hc e => hx (e ▸ hc)) hr
  refine type_walk (C := Replaced [','] [',', ' ']) ⟨_, rfl⟩ ?_ (.none (by simp)) (fun hw _ hr => hword hw hr) t ho
  exact ⟨fun hw _ hr => hword hw hr, fun hr => replaced_cons (by decide) hr, fun hr => replaced_hit hr, fun hr => replaced_hit hr, fun hr => replaced_cons (by decide) hr,
    fun hr => replaced_cons (by decide) (replaced_cons (by decide) hr)⟩

/-- No comma comes after a blank. -/
def Pairs : Char → Str → Prop
  | _, [] => True
  | prev, c :: s => ¬ (prev = ' ' ∧ c = ',') ∧ Pairs c s

theorem pairs_infix : ∀ {s : Str} {prev : Char}, Pairs prev s → ¬ " ,".toList <:+: s
  | [], _, _ => by simp
  | c :: s, prev, h => by
    intro hi
    rcases List.infix_cons_iff.1 hi with h1 | h1
    · cases s with
      | nil => simp at h1
      | cons c' s =>
        simp only [String.toList] at h1
        have := List.cons_prefix_cons.1 h1
        have h2 := List.cons_prefix_cons.1 this.2
        exact h.2.1 ⟨this.1.symm, h2.1.symm⟩
    · exact pairs_infix h.2 h1

theorem pairs_append : ∀ {w s : Str} {prev : Char}, ',' ∉ w → Pairs (final prev w) s → Pairs prev (w ++ s)
  | [], _, _, _, h => h
  | c :: w, s, prev, hw, h => ⟨fun e => hw (by simp [e.2]), pairs_append (fun hm => hw (by simp [hm])) h⟩

theorem final_append : ∀ {a b : Str} {prev : Char}, final prev (a ++ b) = final (final prev a) b
  | [], _, _ => rfl
  | c :: a, b, prev => final_append (a := a) (prev := c)

theorem word_final (w : Word) (hw : w.Ok) (prev : Char) : final prev (w.show spacedDialect) ≠ ' ' := by
  have hpl : ∀ {n : Str} {prev : Char}, Plain n → final prev n ≠ ' ' := fun hn e => plain_blank hn (e ▸ final_mem hn.nonempty)
  have hdg : ∀ {n : Str} {prev : Char}, n ≠ [] → (∀ c ∈ n, c.isDigit = true) → final prev n ≠ ' ' := fun {_ prev} hne hd e => by
    have := hd _ (final_mem (prev := prev) hne)
    rw [e] at this
    exact absurd this (by decide)
  match w, hw with
  | .user k n, hw => exact hpl hw
  | .std k abi n, hw => exact hpl (n := "std::".toList ++ n) hw
  | .fundamental n, hw =>
    have : ∀ n ∈ fundamentals, n ≠ [] ∧ final 'a' n ≠ ' ' := by decide
    have h := this n hw
    have hx : ∀ prev, final prev n = final 'a' n := fun prev => by
      cases n with
      | nil => exact absurd rfl h.1
      | cons c n => rfl
    simp only [Word.show]
    rw [hx]; exact h.2
  | .int64 true l, _ => simp [Word.show, spacedDialect, bareDialect, keywords, msvc, final]
  | .int64 false l, _ => simp [Word.show, spacedDialect, bareDialect, keywords, msvc, final]
  | .integer neg ds sfx, hw =>
    simp only [Word.Ok] at hw
    have e : Word.show spacedDialect (.integer neg ds sfx) = (if neg then ['-'] else []) ++ ds := by simp [Word.show, spacedDialect, bareDialect, keywords, msvc]
    rw [e, final_append]
    exact hdg hw.1 hw.2.1
  | .boolean true, _ => simp [Word.show, spacedDialect, bareDialect, keywords, msvc, final]
  | .boolean false, _ => simp [Word.show, spacedDialect, bareDialect, keywords, msvc, final]
  | .enumerator e ds, hw =>
    simp only [Word.Ok] at hw
    have e : Word.show spacedDialect (.enumerator e ds) = ds := by simp [Word.show, spacedDialect, bareDialect, keywords, msvc]
    rw [e]
    exact hdg hw.2.1 hw.2.2

theorem pass_blanks (t : Ty) (ho : t.Ok) : ¬ " ,".toList <:+: t.show spacedDialect := by
  have hcm : ∀ {w : Word}, w.Ok → ',' ∉ w.show spacedDialect := fun {w} hw =>
    word_chars (d := spacedDialect) (fun _ => rfl) (fun _ => rfl) ',' (by decide) (by decide) (by decide) w hw
  have hword : ∀ {w : Word} {s : Str} (prev : Char), w.Ok → (∀ prev, prev ≠ ' ' → Pairs prev s) → Pairs prev (w.show spacedDialect ++ s) := fun {w s} prev hw hr =>
    pairs_append (hcm hw) (hr _ (word_final w hw prev))
  have hwalk : Walk spacedDialect spacedDialect (fun _ s _ => ∀ prev, Pairs prev s) (fun _ s _ => ∀ prev, prev ≠ ' ' → Pairs prev s) (fun _ s _ => ∀ prev, prev ≠ ' ' → Pairs prev s) := by
    refine ⟨fun hw _ hr prev => hword prev hw hr, fun hr prev hp => ⟨by simp, hr _⟩, fun hr prev hp => ⟨fun h => hp h.1, by simp, hr _⟩, fun hr prev hp => ⟨fun h => hp h.1, by simp, hr _⟩,
      fun hr prev hp => ⟨by simp, hr _ (by decide)⟩, fun hr prev hp => ⟨by simp, by simp, hr _ (by decide)⟩⟩
  match t, ho with
  | .mk w as, ho =>
    simp only [Ty.Ok] at ho
    refine pairs_infix (prev := '<') ?_
    simp only [Ty.show]
    refine hword _ ho.1 ?_
    cases as with
    | nil => exact fun _ _ => trivial
    | cons a as =>
      have := hwalk.args ⟨_, rfl⟩ (.cons a as) (by simp) ho.2.2.2.1 (n := 0) (s := []) (r := []) (fun _ _ => trivial)
      rwa [List.append_nil] at this

/-- Characters which are not in names at all. -/
theorem type_chars (x : Char) (hx : x.isAlphanum = false) (h1 : x ∉ ['_', ':', '-', ' ', '(', ')']) (h2 : x ∉ ['<', '>', ',']) (t : Ty) (ho : t.Ok) : x ∉ t.show spacedDialect := by
  have h3 : x ∉ spacedDialect.int64 true ++ spacedDialect.int64 false ++ spacedDialect.yes ++ spacedDialect.no := by
    intro hm
    have : ∀ c ∈ spacedDialect.int64 true ++ spacedDialect.int64 false ++ spacedDialect.yes ++ spacedDialect.no, c.isAlphanum = true ∨ c = '_' := by decide
    rcases this x hm with h | rfl
    · simp [h] at hx
    · simp at h1
  have hword : ∀ {w : Word} {s : Str}, w.Ok → x ∉ s → x ∉ w.show spacedDialect ++ s := fun {w s} hw hr => by
    simp only [List.mem_append, not_or]
    exact ⟨word_chars (d := spacedDialect) (fun _ => rfl) (fun _ => rfl) x hx h1 h3 w hw, hr⟩
  simp only [List.mem_cons, List.not_mem_nil, or_false, not_or] at h1 h2
  refine type_walk (d := spacedDialect) (d' := spacedDialect) (C := fun s _ => x ∉ s) ⟨_, rfl⟩ ?_ (by simp) (fun hw _ hr => hword hw hr) t ho
  refine ⟨fun hw _ hr => hword hw hr, ?_, ?_, ?_, ?_, ?_⟩ <;> intro n s r hr <;> intro hm
  · rcases List.mem_cons.1 hm with h | h
    · exact h2.1 h
    · exact hr h
  · change x ∈ ',' :: ' ' :: s at hm
    simp only [List.mem_cons] at hm
    rcases hm with h | h | h
    · exact h2.2.2 h
    · exact h1.2.2.2.1 h
    · exact hr h
  · change x ∈ ',' :: ' ' :: s at hm
    simp only [List.mem_cons] at hm
    rcases hm with h | h | h
    · exact h2.2.2 h
    · exact h1.2.2.2.1 h
    · exact hr h
  · rcases List.mem_cons.1 hm with h | h
    · exact h2.2.1 h
    · exact hr h
  · change x ∈ ' ' :: '>' :: s at hm
    simp only [List.mem_cons] at hm
    rcases hm with h | h | h
    · exact h1.2.2.2.1 h
    · exact h2.2.1 h
    · exact hr h

theorem pass_int64 (t : Ty) (ho : t.Ok) : Replaced "__int64".toList "long long".toList (t.show spacedDialect) (t.show common) := by
  refine type_replaced (h := '_') (p := "_int64".toList) (d := spacedDialect) (d' := common) (by decide) (by decide) rfl (.inr rfl) rfl ?_ t ho
  have hab := absent (p := "__int64".toList) (d := { spacedDialect with int64 := fun _ => [] }) '_' (by decide) (by decide) (by decide) (by decide) (by decide) (by decide)
    (fun n hn => plain_absent hn (by decide)) (fun _ => rfl) (fun _ => rfl) (by decide)
  intro w hw
  match w, hw with
  | .int64 true l, hw => cases l <;> exact replaced_eval 5 (by decide)
  | .int64 false l, hw => cases l <;> exact replaced_eval 5 (by decide)
  | .std k abi n, hw => exact .none (hab (.std k abi n) hw)
  | .user k n, hw => exact .none (hab _ hw)
  | .fundamental n, hw => exact .none (hab (.fundamental n) hw)
  | .integer neg ds sfx, hw => exact .none (hab (.integer neg ds sfx) hw)
  | .boolean v, hw => exact .none (hab (.boolean v) hw)
  | .enumerator e ds, hw => exact .none (hab (.enumerator e ds) hw)

theorem cdecl_absent (t : Ty) (ho : t.Ok) : ¬ "__cdecl".toList <:+: t.show common :=
  not_infix_of_replaced (by decide) (type_replaced (h := '_') (p := "_cdecl".toList) (d := common) (d' := common) (by decide) (by decide) rfl (.inr rfl) rfl
    (word_cases (absent '_' (by decide) (by decide) (by decide) (by decide) (by decide) (by decide)
      (fun n hn => plain_absent hn (by decide)) (fun _ => rfl) (fun _ => rfl) (by decide))) t ho)

end Verif.TidyName
