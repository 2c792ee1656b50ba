import Verif.Lemmas.CommandLine

/-! The parser accepts the command lines of the grammar, and, under conditions, no others. -/
namespace Verif.Cmd
open Verif.Spec

theorem Stops.nil (opts : List OptTree) : Stops opts [] := .inr (.inl rfl)

theorem line_nil_opts {top : Bool} {ws left : List Str} {cs : List Call} (h : Line top [] ws cs left) : ws = left ∧ cs = [] := by
  generalize ho : ([] : List OptTree) = opts at h
  cases h with
  | stop => exact ⟨rfl, rfl⟩
  | blank hne => exact absurd ho.symm hne
  | one _ ht => subst ho; simp [Names] at ht
  | @group _ _ word ts _ _ _ _ _ hg =>
    subst ho
    obtain ⟨_, h1, h2, _⟩ := hg
    cases hl : letters word with
    | nil => exact absurd hl h1
    | cons c cs =>
      rw [hl] at h2
      cases ts with
      | nil => simp at h2
      | cons t ts => simp [letterOption] at h2

/-- Words which do not continue a command line are left. -/
theorem loop_stops {f : Nat} {opts : List OptTree} {d : Data} {pre : List (List Op)} {N : List Op} {h : Option (List OptTree)} {rest : List Str}
    (hf : rest.length ≤ f) (hne : opts ≠ []) (hs : Stops opts rest) (hc : ∀ w ∈ rest, Clear opts w) :
    loop f opts (some d) false none (some d) ⟨pre ++ [N], h⟩ rest = .ok (⟨pre ++ [N], h⟩, rest) := by
  rcases hs with h1 | rfl | ⟨a, r, rfl, ha, hu, hh, hg⟩
  · exact absurd h1 hne
  · rw [loop_nil]; rfl
  · match f, hf with
    | f + 1, _ =>
      rw [loop_other ha hu hh]
      by_cases hgr : Candidate a
      · rw [processConcat_candidate hgr]
        obtain ⟨ts, h2⟩ | ⟨c, cs, h2, h3⟩ := hc a List.mem_cons_self hu hgr
        · exact absurd h2 (hg ts)
        · rw [h2, concatLoop_cons (letters_ne (a := a) (by rw [h2]; simp)), h3]
          simp [Res.bind]
      · rw [processConcat_not hgr]
        simp [Res.bind]

theorem enter_eq {f : Nat} {opts : List OptTree} {d : Data} {pre : List (List Op)} {N : List Op} {as : List Str} (hne : opts ≠ []) :
    enter (loop f) opts d ⟨pre ++ [N], none⟩ as = loop f opts (some d) false none (some d) ⟨pre ++ [N], none⟩ as := by
  unfold enter
  rw [if_neg]
  simpa using hne

/-- What a part of a command line adds. -/
def grow (N : List Op) (i : Nat) (cs : List Call) : List Op := addArgs N i (extraOf cs) ++ flatL (some i) N.length (opsOf cs)

theorem length_grow (N : List Op) (i : Nat) (cs : List Call) : N.length ≤ (grow N i cs).length := by
  simp [grow]

@[simp] theorem grow_nil (N : List Op) (i : Nat) : grow N i [] = N := by simp [grow, extraOf, opsOf, flatL]

theorem length_grow_eq (N : List Op) (i : Nat) (cs : List Call) : (grow N i cs).length = N.length + (flatL (some i) N.length (opsOf cs)).length := by
  simp [grow]

theorem grow_cons {N : List Op} {i : Nat} (hi : i < N.length) {c : Call} {cs : List Call} :
    grow N i (c :: cs) = grow (addArgs N i c.extra ++ flatL (some i) N.length c.ops) i cs := by
  simp only [grow, extraOf, opsOf, flatL_append]
  rw [addArgs_append _ _ _ _ (by simpa using hi), addArgs_addArgs]
  simp

theorem grow_bound {N : List Op} {i : Nat} (hi : i < N.length) {w : Str} {t : OptTree} {args : List Str} {subs cs : List Call} (hb : t.bound = true) :
    grow N i (.one w t args subs :: cs) = grow (grow (N ++ [⟨some i, t.opt.early, t.opt.late, args⟩]) N.length subs) i cs := by
  rw [grow_cons hi]
  congr 1
  simp [Call.extra, Call.ops, hb, flatL, flat, grow, addArgs_last]

theorem grow_unbound {N : List Op} {i : Nat} (hi : i < N.length) {w : Str} {t : OptTree} {args : List Str} {subs cs : List Call}
    (hb : t.bound = false) : grow N i (.one w t args subs :: cs) = grow (grow (addArgs N i args) i subs) i cs := by
  rw [grow_cons hi]
  congr 1
  simp [Call.extra, Call.ops, hb, grow, addArgs_addArgs]

theorem grow_group {N : List Op} {i : Nat} (hi : i < N.length) {w : Str} {ts : List OptTree} {cs : List Call} :
    grow N i (.group w ts :: cs) = grow (N ++ flatL (some i) N.length (leaves ts)) i cs := by
  rw [grow_cons hi]
  congr 1
  simp [Call.extra, Call.ops, leaves]

theorem groups_ne {opts : List OptTree} {w : Str} {ts : List OptTree} (h : Groups opts w ts) : w ≠ [] := by
  obtain ⟨⟨b, r, rfl, _⟩, _⟩ := h
  simp

theorem collect_exact {opts : List OptTree} {prev : Option Data} {top : Bool} {t : OptTree} {pre : List (List Op)} {i s : Nat}
    {h : Option (List OptTree)} {f : Nat} {ps rest : List Str} {N : List Op} {op : Op} (hf : (ps ++ rest).length ≤ f) (hop : N[i]? = some op)
    (hs : op.args.length = s) (hp : ps.length = t.opt.params.length) :
    ∃ f', rest.length ≤ f' ∧ complete (loop f) opts prev top t (i, s) ⟨pre ++ [N], h⟩ (ps ++ rest) =
        (enter (loop f') t.children (i, s) ⟨pre ++ [addArgs N i ps], h⟩ rest).bind fun r => loop f' opts prev top none prev r.1 r.2 := by
  rcases collect (opts := opts) (prev := prev) (top := top) (t := t) (pre := pre) (i := i) (s := s) (h := h)
    t.opt.params.length f (ps ++ rest) N op hf hop (by omega) with ⟨h4, _⟩ | ⟨ps', rest', f', h4, h5, h6, h7, h8⟩
  · simp at h4; omega
  · obtain ⟨rfl, rfl⟩ := List.append_inj h4 (by omega)
    exact ⟨f', h6, h8⟩

/-- The words are clear for a forest and all forests below it. -/
def Tidy (F : List OptTree) (words : List Str) : Prop := ∀ G, G = F ∨ ForestBelow F G → ∀ w ∈ words, Clear G w

theorem Tidy.child {F : List OptTree} {words : List Str} (h : Tidy F words) {t : OptTree} (ht : t ∈ F) : Tidy t.children words := by
  rintro G (rfl | hG)
  · exact h _ (.inr (.here ht))
  · exact h _ (.inr (.deeper ht hG))

theorem Tidy.mono {F : List OptTree} {words words' : List Str} (h : Tidy F words) (hs : ∀ w ∈ words', w ∈ words) : Tidy F words' :=
  fun G hG w hw => h G hG w (hs w hw)

theorem names_mem {opts : List OptTree} {w : Str} {t : OptTree} (h : Names opts w t) : t ∈ opts := List.mem_of_find?_eq_some h

/-- The part of the command line which belongs to the options below `t`. -/
theorem enter_line {f : Nat} {opts : List OptTree} {d : Data} {pre : List (List Op)} {N : List Op} {ws left : List Str} {cs : List Call}
    (hl : Line false opts ws cs left)
    (ih : opts ≠ [] → loop f opts (some d) false none (some d) ⟨pre ++ [N], none⟩ ws = .ok (⟨pre ++ [grow N d.1 cs], none⟩, left)) :
    enter (loop f) opts d ⟨pre ++ [N], none⟩ ws = .ok (⟨pre ++ [grow N d.1 cs], none⟩, left) := by
  by_cases hne : opts = []
  · subst hne
    obtain ⟨rfl, rfl⟩ := line_nil_opts hl
    simp [enter]
  · rw [enter_eq hne, ih hne]

theorem line_suffix {top : Bool} {opts : List OptTree} {ws left : List Str} {cs : List Call} (h : Line top opts ws cs left) : left <:+ ws := by
  induction h with
  | stop => exact List.suffix_refl _
  | blank _ _ ih => exact ih.trans (List.suffix_cons _ _)
  | one _ _ _ _ _ _ ih1 ih2 => exact (ih2.trans ih1).trans ((List.suffix_append _ _).trans (List.suffix_cons _ _))
  | group _ _ _ _ _ ih => exact ih.trans (List.suffix_cons _ _)

theorem nested_complete {top : Bool} {opts : List OptTree} {ws left : List Str} {cs : List Call} (hl : Line top opts ws cs left) :
    top = false → opts ≠ [] →
    ∀ (f : Nat) (d : Data) (pre : List (List Op)) (N : List Op), ws.length ≤ f → d.1 < N.length → Tidy opts ws →
    loop f opts (some d) false none (some d) ⟨pre ++ [N], none⟩ ws = .ok (⟨pre ++ [grow N d.1 cs], none⟩, left) := by
  induction hl with
  | stop hs =>
    intro _ hne f d pre N hf hd htidy
    simpa using loop_stops hf hne hs (htidy _ (.inl rfl))
  | @blank top opts words left cs _ _ ih =>
    intro htop hne f d pre N hf hd htidy
    match f, hf with
    | f + 1, hf =>
      rw [loop_blank]
      exact ih htop hne f d pre N (by simpa using hf) hd (htidy.mono fun w hw => List.mem_cons_of_mem _ hw)
  | @one top opts word t args sub rest left subs cs hw ht hb hargs hsub hrest ih1 ih2 =>
    intro htop hne f d pre N hf hd htidy
    subst htop
    match f, hf with
    | f + 1, hf =>
      have hf' : (args ++ sub).length ≤ f := by simpa using hf
      have hsuf := (line_suffix hsub).length_le
      have htc : Tidy t.children sub :=
        (htidy.child (names_mem ht)).mono fun w hw => List.mem_cons_of_mem _ (List.mem_append_right _ hw)
      have htr : Tidy opts rest := htidy.mono fun w hw => List.mem_cons_of_mem _ (List.mem_append_right _ ((line_suffix hsub).mem hw))
      by_cases hbd : t.bound = true
      · rw [loop_bound hw ht hbd]
        obtain ⟨f', h1, h2⟩ := collect_exact (opts := opts) (prev := some d) (top := false) (t := t) (pre := pre) (i := N.length) (s := 0)
          (h := none) (N := N ++ [⟨some d.1, t.opt.early, t.opt.late, []⟩]) (op := ⟨some d.1, t.opt.early, t.opt.late, []⟩) hf' (by simp) rfl hargs
        rw [h2, addArgs_last, List.nil_append, enter_line hsub fun hne' => ih1 rfl hne' f' _ pre _ h1 (by simp) htc]
        simp only [Res.bind]
        have h3 := length_grow (N ++ [⟨some d.1, t.opt.early, t.opt.late, args⟩]) N.length subs
        rw [ih2 rfl hne f' d pre _ (by omega) (by simp at h3; omega) htr, grow_bound hd hbd]
      · have hop := List.getElem?_eq_getElem hd
        rw [loop_unbound hw ht (by simpa using hbd) hop]
        obtain ⟨f', h1, h2⟩ := collect_exact (opts := opts) (prev := some d) (top := false) (t := t) (pre := pre) (i := d.1)
          (h := none) hf' hop rfl hargs
        rw [h2, enter_line hsub fun hne' => ih1 rfl hne' f' _ pre _ h1 (by simpa using hd) htc]
        simp only [Res.bind]
        have h3 := length_grow (addArgs N d.1 args) d.1 subs
        rw [ih2 rfl hne f' d pre _ (by omega) (by simp at h3; omega) htr, grow_unbound hd (by simpa using hbd)]
  | @group top opts word ts rest left cs hu hh hg hb hrest ih =>
    intro htop hne f d pre N hf hd htidy
    subst htop
    match f, hf with
    | f + 1, hf =>
      rw [loop_other (groups_ne hg) hu hh, processConcat_candidate (Dashed.candidate hg.1),
        concatLoop_nested (letters word) ts N (fun c hc => letters_ne hc) hg.2.2.1 hd]
      simp only [Res.bind, if_true]
      rw [ih rfl hne f d pre _ (by simpa using hf) (by simp; omega) (htidy.mono fun w hw => List.mem_cons_of_mem _ hw), grow_group hd]

theorem grow_root (e l : Option Nat) (args : List Str) (subs : List Call) :
    grow [⟨none, e, l, args⟩] 0 subs = flat none 0 (.node e l (args ++ extraOf subs) (opsOf subs)) := by
  simp [grow, addArgs, flat]

theorem orderly_child {opts : List OptTree} {words : List Str} (h : Orderly opts words) {t : OptTree} (ht : t ∈ opts) : Tidy t.children words := by
  rintro G (rfl | hG)
  · exact h.1 _ (.here ht)
  · exact h.1 _ (.deeper ht hG)

theorem Orderly.mono {opts : List OptTree} {words words' : List Str} (h : Orderly opts words) (hs : ∀ w ∈ words', w ∈ words) : Orderly opts words' :=
  ⟨fun F hF w hw => h.1 F hF w (hs w hw), fun w hw => h.2 w (hs w hw)⟩

theorem map_some_inj {α : Type} {xs ys : List α} (h : xs.map some = ys.map some) : xs = ys := by
  induction xs generalizing ys with
  | nil => cases ys <;> simp_all
  | cons x xs ih =>
    cases ys with
    | nil => simp at h
    | cons y ys =>
      simp only [List.map_cons, List.cons.injEq, Option.some.injEq] at h
      rw [h.1, ih h.2]

theorem top_complete {top : Bool} {opts : List OptTree} {ws left : List Str} {cs : List Call} (hl : Line top opts ws cs left) :
    top = true → left = [] → ∀ (f : Nat) (ops : List (List Op)), ws.length ≤ f → Orderly opts ws →
    loop f opts none true none none ⟨ops, none⟩ ws = .ok (⟨ops ++ (opsOf cs).map (flat none 0), none⟩, []) := by
  induction hl with
  | stop hs =>
    intro _ hleft f ops hf hord
    subst hleft
    rw [loop_nil]
    simp [final, opsOf]
  | blank _ _ ih =>
    intro htop hleft f ops hf hord
    match f, hf with
    | f + 1, hf =>
      rw [loop_blank]
      exact ih htop hleft f ops (by simpa using hf) (Orderly.mono hord fun w hw => List.mem_cons_of_mem _ hw)
  | @one top opts word t args sub rest left subs cs hw ht hb hargs hsub hrest ih1 ih2 =>
    intro htop hleft f ops hf hord
    subst htop
    match f, hf with
    | f + 1, hf =>
      have hf' : (args ++ sub).length ≤ f := by simpa using hf
      have hsuf := (line_suffix hsub).length_le
      have htc : Tidy t.children sub :=
        (orderly_child hord (names_mem ht)).mono fun w hw => List.mem_cons_of_mem _ (List.mem_append_right _ hw)
      rw [loop_top hw ht, if_pos (hb rfl)]
      obtain ⟨f', h1, h2⟩ := collect_exact (opts := opts) (prev := none) (top := true) (t := t) (pre := ops) (i := 0) (s := 0)
        (h := none) (N := [⟨none, t.opt.early, t.opt.late, []⟩]) hf' rfl rfl hargs
      have e1 : addArgs [⟨none, t.opt.early, t.opt.late, []⟩] 0 args = [⟨none, t.opt.early, t.opt.late, args⟩] := by simp [addArgs]
      rw [h2, e1, enter_line hsub fun hne' => nested_complete hsub rfl hne' f' _ ops _ h1 (by simp) htc]
      simp only [Res.bind]
      rw [ih2 rfl hleft f' _ (by omega) (Orderly.mono hord fun w hw => List.mem_cons_of_mem _ (List.mem_append_right _ ((line_suffix hsub).mem hw))),
        grow_root]
      simp [opsOf, Call.ops, hb rfl]
  | @group top opts word ts rest left cs hu hh hg hb hrest ih =>
    intro htop hleft f ops hf hord
    subst htop
    match f, hf with
    | f + 1, hf =>
      rw [loop_other (groups_ne hg) hu hh, processConcat_candidate (Dashed.candidate hg.1)]
      rcases concatLoop_top (opts := opts) (data := none) (letters word) ops fun c hc => letters_ne hc with ⟨ts', h1, h2, h3⟩ | ⟨h1, _⟩
      · obtain rfl : ts = ts' := map_some_inj (hg.2.2.1.symm.trans h1)
        rw [h3]
        simp only [Res.bind, if_true]
        rw [ih rfl hleft f _ (by simpa using hf) (Orderly.mono hord fun w hw => List.mem_cons_of_mem _ hw)]
        simp [opsOf, Call.ops, leaves]
      · exact absurd ⟨ts, hg.2.2.1, hb rfl⟩ h1

/-! ### Soundness -/

/-- ForestBelow the top level: an exception, help, or a part of a command line. -/
def Sound (opts : List OptTree) (d : Data) (pre : List (List Op)) (N : List Op) (as : List Str) (r : Res (St × List Str)) : Prop :=
  r = .throws ∨ ("--help".toList ∈ as ∧ ∃ N' h rest, r = .ok (⟨pre ++ [N'], some h⟩, rest) ∧ N.length ≤ N'.length ∧ rest.length ≤ as.length) ∨
  ∃ cs left, Line false opts as cs left ∧ r = .ok (⟨pre ++ [grow N d.1 cs], none⟩, left)

/-- ForestBelow the top level, and at it, options without function object have no parameters. -/
def NoParams (F : List OptTree) : Prop := ∀ G, G = F ∨ ForestBelow F G → ∀ t ∈ G, t.bound = false → t.opt.params = []

theorem NoParams.child {F : List OptTree} (h : NoParams F) {t : OptTree} (ht : t ∈ F) : NoParams t.children := by
  rintro G (rfl | hG)
  · exact h _ (.inr (.here ht))
  · exact h _ (.inr (.deeper ht hG))

theorem enter_sound {f : Nat} {opts : List OptTree} {d : Data} {pre : List (List Op)} {N : List Op} {as : List Str}
    (ih : opts ≠ [] → Sound opts d pre N as (loop f opts (some d) false none (some d) ⟨pre ++ [N], none⟩ as)) :
    Sound opts d pre N as (enter (loop f) opts d ⟨pre ++ [N], none⟩ as) := by
  by_cases hne : opts = []
  · subst hne
    exact .inr (.inr ⟨[], as, .stop (.inl rfl), by simp [enter]⟩)
  · rw [enter_eq hne]; exact ih hne

theorem nested_sound : ∀ (f : Nat) (opts : List OptTree) (d : Data) (pre : List (List Op)) (N : List Op) (as : List Str), opts ≠ [] →
    as.length ≤ f → d.1 < N.length → Tidy opts as → NoParams opts →
    Sound opts d pre N as (loop f opts (some d) false none (some d) ⟨pre ++ [N], none⟩ as) := by
  intro f
  induction f using Nat.strongRecOn with
  | _ f ih =>
  intro opts d pre N as hne hf hd htidy hnp
  match as, f, hf with
  | [], f, _ => rw [loop_nil]; exact .inr (.inr ⟨[], [], .stop (Stops.nil _), by simp [final]⟩)
  | a :: as, f + 1, hf =>
    have hf' : as.length ≤ f := by simpa using hf
    have afterHelp : ∀ (N' : List Op) (h : List OptTree) (rest : List Str) (f' : Nat), "--help".toList ∈ as → N.length ≤ N'.length → rest.length ≤ f' →
        rest.length ≤ as.length →
        Sound opts d pre N (a :: as) (loop f' opts (some d) false none (some d) ⟨pre ++ [N'], some h⟩ rest) := by
      intro N' h rest f' h0 h1 h2 h3
      rcases nested_defd f' opts d pre N' (some h) rest h2 (by omega) with h4 | ⟨N'', h', r, h4, h5, h6, h7⟩
      · exact .inl h4
      · have := h7 rfl
        obtain ⟨h'', rfl⟩ := Option.isSome_iff_exists.1 this
        exact .inr (.inl ⟨List.mem_cons_of_mem _ h0, N'', h'', r, h4, by omega, by simp; omega⟩)
    have opt : ∀ (t : OptTree) (i s : Nat) (N₀ : List Op) (op : Op), a ≠ [] → Names opts a t → N.length ≤ N₀.length → N₀[i]? = some op →
        op.args.length = s → (t.opt.params = [] ∨ s = 0) →
        (∀ (args : List Str) (subs : List Call), N.length ≤ (grow (addArgs N₀ i args) i subs).length) →
        (∀ (args : List Str) (subs cs : List Call), grow N d.1 (.one a t args subs :: cs) = grow (grow (addArgs N₀ i args) i subs) d.1 cs) →
        Sound opts d pre N (a :: as) (complete (loop f) opts (some d) false t (i, s) ⟨pre ++ [N₀], none⟩ as) := by
      intro t i s N₀ op ha ht h1 h2 h3 h3' hlen hgrow
      rcases collect (opts := opts) (prev := some d) (top := false) (t := t) (pre := pre) (i := i) (s := s) (h := none)
        t.opt.params.length f as N₀ op hf' h2 (by omega) with ⟨h0, h4⟩ | ⟨ps, rest, f', h4, h5, h6, h7, h8⟩
      · rw [h4, if_pos]
        · exact .inl rfl
        · rcases h3' with h3' | h3'
          · rw [h3'] at h0; simp at h0
          · omega
      · rw [h8]
        subst h4
        have hi : i < (addArgs N₀ i ps).length := by
          have := List.getElem?_eq_some_iff.1 h2
          simpa using this.1
        have htc : Tidy t.children rest :=
          (htidy.child (names_mem ht)).mono fun w hw => List.mem_cons_of_mem _ (List.mem_append_right _ hw)
        rcases enter_sound fun hne' => ih f' (by omega) t.children (i, s) pre (addArgs N₀ i ps) rest hne' h6 hi htc (hnp.child (names_mem ht)) with
          h9 | ⟨h9, N', h', r, h10, h11, h12⟩ | ⟨subs, r, h9, h10⟩
        · rw [h9]; exact .inl rfl
        · rw [h10]
          simp only [Res.bind]
          rw [length_addArgs] at h11
          exact afterHelp N' h' r f' (List.mem_append_right _ h9) (by omega) (by omega) (by simp; omega)
        · rw [h10]
          simp only [Res.bind]
          have hsuf := line_suffix h9
          have := hsuf.length_le
          have hg := hlen ps subs
          have htr : Tidy opts r := htidy.mono fun w hw => List.mem_cons_of_mem _ (List.mem_append_right _ (hsuf.mem hw))
          rcases ih f' (by omega) opts d pre (grow (addArgs N₀ i ps) i subs) r hne (by omega) (by omega) htr hnp with
            h11 | ⟨h11, N', h', r', h12, h13, h14⟩ | ⟨cs, left, h11, h12⟩
          · exact .inl h11
          · exact .inr (.inl ⟨List.mem_cons_of_mem _ (List.mem_append_right _ (hsuf.mem h11)), N', h', r', h12, by omega, by simp; omega⟩)
          · refine .inr (.inr ⟨.one a t ps subs :: cs, left, .one ha ht (fun h => by cases h) h5 h9 h11, ?_⟩)
            rw [h12, hgrow]
    by_cases ha : a = []
    · subst ha
      rw [loop_blank]
      rcases ih f (by omega) opts d pre N as hne hf' hd (htidy.mono fun w hw => List.mem_cons_of_mem _ hw) hnp with
        h1 | ⟨h1, N', h', r, h2, h3, h4⟩ | ⟨cs, left, h1, h2⟩
      · exact .inl h1
      · exact .inr (.inl ⟨List.mem_cons_of_mem _ h1, N', h', r, h2, h3, by simp; omega⟩)
      · exact .inr (.inr ⟨cs, left, .blank hne h1, h2⟩)
    · cases hfo : findOption opts a with
      | none =>
        have hu := findOption_none.1 hfo
        by_cases hh : a = "--help".toList
        · subst hh
          rw [loop_help hu]
          exact .inr (.inl ⟨List.mem_cons_self, N, opts, as, rfl, Nat.le_refl _, by simp⟩)
        · by_cases hg : ∃ ts, Groups opts a ts
          · obtain ⟨ts, hg⟩ := hg
            rw [loop_other ha hu hh, processConcat_candidate (Dashed.candidate hg.1), concatLoop_nested (letters a) ts N (fun c hc => letters_ne hc) hg.2.2.1 hd]
            simp only [Res.bind, if_true]
            rcases ih f (by omega) opts d pre (N ++ flatL (some d.1) N.length (leaves ts)) as hne hf' (by simp; omega)
              (htidy.mono fun w hw => List.mem_cons_of_mem _ hw) hnp with h1 | ⟨h1, N', h', r, h2, h3, h4⟩ | ⟨cs, left, h1, h2⟩
            · exact .inl h1
            · exact .inr (.inl ⟨List.mem_cons_of_mem _ h1, N', h', r, h2, by simp at h3; omega, by simp; omega⟩)
            · refine .inr (.inr ⟨.group a ts :: cs, left, .group hu hh hg (fun h => by cases h) h1, ?_⟩)
              rw [h2, grow_group hd]
          · have hs : Stops opts (a :: as) := .inr (.inr ⟨a, as, rfl, ha, hu, hh, fun ts h => hg ⟨ts, h⟩⟩)
            rw [loop_stops hf hne hs (htidy _ (.inl rfl))]
            exact .inr (.inr ⟨[], a :: as, .stop hs, by simp⟩)
      | some t =>
        have ht := findOption_some.1 hfo
        by_cases hb : t.bound = true
        · rw [loop_bound ha ht hb]
          refine opt t N.length 0 _ ⟨some d.1, t.opt.early, t.opt.late, []⟩ ha ht (by simp) (by simp) rfl (.inr rfl) (fun args subs => ?_)
            fun args subs cs => ?_
          · have := length_grow (addArgs (N ++ [⟨some d.1, t.opt.early, t.opt.late, []⟩]) N.length args) N.length subs
            simp at this
            omega
          · rw [grow_bound hd hb, addArgs_last]; rfl
        · have hb' : t.bound = false := by simpa using hb
          have hop := List.getElem?_eq_getElem hd
          rw [loop_unbound ha ht hb' hop]
          refine opt t d.1 _ N _ ha ht (Nat.le_refl _) hop rfl (.inl (hnp _ (.inl rfl) t (names_mem ht) hb')) (fun args subs => ?_)
            fun args subs cs => grow_unbound hd hb'
          have := length_grow (addArgs N d.1 args) d.1 subs
          simpa using this

theorem top_sound : ∀ (f : Nat) (opts : List OptTree) (ops : List (List Op)) (as : List Str), opts ≠ [] →
    as.length ≤ f → Orderly opts as → BoundParams opts →
    loop f opts none true none none ⟨ops, none⟩ as = .throws ∨
    ("--help".toList ∈ as ∧ ∃ ops' h rest, loop f opts none true none none ⟨ops, none⟩ as = .ok (⟨ops', some h⟩, rest)) ∨
    ∃ cs, Line true opts as cs [] ∧ loop f opts none true none none ⟨ops, none⟩ as = .ok (⟨ops ++ (opsOf cs).map (flat none 0), none⟩, []) := by
  intro f
  induction f using Nat.strongRecOn with
  | _ f ih =>
  intro opts ops as hne hf hord hbp
  match as, f, hf with
  | [], f, _ => rw [loop_nil]; exact .inr (.inr ⟨[], .stop (Stops.nil _), by simp [final, opsOf]⟩)
  | a :: as, f + 1, hf =>
    have hf' : as.length ≤ f := by simpa using hf
    by_cases ha : a = []
    · subst ha
      rw [loop_blank]
      rcases ih f (by omega) opts ops as hne hf' (Orderly.mono hord fun w hw => List.mem_cons_of_mem _ hw) hbp with
        h1 | ⟨h1, h2⟩ | ⟨cs, h1, h2⟩
      · exact .inl h1
      · exact .inr (.inl ⟨List.mem_cons_of_mem _ h1, h2⟩)
      · exact .inr (.inr ⟨cs, .blank hne h1, h2⟩)
    · cases hfo : findOption opts a with
      | none =>
        have hu := findOption_none.1 hfo
        by_cases hh : a = "--help".toList
        · subst hh
          rw [loop_help hu]
          exact .inr (.inl ⟨List.mem_cons_self, ops, opts, as, rfl⟩)
        · rw [loop_other ha hu hh]
          by_cases hgr : Candidate a
          · rw [processConcat_candidate hgr]
            rcases concatLoop_top (opts := opts) (data := none) (letters a) ops fun c hc => letters_ne hc with
              ⟨ts, h1, h2, h3⟩ | ⟨_, h2 | ⟨ops', h2⟩⟩
            · rw [h3]
              simp only [Res.bind, if_true]
              have hg : Groups opts a ts := by
                rcases hord.2 a List.mem_cons_self hu hgr with ⟨ts', h4⟩ | ⟨c, h4, h5⟩
                · obtain rfl : ts' = ts := map_some_inj (h4.2.2.1.symm.trans h1)
                  exact h4
                · have h6 : letterOption opts c ∈ (letters a).map (letterOption opts) := List.mem_map_of_mem h4
                  rw [h1, h5] at h6
                  simp at h6
              rcases ih f (by omega) opts (ops ++ (leaves ts).map (flat none 0)) as hne hf'
                (Orderly.mono hord fun w hw => List.mem_cons_of_mem _ hw) hbp with h4 | ⟨h4, h5⟩ | ⟨cs, h4, h5⟩
              · exact .inl h4
              · exact .inr (.inl ⟨List.mem_cons_of_mem _ h4, h5⟩)
              · refine .inr (.inr ⟨.group a ts :: cs, .group hu hh hg (fun _ => h2) h4, ?_⟩)
                rw [h5]
                simp [opsOf, Call.ops, leaves]
            · rw [h2]; exact .inl rfl
            · rw [h2]; exact .inl rfl
          · rw [processConcat_not hgr]; exact .inl rfl
      | some t =>
        have ht := findOption_some.1 hfo
        rw [loop_top ha ht]
        split
        · rename_i hb
          rcases collect (opts := opts) (prev := none) (top := true) (t := t) (pre := ops) (i := 0) (s := 0) (h := none)
            t.opt.params.length f as [⟨none, t.opt.early, t.opt.late, []⟩] _ hf' rfl (by simp) with ⟨h0, h4⟩ | ⟨ps, rest, f', h4, h5, h6, h7, h8⟩
          · rw [h4, if_pos (by simp; omega)]
            exact .inl rfl
          · rw [h8]
            subst h4
            have htc : Tidy t.children rest :=
              (orderly_child hord (names_mem ht)).mono fun w hw => List.mem_cons_of_mem _ (List.mem_append_right _ hw)
            have hnc : NoParams t.children := by
              rintro G (rfl | hG)
              · exact hbp _ (.here (names_mem ht))
              · exact hbp _ (.deeper (names_mem ht) hG)
            have e1 : addArgs [⟨none, t.opt.early, t.opt.late, []⟩] 0 ps = [⟨none, t.opt.early, t.opt.late, ps⟩] := by simp [addArgs]
            rw [e1]
            rcases enter_sound fun hne' => nested_sound f' t.children (0, 0) ops [⟨none, t.opt.early, t.opt.late, ps⟩] rest hne' h6 (by simp) htc
              hnc with h9 | ⟨h9, N', h', r, h10, h11, h12⟩ | ⟨subs, r, h9, h10⟩
            · rw [h9]; exact .inl rfl
            · rw [h10]
              simp only [Res.bind]
              rcases top_defd f' opts (ops ++ [N']) (some h') r (by omega) with h13 | ⟨o, h'', r', h13, h14⟩
              · exact .inl h13
              · obtain ⟨hx, rfl⟩ := Option.isSome_iff_exists.1 (h14 rfl)
                exact .inr (.inl ⟨List.mem_cons_of_mem _ (List.mem_append_right _ h9), o, hx, r', h13⟩)
            · rw [h10]
              simp only [Res.bind]
              have hsuf := line_suffix h9
              have := hsuf.length_le
              rcases ih f' (by omega) opts (ops ++ [grow [⟨none, t.opt.early, t.opt.late, ps⟩] 0 subs]) r hne (by omega)
                (Orderly.mono hord fun w hw => List.mem_cons_of_mem _ (List.mem_append_right _ (hsuf.mem hw))) hbp with
                h11 | ⟨h11, h12⟩ | ⟨cs, h11, h12⟩
              · exact .inl h11
              · exact .inr (.inl ⟨List.mem_cons_of_mem _ (List.mem_append_right _ (hsuf.mem h11)), h12⟩)
              · refine .inr (.inr ⟨.one a t ps subs :: cs, .one ha ht (fun _ => hb) h5 h9 h11, ?_⟩)
                rw [h12, grow_root]
                simp [opsOf, Call.ops, hb]
        · exact .inl rfl

end Verif.Cmd
