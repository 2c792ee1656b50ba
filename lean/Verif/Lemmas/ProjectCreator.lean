import Verif.Spec.ProjectCreator
import Verif.Lemmas.Materials
import Mathlib.Data.List.Nodup
import Mathlib.Data.List.Induction

set_option linter.unusedVariables false
set_option linter.unusedSimpArgs false

/-
Lemmas on the copying of directories and the creation of projects.
-/
namespace Verif.ProjectCreator
open Verif.Text Verif.Materials Verif.ProjectCreator Verif.Spec.ProjectCreator

theorem mem_children {fs : Disk} {p : Path} {x : String} : x ∈ children fs p ↔ get fs (p ++ [x]) ≠ none := by
  unfold children
  rw [List.mem_dedup, List.mem_filterMap]
  constructor
  · rintro ⟨e, he, hx⟩
    have h1 : below p e.1 = some [x] := by
      split at hx
      · next n h => cases hx; exact h
      · cases hx
    rw [below_iff] at h1
    rw [← h1]
    exact get_mem he
  · intro h
    unfold Materials.get at h
    cases hf : fs.find? (fun e => e.1 == p ++ [x]) with
    | none => rw [hf] at h; exact absurd rfl h
    | some e =>
      refine ⟨e, List.mem_of_find?_eq_some hf, ?_⟩
      have := List.find?_some hf
      have he : e.1 = p ++ [x] := by simpa using this
      rw [he, below_append]

theorem nodup_children (fs : Disk) (p : Path) : (children fs p).Nodup := List.nodup_dedup _

/-- Two paths with different first names below a common one. -/
theorem split_below {dst p : Path} {x y : String} (hx : dst ++ [x] <+: p) (hy : dst ++ [y] <+: p) : x = y := by
  obtain ⟨a, ha⟩ := hx
  obtain ⟨b, hb⟩ := hy
  rw [← hb] at ha
  simp only [List.append_assoc, List.append_cancel_left_eq] at ha
  exact (List.cons.inj ha).1

theorem snoc_prefix {dst : Path} {x : String} {r : Path} : dst ++ [x] <+: dst ++ x :: r := ⟨r, by simp⟩

/-- Entries are dealt with one by one, each of them below a path of its own. -/
theorem forEach_ok {σ : Type} (g : σ → Disk) (I : σ → Prop) (f : String → σ → Out σ) (dst : Path) (want : String → Path → Option (Node Str)) (s₀ : σ) :
    ∀ (xs : List String), xs.Nodup → ∀ (ys : List String), (∀ y ∈ ys, y ∉ xs) → ∀ s, I s →
      (∀ p, (∀ y ∈ ys, ¬ dst ++ [y] <+: p) → get (g s) p = get (g s₀) p) →
      (∀ x ∈ xs, ∀ s', I s' → (∀ p, (∀ y, dst ++ [y] <+: p → y = x) → get (g s') p = get (g s₀) p) →
        ∃ s'', f x s' = .ok s'' ∧ I s'' ∧ (∀ r, get (g s'') (dst ++ x :: r) = want x r) ∧ ∀ p, ¬ dst ++ [x] <+: p → get (g s'') p = get (g s') p) →
      ∃ s', forEach f xs s = .ok s' ∧ I s' ∧ (∀ x ∈ xs, ∀ r, get (g s') (dst ++ x :: r) = want x r) ∧ ∀ p, (∀ x ∈ xs, ¬ dst ++ [x] <+: p) → get (g s') p = get (g s) p := by
  intro xs
  induction xs with
  | nil => intro _ ys _ s hI _ _; exact ⟨s, rfl, hI, by simp, fun _ _ => rfl⟩
  | cons x xs ih =>
    intro hn ys hys s hI hs hf
    have hxxs : x ∉ xs := (List.nodup_cons.1 hn).1
    obtain ⟨s1, h1, hI1, hw1, hfr1⟩ := hf x (by simp) s hI (by
      intro p hp
      refine hs p fun y hy hyp => ?_
      have := hp y hyp
      exact hys y hy (by simp [this]))
    obtain ⟨s2, h2, hI2, hw2, hfr2⟩ := ih (List.nodup_cons.1 hn).2 (x :: ys) (by
        intro y hy
        rcases List.mem_cons.1 hy with rfl | hy
        · exact hxxs
        · exact fun h => hys y hy (by simp [h])) s1 hI1 (by
        intro p hp
        rw [hfr1 p (hp x (by simp)), hs p fun y hy => hp y (by simp [hy])]) (fun z hz => hf z (by simp [hz]))
    refine ⟨s2, ?_, hI2, ?_, ?_⟩
    · simp only [forEach, h1, Out.bind, h2]
    · intro z hz r
      rcases List.mem_cons.1 hz with rfl | hz
      · rw [hfr2 _ (fun w hw hp => hxxs (by
          have := split_below hp (snoc_prefix (r := r))
          rwa [← this])), hw1]
      · exact hw2 z hz r
    · intro p hp
      rw [hfr2 p fun w hw => hp w (by simp [hw]), hfr1 p (hp x (by simp))]

/-- What is below a path is in directories. -/
def Closed (fs : Disk) (p : Path) : Prop := ∀ r x, get fs (p ++ r ++ [x]) ≠ none → get fs (p ++ r) = some .dir

theorem Closed.congr {fs fs' : Disk} {p : Path} (h : Closed fs p) (he : ∀ r, get fs' (p ++ r) = get fs (p ++ r)) : Closed fs' p := by
  intro r x
  rw [List.append_assoc, he, he]
  have := h r x
  rwa [List.append_assoc] at this

theorem Closed.child {fs : Disk} {p : Path} (h : Closed fs p) (x : String) : Closed fs (p ++ [x]) := by
  intro r y
  have := h (x :: r) y
  simpa using this

theorem Closed.none {fs : Disk} {p : Path} (h : Closed fs p) : ∀ r, get fs p ≠ some .dir → r ≠ [] → get fs (p ++ r) = none := by
  intro r hp hr
  induction r using List.reverseRecOn with
  | nil => exact absurd rfl hr
  | append_singleton r x ih =>
    cases hg : get fs (p ++ (r ++ [x])) with
    | none => rfl
    | some v =>
      have h1 := h r x (by rw [List.append_assoc, hg]; simp)
      by_cases hr' : r = []
      · subst hr'; simp at h1; exact absurd h1 hp
      · rw [ih hr'] at h1; cases h1

theorem closed_of_rooted {fs : Disk} (h : Rooted fs) (p : Path) : Closed fs p := fun r x hx => h (p ++ r) x hx

theorem parent_append (p : Path) (x : String) : parent (p ++ [x]) = p := by simp [parent]

theorem apart_child {src dst : Path} (h : Apart src dst) (x : String) : Apart (src ++ [x]) (dst ++ [x]) := by
  constructor
  · intro hp
    have h1 : src <+: dst ++ [x] := (List.prefix_append _ _).trans hp
    rcases prefix_total h1 (List.prefix_append dst [x]) with h2 | h2
    · exact h.1 h2
    · exact h.2 h2
  · intro hp
    have h1 : dst <+: src ++ [x] := (List.prefix_append _ _).trans hp
    rcases prefix_total h1 (List.prefix_append src [x]) with h2 | h2
    · exact h.2 h2
    · exact h.1 h2

theorem apart_below {src dst p : Path} (h : Apart src dst) (hp : src <+: p) : ¬ dst <+: p := by
  intro hd
  rcases prefix_total hp hd with h1 | h1
  · exact h.1 h1
  · exact h.2 h1

/-- The copying of all entries of a directory into another one, in which none of them is yet. -/
theorem copyAll_ok {skip : Bool} {n : Nat}
    (IH : ∀ {src dst : Path} {fs : Disk}, Apart src dst → Closed fs src → get fs src ≠ none → (∀ r, get fs (src ++ r) ≠ none → r.length < n) →
      (∀ r, get fs (dst ++ r) = none) → dst ≠ [] → get fs (parent dst) = some .dir →
      ∃ fs', copyTree skip n src dst fs = .ok fs' ∧ (∀ r, get fs' (dst ++ r) = get fs (src ++ r)) ∧ ∀ p, ¬ dst <+: p → get fs' p = get fs p)
    {src dst : Path} {fs : Disk} (ha : Apart src dst) (hc : Closed fs src) (hh : ∀ r, get fs (src ++ r) ≠ none → r.length < n + 1)
    (hd : get fs dst = some .dir) (hf : ∀ x r, get fs (src ++ [x]) ≠ none → get fs (dst ++ x :: r) = none) :
    ∃ fs', forEach (fun x => copyTree skip n (src ++ [x]) (dst ++ [x])) (children fs src) fs = .ok fs' ∧
      (∀ x r, get fs (src ++ [x]) ≠ none → get fs' (dst ++ x :: r) = get fs (src ++ x :: r)) ∧
      ∀ p, (∀ x, get fs (src ++ [x]) ≠ none → ¬ dst ++ [x] <+: p) → get fs' p = get fs p := by
  obtain ⟨fs', h1, -, h2, h3⟩ := forEach_ok (σ := Disk) id (fun _ => True) (fun x => copyTree skip n (src ++ [x]) (dst ++ [x])) dst
    (fun x r => get fs (src ++ x :: r)) fs (children fs src) (nodup_children fs src) [] (by simp) fs trivial (by simp) (by
      intro x hx s' _ hs'
      have hsrc : ∀ r, get s' (src ++ r) = get fs (src ++ r) := fun r => hs' _ fun y hy =>
        absurd ((List.prefix_append _ _).trans hy) (apart_below ha (List.prefix_append _ _))
      have hdst : ∀ r, get s' (dst ++ x :: r) = get fs (dst ++ x :: r) := fun r => hs' _ fun y hy => split_below hy snoc_prefix
      have hdd : get s' dst = get fs dst := hs' _ fun y hy => by
        have := hy.length_le
        simp at this
        omega
      have hx' := mem_children.1 hx
      obtain ⟨s'', g1, g2, g3⟩ := IH (src := src ++ [x]) (dst := dst ++ [x]) (fs := s') (apart_child ha x)
        ((hc.congr hsrc).child x) (by rw [hsrc]; exact hx')
        (fun r hr => by
          have := hh (x :: r) (by rw [← hsrc]; simpa using hr)
          simpa using this)
        (fun r => by
          have := hf x r hx'
          rw [← hdst] at this
          simpa using this)
        (by simp) (by rw [parent_append, hdd, hd])
      refine ⟨s'', g1, trivial, fun r => ?_, fun p hp => g3 p hp⟩
      have := g2 r
      simp only [List.append_assoc, List.singleton_append] at this
      show get s'' _ = _
      rw [this, hsrc])
  exact ⟨fs', h1, fun x r hx => h2 x (mem_children.2 hx) r, fun p hp => h3 p fun x hx => hp x (mem_children.1 hx)⟩

/-- Copying to where there is nothing. -/
theorem copyTree_fresh {skip : Bool} : ∀ {n : Nat} {src dst : Path} {fs : Disk}, Apart src dst → Closed fs src → get fs src ≠ none → (∀ r, get fs (src ++ r) ≠ none → r.length < n) →
    (∀ r, get fs (dst ++ r) = none) → dst ≠ [] → get fs (parent dst) = some .dir →
    ∃ fs', copyTree skip n src dst fs = .ok fs' ∧ (∀ r, get fs' (dst ++ r) = get fs (src ++ r)) ∧ ∀ p, ¬ dst <+: p → get fs' p = get fs p := by
  intro n
  induction n with
  | zero =>
    intro src dst fs ha hc hs hh hd _ hp
    have := hh [] (by simpa using hs)
    omega
  | succ n ih =>
    intro src dst fs ha hc hs hh hd hne hp
    have hd0 : get fs dst = none := by simpa using hd []
    have e1 : isDir fs dst = false := by
      cases h : isDir fs dst with
      | false => rfl
      | true => rw [isDir_iff, hd0] at h; cases h
    have e2 : exists' fs dst = false := by
      cases h : exists' fs dst with
      | false => rfl
      | true => rw [exists'_iff] at h; exact absurd hd0 h
    have e3 : isFile fs dst = false := by
      cases h : isFile fs dst with
      | false => rfl
      | true => obtain ⟨c, hc⟩ := isFile_iff.1 h; rw [hd0] at hc; cases hc
    have e4 : isDir fs (parent dst) = true := isDir_iff.2 hp
    unfold copyTree
    cases hsrc : get fs src with
    | none => exact absurd hsrc hs
    | some v =>
      cases v with
      | file c =>
        simp only [e1, if_false, e2, e4, if_true, Bool.false_eq_true]
        refine ⟨_, rfl, ?_, ?_⟩
        · intro r
          rw [get_cons]
          by_cases hr : r = []
          · subst hr; simp [hsrc]
          · rw [if_neg (by simpa using hr), hd, hc.none r (by rw [hsrc]; simp) hr]
        · intro p hpp
          rw [get_cons, if_neg]
          rintro rfl
          exact hpp List.prefix_rfl
      | dir =>
        simp only [e3, e2, e4, if_false, if_true, Bool.false_eq_true, Out.bind]
        have hsame : ∀ p, p ≠ dst → get ((dst, Node.dir) :: fs) p = get fs p := fun p hp => by rw [get_cons, if_neg (fun h => hp h.symm)]
        have hs' : ∀ r, get ((dst, Node.dir) :: fs) (src ++ r) = get fs (src ++ r) := fun r => hsame _ (by
          rintro h
          exact ha.1 ⟨r, h⟩)
        obtain ⟨fs', h1, h2, h3⟩ := copyAll_ok (skip := skip) (n := n) (fun {src dst fs} => ih) (src := src) (dst := dst) (fs := (dst, .dir) :: fs) ha
          (hc.congr hs') (fun r hr => hh r (by rwa [hs'] at hr)) (by rw [get_cons, if_pos rfl]) (fun x r _ => by
            rw [hsame _ (by simp)]
            exact hd _)
        refine ⟨fs', h1, ?_, ?_⟩
        · intro r
          cases r with
          | nil =>
            rw [h3 _ (fun x _ hx => by have := hx.length_le; simp at this; omega), List.append_nil, get_cons, if_pos rfl, List.append_nil, hsrc]
          | cons x r =>
            by_cases hx : get fs (src ++ [x]) = none
            · rw [h3 _ (fun y hy hyp => by
                have := split_below hyp snoc_prefix
                subst this
                rw [hs'] at hy
                exact hy hx), hsame _ (by simp), hd]
              have := (hc.child x).none r (by rw [hx]; simp)
              by_cases hr : r = []
              · subst hr; exact hx.symm
              · have := this hr
                simpa using this.symm
            · rw [h2 x r (by rw [hs']; exact hx), hs']
        · intro p hpp
          rw [h3 p (fun x _ hx => hpp ((List.prefix_append _ _).trans hx)), hsame]
          rintro rfl
          exact hpp List.prefix_rfl

/-- Copying into a directory which has nothing in common with what is copied. -/
theorem copyTree_merge {skip : Bool} {n : Nat} {src dst : Path} {fs : Disk} (ha : Apart src dst) (hc : Closed fs src) (hcd : Closed fs dst) (hs : get fs src = some .dir)
    (hh : ∀ r, get fs (src ++ r) ≠ none → r.length < n) (hd : get fs dst = some .dir) (hf : ∀ x, get fs (src ++ [x]) ≠ none → get fs (dst ++ [x]) = none) :
    ∃ fs', copyTree skip n src dst fs = .ok fs' ∧ (∀ r, get fs' (dst ++ r) = (get fs (dst ++ r)).or (get fs (src ++ r))) ∧ ∀ p, ¬ dst <+: p → get fs' p = get fs p := by
  cases n with
  | zero =>
    have := hh [] (by simp [hs])
    omega
  | succ n =>
    have e2 : exists' fs dst = true := exists'_iff.2 (by rw [hd]; simp)
    have e3 : isFile fs dst = false := by
      cases h : isFile fs dst with
      | false => rfl
      | true => obtain ⟨c, hc⟩ := isFile_iff.1 h; rw [hd] at hc; cases hc
    have hnone : ∀ x r, get fs (src ++ [x]) ≠ none → get fs (dst ++ x :: r) = none := by
      intro x r hx
      by_cases hr : r = []
      · subst hr; exact hf x hx
      · have := (hcd.child x).none r (by rw [hf x hx]; simp) hr
        simpa using this
    obtain ⟨fs', h1, h2, h3⟩ := copyAll_ok (skip := skip) (n := n) (fun {src dst fs} => copyTree_fresh) ha hc hh hd hnone
    unfold copyTree
    simp only [hs, e2, e3, if_false, if_true, Bool.false_eq_true, Out.bind]
    refine ⟨fs', h1, ?_, ?_⟩
    · intro r
      cases r with
      | nil => rw [h3 _ (fun x _ hx => by have := hx.length_le; simp at this; omega)]; simp [hd]
      | cons x r =>
        by_cases hx : get fs (src ++ [x]) = none
        · rw [h3 _ (fun y hy hyp => by
            have := split_below hyp snoc_prefix
            subst this
            exact hy hx)]
          have h0 : get fs (src ++ x :: r) = none := by
            by_cases hr : r = []
            · subst hr; exact hx
            · have := (hc.child x).none r (by rw [hx]; simp) hr
              simpa using this
          rw [h0, Option.or_none]
        · rw [h2 x r hx, hnone x r hx, Option.none_or]
    · intro p hpp
      exact h3 p (fun x _ hx => hpp ((List.prefix_append _ _).trans hx))

/-- Copying a file into a directory. -/
theorem copyTree_into {skip : Bool} {n : Nat} {src dst : Path} {x : String} {c : Str} {fs : Disk} (hs : get fs (src ++ [x]) = some (.file c)) (hd : get fs dst = some .dir)
    (hf : get fs (dst ++ [x]) = none) : copyTree skip (n + 1) (src ++ [x]) dst fs = .ok ((dst ++ [x], .file c) :: fs) := by
  have e1 : isDir fs dst = true := isDir_iff.2 hd
  have e2 : exists' fs (dst ++ [x]) = false := by
    cases h : exists' fs (dst ++ [x]) with
    | false => rfl
    | true => rw [exists'_iff] at h; exact absurd hf h
  unfold copyTree
  simp [hs, e1, e2, parent_append]

end Verif.ProjectCreator
