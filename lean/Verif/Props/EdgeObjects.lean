import Verif.Lemmas.EdgeObjects
/-
C121. Edges as objects: what copies, moves, assignments and changes of weights show of the weights which edges have in common.
-/
namespace Verif.Props
open Verif Verif.EdgeObjects
open Verif.Spec.EdgeObjects (State View)

/-- No edges. -/
def noEdges (W M : Type) : State W M := ⟨[], fun a b => a == b⟩

variable {W M : Type}

theorem noEdges_shared (w : W) : R (M := M) (World.init w) (noEdges W M) :=
  ⟨rfl, fun _ _ _ h => by simp [World.init] at h, fun i _ h => by simp [World.init] at h⟩

theorem noEdges_value : V (W := W) (M := M) [] (noEdges W M) :=
  ⟨rfl, fun _ _ h => by simp [noEdges] at h, fun i _ h => by simp at h⟩

variable [DecidableEq W] [DecidableEq M]

/-- **C121.** Shared weights: whatever a program does with edges, which never uses the weight of an edge which has been moved from, it sees what is expected of edges some of which have their weight in common:
constructing an edge from another one and moving keep a weight in common, copying and copy assignment end this, and changing the weight of an edge changes it for those which have it in common, and no others. -/
theorem C121_shared (gone : M → M) (w : W) (ops : List (Op W M)) (s : State W M) (outs : List (Option (Val W M)))
    (h : run (Spec.EdgeObjects.step true gone) (noEdges W M) ops = some (s, outs)) :
    ∃ x, run (sharedStep gone) (World.init w) ops = some (x, outs) := by
  obtain ⟨x, h1, _⟩ := run_ref (shared_sim gone) _ _ (noEdges_shared w) ops s outs h
  exact ⟨x, h1⟩

/-- **C121.** Weights by value: the same with no weights in common, whatever is left of weights which have been moved. -/
theorem C121_by_value (gone : M → M) (goneW : W → W) (ops : List (Op W M)) (s : State W M) (outs : List (Option (Val W M)))
    (h : run (Spec.EdgeObjects.step false gone) (noEdges W M) ops = some (s, outs)) :
    ∃ x, run (valueStep gone goneW) [] ops = some (x, outs) := by
  obtain ⟨x, h1, _⟩ := run_ref (fun w s o => value_sim gone goneW w s o) _ _ noEdges_value ops s outs h
  exact ⟨x, h1⟩

example : (run (Spec.EdgeObjects.step true id) (noEdges Nat Nat)
    [.create 3 7 10, .share 4 8 0, .copy 1, .setWeight 0 11, .weight 1, .weight 2, .move 1, .mutateWeight 3 (· + 1), .weight 0, .equal 0 3, .setTarget 3 3, .setMeta 3 7, .equal 0 3] |>.map Prod.snd) = some
    [some .unit, some .unit, some .unit, some .unit, some (.weight 11), some (.weight 10), some .unit, some .unit, some (.weight 12), some (.bool false), some .unit, some .unit, some (.bool true)] := by decide

example : (run (sharedStep id) (World.init 0)
    [.create 3 7 10, .share 4 8 0, .copy 1, .setWeight 0 11, .weight 1, .weight 2, .move 1, .mutateWeight 3 (· + 1), .weight 0] |>.map Prod.snd) = some
    [some .unit, some .unit, some .unit, some .unit, some (.weight 11), some (.weight 10), some .unit, some .unit, some (Val.weight (M := Nat) 12)] := by decide

example : (run (Spec.EdgeObjects.step false id) (noEdges Nat Nat)
    [.create 3 7 10, .share 4 8 0, .setWeight 0 11, .weight 1, .create 5 5 5, .moveAssign 1 0, .weight 1, .copyAssign 0 2, .equal 0 2] |>.map Prod.snd) = some
    [some .unit, some .unit, some .unit, some (.weight 10), some .unit, some .unit, some (.weight 11), some .unit, some (.bool true)] := by decide

/-- **C121.** What "in common" means: in every state which arises it is an equivalence of edges, and edges which have their weight in common have the same weight. -/
theorem C121_common (gone : M → M) (ops : List (Op W M)) (s : State W M) (outs : List (Option (Val W M)))
    (h : run (Spec.EdgeObjects.step true gone) (noEdges W M) ops = some (s, outs)) :
    (∀ i, i < s.edges.length → s.together i i = true) ∧
    (∀ i j, i < s.edges.length → j < s.edges.length → s.together i j = true → s.together j i = true) ∧
    (∀ i j k, i < s.edges.length → j < s.edges.length → k < s.edges.length → s.together i j = true → s.together j k = true → s.together i k = true) ∧
    (∀ i j, i < s.edges.length → j < s.edges.length → s.together i j = true → (s.edges[i]?).map View.weight = (s.edges[j]?).map View.weight) := by
  rcases hops : ops with _ | ⟨o, os⟩
  · subst hops
    simp only [run, Option.some.injEq, Prod.mk.injEq] at h
    obtain ⟨rfl, rfl⟩ := h
    simp [noEdges]
  · have hw : Nonempty W ∨ s.edges = [] := by
      by_cases hs : s.edges = []
      · exact .inr hs
      · by_cases hn : Nonempty W
        · exact .inl hn
        · exfalso
          apply hs
          have hinv : ∀ (l : List (Op W M)) (t : State W M) (t' : State W M) (os : List (Option (Val W M))), t.edges = [] → run (Spec.EdgeObjects.step true gone) t l = some (t', os) → t'.edges = [] := by
            intro l
            induction l with
            | nil => intro t t' os ht hr; simp only [run, Option.some.injEq, Prod.mk.injEq] at hr; rw [← hr.1]; exact ht
            | cons o l ih =>
              intro t t' os ht hr
              cases o with
              | create t m v => exact absurd ⟨v⟩ hn
              | _ => simp [run, Spec.EdgeObjects.step, ht] at hr
          exact hinv ops _ _ _ rfl h
    rcases hw with ⟨⟨w⟩⟩ | hw
    · obtain ⟨x, _, hR⟩ := run_ref (shared_sim gone) _ _ (noEdges_shared w) ops s outs h
      have hl := hR.length
      refine ⟨?_, ?_, ?_, ?_⟩
      · intro i hi; exact (hR.rel i i (by omega) (by omega)).2 (.inl rfl)
      · intro i j hi hj hij
        exact (hR.rel j i (by omega) (by omega)).2 (tog_symm ((hR.rel i j (by omega) (by omega)).1 hij))
      · intro i j k hi hj hk hij hjk
        rw [hR.rel _ _ (by omega) (by omega)] at hij hjk ⊢
        rcases hij with rfl | ⟨o, p, a, h1, h2, h3, h4⟩
        · exact hjk
        · rcases hjk with rfl | ⟨q, r, b, g1, g2, g3, g4⟩
          · exact .inr ⟨o, p, a, h1, h2, h3, h4⟩
          · rw [h2] at g1; cases g1; rw [h4] at g3; cases g3
            exact .inr ⟨o, r, a, h1, g2, h3, g4⟩
      · intro i j hi hj hij
        rw [hR.rel _ _ (by omega) (by omega)] at hij
        rcases hij with rfl | ⟨o, p, a, h1, h2, h3, h4⟩
        · rfl
        · rw [hR.get, hR.get, h1, h2]; simp [view, h3, h4]
    · simp [hw]

example : (run (Spec.EdgeObjects.step true id) (noEdges Nat Nat) [.create 3 7 10, .share 4 8 0, .create 1 1 10]).any fun r => r.1.together 0 1 && r.1.together 1 0 && !r.1.together 0 2 := by decide

/-- **C121.** What has been moved from can be assigned to, asked for its target, and be given one, but copying it, comparing it, asking for its weight, and even giving it a weight, are undefined if weights are
shared, since the pointer is null. -/
theorem C121_moved_from (gone : M → M) (x : World W M) (i j : Nat) (o : Obj M) (hi : x.objs[i]? = some o) (v : W) (f : W → W) :
    ∃ y : World W M, sharedStep gone x (.move i) = .ret y .unit ∧
      sharedStep gone y (.weight i) = .ub ∧ sharedStep gone y (.setWeight i v) = .ub ∧ sharedStep gone y (.mutateWeight i f) = .ub ∧ sharedStep gone y (.copy i) = .ub ∧
      sharedStep gone y (.equal i j) = .ub ∧ sharedStep gone y (.equal j i) = .ub ∧ (i ≠ j → sharedStep gone y (.copyAssign j i) = .ub) ∧
      sharedStep gone y (.target i) = .ret y (.index o.target) ∧
      ∀ p, x.objs[j]? = some p → i ≠ j → p.ptr.isSome → ∃ z, sharedStep gone y (.copyAssign i j) = .ret z .unit ∧ sharedStep gone z (.equal i j) = .ret z (.bool true) := by
  have hlt : i < x.objs.length := (List.getElem?_eq_some_iff.1 hi).1
  refine ⟨⟨x.mem, x.objs.set i { o with ptr := none, md := gone o.md } ++ [o]⟩, by simp only [sharedStep, hi], ?_⟩
  have hg : (x.objs.set i { o with ptr := none, md := gone o.md } ++ [o])[i]? = some { o with ptr := none, md := gone o.md } := by
    rw [List.getElem?_append_left (by simpa using hlt), List.getElem?_set_self hlt]
  refine ⟨by simp only [sharedStep, hg], by simp only [sharedStep, hg], by simp only [sharedStep, hg], by simp only [sharedStep, hg], by simp only [sharedStep, hg], ?_, ?_, by simp only [sharedStep, hg], ?_⟩
  · simp only [sharedStep, hg]
    split
    · rename_i h2; cases h2
    · rfl
  · intro hne
    simp only [sharedStep, hg]
    cases (x.objs.set i { o with ptr := none, md := gone o.md } ++ [o])[j]? with
    | none => rfl
    | some q => simp [Ne.symm hne]
  · intro p hp hne hsome
    obtain ⟨a, ha⟩ := Option.isSome_iff_exists.1 hsome
    have hj : (x.objs.set i { o with ptr := none, md := gone o.md } ++ [o])[j]? = some p := by
      rw [List.getElem?_append_left (by simpa using (List.getElem?_eq_some_iff.1 hp).1), List.getElem?_set_ne hne, hp]
    simp only [sharedStep, hg, hj, if_neg hne, ha]
    refine ⟨_, rfl, ?_⟩
    have e1 : ((x.objs.set i { o with ptr := none, md := gone o.md } ++ [o]).set i ⟨p.target, p.md, some x.mem.next⟩)[i]? = some ⟨p.target, p.md, some x.mem.next⟩ :=
      List.getElem?_set_self (by simp; omega)
    have e2 : ((x.objs.set i { o with ptr := none, md := gone o.md } ++ [o]).set i ⟨p.target, p.md, some x.mem.next⟩)[j]? = some p := by
      rw [List.getElem?_set_ne hne, hj]
    obtain ⟨t, m, q⟩ := p
    simp only at ha; subst ha
    simp only [e1, e2, Graph.Mem.alloc]
    simp

example : ∃ y : World Nat Nat, sharedStep id ⟨⟨fun _ => 5, 1⟩, [⟨2, 3, some 0⟩]⟩ (.move 0) = .ret y .unit ∧ sharedStep id y (.weight 0) = .ub ∧ sharedStep id y (.weight 1) = .ret y (.weight 5) :=
  ⟨_, rfl, rfl, rfl⟩

end Verif.Props
