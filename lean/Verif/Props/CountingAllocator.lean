import Verif.Lemmas.CountingAllocator
/-
C122. Counting allocators: what is counted, and what their equality says.
-/
namespace Verif.Props
open Verif Verif.CountingAllocator
open Verif.Spec.CountingAllocator (State Block)

/-- There are no allocators. -/
def noAllocators : State := ⟨[], 0, [], [], 0⟩

theorem noAllocators_R : R ⟨[], [], [], 0⟩ noAllocators :=
  ⟨rfl, rfl, by simp [noAllocators], by simp [noAllocators], by simp [noAllocators], by simp [noAllocators], by simp [noAllocators], rfl, rfl⟩

/-- **C122.** Whatever a program does with allocators of objects of any size, and whichever allocations fail: an allocator counts the allocations and the deallocations, of at least one object, of all allocators of its family; a copy belongs to
the family of the original, and an allocator which is assigned to goes over to another family; two allocators are equal if and only if they are of the same family; failed allocations are not counted; and a block has the size
which was asked for. -/
theorem C122_counts (size : Nat) (avail : Nat → Nat → Bool) (ops : List Op) (s : State) (outs : List (Option Val))
    (h : run (Spec.CountingAllocator.step size avail) noAllocators ops = some (s, outs)) :
    ∃ w, run (step size avail) ⟨[], [], [], 0⟩ ops = some (w, outs) := by
  obtain ⟨w, h1, _⟩ := run_ref (sim size avail) _ _ noAllocators_R ops s outs h
  exact ⟨w, h1⟩

example : (run (Spec.CountingAllocator.step 8 fun k _ => k < 3) noAllocators
    [.create, .copy 0, .create, .allocate 0 5, .allocate 1 0, .allocate 2 1, .allocate 1 7, .allocs 0, .allocs 1, .allocs 2, .equal 0 1, .equal 0 2, .deallocate 1 0 5, .deallocs 0, .assign 1 2, .equal 1 2, .allocs 1, .deallocs 1] |>.map Prod.snd) = some
    [some .unit, some .unit, some .unit, some (.block 0 40), some (.block 1 0), some (.block 2 8), none, some (.int 1), some (.int 1), some (.int 1), some (.bool true), some (.bool false), some .unit, some (.int 1), some .unit,
      some (.bool true), some (.int 1), some (.int 0)] := by decide

theorem balanced_run (size : Nat) (avail : Nat → Nat → Bool) (ops : List Op) (s t : State) (outs : List (Option Val)) (hs : Balanced s)
    (h : run (Spec.CountingAllocator.step size avail) s ops = some (t, outs)) : Balanced t := by
  induction ops generalizing s outs with
  | nil => simp [run] at h; exact h.1 ▸ hs
  | cons o os ih =>
    have hb := balanced_step size avail s o hs
    unfold run at h
    revert h hb
    cases Spec.CountingAllocator.step size avail s o with
    | ret s' v =>
      intro hb h
      simp only [Option.map_eq_some_iff, Prod.mk.injEq] at h
      obtain ⟨⟨a, b⟩, hr, rfl, _⟩ := h
      exact ih s' b hb hr
    | threw s' =>
      intro hb h
      simp only [Option.map_eq_some_iff, Prod.mk.injEq] at h
      obtain ⟨⟨a, b⟩, hr, rfl, _⟩ := h
      exact ih s' b hb hr
    | ub => intro _ h; simp at h

theorem run_snoc {σ op β : Type} (f : σ → op → Outcome σ β) (s : σ) (ops : List op) (o : op) (t t' : σ) (outs : List (Option β)) (v : β)
    (h : run f s ops = some (t, outs)) (ho : f t o = .ret t' v) : run f s (ops ++ [o]) = some (t', outs ++ [some v]) := by
  induction ops generalizing s outs with
  | nil => simp [run] at h; obtain ⟨rfl, rfl⟩ := h; simp [run, ho]
  | cons a as ih =>
    rw [List.cons_append]
    unfold run at h ⊢
    revert h
    cases f s a with
    | ret s' b =>
      intro h
      simp only [Option.map_eq_some_iff, Prod.mk.injEq] at h ⊢
      obtain ⟨⟨x, y⟩, hr, rfl, rfl⟩ := h
      exact ⟨_, ih s' y hr, rfl, rfl⟩
    | threw s' =>
      intro h
      simp only [Option.map_eq_some_iff, Prod.mk.injEq] at h ⊢
      obtain ⟨⟨x, y⟩, hr, rfl, rfl⟩ := h
      exact ⟨_, ih s' y hr, rfl, rfl⟩
    | ub => intro h; simp at h

/-- **C122.** What a check for leaks shows: if every block is returned to the family it came from, as what it was, then `allocs()` exceeds `deallocs()` by the number of the family's blocks, of at least one object, which are
still in use. -/
theorem C122_leaks (size : Nat) (avail : Nat → Nat → Bool) (ops : List Op) (s : State) (outs : List (Option Val))
    (h : run (Spec.CountingAllocator.step size avail) noAllocators ops = some (s, outs)) (i f : Nat) (hi : s.family[i]? = some f) :
    ∃ w a d, run (step size avail) ⟨[], [], [], 0⟩ (ops ++ [.allocs i]) = some (w, outs ++ [some (.int a)]) ∧
      run (step size avail) ⟨[], [], [], 0⟩ (ops ++ [.deallocs i]) = some (w, outs ++ [some (.int d)]) ∧
      a = d + (s.live.filter fun b => b.family = f ∧ b.objects ≠ 0).length := by
  obtain ⟨w, h1, hR⟩ := run_ref (sim size avail) _ _ noAllocators_R ops s outs h
  have hf : f < s.families := hR.bound f (List.mem_of_getElem? hi)
  have hb : Balanced s := balanced_run size avail ops _ s outs ⟨by simp [noAllocators], by simp [noAllocators], by simp [noAllocators]⟩ h
  refine ⟨w, _, _, run_snoc _ _ _ _ w w _ _ h1 ?_, run_snoc _ _ _ _ w w _ _ h1 ?_, hb.balance f⟩
  · have := hR.allocs f hf
    simp only [step, hR.get, hi, Option.map_some, ofFamily, this]
  · have := hR.deallocs f hf
    simp only [step, hR.get, hi, Option.map_some, ofFamily, this]

example : ∃ s outs, run (Spec.CountingAllocator.step 4 fun _ _ => true) noAllocators [.create, .allocate 0 2, .copy 0, .allocate 1 3, .deallocate 1 0 2] = some (s, outs) ∧
    s.family[1]? = some 0 ∧ (s.live.filter fun b => b.family = 0 ∧ b.objects ≠ 0).length = 1 := ⟨_, _, rfl, by decide, by decide⟩

/-- **C122, violated.** For any type of more than one byte there is a number of objects, which is a `std::size_t`, for which `allocate` yields a block with no room for a single object, instead of an exception. -/
theorem C122_size_violated : ∃ size n, n < 2 ^ 64 ∧ 0 < n ∧ ∀ avail : Nat → Nat → Bool, avail 0 0 = true →
    ((run (step size avail) ⟨[], [], [], 0⟩ [.create, .allocate 0 n]).map Prod.snd) = some [some .unit, some (.block 0 0)] := by
  refine ⟨8, 2 ^ 61, by decide, by decide, fun avail ha => ?_⟩
  have : 2 ^ 61 * 8 % 2 ^ 64 = 0 := by decide
  simp [run, step, ha, count, bump]

/-- **C122.** The precondition is exact: for all numbers of objects and all sizes the block has the room which was asked for if and only if the product is a `std::size_t`. -/
theorem C122_size (size n : Nat) (avail : Nat → Nat → Bool) (ha : ∀ k, avail 0 k = true) :
    ∃ bytes, ((run (step size avail) ⟨[], [], [], 0⟩ [.create, .allocate 0 n]).map Prod.snd) = some [some .unit, some (.block 0 bytes)] ∧
      (n * size ≤ bytes ↔ n * size < 2 ^ 64) := by
  refine ⟨n * size % 2 ^ 64, ?_, ?_⟩
  · by_cases hn : n = 0 <;> simp [run, step, ha, count, bump, hn]
  · constructor
    · intro h
      have := Nat.mod_lt (n * size) (show 0 < 2 ^ 64 by decide)
      omega
    · intro h
      exact Nat.le_of_eq (Nat.mod_eq_of_lt h).symm

example : ∀ k, (fun _ _ => true : Nat → Nat → Bool) 0 k = true := fun _ => rfl

end Verif.Props
