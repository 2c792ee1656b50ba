import Verif.Lemmas.Forest
import Verif.Props.Tree
/-
C97: adaptors of trees and forests.
-/
namespace Verif.Props
open Verif.Spec Verif.Graph Verif.Forest Verif.Spec.Forest EdgeLike

section
variable {N E : Type} [EdgeLike E]

/-- **C97** Visiting a node of a forward tree and, by recursion, the trees of its forest, terminates.  It lists the node and all its descendants, and nothing else: each once, with its weight, and none before one of its ancestors; each is followed by what
is below its children, in the order of the edges. -/
theorem C97_visit {mem : List (G N E)} {t : Nat} {g : G N E} (hm : mem[t]? = some g) (hg : g.nodes.length = g.edges.length) {root : Nat} {par : Nat → Nat}
    (ht : TreeOf .forward g.edges root par) {n : Nat} (hn : n < g.edges.length) :
    ∃ f₀, ∀ f, f₀ ≤ f → ∃ l, visit mem f (adapt t n) = .ok (some l) ∧ ListsBelow g.nodes root par n l ∧ Preorder g.edges n (l.map Prod.fst) := by
  obtain ⟨D, hD⟩ := deepest (root := root) (par := par) g.edges.length fun x hx => below_deep (ht.descends x hx)
  obtain ⟨k, hk⟩ := below_deep (ht.descends n hn)
  refine ⟨D + 1, fun f hf => ?_⟩
  obtain ⟨l, h1, h2⟩ := visit_below hm hg ht hD f hn hk (by omega)
  exact ⟨l, h1, h2, visit_preorder hm h1⟩

theorem inRange_dec {s : Edges (Edge Unit Unit)} (h : (s.all fun l => l.all fun e => decide (target e < s.length)) = true) : InRange s := by
  intro l hl e he
  simpa using List.all_eq_true.1 (List.all_eq_true.1 h l hl) e he

/-- A tree with root 0, whose children are 1 and 2; node 3 is below 2. -/
def forward4 : G Nat (Edge Unit Unit) := ⟨[10, 11, 12, 13], [[⟨1, (), ()⟩, ⟨2, (), ()⟩], [], [⟨3, (), ()⟩], []]⟩

theorem forward4_tree : TreeOf .forward forward4.edges 0 (fun x => if x = 3 then 2 else 0) := by
  refine ⟨by decide, by decide, ?_, inRange_dec (by decide), ?_⟩
  · have h0 : Below 0 (fun x => if x = 3 then 2 else 0) 0 0 := .self
    have h2 : Below 0 (fun x => if x = 3 then 2 else 0) 0 2 := .up (by decide) h0
    intro x hx
    have : x = 0 ∨ x = 1 ∨ x = 2 ∨ x = 3 := by simp [forward4] at hx; omega
    rcases this with rfl | rfl | rfl | rfl
    · exact h0
    · exact .up (by decide) h0
    · exact h2
    · exact .up (by decide) h2
  · have : ∀ a < 4, ∀ b < 4, links forward4.edges a b = (if downwards .forward = true ∧ IsParent 0 (fun x => if x = 3 then 2 else 0) a b then 1 else 0) +
      (if upwards .forward = true ∧ IsParent 0 (fun x => if x = 3 then 2 else 0) b a then 1 else 0) := by decide
    exact this

example : visit [forward4] 3 (adapt 0 0) = .ok (some [(0, 10), (1, 11), (2, 12), (3, 13)]) := by decide +kernel
example : visit [forward4] 2 (adapt 0 2) = .ok (some [(2, 12), (3, 13)]) := by decide +kernel

/-- **C97** In a backward tree, the forest of a node consists of its parent: the nodes visited are those on the way up to the root, with their weights. -/
theorem C97_visit_backward {mem : List (G N E)} {t : Nat} {g : G N E} (hm : mem[t]? = some g) (hg : g.nodes.length = g.edges.length) {root : Nat} {par : Nat → Nat}
    (ht : TreeOf .backward g.edges root par) {n : Nat} (hn : n < g.edges.length) :
    ∃ f₀, ∀ f, f₀ ≤ f → ∃ l, visit mem f (adapt t n) = .ok (some l) ∧ Climb root par n (l.map Prod.fst) ∧ ∀ x w, (x, w) ∈ l → g.nodes[x]? = some w := by
  obtain ⟨k, hk⟩ := below_deep (ht.descends n hn)
  exact ⟨k + 1, fun f hf => visit_up hm hg ht hk hn (by omega)⟩

example : visit [(⟨[10, 11, 12], [[], [⟨2, (), ()⟩], [⟨0, (), ()⟩]]⟩ : G Nat (Edge Unit Unit))] 3 (adapt 0 1) = .ok (some [(1, 11), (2, 12), (0, 10)]) := by decide +kernel

/-- **C97 (part)** If node 0 of each tree is its root, then the range over a forest has one adaptor for each tree, in order, and visiting it lists all the nodes of that tree.  What is missing: trees whose root is another node. -/
theorem C97_forest_partial {mem : List (G N E)} (hg : ∀ g : G N E, g ∈ mem → g.nodes.length = g.edges.length ∧ ∃ par, TreeOf .forward g.edges 0 par) :
    (forest mem).length = mem.length ∧ ∀ (t : Nat) (g : G N E), mem[t]? = some g → ∃ a, (forest mem)[t]? = some a ∧
      ∃ f₀, ∀ f, f₀ ≤ f → ∃ l, visit mem f a = .ok (some l) ∧ (l.map Prod.fst).Perm (List.range g.nodes.length) ∧ ∀ x w, (x, w) ∈ l → g.nodes[x]? = some w := by
  refine ⟨by simp [forest], ?_⟩
  intro t g hm
  have ht : t < mem.length := (List.getElem?_eq_some_iff.1 hm).1
  obtain ⟨h1, par, h2⟩ := hg g (List.mem_of_getElem? hm)
  obtain ⟨f₀, hf⟩ := C97_visit hm h1 h2 h2.root_lt
  refine ⟨adapt t 0, by simp [forest, ht], f₀, fun f hff => ?_⟩
  obtain ⟨l, h3, ⟨_, h4, h5, h6, _⟩, _⟩ := hf f hff
  refine ⟨l, h3, ?_, h6⟩
  rw [List.perm_ext_iff_of_nodup h4 List.nodup_range]
  intro x
  rw [h5, List.mem_range]
  exact ⟨fun h => h.1, fun h => ⟨h, h2.descends x (by omega)⟩⟩

example : ∀ g ∈ [forward4, forward4], g.nodes.length = g.edges.length ∧ ∃ par, TreeOf .forward g.edges 0 par := by
  intro g hg
  simp at hg
  subst hg
  exact ⟨rfl, _, forward4_tree⟩

/-- **C97 (violated)** The nodes of a tree may be swapped, after which its root may be another node than node 0.  The iterator over a forest refers to node 0 nevertheless: the others are not visited. -/
theorem C97_root_violated : ∃ (g g' : G Nat (Edge Unit Unit)) (par par' : Nat → Nat), TreeOf .forward g.edges 0 par ∧ treeStep (fun _ l => l) .forward () () g (.swapNodes 0 1) = .ret g' .unit ∧
    TreeOf .forward g'.edges 1 par' ∧ (forest [g'])[0]? = some (adapt 0 0) ∧ visit [g'] 2 (adapt 0 0) = .ok (some [(0, 11)]) := by
  refine ⟨⟨[10, 11], [[⟨1, (), ()⟩], []]⟩, ⟨[11, 10], [[], [⟨0, (), ()⟩]]⟩, fun _ => 0, fun _ => 1, ?_, by decide +kernel, ?_, by decide +kernel, by decide +kernel⟩
  · refine ⟨by decide, by decide, ?_, inRange_dec (by decide), ?_⟩
    · intro x hx
      by_cases h : x = 0
      · subst h; exact .self
      · exact .up h .self
    · have : ∀ a < 2, ∀ b < 2, links ([[⟨1, (), ()⟩], []] : Edges (Edge Unit Unit)) a b = (if downwards .forward = true ∧ IsParent 0 (fun _ => 0) a b then 1 else 0) +
        (if upwards .forward = true ∧ IsParent 0 (fun _ => 0) b a then 1 else 0) := by decide
      exact this
  · refine ⟨by decide, by decide, ?_, inRange_dec (by decide), ?_⟩
    · intro x hx
      by_cases h : x = 1
      · subst h; exact .self
      · exact .up h .self
    · have : ∀ a < 2, ∀ b < 2, links ([[], [⟨0, (), ()⟩]] : Edges (Edge Unit Unit)) a b = (if downwards .forward = true ∧ IsParent 1 (fun _ => 1) a b then 1 else 0) +
        (if upwards .forward = true ∧ IsParent 1 (fun _ => 1) b a then 1 else 0) := by decide
      exact this

/-- **C97 (violated)** In a symmetric tree the forest of a node contains its parent as well: visiting a node and the trees of its forest does not terminate. -/
theorem C97_symmetric_violated : ∃ (g : G Nat (Edge Unit Unit)) (par : Nat → Nat), TreeOf .symmetric g.edges 0 par ∧ ∀ f, visit [g] f (adapt 0 0) = .ok none := by
  refine ⟨⟨[10, 11], [[⟨1, (), ()⟩], [⟨0, (), ()⟩]]⟩, fun _ => 0, ?_, ?_⟩
  · refine ⟨by decide, by decide, ?_, inRange_dec (by decide), ?_⟩
    · intro x hx
      by_cases h : x = 0
      · subst h; exact .self
      · exact .up h .self
    · have : ∀ a < 2, ∀ b < 2, links ([[⟨1, (), ()⟩], [⟨0, (), ()⟩]] : Edges (Edge Unit Unit)) a b = (if downwards .symmetric = true ∧ IsParent 0 (fun _ => 0) a b then 1 else 0) +
        (if upwards .symmetric = true ∧ IsParent 0 (fun _ => 0) b a then 1 else 0) := by decide
      exact this
  · have : ∀ f, visit [(⟨[10, 11], [[⟨1, (), ()⟩], [⟨0, (), ()⟩]]⟩ : G Nat (Edge Unit Unit))] f (adapt 0 0) = .ok none ∧
        visit [(⟨[10, 11], [[⟨1, (), ()⟩], [⟨0, (), ()⟩]]⟩ : G Nat (Edge Unit Unit))] f (adapt 0 1) = .ok none := by
      intro f
      induction f with
      | zero => exact ⟨rfl, rfl⟩
      | succ f ih =>
        obtain ⟨h1, h2⟩ := ih
        simp only [adapt] at h1 h2
        constructor <;>
          simp [Forest.visit, rootWeight, Adaptor.get, adapt, Res.bind, forestFromTree, visitAll, target, h1, h2]
    exact fun f => (this f).1

/-- **C97** An adaptor which converts to true has a tree, and its node has a weight.  A default constructed one converts to false, and asking it for its tree, or for a change of a weight, throws. -/
theorem C97_adaptors (mem : List (G N E)) (hg : ∀ g : G N E, g ∈ mem → g.nodes.length = g.edges.length) :
    (null.valid mem = .ok false ∧ null.get mem = .throws ∧ rootWeight mem null = .throws ∧ ∀ f, mutateRootWeight mem null f = .throws) ∧
    ∀ t n, t < mem.length → ∃ g, mem[t]? = some g ∧ (adapt t n).get mem = .ok g ∧ (adapt t n).valid mem = .ok (decide (n < g.edges.length)) ∧
      (n < g.edges.length → ∃ w, g.nodes[n]? = some w ∧ rootWeight mem (adapt t n) = .ok w) := by
  refine ⟨⟨rfl, rfl, rfl, fun _ => rfl⟩, ?_⟩
  intro t n ht
  have hm : mem[t]? = some mem[t] := List.getElem?_eq_getElem ht
  refine ⟨mem[t], hm, by simp [Adaptor.get, adapt, hm], by simp [Adaptor.valid, adapt, hm], ?_⟩
  intro hn
  have hl := hg _ (List.getElem_mem ht)
  obtain ⟨w, hw⟩ : ∃ w, (mem[t]).nodes[n]? = some w := ⟨_, List.getElem?_eq_getElem (by rw [hl]; exact hn)⟩
  exact ⟨w, hw, by simp [rootWeight, Adaptor.get, adapt, hm, hw, Res.bind]⟩

/-- **C97** Changing the weight of the node of an adaptor changes the weight of that node of that tree, and nothing else: every adaptor has the weight it had, but for those which refer to this node; the edges of all trees stay the same. -/
theorem C97_mutate {mem : List (G N E)} {t n : Nat} {g : G N E} {w : N} (hm : mem[t]? = some g) (hw : g.nodes[n]? = some w) (f : N → N) :
    ∃ mem', mutateRootWeight mem (adapt t n) f = .ok mem' ∧ mem'.map G.edges = mem.map G.edges ∧ rootWeight mem' (adapt t n) = .ok (f w) ∧
      ∀ b, b ≠ adapt t n → rootWeight mem' b = rootWeight mem b := by
  have hn : n < g.nodes.length := (List.getElem?_eq_some_iff.1 hw).1
  have ht : t < mem.length := (List.getElem?_eq_some_iff.1 hm).1
  have h1 : NodeWeights.mutateNodeWeight g n f = .ret { g with nodes := g.nodes.set n (f w) } .unit := by
    unfold NodeWeights.mutateNodeWeight
    rw [if_neg (by omega), hw]
  refine ⟨mem.set t { g with nodes := g.nodes.set n (f w) }, by simp only [mutateRootWeight, adapt, hm, h1], ?_, ?_, ?_⟩
  · rw [List.map_set]
    apply List.ext_getElem?
    intro k
    rw [List.getElem?_set]
    split
    · next h =>
      subst h
      have hgm : mem[t] = g := by rw [List.getElem?_eq_getElem ht] at hm; exact Option.some.inj hm
      simp [ht, hgm]
    · rfl
  · simp [rootWeight, Adaptor.get, adapt, ht, hn, Res.bind]
  · intro b hb
    obtain ⟨bt, bn⟩ := b
    cases bt with
    | none => rfl
    | some bt =>
      by_cases hbt : bt = t
      · subst hbt
        cases bn with
        | none => simp [rootWeight, Adaptor.get, ht, hm, Res.bind]
        | some bn =>
          have hne : n ≠ bn := by intro h; subst h; exact hb rfl
          have hgm : mem[bt] = g := by rw [List.getElem?_eq_getElem ht] at hm; exact Option.some.inj hm
          simp [rootWeight, Adaptor.get, ht, hm, hgm, Res.bind, hne]
      · have : t ≠ bt := fun h => hbt h.symm
        simp [rootWeight, Adaptor.get, this]

example : mutateRootWeight [forward4] (adapt 0 2) (· + 100) = .ok [{ forward4 with nodes := [10, 11, 112, 13] }] := by decide +kernel

end

end Verif.Props
