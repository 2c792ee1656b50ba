import Verif.Model.Graph
/-
Model of /repo/Source/sequoia/Maths/Graph/GraphAlgorithms.hpp.
-/
namespace Verif.Graph

section
variable {N E : Type}

/-- The loop of `sub_graph`, GraphAlgorithms.hpp:24-36; `er` is `erase_node` of the connectivity.  The loop is given fuel;
`.ok none` says that it has run out. -/
def subLoop (er : Edges E → Nat → Res (Edges E)) (pred : N → Bool) : Nat → Nat → G N E → Res (Option (G N E))
  | 0, pos, g => if pos < g.edges.length then .ok none else .ok (some g)
  | fuel + 1, pos, g =>
    if pos < g.edges.length then
      match g.nodes[pos]? with
      | none => .ub
      | some w =>
        if !pred w then
          match g.eraseNode pos (er g.edges pos) with
          | .ret g' _ => subLoop er pred fuel pos g'
          | .threw _ => .throws
          | .ub => .ub
        else subLoop er pred fuel (pos + 1) g
    else .ok (some g)

/-- `sub_graph`, GraphAlgorithms.hpp:17-39.  (For the initial copy see C27.) -/
def subGraph (er : Edges E → Nat → Res (Edges E)) (g : G N E) (pred : N → Bool) (fuel : Nat) : Res (Option (G N E)) :=
  subLoop er pred fuel 0 g

end
end Verif.Graph
