import Verif.Spec.Graph

/-!
# Which nodes a peeling process that starts at `Z` frees
-/

namespace Verif.Spec

variable {p : Nat}

/-- `v` is freed: it is one of the starting nodes, or it has directed parents and all of them are freed. -/
inductive Freed (A : Adj p) (Z : Fin p → Prop) : Fin p → Prop where
  | zero {v : Fin p} : Z v → Freed A Z v
  | parents {v : Fin p} : (∃ u, DirEdge A u v) → (∀ u, DirEdge A u v → Freed A Z u) → Freed A Z v

end Verif.Spec
