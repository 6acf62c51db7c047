import Verif.Spec.Graph
import Mathlib.Data.List.Chain

/-!
# Walks and simple paths
-/

namespace Verif.Spec

variable {p : Nat}

/-- `l` is a walk from `a` to `b`: consecutive nodes are joined by a directed or undirected edge followed forward. -/
def Walk (A : Adj p) (a b : Fin p) (l : List (Fin p)) : Prop :=
  l.head? = some a ∧ l.getLast? = some b ∧ l.IsChain (Edge A)

/-- A walk without repeated nodes. -/
def SimplePath (A : Adj p) (a b : Fin p) (l : List (Fin p)) : Prop := Walk A a b l ∧ l.Nodup

end Verif.Spec
