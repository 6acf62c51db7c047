import Verif.Spec.Graph
import Mathlib.Logic.Relation
import Mathlib.Data.Fintype.Prod
import Mathlib.Data.Finset.Card

/-!
# Specification of the sizes of equivalence classes
-/

namespace Verif.Spec

variable {p : Nat}

/-- Every two variables are adjacent. -/
def CompleteSkeleton (A : Adj p) : Prop := ∀ i j, i ≠ j → Adjacent A i j

open Classical in
/-- The undirected edges of a PDAG, each counted once. -/
noncomputable def undPairs (C : Adj p) : Finset (Fin p × Fin p) := Finset.univ.filter (fun q => q.1 < q.2 ∧ UndEdge C q.1 q.2)

/-- `A` is a tree in which every edge points away from `r`: all nodes are descendants of `r`, and no node has two parents. -/
def TreeFrom (A : Adj p) (r : Fin p) : Prop :=
  (∀ v, Relation.ReflTransGen (Edge A) r v) ∧ ∀ u w v, Edge A u v → Edge A w v → u = w

/-- No two undirected edges share a node. -/
def UndMatching (C : Adj p) : Prop := ∀ i j k, UndEdge C i j → UndEdge C i k → j = k

end Verif.Spec
