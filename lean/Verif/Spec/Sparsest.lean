import Verif.Spec.Gauss
import Verif.Spec.Graph

/-!
# Specification: graphs that entail covariances

Independent of the model of the code.
-/

namespace Verif.Spec

variable {p e : Nat}

open Classical in
/-- The number of edges of a graph. -/
noncomputable def edgeCount (G : Adj p) : Nat := (Finset.univ.filter (fun q : Fin p × Fin p => Edge G q.1 q.2)).card

/-- The covariances, one per environment, are entailed by structural equations over `G` without latents: the same weights in all environments,
any positive noise variances. -/
def FitsAll (G : Adj p) (C : Fin e → Matrix (Fin p) (Fin p) ℝ) : Prop :=
  ∃ (B : Matrix (Fin p) (Fin p) ℝ) (w : Fin e → Fin p → ℝ), (∀ i j, ¬ Edge G i j → B i j = 0) ∧ (∀ k i, 0 < w k i) ∧
    ∀ k, Entails B (Matrix.diagonal (w k)) (C k)

/-- `G` is a DAG that entails the covariances, and no DAG with fewer edges does. -/
def Sparsest (G : Adj p) (C : Fin e → Matrix (Fin p) (Fin p) ℝ) : Prop :=
  Acyclic G ∧ FitsAll G C ∧ ∀ H : Adj p, Acyclic H → FitsAll H C → edgeCount G ≤ edgeCount H

end Verif.Spec
