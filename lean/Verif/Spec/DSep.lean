import Verif.Spec.Graph
import Mathlib.Data.Set.Function
import Mathlib.Data.Matrix.Mul
import Mathlib.Data.Real.Basic

/-!
# d-separation and partial correlation

Pearl's criterion, for any set of nodes and edges `E i j`.  Nothing in this file refers to a model function.
-/

namespace Verif.Spec

variable {p : Nat} {V : Type}

/-- The path `w 0, …, w n` (without repetitions) is active given `Z`: consecutive nodes are joined; a node in its interior at which
two arrowheads meet (a collider) is in `Z` or has a descendant in `Z`; every other node in its interior is not in `Z`. -/
structure ActivePath (E : V → V → Prop) (Z : Finset V) (n : Nat) (w : Nat → V) : Prop where
  inj : Set.InjOn w (Set.Iic n)
  adj : ∀ i < n, E (w i) (w (i + 1)) ∨ E (w (i + 1)) (w i)
  collider : ∀ i, i + 1 < n → E (w i) (w (i + 1)) → E (w (i + 2)) (w (i + 1)) →
    ∃ z ∈ Z, Relation.ReflTransGen E (w (i + 1)) z
  other : ∀ i, i + 1 < n → ¬ (E (w i) (w (i + 1)) ∧ E (w (i + 2)) (w (i + 1))) → w (i + 1) ∉ Z

/-- `a` and `b` are d-connected given `Z`. -/
def DConnected (E : V → V → Prop) (Z : Finset V) (a b : V) : Prop :=
  ∃ n w, w 0 = a ∧ w n = b ∧ ActivePath E Z n w

/-- `a` and `b` are d-separated by `Z`. -/
def DSeparated (E : V → V → Prop) (Z : Finset V) (a b : V) : Prop := ¬ DConnected E Z a b

/-- The two graphs have the same d-separations. -/
def SameDSep (G H : Adj p) : Prop :=
  ∀ (a b : Fin p) (Z : Finset (Fin p)), a ≠ b → a ∉ Z → b ∉ Z → (DSeparated (Edge G) Z a b ↔ DSeparated (Edge H) Z a b)

/-- The graph with a further root for every target `i ∈ I`, with a single edge into `i`: nodes `0, …, p - 1` are the variables, node
`p + i` is the root of `i` (isolated if `i ∉ I`). -/
def WithRoots (I : Finset (Fin p)) (G : Adj p) : Adj (p + p) := fun u v =>
  Fin.addCases (fun i => Fin.addCases (fun j => G i j) (fun _ => 0) v)
    (fun i => Fin.addCases (fun j => if i = j ∧ i ∈ I then 1 else 0) (fun _ => 0) v) u

/-- The edges of the graph over variables and latents: those of `G`, and from latent `k` to every variable that it has an effect on. -/
def LatentEdge {l : Nat} (G : Adj p) (gamma : Matrix (Fin l) (Fin p) ℝ) : Fin p ⊕ Fin l → Fin p ⊕ Fin l → Prop
  | .inl i, .inl j => Edge G i j
  | .inr k, .inl j => gamma k j ≠ 0
  | _, .inr _ => False

/-- `β` are the coefficients of the regression of variable `a` on the variables in `Z`, for variables with covariance `C`: the
residual `X a - ∑ β i X i` is uncorrelated with the variables in `Z`. -/
def Regression [Fintype V] (C : Matrix V V ℝ) (Z : Finset V) (a : V) (β : V → ℝ) : Prop :=
  (∀ i, i ∉ Z → β i = 0) ∧ ∀ z ∈ Z, C a z = ∑ i, β i * C i z

/-- Variables `a` and `b` are uncorrelated given the variables in `Z` (their partial correlation is zero): the regression of `a` on `Z`
is well defined, and its residual is uncorrelated with `b`.  For Gaussian variables this is conditional independence. -/
def UncorrelatedGiven [Fintype V] (C : Matrix V V ℝ) (Z : Finset V) (a b : V) : Prop :=
  ∃ β, Regression C Z a β ∧ (∀ β', Regression C Z a β' → β' = β) ∧ C a b = ∑ i, β i * C i b

end Verif.Spec
