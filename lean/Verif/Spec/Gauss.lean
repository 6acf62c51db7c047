import Mathlib.LinearAlgebra.Matrix.PosDef
import Mathlib.LinearAlgebra.Matrix.Trace
import Mathlib.Analysis.SpecialFunctions.Log.Basic

/-!
# Gaussian likelihood (specification)
-/

namespace Verif.Spec

open Matrix

variable {p l : Nat}

/-- Covariance of `gammaᵀ h + ε` for independent latents `h` with variances `psi` and noise `ε` with variances `omega`. -/
noncomputable def noiseCov (gamma : Matrix (Fin l) (Fin p) ℝ) (psi : Fin l → ℝ) (omega : Fin p → ℝ) :
    Matrix (Fin p) (Fin p) ℝ := fun i j => (∑ k, gamma k i * psi k * gamma k j) + if i = j then omega i else 0

/-- `C` is the covariance of the variable `X` that solves `X = Bᵀ X + noise` when the noise has covariance `V`. -/
def Entails (B V C : Matrix (Fin p) (Fin p) ℝ) : Prop := (1 - Bᵀ) * C * (1 - Bᵀ)ᵀ = V

/-- Gaussian negative log-likelihood of a covariance `C` for a sample covariance `S` (up to constants and scale). -/
noncomputable def gaussNLL (C S : Matrix (Fin p) (Fin p) ℝ) : ℝ := Real.log C.det + (C⁻¹ * S).trace

end Verif.Spec
