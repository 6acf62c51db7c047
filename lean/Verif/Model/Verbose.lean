import Mathlib.Analysis.Matrix.Spectrum
import Mathlib.Analysis.Matrix.PosDef
import Verif.Model.Gen

/-!
# Model of what `sample_parameters` prints, `/repo/utlvce/generators.py:447-454`
-/

namespace Verif

variable {p l e : Nat}

/-- `spectral_norm(X)`, `/repo/utlvce/generators.py:527-528`: `np.linalg.norm(X, ord=2)`, the largest singular value, i.e. the largest square root of an
eigenvalue of `X.T @ X` (square matrices only, as in the two calls). -/
noncomputable def spectralNorm {n : Nat} (X : Matrix (Fin n) (Fin n) ℝ) : ℝ :=
  ⨆ i, Real.sqrt ((Matrix.isHermitian_conjTranspose_mul_self X).eigenvalues i)

/-- What is printed with `verbose`, `/repo/utlvce/generators.py:448-454`: two norms and two matrices. -/
structure GenOutput (p e : Nat) where
  latentNorm : ℝ
  omegaNorm : ℝ
  latent : Matrix (Fin p) (Fin p) ℝ
  omega : Matrix (Fin e) (Fin e) ℝ

/-- `sample_parameters(..., verbose=1)`, `/repo/utlvce/generators.py:284-455`: the model and the output.  `psis[0]` needs an environment (IndexError).  The
norm of a matrix without entries is an error or zero, depending on the version of numpy; here it is an error. -/
noncomputable def sampleParametersVerbose (it : SetIter p) (A : Adj p) (I : Finset Int) (sparse obs : Bool) (dr : Draws p l e) :
    Except Err (LModel p l e × GenOutput p e) :=
  match sampleParameters it A I sparse obs dr with
  | .error err => .error err
  | .ok model =>
    if he : 0 < e then
      if hp : 0 < p then
        let psi0 : Fin l → ℝ := model.psis ⟨0, he⟩
        let latent := model.gamma.transpose * Matrix.diagonal psi0 * model.gamma
        let omega := Matrix.diagonal (fun k => model.omegas k ⟨0, hp⟩)
        .ok (model, ⟨spectralNorm latent, spectralNorm omega, latent, omega⟩)
      else .error .valueError
    else .error .indexError

end Verif
