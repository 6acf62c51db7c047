import Verif.Model.Main

/-!
# Sample covariances

`np.cov(sample, rowvar=False)`, called at `/repo/utlvce/main.py:442,445,475` and `/repo/utlvce/score.py:247`.  The other parts of the model
take the function as a parameter (`FitEnv.cov`).
-/

namespace Verif

variable {p : Nat}

/-- The mean of every column.  See `/repo/utlvce/main.py:442` and `/repo/utlvce/score.py:247`. -/
noncomputable def colMean (s : Sample p) (j : Fin p) : ℝ := (s.map (fun x => x j)).sum / (s.length : ℝ)

/-- `np.cov(sample, rowvar=False)` for a sample of at least two observations of at least two variables: the centred sums of products divided
by the number of observations minus one.
See `/repo/utlvce/main.py:442,445,475` and `/repo/utlvce/score.py:247` and `/repo/utlvce/model.py:538`. -/
noncomputable def npCov (s : Sample p) : Matrix (Fin p) (Fin p) ℝ := fun i j =>
  (s.map (fun x => (x i - colMean s i) * (x j - colMean s j))).sum / ((s.length : ℝ) - 1)

/-- What `np.cov(sample, rowvar=False)` can return: a matrix, a `p × p` array of `nan`s, or a scalar.
See `/repo/utlvce/main.py:442,445,475` and `/repo/utlvce/score.py:247`. -/
inductive CovArray (p : Nat) where
  | matrix (S : Matrix (Fin p) (Fin p) ℝ)
  | nans
  | scalar

/-- `np.cov(sample, rowvar=False)` for samples of at least two variables of any length, as in NumPy 1 (from 2.0 on `np.Inf`, which the package
uses, does not exist): without observations NumPy warns and returns `nan`s.  With a single one the array is not transposed, see
`if not rowvar and X.shape[0] != 1` in `np.cov`, the values count as observations of one variable and the result is a scalar.
See `/repo/utlvce/main.py:442,445,475` and `/repo/utlvce/score.py:247`. -/
noncomputable def npCovF (s : Sample p) : CovArray p :=
  if s.length = 0 then .nans else if s.length = 1 then .scalar else .matrix (npCov s)

end Verif
