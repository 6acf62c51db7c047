import Verif.Model.LModel
import Verif.Model.Graph

/-!
# Model of the metrics of `Model`, `/repo/utlvce/model.py:543-602`
-/

namespace Verif

variable {p l e : Nat}

/-- Maximum of a list, `max` and `np.max`: `ValueError` for an empty one.  See `/repo/utlvce/model.py:567,575,577,601`. -/
noncomputable def pyMax {α : Type} [LinearOrder α] : List α → Except Err α
  | [] => .error .valueError
  | x :: xs => .ok (xs.foldl max x)

/-- `(np.eye(p) - B.T).T @ np.diag(1 / omega) @ gamma.T`, `/repo/utlvce/model.py:570-572`.  Zero variances (for which `1 / omega` is
infinite) are in `Model/MetricsZero.lean`: the theorems about this definition assume that there are none. -/
noncomputable def LModel.latentEffects (m : LModel p l e) (k : Fin e) : Matrix (Fin p) (Fin l) ℝ :=
  (1 - m.B.transpose).transpose * Matrix.diagonal (fun i => 1 / m.omegas k i) * m.gamma.transpose

/-- `np.diag(U @ U.T).max()` for the reduced SVD, `/repo/utlvce/model.py:573-575`; `svdU` returns the factor `U`, a matrix with
`min(p, l)` columns (`full_matrices=False`); that the SVD may fail to converge is not modelled. -/
noncomputable def LModel.incoherence (svdU : Matrix (Fin p) (Fin l) ℝ → Matrix (Fin p) (Fin (min p l)) ℝ) (m : LModel p l e) (k : Fin e) :
    Except Err ℝ :=
  pyMax (List.ofFn (fun i => (svdU (m.latentEffects k) * (svdU (m.latentEffects k)).transpose) i i))

/-- The loop over the environments, `/repo/utlvce/model.py:568-575`. -/
noncomputable def incoherenceLoop (svdU : Matrix (Fin p) (Fin l) ℝ → Matrix (Fin p) (Fin (min p l)) ℝ) (m : LModel p l e) :
    List (Fin e) → Except Err (List ℝ)
  | [] => .ok []
  | k :: ks =>
    match m.incoherence svdU k with
    | .error err => .error err
    | .ok x =>
      match incoherenceLoop svdU m ks with
      | .error err => .error err
      | .ok xs => .ok (x :: xs)

/-- `scaled_latent_incoherence()`, `/repo/utlvce/model.py:543-577`. -/
noncomputable def LModel.scaledLatentIncoherence (it : SetIter p) (svdU : Matrix (Fin p) (Fin l) ℝ → Matrix (Fin p) (Fin (min p l)) ℝ)
    (m : LModel p l e) : Except Err ℝ :=
  match pyMax (List.ofFn (degrees (moralGraph it m.A))) with
  | .error err => .error err
  | .ok d =>
    match incoherenceLoop svdU m (List.finRange e) with
    | .error err => .error err
    | .ok xs =>
      match pyMax xs with
      | .error err => .error err
      | .ok x => .ok (x * (d : ℝ))

/-- `np.var(omegas, axis=0)` of column `j`, `/repo/utlvce/model.py:601`. -/
noncomputable def colVar (om : Matrix (Fin e) (Fin p) ℝ) (j : Fin p) : ℝ :=
  (∑ k, (om k j - (∑ k, om k j) / (e : ℝ)) ^ 2) / (e : ℝ)

/-- `intervention_strength()`, `/repo/utlvce/model.py:579-602`: `np.max` over zero environments raises
(unless the result has no entries).  Only for maxima that are not zero; `interventionStrengthF` has the other case. -/
noncomputable def LModel.interventionStrength (m : LModel p l e) : Except Err (Fin p → ℝ) :=
  if e = 0 ∧ p ≠ 0 then .error .valueError
  else .ok (fun j =>
    match pyMax (List.ofFn (fun k => m.omegas k j)) with
    | .error _ => 0
    | .ok x => colVar m.omegas j / x)

/-- A floating-point number up to rounding: a real number, an infinity or NaN.  See `/repo/utlvce/model.py:601`. -/
inductive FloatVal where
  | fin (x : ℝ)
  | pinf
  | ninf
  | nan

open Classical in
/-- Division of floats, `/repo/utlvce/model.py:601`: by zero it warns and gives an infinity or NaN (the sign of a zero is not modelled: the
zeros here come from a maximum of noise variances). -/
noncomputable def floatDiv (x y : ℝ) : FloatVal :=
  if y ≠ 0 then .fin (x / y) else if x = 0 then .nan else if 0 < x then .pinf else .ninf

/-- `intervention_strength()`, `/repo/utlvce/model.py:579-602`, also when a maximum is zero. -/
noncomputable def LModel.interventionStrengthF (m : LModel p l e) : Except Err (Fin p → FloatVal) :=
  if e = 0 ∧ p ≠ 0 then .error .valueError
  else .ok (fun j =>
    match pyMax (List.ofFn (fun k => m.omegas k j)) with
    | .error _ => .nan
    | .ok x => floatDiv (colVar m.omegas j) x)

end Verif
