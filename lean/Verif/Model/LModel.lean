import Verif.Model.Graph
import Mathlib.LinearAlgebra.Matrix.NonsingularInverse
import Mathlib.LinearAlgebra.Matrix.Trace
import Mathlib.Analysis.SpecialFunctions.Log.Basic

/-!
# The class `Model` (`/repo/utlvce/model.py`)

Floating point numbers are exact reals.  A float that can be `nan` is an `Option ℝ` (`Flt`), `none` being `nan`.
-/

namespace Verif

open Matrix

variable {p l e : Nat}

/-- A float that may be `nan` (`none`).  See `/repo/utlvce/model.py:301-309`. -/
abbrev Flt := Option ℝ

/-- `a + b` on floats.  See `/repo/utlvce/model.py:306`. -/
noncomputable def Flt.add (a b : Flt) : Flt := a.bind (fun x => b.map (fun y => x + y))

/-- `n * a` for a non-negative integer `n`.  See `/repo/utlvce/model.py:306`. -/
noncomputable def Flt.smul (n : Nat) (a : Flt) : Flt := a.map (fun x => (n : ℝ) * x)

/-- `a / n` for a non-negative integer `n`; only used where `n = 0` forces `a = 0` or `a = nan`, and then the result is
`nan`.  See `/repo/utlvce/model.py:308`. -/
noncomputable def Flt.divNat (a : Flt) (n : Nat) : Flt := if n = 0 then none else a.map (fun x => x / (n : ℝ))

/-- A numpy float array: its shape and its entries by multi-index.  See `/repo/utlvce/model.py:198-242`. -/
structure NdArr where
  shape : List Nat
  val : List Nat → ℝ

/-- The attributes of a `Model` object, `/repo/utlvce/model.py:231-242`; `p`, `l`, `e` are the lengths of `B`, `gamma` and
`omegas`.  `IB` is the attribute `I_B`, stored separately because later assignments to `B` do not update it. -/
@[ext] structure LModel (p l e : Nat) where
  A : Adj p
  B : Matrix (Fin p) (Fin p) ℝ
  gamma : Matrix (Fin l) (Fin p) ℝ
  omegas : Matrix (Fin e) (Fin p) ℝ
  psis : Matrix (Fin e) (Fin l) ℝ
  IB : Matrix (Fin p) (Fin p) ℝ

/-- `Model.__init__(A, B, gamma, omegas, psis)` on arrays of any shape, `/repo/utlvce/model.py:198-242`.  `A` is a square
integer array (for other shapes `is_dag` fails).  The dimensions `l` and `e` of the result are part of the result. -/
noncomputable def initModel (it : SetIter p) (A : Adj p) (B gamma omegas psis : NdArr) :
    Except Err ((l : Nat) × (e : Nat) × LModel p l e) :=
  open Classical in
  if B.shape ≠ [p, p] then .error .valueError
  else if ! isDag it A then .error .valueError
  else if ∃ i j, A i j = 0 ∧ B.val [i.val, j.val] ≠ 0 then .error .valueError
  else if gamma.shape.length ≠ 2 then .error .valueError
  else if omegas.shape.length ≠ 2 then .error .valueError
  else if psis.shape.length ≠ 2 then .error .valueError
  else if gamma.shape.getD 1 0 ≠ p then .error .valueError
  else if omegas.shape.getD 1 0 ≠ p then .error .valueError
  else if omegas.shape.getD 0 0 ≠ psis.shape.getD 0 0 then .error .valueError
  else if gamma.shape.getD 0 0 ≠ psis.shape.getD 1 0 then .error .valueError
  else .ok ⟨gamma.shape.getD 0 0, omegas.shape.getD 0 0,
    { A := A
      B := fun i j => B.val [i.val, j.val]
      gamma := fun i j => gamma.val [i.val, j.val]
      omegas := fun i j => omegas.val [i.val, j.val]
      psis := fun i j => psis.val [i.val, j.val]
      IB := 1 - (Matrix.of (fun i j => B.val [i.val, j.val]))ᵀ }⟩

/-- `Model(A, B, gamma, omegas, psis)` when the dimensions agree, `/repo/utlvce/model.py:198-242` (the form used by the rest
of the code; theorem `C34_typed` relates it to `initModel`). -/
noncomputable def mkModel (it : SetIter p) (A : Adj p) (B : Matrix (Fin p) (Fin p) ℝ) (gamma : Matrix (Fin l) (Fin p) ℝ)
    (omegas : Matrix (Fin e) (Fin p) ℝ) (psis : Matrix (Fin e) (Fin l) ℝ) : Except Err (LModel p l e) :=
  open Classical in
  if ! isDag it A then .error .valueError
  else if ∃ i j, A i j = 0 ∧ B i j ≠ 0 then .error .valueError
  else .ok { A := A, B := B, gamma := gamma, omegas := omegas, psis := psis, IB := 1 - Bᵀ }

/-- `Model.copy()`, `/repo/utlvce/model.py:244-275`. -/
noncomputable def LModel.copy (it : SetIter p) (m : LModel p l e) : Except Err (LModel p l e) :=
  mkModel it m.A m.B m.gamma m.omegas m.psis

/-- `np.linalg.inv`: `LinAlgError` for a singular matrix.  See `/repo/utlvce/model.py:356,379`. -/
noncomputable def npInv (M : Matrix (Fin p) (Fin p) ℝ) : Except Err (Matrix (Fin p) (Fin p) ℝ) :=
  open Classical in if M.det = 0 then .error .linAlgError else .ok M⁻¹

/-- `Model.noise_term_covariances()`, `/repo/utlvce/model.py:311-332`, entry of environment `k`. -/
noncomputable def LModel.noise (m : LModel p l e) (k : Fin e) : Matrix (Fin p) (Fin p) ℝ :=
  m.gammaᵀ * Matrix.diagonal (m.psis k) * m.gamma + Matrix.diagonal (m.omegas k)

/-- `Model.inv_noise_term_covariances()`, `/repo/utlvce/model.py:334-357`: the loop fails at the first singular matrix. -/
noncomputable def LModel.invNoise (m : LModel p l e) : Except Err (Fin e → Matrix (Fin p) (Fin p) ℝ) :=
  open Classical in
  if ∃ k, (m.noise k).det = 0 then .error .linAlgError else .ok (fun k => (m.noise k)⁻¹)

/-- `Model.covariances()`, `/repo/utlvce/model.py:359-383`. -/
noncomputable def LModel.covariances (m : LModel p l e) : Except Err (Fin e → Matrix (Fin p) (Fin p) ℝ) :=
  match npInv (1 - m.Bᵀ) with
  | .error err => .error err
  | .ok inv => .ok (fun k => inv * m.noise k * invᵀ)

/-- `-np.log(np.linalg.det(M)) + np.trace(M @ N)` with `N = I_B @ sigma @ I_B.T`, `/repo/utlvce/model.py:305-307`; the
logarithm of a negative number is `nan` (`det M = 0` does not occur as `M` is an inverse). -/
noncomputable def scoreTerm (IB M sigma : Matrix (Fin p) (Fin p) ℝ) : Flt :=
  open Classical in
  if 0 < M.det then some (- Real.log M.det + Matrix.trace (M * (IB * sigma * IBᵀ))) else none

/-- The loop of `Model.score`, `/repo/utlvce/model.py:304-308`. -/
noncomputable def scoreLoop (IB : Matrix (Fin p) (Fin p) ℝ) (Ms : Fin e → Matrix (Fin p) (Fin p) ℝ) (nObs : List Nat) :
    Nat → List (Matrix (Fin p) (Fin p) ℝ) → Flt → Except Err Flt
  | _, [], score => .ok score
  | i, sigma :: rest, score =>
    match nObs[i]? with
    | none => .error .indexError
    | some n =>
      if h : i < e then
        scoreLoop IB Ms nObs (i + 1) rest
          (Flt.divNat (Flt.add score (Flt.smul n (scoreTerm IB (Ms ⟨i, h⟩) sigma))) nObs.sum)
      else .error .indexError

/-- `Model.score(sample_covariances, n_obs)`, `/repo/utlvce/model.py:277-309`; it uses the stored `I_B`. -/
noncomputable def LModel.score (m : LModel p l e) (covs : List (Matrix (Fin p) (Fin p) ℝ)) (nObs : List Nat) :
    Except Err Flt :=
  match m.invNoise with
  | .error err => .error err
  | .ok Ms => scoreLoop m.IB Ms nObs 0 covs (some 0)

/-- A Python value passed as `n_obs`.  See `/repo/utlvce/model.py:385,495-520`. -/
inductive PyNum where
  | int (n : Int)
  | other

/-- The argument `n_obs` of `Model.sample`: an int, a list, or anything else.  See `/repo/utlvce/model.py:385,495-520`. -/
inductive PyNObs where
  | single (n : Int)
  | list (l : List PyNum)
  | other

/-- The loop `for n in n_obs`, `/repo/utlvce/model.py:508-515`. -/
def checkNObs (computeCovs : Bool) : List PyNum → Except Err (List Nat)
  | [] => .ok []
  | .other :: _ => .error .typeError
  | .int n :: rest =>
    if n ≤ 0 then .error .valueError
    else if n = 1 ∧ computeCovs then .error .valueError
    else
      match checkNObs computeCovs rest with
      | .error err => .error err
      | .ok l => .ok (n.toNat :: l)

/-- The checks of `Model.sample`, `/repo/utlvce/model.py:493-519`. -/
def sampleSizes (e : Nat) (computeCovs : Bool) : PyNObs → Except Err (List Nat)
  | .single n =>
    if computeCovs ∧ n = 1 then .error .valueError
    else if n > 0 then .ok (List.replicate e n.toNat)
    else .error .valueError
  | .list l => if l.length ≠ e then .error .valueError else checkNObs computeCovs l
  | .other => .error .typeError

/-- `Model.sample(n_obs, compute_covs)`, `/repo/utlvce/model.py:385-541`.  `normal k C n` is the outcome of the `k`-th call of
`generator.multivariate_normal(0, C, n)`; `cov` is `np.cov(x, rowvar=False)`.  The result is the list of samples and, with
`compute_covs`, the sample covariances and sample sizes. -/
noncomputable def LModel.sample (normal : Nat → Matrix (Fin p) (Fin p) ℝ → Nat → List (Fin p → ℝ))
    (cov : List (Fin p → ℝ) → Matrix (Fin p) (Fin p) ℝ) (m : LModel p l e) (nObs : PyNObs) (computeCovs : Bool) :
    Except Err (List (List (Fin p → ℝ)) × Option (List (Matrix (Fin p) (Fin p) ℝ) × List Nat)) :=
  match sampleSizes e computeCovs nObs with
  | .error err => .error err
  | .ok ns =>
    match m.covariances with
    | .error err => .error err
    | .ok C =>
      let X := (List.finRange e).map (fun k => normal k.val (C k) (ns.getD k.val 0))
      .ok (X, if computeCovs then some (X.map cov, ns) else none)

end Verif
