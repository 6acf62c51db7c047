import Verif.Model.GradDescent

/-!
# The solvers of `/repo/utlvce/score.py` (lines 489-871)

Numerical kernels (`scipy.linalg.sqrtm`, `cvxpy`, the tests `np.isfinite`) and random draws are arbitrary functions and values
given to the model; everything else is exact arithmetic.
-/

namespace Verif

open Matrix

variable {p l e : Nat}

/-- The data of a `Score` object: sample covariances and sample sizes, `/repo/utlvce/score.py:217-247`. -/
structure Data (p e : Nat) where
  covs : Fin e → Matrix (Fin p) (Fin p) ℝ
  nObs : Fin e → Nat

/-- `sum(n_obs)`.  See `/repo/utlvce/score.py:680,762,840,848,940`. -/
def Data.total (d : Data p e) : Nat := ∑ k, d.nObs k

/-- `M.flatten(order='F')` (columns one after the other) for a square array.  See `/repo/utlvce/score.py:528-529,603-604`. -/
def flattenF {α : Type} (M : Fin p → Fin p → α) : Fin (p * p) → α := fun k => M k.modNat k.divNat

/-- `v.reshape((p, p), order='F')`: entry `(i, j)` is at position `i + p * j`.  See `/repo/utlvce/score.py:550,590,631`. -/
def reshapeF {α : Type} (v : Fin (p * p) → α) : Fin p → Fin p → α := fun i j => v (finProdFinEquiv (j, i))

/-- `np.kron(a, b)` for square arrays of the same size.  See `/repo/utlvce/score.py:519,600`. -/
def kron (a b : Matrix (Fin p) (Fin p) ℝ) : Matrix (Fin (p * p)) (Fin (p * p)) ℝ :=
  fun r c => a r.divNat c.divNat * b r.modNat c.modNat

/-- What the solvers for `B` get from numerical libraries: `scipy.linalg.sqrtm` (taken to return a real matrix),
`np.isfinite(...).all()`, `learn_rate *= 0.5` (which underflows to 0 eventually) and the solution found by `cvxpy` for the graph,
the inverse noise-term covariances and the data (`none` if it fails).  See `/repo/utlvce/score.py:519,600,678-686`. -/
structure NumLib (p e : Nat) where
  sqrtm : Matrix (Fin p) (Fin p) ℝ → Matrix (Fin p) (Fin p) ℝ
  finite : (Fin (p * p) → ℝ) → Bool
  halve : ℝ → ℝ
  cvx : Adj p → (Fin e → Matrix (Fin p) (Fin p) ℝ) → Data p e → Option (Matrix (Fin p) (Fin p) ℝ)

/-- The matrix `N`, `/repo/utlvce/score.py:517-520,598-601`: the sample sizes do not enter. -/
def nMatrix (num : NumLib p e) (d : Data p e) (Ms : Fin e → Matrix (Fin p) (Fin p) ℝ) :
    Matrix (Fin (p * p)) (Fin (p * p)) ℝ :=
  ∑ k, (kron (num.sqrtm (d.covs k)) (num.sqrtm (Ms k)))ᵀ * kron (num.sqrtm (d.covs k)) (num.sqrtm (Ms k))

/-- `zero_elements`, `/repo/utlvce/score.py:528,603`. -/
def zeroElements (A : Adj p) : Fin (p * p) → Bool := flattenF (fun i j => decide (A j i = 0))

/-- `one_elements`, `/repo/utlvce/score.py:529,604`. -/
def oneElements : Fin (p * p) → Bool := flattenF (fun i j => decide (i = j))

/-- `v[zero_elements] = 0; v[one_elements] = 1`, `/repo/utlvce/score.py:548-549,607-608,613-614`. -/
def maskVec (A : Adj p) (v : Fin (p * p) → ℝ) : Fin (p * p) → ℝ :=
  fun k => if oneElements k then 1 else if zeroElements A k then 0 else v k

/-- `(np.eye(p) - v.reshape((p, p), order='F')).T`.  See `/repo/utlvce/score.py:550-553,589-591,630-633`. -/
def unflattenB (v : Fin (p * p) → ℝ) : Matrix (Fin p) (Fin p) ℝ := (1 - Matrix.of (reshapeF v))ᵀ

/-- Variables of the loop of `_solve_for_B_grad`: `B`, `B_new`, `learn_rate`.  See `/repo/utlvce/score.py:522-526`. -/
structure GradState (p : Nat) where
  B : Fin (p * p) → ℝ
  Bnew : Fin (p * p) → ℝ
  lr : ℝ

/-- One iteration (or the exit) of the loop, `/repo/utlvce/score.py:531-549`. -/
noncomputable def gradStep (num : NumLib p e) (A : Adj p) (N : Matrix (Fin (p * p)) (Fin (p * p)) ℝ)
    (Binit : Fin (p * p) → ℝ) (s : GradState p) : Except Err (GradState p ⊕ GradState p) :=
  open Classical in
  if p = 0 then .error .valueError -- maximum of an empty array
  else if ¬ ∃ k, (1 : ℝ) / 10 ^ 10 < |s.B k - s.Bnew k| then .ok (.inr s)
  else
    let step := s.lr • (N *ᵥ s.Bnew)
    if s.lr = 0 then .ok (.inr s)
    else if ! num.finite step then .ok (.inl { B := 0, Bnew := Binit, lr := num.halve s.lr })
    else .ok (.inl { B := s.Bnew, Bnew := maskVec A (s.Bnew - step), lr := s.lr })

/-- `likelihood` in `_solve_for_B_adaptive`, `/repo/utlvce/score.py:588-593`. -/
noncomputable def likelihood (it : SetIter p) (d : Data p e) (m : LModel p l e) (v : Fin (p * p) → ℝ) : Except Err Flt :=
  match mkModel it m.A (unflattenB v) m.gamma m.omegas m.psis with
  | .error err => .error err
  | .ok m' => m'.score (List.ofFn d.covs) (List.ofFn d.nObs)

/-- Variables of the loop of `_solve_for_B_adaptive`.  See `/repo/utlvce/score.py:606-611`. -/
structure AdaptState (p : Nat) where
  B : Fin (p * p) → ℝ
  score : Flt
  lr : ℝ

/-- One iteration of the loop, `/repo/utlvce/score.py:611-628`. -/
noncomputable def adaptStep (it : SetIter p) (d : Data p e) (m : LModel p l e) (N : Matrix (Fin (p * p)) (Fin (p * p)) ℝ)
    (s : AdaptState p) : Except Err (AdaptState p ⊕ (Fin (p * p) → ℝ)) :=
  open Classical in
  let next := maskVec m.A (s.B - s.lr • (N *ᵥ s.B))
  match likelihood it d m next with
  | .error err => .error err
  | .ok nextScore =>
    if s.score.lt nextScore then .ok (.inl { s with lr := s.lr / 2 })
    else if p = 0 then .error .valueError -- maximum of an empty array
    else if ∀ k, |s.B k - next k| < 1 / 10 ^ 5 then .ok (.inr s.B)
    else .ok (.inl { s with B := next, score := nextScore })

/-- `_solve_for_B_adaptive`, `/repo/utlvce/score.py:562-633`; `Binit` is the random draw. -/
noncomputable def solveForBAdaptive (it : SetIter p) (num : NumLib p e) (d : Data p e) (Binit : Fin (p * p) → ℝ)
    (m : LModel p l e) : Except Err (Matrix (Fin p) (Fin p) ℝ) :=
  match m.invNoise with
  | .error err => .error err
  | .ok Ms =>
    let init := maskVec m.A Binit
    match likelihood it d m init with
    | .error err => .error err
    | .ok score =>
      match runLoop (adaptStep it d m (nMatrix num d Ms)) { B := init, score := score, lr := 1 } with
      | .error err => .error err
      | .ok v => if ! num.finite (flattenF (unflattenB v)) then .error .assertionError else .ok (unflattenB v)

/-- `_solve_for_B_grad`, `/repo/utlvce/score.py:489-559`; `Binit` and `Badapt` are the random draws of the function itself and
of the fallback. -/
noncomputable def solveForBGrad (it : SetIter p) (num : NumLib p e) (d : Data p e) (Binit Badapt : Fin (p * p) → ℝ)
    (m : LModel p l e) : Except Err (Matrix (Fin p) (Fin p) ℝ) :=
  open Classical in
  match m.invNoise with
  | .error err => .error err
  | .ok Ms =>
    match runLoop (gradStep num m.A (nMatrix num d Ms) Binit) { B := 0, Bnew := Binit, lr := 5 / 1000 } with
    | .error err => .error err
    | .ok s =>
      if num.finite (flattenF (unflattenB s.Bnew)) ∧ 0 < s.lr then .ok (unflattenB s.Bnew)
      else solveForBAdaptive it num d Badapt m

/-- The objective given to `cvxpy`, `/repo/utlvce/score.py:671-683`: `cp.norm(aux, 'fro')**2` is the sum of the squared entries. -/
noncomputable def cvxObjective (num : NumLib p e) (d : Data p e) (Ms : Fin e → Matrix (Fin p) (Fin p) ℝ)
    (B : Matrix (Fin p) (Fin p) ℝ) : ℝ :=
  (∑ k, (∑ i, ∑ j, (num.sqrtm (Ms k) * (1 - Bᵀ) * num.sqrtm (d.covs k)) i j ^ 2) * (d.nObs k : ℝ)) / (d.total : ℝ)

/-- `_solve_for_B_cvx`, `/repo/utlvce/score.py:636-697`. -/
noncomputable def solveForBCvx (num : NumLib p e) (d : Data p e) (m : LModel p l e) : Except Err (Matrix (Fin p) (Fin p) ℝ) :=
  open Classical in
  match m.invNoise with
  | .error err => .error err
  | .ok Ms =>
    match num.cvx m.A Ms d with
    | none => .error .typeError
    | some B =>
      if ¬ ∀ i j, m.A i j = 0 → |B i j| ≤ 1 / 10 ^ 8 then .error .assertionError
      else .ok (Matrix.of (fun i j => if m.A i j = 0 then 0 else B i j))

/-- `Ns`, `/repo/utlvce/score.py:735-736,826-827`. -/
def nCov (d : Data p e) (B : Matrix (Fin p) (Fin p) ℝ) (h : Fin e) : Matrix (Fin p) (Fin p) ℝ :=
  (1 - Bᵀ) * d.covs h * (1 - Bᵀ)ᵀ

/-- The matrix of the entries of `gamma` as an argument of the gradient descent.  See `/repo/utlvce/score.py:739,769`. -/
def toGamma (X : Fin l × Fin p → ℝ) : Matrix (Fin l) (Fin p) ℝ := Matrix.of (fun i j => X (i, j))

/-- `loss` of `_solve_for_gamma`, `/repo/utlvce/score.py:768-771`. -/
noncomputable def gammaLoss (it : SetIter p) (d : Data p e) (m : LModel p l e) (X : Fin l × Fin p → ℝ) : Except Err Flt :=
  match mkModel it m.A m.B (toGamma X) m.omegas m.psis with
  | .error err => .error err
  | .ok m' => m'.score (List.ofFn d.covs) (List.ofFn d.nObs)

/-- `T + T.T` of `_solve_for_gamma`, `/repo/utlvce/score.py:753-758`. -/
def gammaT (gamma : Matrix (Fin l) (Fin p) ℝ) (psis : Matrix (Fin e) (Fin l) ℝ) (h : Fin e) (a : Fin l) (k : Fin p) :
    Matrix (Fin p) (Fin p) ℝ :=
  let T : Matrix (Fin p) (Fin p) ℝ := Matrix.of (fun i j => if i = k then gamma a j * psis h a else 0)
  T + Tᵀ

/-- `gradients` of `_solve_for_gamma`, `/repo/utlvce/score.py:738-764`. -/
noncomputable def gammaGrad (it : SetIter p) (d : Data p e) (m : LModel p l e) (X : Fin l × Fin p → ℝ) :
    Except Err (Fin l × Fin p → ℝ) :=
  match mkModel it m.A m.B (toGamma X) m.omegas m.psis with
  | .error err => .error err
  | .ok m' =>
    match m'.invNoise with
    | .error err => .error err
    | .ok Ms => .ok (fun ak =>
        (∑ h, (d.nObs h : ℝ) * (trace (Ms h * gammaT (toGamma X) m.psis h ak.1 ak.2) -
          trace (Ms h * nCov d m.B h * Ms h * gammaT (toGamma X) m.psis h ak.1 ak.2))) / (d.total : ℝ))

/-- `_solve_for_gamma`, `/repo/utlvce/score.py:700-776`. -/
noncomputable def solveForGamma (it : SetIter p) (d : Data p e) (threshold learningRate : ℝ) (m : LModel p l e) :
    Except Err (Matrix (Fin l) (Fin p) ℝ) :=
  match gradientDescent 1 (fun _ => 0) (gammaLoss it d m) (gammaGrad it d m) (fun ak => m.gamma ak.1 ak.2) threshold
    learningRate none (1 / 10 ^ 50) with
  | .error err => .error err
  | .ok (X, _) => .ok (toGamma X)

/-- The entries of `omegas` and `psis`.  See `/repo/utlvce/score.py:830,861`. -/
abbrev RestIx (p l e : Nat) := (Fin e × Fin p) ⊕ (Fin e × Fin l)

/-- The array `omegas` among the arguments of the gradient descent.  See `/repo/utlvce/score.py:830,861`. -/
def toOmegas (X : RestIx p l e → ℝ) : Matrix (Fin e) (Fin p) ℝ := Matrix.of (fun i j => X (.inl (i, j)))

/-- The array `psis` among the arguments of the gradient descent.  See `/repo/utlvce/score.py:830,861`. -/
def toPsis (X : RestIx p l e → ℝ) : Matrix (Fin e) (Fin l) ℝ := Matrix.of (fun i j => X (.inr (i, j)))

/-- `loss` of `_solve_for_rest`, `/repo/utlvce/score.py:860-863`. -/
noncomputable def restLoss (it : SetIter p) (d : Data p e) (m : LModel p l e) (X : RestIx p l e → ℝ) : Except Err Flt :=
  match mkModel it m.A m.B m.gamma (toOmegas X) (toPsis X) with
  | .error err => .error err
  | .ok m' => m'.score (List.ofFn d.covs) (List.ofFn d.nObs)

/-- `gradient_omegas` before the constraint, `/repo/utlvce/score.py:838-840`. -/
noncomputable def omegaGrad (d : Data p e) (B : Matrix (Fin p) (Fin p) ℝ) (Ms : Fin e → Matrix (Fin p) (Fin p) ℝ) (h : Fin e)
    (j : Fin p) : ℝ :=
  (d.nObs h : ℝ) / (d.total : ℝ) * (Ms h - Ms h * nCov d B h * Ms h) j j

/-- `gradient_psis` before the constraint, `/repo/utlvce/score.py:841-848`. -/
noncomputable def psiGrad (d : Data p e) (B : Matrix (Fin p) (Fin p) ℝ) (gamma : Matrix (Fin l) (Fin p) ℝ)
    (Ms : Fin e → Matrix (Fin p) (Fin p) ℝ) (h : Fin e) (k : Fin l) : ℝ :=
  let T : Matrix (Fin p) (Fin p) ℝ := Matrix.of (fun i j => gamma k i * gamma k j)
  (d.nObs h : ℝ) / (d.total : ℝ) * (trace (Ms h * T) - trace (Ms h * nCov d B h * Ms h * T))

/-- `x.mean()` of a column.  See `/repo/utlvce/score.py:852,856`. -/
noncomputable def meanEnv (x : Fin e → ℝ) : ℝ := (∑ h, x h) / (e : ℝ)

/-- `gradients` of `_solve_for_rest`, `/repo/utlvce/score.py:829-857`. -/
noncomputable def restGrad (it : SetIter p) (d : Data p e) (I : Finset (Fin p)) (psiFixed : Bool) (m : LModel p l e)
    (X : RestIx p l e → ℝ) : Except Err (RestIx p l e → ℝ) :=
  match mkModel it m.A m.B m.gamma (toOmegas X) (toPsis X) with
  | .error err => .error err
  | .ok m' =>
    match m'.invNoise with
    | .error err => .error err
    | .ok Ms => .ok (Sum.elim
        (fun hj => if hj.2 ∈ I then omegaGrad d m.B Ms hj.1 hj.2 else meanEnv (fun h => omegaGrad d m.B Ms h hj.2))
        (fun hk => if psiFixed then meanEnv (fun h => psiGrad d m.B m.gamma Ms h hk.2) else psiGrad d m.B m.gamma Ms hk.1 hk.2))

/-- The bounds for omegas and psis, `/repo/utlvce/score.py:866-867`. -/
noncomputable def restBounds (psiMax : Option ℝ) : List (EReal × EReal) :=
  match psiMax with
  | none => [(0, ⊤)] ++ [(0, ⊤)]
  | some x => [(0, ⊤)] ++ [(0, (x : EReal))]

/-- `_solve_for_rest`, `/repo/utlvce/score.py:779-871`. -/
noncomputable def solveForRest (it : SetIter p) (d : Data p e) (I : Finset (Fin p)) (psiMax : Option ℝ) (psiFixed : Bool)
    (threshold learningRate : ℝ) (m : LModel p l e) : Except Err (Matrix (Fin e) (Fin p) ℝ × Matrix (Fin e) (Fin l) ℝ) :=
  match gradientDescent 2 (Sum.elim (fun _ => 0) (fun _ => 1)) (restLoss it d m) (restGrad it d I psiFixed m)
    (Sum.elim (fun hj => m.omegas hj.1 hj.2) (fun hk => m.psis hk.1 hk.2)) threshold learningRate
    (some (restBounds psiMax)) (1 / 10 ^ 50) with
  | .error err => .error err
  | .ok (X, _) => .ok (toOmegas X, toPsis X)

end Verif
