import Verif.Model.Score

/-!
# `score_dag` for targets given as any set of integers

`score_dag` does not check the set `I`.  It only asks whether the nodes `0, ..., p - 1` are in it, and the cache compares the sets as they were given.
-/

namespace Verif
open Matrix
variable {p l e : Nat}

/-- `_initialize_omegas(B, I, sample_covariances, n_obs, init)`, `/repo/utlvce/score.py:1023-1107`; `j in I` at line 1102. -/
noncomputable def zinitializeOmegas (B : Matrix (Fin p) (Fin p) ℝ) (I : Finset Int) (d : Data p e) (init : InitKind) :
    Except Err (Matrix (Fin e) (Fin p) ℝ) :=
  match initCovariance d init with
  | .error err => .error err
  | .ok _ => .ok (Matrix.of (fun k j =>
      if (j.val : Int) ∈ I then omegasFree B d k j else (∑ h, omegasFree B d h j * (d.nObs h : ℝ)) / (d.total : ℝ)))

/-- The initial model, `/repo/utlvce/score.py:330-342`, as in `initialModel`. -/
noncomputable def zinitialModel (it : SetIter p) (svd : Matrix (Fin p) (Fin p) ℝ → Matrix (Fin p) (Fin p) ℝ × (Fin p → ℝ))
    (d : Data p e) (A : Adj p) (I : Finset Int) : Except Err (LModel p l e) :=
  match initializeB A d .avg with
  | .error err => .error err
  | .ok B =>
    match initializeGamma svd B l d .avg with
    | .error err => .error err
    | .ok gamma =>
      match zinitializeOmegas B I d .avg with
      | .error err => .error err
      | .ok omegas =>
        if h : min l p = l then
          mkModel it A B (gamma.submatrix (Fin.cast h.symm) id) omegas (initializePsis e l)
        else .error .valueError

/-- `gradients` of `_solve_for_rest`, `/repo/utlvce/score.py:829-857`; the average is taken for `j in set(range(model.p)) - I`, line 851. -/
noncomputable def zrestGrad (it : SetIter p) (d : Data p e) (I : Finset Int) (psiFixed : Bool) (m : LModel p l e)
    (X : RestIx p l e → ℝ) : Except Err (RestIx p l e → ℝ) :=
  match mkModel it m.A m.B m.gamma (toOmegas X) (toPsis X) with
  | .error err => .error err
  | .ok m' =>
    match m'.invNoise with
    | .error err => .error err
    | .ok Ms => .ok (Sum.elim
        (fun hj => if (hj.2.val : Int) ∈ (Finset.univ.image fun j : Fin p => (j.val : Int)) \ I then meanEnv (fun h => omegaGrad d m.B Ms h hj.2)
          else omegaGrad d m.B Ms hj.1 hj.2)
        (fun hk => if psiFixed then meanEnv (fun h => psiGrad d m.B m.gamma Ms h hk.2) else psiGrad d m.B m.gamma Ms hk.1 hk.2))

/-- `_solve_for_rest`, `/repo/utlvce/score.py:779-874`. -/
noncomputable def zsolveForRest (it : SetIter p) (d : Data p e) (I : Finset Int) (psiMax : Option ℝ) (psiFixed : Bool)
    (threshold learningRate : ℝ) (m : LModel p l e) : Except Err (Matrix (Fin e) (Fin p) ℝ × Matrix (Fin e) (Fin l) ℝ) :=
  match gradientDescent 2 (Sum.elim (fun _ => 0) (fun _ => 1)) (restLoss it d m) (zrestGrad it d I psiFixed m)
    (Sum.elim (fun hj => m.omegas hj.1 hj.2) (fun hk => m.psis hk.1 hk.2)) threshold learningRate
    (some (restBounds psiMax)) (1 / 10 ^ 50) with
  | .error err => .error err
  | .ok (X, _) => .ok (toOmegas X, toPsis X)

/-- The sub-procedures `score_dag` uses, `/repo/utlvce/score.py:365-391`. -/
noncomputable def zcodeSolvers (it : SetIter p) (num : NumLib p e) (cfg : ScoreCfg) (d : Data p e)
    (u v : Nat → Fin (p * p) → ℝ) (I : Finset Int) : Solvers p l e where
  solveB i m :=
    match cfg.solver with
    | .grad => solveForBGrad it num d (u i) (v i) m
    | .adaptive => solveForBAdaptive it num d (u i) m
    | .cvx => solveForBCvx num d m
  gamma m := solveForGamma it d cfg.thresholdScore cfg.learningRate m
  rest m := zsolveForRest it d I cfg.psiMax cfg.psiFixed cfg.thresholdScore cfg.learningRate m

/-- `score_dag` apart from the cache, `/repo/utlvce/score.py:318-410`. -/
noncomputable def zfitCode (it : SetIter p) (svd : Matrix (Fin p) (Fin p) ℝ → Matrix (Fin p) (Fin p) ℝ × (Fin p → ℝ)) (num : NumLib p e)
    (cfg : ScoreCfg) (d : Data p e) (u v : Nat → Fin (p * p) → ℝ) (A : Adj p) (I : Finset Int) (init : Option (LModel p l e)) :
    Except Err (LModel p l e × Flt) :=
  if ! isDag it A then .error .valueError
  else
    match init with
    | some m => if m.A ≠ A then .error .valueError else alternate it (zcodeSolvers it num cfg d u v I) cfg.stop d m
    | none =>
      match zinitialModel it svd d A I with
      | .error err => .error err
      | .ok m => alternate it (zcodeSolvers it num cfg d u v I) cfg.stop d m

/-- An entry of the cache, `/repo/utlvce/score.py:429-433`, with the set as it was given. -/
structure ZEntry (p : Nat) (M : Type) where
  A : Adj p
  I : Finset Int
  score : Flt
  model : M

/-- `_Cache._find(A, I)`, `/repo/utlvce/score.py:435-463`. -/
def zcacheFind {M : Type} (c : List (ZEntry p M)) (A : Adj p) (I : Finset Int) : Except Err (Option Nat) :=
  if c.length = 0 then .ok none
  else
    match (List.range c.length).filter (fun i => decide ((c[i]?).map (·.A) = some A)) with
    | [] => .ok none
    | [i] => if (c[i]?).map (·.I) = some I then .ok (some i) else .ok none
    | idx =>
      match (List.range idx.length).filter (fun j => decide (((idx[j]?).bind (fun i => c[i]?)).map (·.I) = some I)) with
      | [] => .ok none
      | [j] => .ok (idx[j]?)
      | _ => .error .exception

/-- `_Cache.read(A, I)`, `/repo/utlvce/score.py:465-472`. -/
def zcacheRead {M : Type} (c : List (ZEntry p M)) (A : Adj p) (I : Finset Int) : Except Err (Option (M × Flt)) :=
  match zcacheFind c A I with
  | .error err => .error err
  | .ok none => .ok none
  | .ok (some i) =>
    match c[i]? with
    | none => .error .indexError
    | some en => .ok (some (en.model, en.score))

/-- `_Cache.write(A, I, model, score)`, `/repo/utlvce/score.py:474-483`. -/
def zcacheWrite {M : Type} (copy : M → Except Err M) (c : List (ZEntry p M)) (A : Adj p) (I : Finset Int) (model : M)
    (score : Flt) : Except Err (List (ZEntry p M)) :=
  match zcacheFind c A I with
  | .error err => .error err
  | .ok (some _) => .error .valueError
  | .ok none =>
    match copy model with
    | .error err => .error err
    | .ok m => .ok (c ++ [{ A := A, I := I, score := score, model := m }])

/-- `Score.score_dag(A, I)`, `/repo/utlvce/score.py:277-418`, with a cache and without `init_model`; `fit` is the computation that the cache wraps. -/
def zscoreDag {M : Type} (copy : M → Except Err M) (fit : Adj p → Finset Int → Except Err (M × Flt)) (c : List (ZEntry p M)) (A : Adj p)
    (I : Finset Int) : Except Err ((M × Flt) × List (ZEntry p M)) :=
  match zcacheRead c A I with
  | .error err => .error err
  | .ok (some r) => .ok (r, c)
  | .ok none =>
    match fit A I with
    | .error err => .error err
    | .ok (m, score) =>
      match zcacheWrite copy c A I m score with
      | .error err => .error err
      | .ok c' => .ok ((m, score), c')

end Verif
