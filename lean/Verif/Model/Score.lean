import Verif.Model.Solve

/-!
# The class `Score`, its cache and the initial values (`/repo/utlvce/score.py`)
-/

namespace Verif

open Matrix

variable {p l e : Nat}

/-! ## Initial values -/

/-- The argument `init` of the initialisation functions.  See `/repo/utlvce/score.py:877,948,1023`. -/
inductive InitKind where
  | obs | avg | other
  deriving DecidableEq

/-- `scaled.sum(axis=0) / sum(n_obs)`, `/repo/utlvce/score.py:939-940,1014-1015` (for a positive total sample size). -/
noncomputable def avgCov (d : Data p e) : Matrix (Fin p) (Fin p) ℝ :=
  (1 / (d.total : ℝ)) • ∑ k, (d.nObs k : ℝ) • d.covs k

/-- `init_covariance`, `/repo/utlvce/score.py:931-940,1007-1015`. -/
noncomputable def initCovariance (d : Data p e) : InitKind → Except Err (Matrix (Fin p) (Fin p) ℝ)
  | .other => .error .valueError
  | .obs => if h : 0 < e then .ok (d.covs ⟨0, h⟩) else .error .indexError
  | .avg => .ok (avgCov d)

/-- The indices of the parents, `np.where(A[:, j] != 0)[0]`, `/repo/utlvce/score.py:943`. -/
def paOf (A : Adj p) (j : Fin p) : Finset (Fin p) := Finset.univ.filter (fun i => A i j ≠ 0)

/-- `cov[pa, :][:, pa]`.  See `/repo/utlvce/score.py:1290-1297`. -/
def covPa (cov : Matrix (Fin p) (Fin p) ℝ) (pa : Finset (Fin p)) : Matrix pa pa ℝ :=
  cov.submatrix Subtype.val Subtype.val

/-- `_regress(j, pa, cov)`, `/repo/utlvce/score.py:1290-1294`, as a function on the parents. -/
noncomputable def regress (j : Fin p) (pa : Finset (Fin p)) (cov : Matrix (Fin p) (Fin p) ℝ) : Except Err (pa → ℝ) :=
  open Classical in
  if (covPa cov pa).det = 0 then .error .linAlgError
  else .ok ((covPa cov pa)⁻¹ *ᵥ (fun i => cov j i.val))

/-- The loop over `j` of `_initialize_B`, `/repo/utlvce/score.py:942-944`; it fails if one of the regressions does. -/
noncomputable def regressAll (A : Adj p) (cov : Matrix (Fin p) (Fin p) ℝ) : Except Err (Matrix (Fin p) (Fin p) ℝ) :=
  open Classical in
  if ∃ j, (covPa cov (paOf A j)).det = 0 then .error .linAlgError
  else .ok (Matrix.of (fun i j =>
    match regress j (paOf A j) cov with
    | .error _ => 0
    | .ok b => if h : i ∈ paOf A j then b ⟨i, h⟩ else 0))

/-- `_initialize_B(A, sample_covariances, n_obs, init)`, `/repo/utlvce/score.py:877-945`. -/
noncomputable def initializeB (A : Adj p) (d : Data p e) (init : InitKind) : Except Err (Matrix (Fin p) (Fin p) ℝ) :=
  match initCovariance d init with
  | .error err => .error err
  | .ok cov => regressAll A cov

/-- `_initialize_gamma(B, num_latent, sample_covariances, n_obs, init)`, `/repo/utlvce/score.py:948-1020`.  `svd` is
`np.linalg.svd` (left singular vectors and singular values).  The result has `min(num_latent, p)` rows. -/
noncomputable def initializeGamma (svd : Matrix (Fin p) (Fin p) ℝ → Matrix (Fin p) (Fin p) ℝ × (Fin p → ℝ))
    (B : Matrix (Fin p) (Fin p) ℝ) (l : Nat) (d : Data p e) (init : InitKind) :
    Except Err (Matrix (Fin (min l p)) (Fin p) ℝ) :=
  match initCovariance d init with
  | .error err => .error err
  | .ok cov =>
    let (U, S) := svd ((1 - Bᵀ) * cov * (1 - Bᵀ)ᵀ)
    .ok (Matrix.of (fun a i => U i ⟨a.val, lt_of_lt_of_le a.isLt (min_le_right l p)⟩ *
      Real.sqrt (S ⟨a.val, lt_of_lt_of_le a.isLt (min_le_right l p)⟩)))

/-- `omegas_wo_constraints`, `/repo/utlvce/score.py:1094-1097`. -/
def omegasFree (B : Matrix (Fin p) (Fin p) ℝ) (d : Data p e) (k : Fin e) (j : Fin p) : ℝ := nCov d B k j j

/-- `_initialize_omegas(B, I, sample_covariances, n_obs, init)`, `/repo/utlvce/score.py:1023-1107`: the covariance selected by
`init` is not used. -/
noncomputable def initializeOmegas (B : Matrix (Fin p) (Fin p) ℝ) (I : Finset (Fin p)) (d : Data p e) (init : InitKind) :
    Except Err (Matrix (Fin e) (Fin p) ℝ) :=
  match initCovariance d init with
  | .error err => .error err
  | .ok _ => .ok (Matrix.of (fun k j =>
      if j ∈ I then omegasFree B d k j else (∑ h, omegasFree B d h j * (d.nObs h : ℝ)) / (d.total : ℝ)))

/-- `_initialize_psis(num_envs, num_latent)`, `/repo/utlvce/score.py:1110-1134`. -/
def initializePsis (e l : Nat) : Matrix (Fin e) (Fin l) ℝ := Matrix.of (fun _ _ => 1)

/-! ## The cache -/

/-- An entry of the four parallel lists of `_Cache`, `/repo/utlvce/score.py:429-433`; `M` is the type of stored models. -/
structure Entry (p : Nat) (M : Type) where
  A : Adj p
  I : Finset (Fin p)
  score : Flt
  model : M

/-- `_Cache._find(A, I)`, `/repo/utlvce/score.py:435-463`. -/
def cacheFind {M : Type} (c : List (Entry p M)) (A : Adj p) (I : Finset (Fin p)) : Except Err (Option Nat) :=
  if c.length = 0 then .ok none
  else
    match (List.range c.length).filter (fun i => decide ((c[i]?).map (·.A) = some A)) with
    | [] => .ok none
    | [i] => if (c[i]?).map (·.I) = some I then .ok (some i) else .ok none
    | idx =>
      match (List.range idx.length).filter (fun j => decide (((idx[j]?).bind (fun i => c[i]?)).map (·.I) = some I)) with
      | [] => .ok none
      | [j] => .ok (idx[j]?)
      | _ => .error .exception

/-- `_Cache.read(A, I)`, `/repo/utlvce/score.py:465-472`. -/
def cacheRead {M : Type} (c : List (Entry p M)) (A : Adj p) (I : Finset (Fin p)) : Except Err (Option (M × Flt)) :=
  match cacheFind c A I with
  | .error err => .error err
  | .ok none => .ok none
  | .ok (some i) =>
    match c[i]? with
    | none => .error .indexError
    | some en => .ok (some (en.model, en.score))

/-- `_Cache.write(A, I, model, score, check)`, `/repo/utlvce/score.py:474-483`; `copy` is `model.copy()`.  (If `copy` raised, the
code would leave the other three lists extended; it does not raise for fitted models, see C45.) -/
def cacheWrite {M : Type} (copy : M → Except Err M) (c : List (Entry p M)) (A : Adj p) (I : Finset (Fin p)) (model : M)
    (score : Flt) (check : Bool) : Except Err (List (Entry p M)) :=
  match (if check then cacheFind c A I else .ok none) with
  | .error err => .error err
  | .ok (some _) => .error .valueError
  | .ok none =>
    match copy model with
    | .error err => .error err
    | .ok m => .ok (c ++ [{ A := A, I := I, score := score, model := m }])

/-! ## `score_dag` -/

/-- The three sub-procedures of an iteration; `solveB` can depend on the iteration through its random draws.
See `/repo/utlvce/score.py:365-391`. -/
structure Solvers (p l e : Nat) where
  solveB : Nat → LModel p l e → Except Err (Matrix (Fin p) (Fin p) ℝ)
  gamma : LModel p l e → Except Err (Matrix (Fin l) (Fin p) ℝ)
  rest : LModel p l e → Except Err (Matrix (Fin e) (Fin p) ℝ × Matrix (Fin e) (Fin l) ℝ)

/-- Parameters of the stopping rule, `/repo/utlvce/score.py:270-273`. -/
structure StopCfg where
  maxIter : Int
  thresholdDistB : ℝ
  thresholdFluctuation : ℝ
  maxFluctuations : Int

/-- `a - b > t` on floats, false if one is `nan`.  See `/repo/utlvce/score.py:402`. -/
def Flt.subGt (a b : Flt) (t : ℝ) : Prop :=
  match a, b with
  | some x, some y => x - y > t
  | _, _ => False

/-- Variables of the loop of `score_dag`: `previous_model`, `previous_score`, the difference of the last two `B` (`none` for the
initial `dist_B = np.Inf`), `i`, `fluc_counter`, and `current_model`, `current_score` once they are bound.
See `/repo/utlvce/score.py:352-356`. -/
structure AltState (p l e : Nat) where
  prev : LModel p l e
  prevScore : Flt
  diff : Option (Matrix (Fin p) (Fin p) ℝ)
  i : Nat
  flucs : Nat
  cur : Option (LModel p l e × Flt)

/-- `dist_B > threshold_dist_B`, where `dist_B` is the largest absolute entry.  See `/repo/utlvce/score.py:362,398-399`. -/
def distGt (diff : Option (Matrix (Fin p) (Fin p) ℝ)) (t : ℝ) : Prop :=
  match diff with
  | none => True
  | some D => ∃ i j, t < |D i j|

/-- The body of the loop up to the new model, `/repo/utlvce/score.py:363-395`: assigning `B`, `gamma`, `omegas` and `psis` does
not change the attribute `I_B` of the copy. -/
noncomputable def altBody (it : SetIter p) (sv : Solvers p l e) (i : Nat) (prev : LModel p l e) : Except Err (LModel p l e) :=
  match prev.copy it with
  | .error err => .error err
  | .ok cur =>
    match sv.solveB i cur with
    | .error err => .error err
    | .ok B =>
      let cur := { cur with B := B }
      match sv.gamma cur with
      | .error err => .error err
      | .ok gamma =>
        let cur := { cur with gamma := gamma }
        match sv.rest cur with
        | .error err => .error err
        | .ok (omegas, psis) => .ok { cur with omegas := omegas, psis := psis }

/-- One iteration (or the exit) of the loop, `/repo/utlvce/score.py:362-410`. -/
noncomputable def altStep (it : SetIter p) (sv : Solvers p l e) (cfg : StopCfg) (d : Data p e) (s : AltState p l e) :
    Except Err (AltState p l e ⊕ AltState p l e) :=
  open Classical in
  if ¬ (distGt s.diff cfg.thresholdDistB ∧ (s.i : Int) < cfg.maxIter ∧ (s.flucs : Int) < cfg.maxFluctuations) then .ok (.inr s)
  else
    match altBody it sv s.i s.prev with
    | .error err => .error err
    | .ok cur =>
      if p = 0 then .error .valueError -- maximum of an empty array
      else
        match cur.score (List.ofFn d.covs) (List.ofFn d.nObs) with
        | .error err => .error err
        | .ok score =>
          .ok (.inl
            { prev := cur
              prevScore := score
              diff := some (s.prev.B - cur.B)
              i := s.i + 1
              flucs := if score.subGt s.prevScore cfg.thresholdFluctuation then s.flucs + 1 else s.flucs
              cur := some (cur, score) })

/-- The alternating optimisation from a given model, `/repo/utlvce/score.py:349-418`: `UnboundLocalError` if the loop body is never
executed. -/
noncomputable def alternate (it : SetIter p) (sv : Solvers p l e) (cfg : StopCfg) (d : Data p e) (model : LModel p l e) :
    Except Err (LModel p l e × Flt) :=
  match model.score (List.ofFn d.covs) (List.ofFn d.nObs) with
  | .error err => .error err
  | .ok score =>
    match runLoop (altStep it sv cfg d)
      { prev := model, prevScore := score, diff := none, i := 0, flucs := 0, cur := none } with
    | .error err => .error err
    | .ok s =>
      match s.cur with
      | none => .error .unboundLocalError
      | some r => .ok r

/-- The initial model when no `init_model` is given, `/repo/utlvce/score.py:330-342`; `gamma` has only `min(num_latent, p)` rows, so
the constructor raises `ValueError` for more latents than variables. -/
noncomputable def initialModel (it : SetIter p) (svd : Matrix (Fin p) (Fin p) ℝ → Matrix (Fin p) (Fin p) ℝ × (Fin p → ℝ))
    (d : Data p e) (A : Adj p) (I : Finset (Fin p)) : Except Err (LModel p l e) :=
  match initializeB A d .avg with
  | .error err => .error err
  | .ok B =>
    match initializeGamma svd B l d .avg with
    | .error err => .error err
    | .ok gamma =>
      match initializeOmegas B I d .avg with
      | .error err => .error err
      | .ok omegas =>
        if h : min l p = l then
          mkModel it A B (gamma.submatrix (Fin.cast h.symm) id) omegas (initializePsis e l)
        else .error .valueError

/-- `score_dag` apart from the cache, `/repo/utlvce/score.py:318-410`. -/
noncomputable def fitDag (it : SetIter p) (svd : Matrix (Fin p) (Fin p) ℝ → Matrix (Fin p) (Fin p) ℝ × (Fin p → ℝ))
    (sv : Finset (Fin p) → Solvers p l e) (cfg : StopCfg) (d : Data p e) (A : Adj p) (I : Finset (Fin p))
    (init : Option (LModel p l e)) : Except Err (LModel p l e × Flt) :=
  if ! isDag it A then .error .valueError
  else
    match init with
    | some m => if m.A ≠ A then .error .valueError else alternate it (sv I) cfg d m
    | none =>
      match initialModel it svd d A I with
      | .error err => .error err
      | .ok m => alternate it (sv I) cfg d m

/-- The choice of the solver for `B`, `/repo/utlvce/score.py:257-265`. -/
inductive BSolver where
  | grad | adaptive | cvx

/-- The remaining attributes of a `Score` object, `/repo/utlvce/score.py:267-275`. -/
structure ScoreCfg where
  solver : BSolver
  psiMax : Option ℝ
  psiFixed : Bool
  stop : StopCfg
  thresholdScore : ℝ
  learningRate : ℝ

/-- The sub-procedures `score_dag` uses; `u` and `v` are the random draws of the iterations.  See `/repo/utlvce/score.py:365-391`. -/
noncomputable def codeSolvers (it : SetIter p) (num : NumLib p e) (cfg : ScoreCfg) (d : Data p e)
    (u v : Nat → Fin (p * p) → ℝ) (I : Finset (Fin p)) : Solvers p l e where
  solveB i m :=
    match cfg.solver with
    | .grad => solveForBGrad it num d (u i) (v i) m
    | .adaptive => solveForBAdaptive it num d (u i) m
    | .cvx => solveForBCvx num d m
  gamma m := solveForGamma it d cfg.thresholdScore cfg.learningRate m
  rest m := solveForRest it d I cfg.psiMax cfg.psiFixed cfg.thresholdScore cfg.learningRate m

/-- `Score.score_dag(A, I, init_model)`, `/repo/utlvce/score.py:277-418`, for a cache state (`none` if caching is off); `fit` is the
computation that the cache wraps.  Returns the result and the new cache. -/
def scoreDag {M : Type} (copy : M → Except Err M) (fit : Adj p → Finset (Fin p) → Option M → Except Err (M × Flt))
    (cache : Option (List (Entry p M))) (A : Adj p) (I : Finset (Fin p)) (init : Option M) :
    Except Err ((M × Flt) × Option (List (Entry p M))) :=
  match (match init, cache with
    | none, some c => cacheRead c A I
    | _, _ => Except.ok none) with
  | .error err => .error err
  | .ok (some r) => .ok (r, cache)
  | .ok none =>
    match fit A I init with
    | .error err => .error err
    | .ok (m, score) =>
      match cache with
      | none => .ok ((m, score), none)
      | some c =>
        match cacheWrite copy c A I m score true with
        | .error err => .error err
        | .ok c' => .ok ((m, score), some c')

/-! ## The constructor -/

/-- An element of the list given as data: an array with its shape, or something else.  See `/repo/utlvce/score.py:229-247`. -/
inductive PyItem where
  | arr (shape : List Nat)
  | other

/-- The argument `data`: a pair of arrays, the first (of dimension at least one) with the lengths of its elements (`none` for
elements without length), a list, or anything else.  See `/repo/utlvce/score.py:214-249`. -/
inductive PyData where
  | pair (lens : List (Option Nat)) (nObs : List Nat)
  | list (items : List PyItem)
  | other

/-- `[len(s) for s in sample_covariances]`, `/repo/utlvce/score.py:221`. -/
def lensOf : List (Option Nat) → Except Err (List Nat)
  | [] => .ok []
  | none :: _ => .error .typeError
  | some n :: rest =>
    match lensOf rest with
    | .error err => .error err
    | .ok r => .ok (n :: r)

/-- The loop checking that all elements are arrays, `/repo/utlvce/score.py:231-233`. -/
def allArrays : List PyItem → Except Err (List (List Nat))
  | [] => .ok []
  | .other :: _ => .error .typeError
  | .arr s :: rest =>
    match allArrays rest with
    | .error err => .error err
    | .ok r => .ok (s :: r)

/-- `[x.shape[1] for x in data]`, `/repo/utlvce/score.py:235`. -/
def secondDims : List (List Nat) → Except Err (List Nat)
  | [] => .ok []
  | s :: rest =>
    match s[1]? with
    | none => .error .indexError
    | some n =>
      match secondDims rest with
      | .error err => .error err
      | .ok r => .ok (n :: r)

/-- The validation of `Score.__init__`, `/repo/utlvce/score.py:214-265`; the result is the list `n_obs`. -/
def initScore (data : PyData) (solverKnown : Bool) : Except Err (List Nat) :=
  match (match data with
    | .other => .error .typeError
    | .pair lens nObs =>
      if lens.length ≠ nObs.length then .error .valueError
      else
        match lensOf lens with
        | .error err => .error err
        | .ok ps => if 1 < ps.dedup.length then .error .valueError else .ok nObs
    | .list items =>
      match allArrays items with
      | .error err => .error err
      | .ok shapes =>
        match secondDims shapes with
        | .error err => .error err
        | .ok ps =>
          if 1 < ps.dedup.length then .error .valueError
          else
            let nObs := shapes.map (fun s => s.getD 0 0)
            if nObs.any (· == 1) then .error .valueError else .ok nObs : Except Err (List Nat)) with
  | .error err => .error err
  | .ok nObs => if ! solverKnown then .error .valueError else .ok nObs

end Verif
