import Verif.Model.Score

/-!
# `score_dag` with an `init_model` whose arrays hold integers

`gradient = np.zeros_like(gamma)` (`/repo/utlvce/score.py:742`) and `np.zeros_like(omegas)`, `np.zeros_like(psis)`
(`/repo/utlvce/score.py:835-836`) have the element type of the argument.  If this is an integer type, the derivatives are truncated towards
zero when they are stored.  The constructor and `copy` of `Model` keep the element type (`/repo/utlvce/model.py:232-236,270-275`); a step of
`_gradient_descent` multiplies by the float `kappa`, so that its result is an array of floats.

The definitions below are those of `Model/GradDescent.lean`, `Model/Solve.lean` and `Model/Score.lean` with the element types of `gamma`,
`omegas` and `psis`.  Values too large for the integer type are not modelled.
-/

namespace Verif

open Matrix

variable {p l e : Nat} {ι : Type}

/-- The element type of an array.  See `/repo/utlvce/model.py:234-236`. -/
inductive DType where
  | int | float
  deriving DecidableEq

/-- The value read back after `array[...] = x`: integer arrays truncate towards zero.  See `/repo/utlvce/score.py:764,839,847,852,856`. -/
noncomputable def DType.store : DType → ℝ → ℝ
  | .float, x => x
  | .int, x => if 0 ≤ x then ((⌊x⌋ : ℤ) : ℝ) else ((⌈x⌉ : ℤ) : ℝ)

/-- Variables of the loop of `_gradient_descent` and the element types of the arrays in `current_X`.  See `/repo/utlvce/score.py:1220-1228`. -/
structure GDStateT (ι : Type) where
  st : GDState ι
  dts : Nat → DType

/-- One iteration of the loop of `_gradient_descent`, `/repo/utlvce/score.py:1229-1287`; `gradFun` gets the element types of its
arguments. -/
noncomputable def gdStepT (nArr : Nat) (blk : ι → Nat) (lossFun : (ι → ℝ) → Except Err Flt)
    (gradFun : (Nat → DType) → (ι → ℝ) → Except Err (ι → ℝ)) (threshold learningRate : ℝ) (bounds : Option (List (EReal × EReal)))
    (kappaZero : ℝ) (s : GDStateT ι) : Except Err (GDStateT ι ⊕ ((ι → ℝ) × Flt × (Nat → DType))) :=
  match s.st.gradients (gradFun s.dts) with
  | .error err => .error err
  | .ok g =>
    let newX : ι → ℝ := fun i => s.st.X i - s.st.kappa * learningRate * g i
    match checkBounds nArr blk newX bounds with
    | .error err => .error err
    | .ok false => .ok (.inl { s with st := { s.st with kappa := s.st.kappa / 2, grad := some g } })
    | .ok true =>
      match lossFun newX with
      | .error err => .error err
      | .ok newLoss =>
        open Classical in
        if newLoss.lt s.st.loss ∧ newLoss.absSubLt s.st.loss threshold then .ok (.inr (newX, newLoss, fun _ => .float))
        else if newLoss.lt s.st.loss then
          .ok (.inl { st := { s.st with X := newX, loss := newLoss, grad := none }, dts := fun _ => .float })
        else if s.st.kappa * learningRate ≤ kappaZero then .ok (.inr (s.st.X, s.st.loss, s.dts))
        else .ok (.inl { s with st := { s.st with kappa := s.st.kappa / 2, grad := some g } })

/-- `_gradient_descent`, `/repo/utlvce/score.py:1166-1287`; also returns the element types of the result. -/
noncomputable def gradientDescentT (nArr : Nat) (blk : ι → Nat) (lossFun : (ι → ℝ) → Except Err Flt)
    (gradFun : (Nat → DType) → (ι → ℝ) → Except Err (ι → ℝ)) (Xinit : ι → ℝ) (dts : Nat → DType) (threshold learningRate : ℝ)
    (bounds : Option (List (EReal × EReal))) (kappaZero : ℝ) : Except Err ((ι → ℝ) × Flt × (Nat → DType)) :=
  match checkBounds nArr blk Xinit bounds with
  | .error err => .error err
  | .ok false => .error .valueError
  | .ok true =>
    match lossFun Xinit with
    | .error err => .error err
    | .ok loss =>
      runLoop (gdStepT nArr blk lossFun gradFun threshold learningRate bounds kappaZero)
        { st := { X := Xinit, loss := loss, kappa := 1, grad := none }, dts := dts }

/-- A `Model` object and the element types of its arrays `gamma`, `omegas` and `psis`.  See `/repo/utlvce/model.py:231-242`. -/
structure TModel (p l e : Nat) where
  m : LModel p l e
  dGamma : DType
  dOmegas : DType
  dPsis : DType

/-- A model whose arrays hold floats.  See `/repo/utlvce/score.py:330-341`. -/
def TModel.ofFloat (m : LModel p l e) : TModel p l e := ⟨m, .float, .float, .float⟩

/-- `gradients` of `_solve_for_gamma`, `/repo/utlvce/score.py:738-764`: every derivative is stored in an array of the type of `gamma`. -/
noncomputable def gammaGradT (it : SetIter p) (d : Data p e) (m : LModel p l e) (dts : Nat → DType) (X : Fin l × Fin p → ℝ) :
    Except Err (Fin l × Fin p → ℝ) :=
  match gammaGrad it d m X with
  | .error err => .error err
  | .ok g => .ok (fun ak => (dts 0).store (g ak))

/-- `_solve_for_gamma`, `/repo/utlvce/score.py:700-776`. -/
noncomputable def solveForGammaT (it : SetIter p) (d : Data p e) (threshold learningRate : ℝ) (t : TModel p l e) :
    Except Err (Matrix (Fin l) (Fin p) ℝ × DType) :=
  match gradientDescentT 1 (fun _ => 0) (gammaLoss it d t.m) (gammaGradT it d t.m) (fun ak => t.m.gamma ak.1 ak.2)
    (fun _ => t.dGamma) threshold learningRate none (1 / 10 ^ 50) with
  | .error err => .error err
  | .ok (X, _, dts) => .ok (toGamma X, dts 0)

/-- `gradients` of `_solve_for_rest`, `/repo/utlvce/score.py:829-857`: the derivatives are stored in arrays of the types of `omegas` and
`psis` (arrays 0 and 1), and so are the means that replace them. -/
noncomputable def restGradT (it : SetIter p) (d : Data p e) (I : Finset (Fin p)) (psiFixed : Bool) (m : LModel p l e)
    (dts : Nat → DType) (X : RestIx p l e → ℝ) : Except Err (RestIx p l e → ℝ) :=
  match mkModel it m.A m.B m.gamma (toOmegas X) (toPsis X) with
  | .error err => .error err
  | .ok m' =>
    match m'.invNoise with
    | .error err => .error err
    | .ok Ms => .ok (Sum.elim
        (fun hj => if hj.2 ∈ I then (dts 0).store (omegaGrad d m.B Ms hj.1 hj.2)
          else (dts 0).store (meanEnv (fun h => (dts 0).store (omegaGrad d m.B Ms h hj.2))))
        (fun hk => if psiFixed then (dts 1).store (meanEnv (fun h => (dts 1).store (psiGrad d m.B m.gamma Ms h hk.2)))
          else (dts 1).store (psiGrad d m.B m.gamma Ms hk.1 hk.2)))

/-- `_solve_for_rest`, `/repo/utlvce/score.py:779-871`. -/
noncomputable def solveForRestT (it : SetIter p) (d : Data p e) (I : Finset (Fin p)) (psiMax : Option ℝ) (psiFixed : Bool)
    (threshold learningRate : ℝ) (t : TModel p l e) :
    Except Err ((Matrix (Fin e) (Fin p) ℝ × DType) × Matrix (Fin e) (Fin l) ℝ × DType) :=
  match gradientDescentT 2 (Sum.elim (fun _ => 0) (fun _ => 1)) (restLoss it d t.m) (restGradT it d I psiFixed t.m)
    (Sum.elim (fun hj => t.m.omegas hj.1 hj.2) (fun hk => t.m.psis hk.1 hk.2))
    (fun n => if n = 0 then t.dOmegas else t.dPsis) threshold learningRate (some (restBounds psiMax)) (1 / 10 ^ 50) with
  | .error err => .error err
  | .ok (X, _, dts) => .ok ((toOmegas X, dts 0), toPsis X, dts 1)

/-- The three sub-procedures of an iteration.  See `/repo/utlvce/score.py:365-391`. -/
structure SolversT (p l e : Nat) where
  solveB : Nat → LModel p l e → Except Err (Matrix (Fin p) (Fin p) ℝ)
  gamma : TModel p l e → Except Err (Matrix (Fin l) (Fin p) ℝ × DType)
  rest : TModel p l e → Except Err ((Matrix (Fin e) (Fin p) ℝ × DType) × Matrix (Fin e) (Fin l) ℝ × DType)

/-- The body of the loop of `score_dag` up to the new model, `/repo/utlvce/score.py:363-395`. -/
noncomputable def altBodyT (it : SetIter p) (sv : SolversT p l e) (i : Nat) (prev : TModel p l e) : Except Err (TModel p l e) :=
  match prev.m.copy it with
  | .error err => .error err
  | .ok cur =>
    match sv.solveB i cur with
    | .error err => .error err
    | .ok B =>
      let cur : TModel p l e := { prev with m := { cur with B := B } }
      match sv.gamma cur with
      | .error err => .error err
      | .ok (gamma, dGamma) =>
        let cur : TModel p l e := { cur with m := { cur.m with gamma := gamma }, dGamma := dGamma }
        match sv.rest cur with
        | .error err => .error err
        | .ok ((omegas, dOmegas), psis, dPsis) =>
          .ok { cur with m := { cur.m with omegas := omegas, psis := psis }, dOmegas := dOmegas, dPsis := dPsis }

/-- Variables of the loop of `score_dag`, as in `AltState`.  See `/repo/utlvce/score.py:352-356`. -/
structure AltStateT (p l e : Nat) where
  prev : TModel p l e
  prevScore : Flt
  diff : Option (Matrix (Fin p) (Fin p) ℝ)
  i : Nat
  flucs : Nat
  cur : Option (TModel p l e × Flt)

/-- One iteration (or the exit) of the loop, `/repo/utlvce/score.py:362-410`. -/
noncomputable def altStepT (it : SetIter p) (sv : SolversT p l e) (cfg : StopCfg) (d : Data p e) (s : AltStateT p l e) :
    Except Err (AltStateT p l e ⊕ AltStateT p l e) :=
  open Classical in
  if ¬ (distGt s.diff cfg.thresholdDistB ∧ (s.i : Int) < cfg.maxIter ∧ (s.flucs : Int) < cfg.maxFluctuations) then .ok (.inr s)
  else
    match altBodyT it sv s.i s.prev with
    | .error err => .error err
    | .ok cur =>
      if p = 0 then .error .valueError -- maximum of an empty array
      else
        match cur.m.score (List.ofFn d.covs) (List.ofFn d.nObs) with
        | .error err => .error err
        | .ok score =>
          .ok (.inl
            { prev := cur
              prevScore := score
              diff := some (s.prev.m.B - cur.m.B)
              i := s.i + 1
              flucs := if score.subGt s.prevScore cfg.thresholdFluctuation then s.flucs + 1 else s.flucs
              cur := some (cur, score) })

/-- The alternating optimisation from a given model, `/repo/utlvce/score.py:349-418`. -/
noncomputable def alternateT (it : SetIter p) (sv : SolversT p l e) (cfg : StopCfg) (d : Data p e) (model : TModel p l e) :
    Except Err (TModel p l e × Flt) :=
  match model.m.score (List.ofFn d.covs) (List.ofFn d.nObs) with
  | .error err => .error err
  | .ok score =>
    match runLoop (altStepT it sv cfg d)
      { prev := model, prevScore := score, diff := none, i := 0, flucs := 0, cur := none } with
    | .error err => .error err
    | .ok s =>
      match s.cur with
      | none => .error .unboundLocalError
      | some r => .ok r

/-- `score_dag` apart from the cache, `/repo/utlvce/score.py:318-410`; the arrays of the model built without `init_model` hold floats
(`/repo/utlvce/score.py:1019,1100,1133`). -/
noncomputable def fitDagT (it : SetIter p) (svd : Matrix (Fin p) (Fin p) ℝ → Matrix (Fin p) (Fin p) ℝ × (Fin p → ℝ))
    (sv : Finset (Fin p) → SolversT p l e) (cfg : StopCfg) (d : Data p e) (A : Adj p) (I : Finset (Fin p))
    (init : Option (TModel p l e)) : Except Err (TModel p l e × Flt) :=
  if ! isDag it A then .error .valueError
  else
    match init with
    | some t => if t.m.A ≠ A then .error .valueError else alternateT it (sv I) cfg d t
    | none =>
      match initialModel it svd d A I with
      | .error err => .error err
      | .ok m => alternateT it (sv I) cfg d (.ofFloat m)

/-- The sub-procedures `score_dag` uses, `/repo/utlvce/score.py:257-275`. -/
noncomputable def codeSolversT (it : SetIter p) (num : NumLib p e) (cfg : ScoreCfg) (d : Data p e)
    (u v : Nat → Fin (p * p) → ℝ) (I : Finset (Fin p)) : SolversT p l e where
  solveB := (codeSolvers it num cfg d u v I).solveB
  gamma t := solveForGammaT it d cfg.thresholdScore cfg.learningRate t
  rest t := solveForRestT it d I cfg.psiMax cfg.psiFixed cfg.thresholdScore cfg.learningRate t

end Verif
