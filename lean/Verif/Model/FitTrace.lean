import Verif.Model.Text
import Verif.Model.Score

/-!
# Model of what `score_dag`, `_solve_for_B_grad` and `_gradient_descent` print, `/repo/utlvce/score.py:344-408,537-558,1225-1285`

The functions with `V` return the result and the printed lines in the order of printing.  A line holds the values that its text shows.  The lines
printed before an exception are not modelled; these include all lines of `_solve_for_B_cvx` (`/repo/utlvce/score.py:687-694`), which are followed by a
failing assertion.  `_solve_for_B_adaptive` prints only for `debug`, which no caller sets.
-/

namespace Verif

open Matrix

variable {p l e : Nat} {ι : Type}

/-- A difference of floats, `/repo/utlvce/score.py:406,1260`: `nan` if one of them is. -/
def Flt.sub (a b : Flt) : Flt :=
  match a, b with
  | some x, some y => some (x - y)
  | _, _ => none

/-- The lines `_gradient_descent` prints, `/repo/utlvce/score.py:1225-1285`. -/
inductive GDLine (ι : Type) where
  /-- `Starting gradient descent.`, line 1225 -/
  | start
  /-- `X_init =%s`, line 1226 -/
  | init (X : ι → ℝ)
  /-- `gradients: %s`, line 1237 -/
  | gradients (g : ι → ℝ)
  /-- `WARNING: elements in X are outside their bounds`, lines 1252-1253 -/
  | outside
  /-- `Iter. %d: new - old: %s (thresh: %s, kappa: %s)`, lines 1260-1261 -/
  | iter (i : Nat) (delta : Flt) (threshold kappa : ℝ)
  /-- `%s` of the new point, line 1262 -/
  | point (X : ι → ℝ)
  /-- `Loss improved below threshold; stopping.`, lines 1266-1267 -/
  | stopping
  /-- `Loss improved.`, line 1272 -/
  | improved
  /-- `WARNING: kappa * learning_rate reached zero (<= %s)`, lines 1278-1279 -/
  | kappaZero (z : ℝ)
  /-- `Loss did not improve; reducing learning rate.`, lines 1285-1286 -/
  | reducing

/-- `print(...) if verbose > k else None`, `/repo/utlvce/score.py:370,1225-1226`. -/
def printedAbove {α : Type} (verbose k : Int) (line : α) : List α := if k < verbose then [line] else []

/-- Variables of the loop of `_gradient_descent` with the counter `i`, and the lines printed so far, `/repo/utlvce/score.py:1220-1228`. -/
structure GDStateV (ι : Type) where
  st : GDState ι
  i : Nat
  lines : List (GDLine ι)

/-- One iteration of the loop of `_gradient_descent`, `/repo/utlvce/score.py:1229-1287`. -/
noncomputable def gdStepV (verbose : Int) (nArr : Nat) (blk : ι → Nat) (lossFun : (ι → ℝ) → Except Err Flt)
    (gradFun : (ι → ℝ) → Except Err (ι → ℝ)) (threshold learningRate : ℝ) (bounds : Option (List (EReal × EReal)))
    (kappaZero : ℝ) (s : GDStateV ι) : Except Err (GDStateV ι ⊕ (((ι → ℝ) × Flt) × List (GDLine ι))) :=
  let i := s.i + 1
  match s.st.gradients gradFun with
  | .error err => .error err
  | .ok g =>
    let newX : ι → ℝ := fun i => s.st.X i - s.st.kappa * learningRate * g i
    let lines := s.lines ++ printedAbove verbose 2 (.gradients g)
    match checkBounds nArr blk newX bounds with
    | .error err => .error err
    | .ok false =>
      .ok (.inl ⟨{ s.st with kappa := s.st.kappa / 2, grad := some g }, i, lines ++ printedAbove verbose 0 .outside⟩)
    | .ok true =>
      match lossFun newX with
      | .error err => .error err
      | .ok newLoss =>
        let lines := lines ++ printedAbove verbose 0 (.iter i (newLoss.sub s.st.loss) threshold s.st.kappa) ++ printedAbove verbose 2 (.point newX)
        open Classical in
        if newLoss.lt s.st.loss ∧ newLoss.absSubLt s.st.loss threshold then .ok (.inr ((newX, newLoss), lines ++ printedAbove verbose 1 .stopping))
        else if newLoss.lt s.st.loss then
          .ok (.inl ⟨{ s.st with X := newX, loss := newLoss, grad := none }, i, lines ++ printedAbove verbose 1 .improved⟩)
        else if s.st.kappa * learningRate ≤ kappaZero then
          .ok (.inr ((s.st.X, s.st.loss), lines ++ printedAbove verbose 0 (.kappaZero kappaZero)))
        else .ok (.inl ⟨{ s.st with kappa := s.st.kappa / 2, grad := some g }, i, lines ++ printedAbove verbose 1 .reducing⟩)

/-- `_gradient_descent(..., verbose)`, `/repo/utlvce/score.py:1166-1287`. -/
noncomputable def gradientDescentV (verbose : Int) (nArr : Nat) (blk : ι → Nat) (lossFun : (ι → ℝ) → Except Err Flt)
    (gradFun : (ι → ℝ) → Except Err (ι → ℝ)) (Xinit : ι → ℝ) (threshold learningRate : ℝ)
    (bounds : Option (List (EReal × EReal))) (kappaZero : ℝ) : Except Err (((ι → ℝ) × Flt) × List (GDLine ι)) :=
  match checkBounds nArr blk Xinit bounds with
  | .error err => .error err
  | .ok false => .error .valueError
  | .ok true =>
    match lossFun Xinit with
    | .error err => .error err
    | .ok loss =>
      runLoop (gdStepV verbose nArr blk lossFun gradFun threshold learningRate bounds kappaZero)
        ⟨{ X := Xinit, loss := loss, kappa := 1, grad := none }, 0, printedAbove verbose 0 .start ++ printedAbove verbose 1 (.init Xinit)⟩

/-- `_solve_for_gamma(..., verbose)`, `/repo/utlvce/score.py:700-776`. -/
noncomputable def solveForGammaV (verbose : Int) (it : SetIter p) (d : Data p e) (threshold learningRate : ℝ) (m : LModel p l e) :
    Except Err (Matrix (Fin l) (Fin p) ℝ × List (GDLine (Fin l × Fin p))) :=
  match gradientDescentV verbose 1 (fun _ => 0) (gammaLoss it d m) (gammaGrad it d m) (fun ak => m.gamma ak.1 ak.2) threshold
    learningRate none (1 / 10 ^ 50) with
  | .error err => .error err
  | .ok ((X, _), lines) => .ok (toGamma X, lines)

/-- `_solve_for_rest(..., verbose)`, `/repo/utlvce/score.py:779-871`. -/
noncomputable def solveForRestV (verbose : Int) (it : SetIter p) (d : Data p e) (I : Finset (Fin p)) (psiMax : Option ℝ) (psiFixed : Bool)
    (threshold learningRate : ℝ) (m : LModel p l e) :
    Except Err ((Matrix (Fin e) (Fin p) ℝ × Matrix (Fin e) (Fin l) ℝ) × List (GDLine (RestIx p l e))) :=
  match gradientDescentV verbose 2 (Sum.elim (fun _ => 0) (fun _ => 1)) (restLoss it d m) (restGrad it d I psiFixed m)
    (Sum.elim (fun hj => m.omegas hj.1 hj.2) (fun hk => m.psis hk.1 hk.2)) threshold learningRate
    (some (restBounds psiMax)) (1 / 10 ^ 50) with
  | .error err => .error err
  | .ok ((X, _), lines) => .ok ((toOmegas X, toPsis X), lines)

/-- The warnings that `_solve_for_B_grad` prints, for every verbosity. -/
inductive BLine (p e : Nat) where
  /-- `after %d iterations gradient step not finite. learn_rate: %s`, `/repo/utlvce/score.py:538-539` -/
  | notFinite (i : Nat) (learnRate : ℝ)
  /-- `non-convex solver failed, trying adaptive version`, `/repo/utlvce/score.py:555-558`.  The text shows the smallest entry of `omegas`, the condition
  numbers of `Ms` and the largest entry of `step`. -/
  | failed (omegas : Matrix (Fin e) (Fin p) ℝ) (Ms : Fin e → Matrix (Fin p) (Fin p) ℝ) (step : Fin (p * p) → ℝ)

/-- Variables of the loop of `_solve_for_B_grad` with the counter `i`, and the lines printed so far, `/repo/utlvce/score.py:522-530`. -/
structure GradStateV (p e : Nat) where
  st : GradState p
  i : Nat
  lines : List (BLine p e)

/-- One iteration (or the exit) of the loop of `_solve_for_B_grad`, `/repo/utlvce/score.py:531-549`. -/
noncomputable def gradStepV (num : NumLib p e) (A : Adj p) (N : Matrix (Fin (p * p)) (Fin (p * p)) ℝ)
    (Binit : Fin (p * p) → ℝ) (s : GradStateV p e) : Except Err (GradStateV p e ⊕ GradStateV p e) :=
  open Classical in
  if p = 0 then .error .valueError -- maximum of an empty array
  else if ¬ ∃ k, (1 : ℝ) / 10 ^ 10 < |s.st.B k - s.st.Bnew k| then .ok (.inr s)
  else
    let step := s.st.lr • (N *ᵥ s.st.Bnew)
    if s.st.lr = 0 then .ok (.inr s)
    else if ! num.finite step then
      .ok (.inl ⟨{ B := 0, Bnew := Binit, lr := num.halve s.st.lr }, 0, s.lines ++ [.notFinite s.i s.st.lr]⟩)
    else .ok (.inl ⟨{ B := s.st.Bnew, Bnew := maskVec A (s.st.Bnew - step), lr := s.st.lr }, s.i + 1, s.lines⟩)

/-- `_solve_for_B_grad`, `/repo/utlvce/score.py:489-559`, as `solveForBGrad`, with its warnings. -/
noncomputable def solveForBGradV (it : SetIter p) (num : NumLib p e) (d : Data p e) (Binit Badapt : Fin (p * p) → ℝ)
    (m : LModel p l e) : Except Err (Matrix (Fin p) (Fin p) ℝ × List (BLine p e)) :=
  open Classical in
  match m.invNoise with
  | .error err => .error err
  | .ok Ms =>
    match runLoop (gradStepV num m.A (nMatrix num d Ms) Binit) ⟨{ B := 0, Bnew := Binit, lr := 5 / 1000 }, 0, []⟩ with
    | .error err => .error err
    | .ok s =>
      if num.finite (flattenF (unflattenB s.st.Bnew)) ∧ 0 < s.st.lr then .ok (unflattenB s.st.Bnew, s.lines)
      else
        let lines := s.lines ++ [.failed m.omegas Ms (s.st.lr • (nMatrix num d Ms *ᵥ s.st.Bnew))]
        match solveForBAdaptive it num d Badapt m with
        | .error err => .error err
        | .ok B => .ok (B, lines)

/-- The lines `score_dag` prints, `/repo/utlvce/score.py:344-408`. -/
inductive FitLine (p l e : Nat) where
  /-- the title, `Initial values:` and the model, lines 345-347 -/
  | initial (text : String)
  /-- a warning of the solver for `B`, lines 366-367 -/
  | solverB (line : BLine p e)
  /-- `Solved for B`, line 369 -/
  | solvedB
  /-- `B`, line 370 -/
  | B (B : Matrix (Fin p) (Fin p) ℝ)
  /-- a line of the gradient descent for `gamma`, lines 373-378 -/
  | gammaStep (line : GDLine (Fin l × Fin p))
  /-- `Solved for gamma`, line 379 -/
  | solvedGamma
  /-- `gamma`, line 380 -/
  | gamma (gamma : Matrix (Fin l) (Fin p) ℝ)
  /-- a line of the gradient descent for the variances, lines 383-391 -/
  | restStep (line : GDLine (RestIx p l e))
  /-- `Solved for omegas, psis`, line 392 -/
  | solvedRest
  /-- `omegas` and `psis`, lines 393-394 -/
  | rest (omegas : Matrix (Fin e) (Fin p) ℝ) (psis : Matrix (Fin e) (Fin l) ℝ)
  /-- `Iter: %d - #flucs: %d - dist. B: %s - delta_score = %s`, lines 405-406 -/
  | iter (i flucs : Nat) (dist : ℝ) (delta : Flt)
  /-- `B: %s`, line 407 -/
  | newB (B : Matrix (Fin p) (Fin p) ℝ)

/-- The three sub-procedures of an iteration and the lines they print, `/repo/utlvce/score.py:366-391`. -/
structure SolversV (p l e : Nat) where
  solveB : Nat → LModel p l e → Except Err (Matrix (Fin p) (Fin p) ℝ × List (BLine p e))
  gamma : LModel p l e → Except Err (Matrix (Fin l) (Fin p) ℝ × List (GDLine (Fin l × Fin p)))
  rest : LModel p l e → Except Err ((Matrix (Fin e) (Fin p) ℝ × Matrix (Fin e) (Fin l) ℝ) × List (GDLine (RestIx p l e)))

/-- The sub-procedures `score_dag` uses, with `verbose=max(0, verbose - 1)`, `/repo/utlvce/score.py:365-391`. -/
noncomputable def codeSolversV (verbose : Int) (it : SetIter p) (num : NumLib p e) (cfg : ScoreCfg) (d : Data p e)
    (u v : Nat → Fin (p * p) → ℝ) (I : Finset (Fin p)) : SolversV p l e where
  solveB i m :=
    match cfg.solver with
    | .grad => solveForBGradV it num d (u i) (v i) m
    | .adaptive => (solveForBAdaptive it num d (u i) m).map (fun B => (B, []))
    | .cvx => (solveForBCvx num d m).map (fun B => (B, []))
  gamma m := solveForGammaV (max 0 (verbose - 1)) it d cfg.thresholdScore cfg.learningRate m
  rest m := solveForRestV (max 0 (verbose - 1)) it d I cfg.psiMax cfg.psiFixed cfg.thresholdScore cfg.learningRate m

/-- The body of the loop up to the new model, `/repo/utlvce/score.py:363-394`. -/
noncomputable def altBodyV (verbose : Int) (it : SetIter p) (sv : SolversV p l e) (i : Nat) (prev : LModel p l e) :
    Except Err (LModel p l e × List (FitLine p l e)) :=
  match prev.copy it with
  | .error err => .error err
  | .ok cur =>
    match sv.solveB i cur with
    | .error err => .error err
    | .ok (B, warnings) =>
      let cur := { cur with B := B }
      let lines := warnings.map .solverB ++ printedAbove verbose 0 .solvedB ++ printedAbove verbose 1 (.B cur.B)
      match sv.gamma cur with
      | .error err => .error err
      | .ok (gamma, gammaLines) =>
        let cur := { cur with gamma := gamma }
        let lines := lines ++ gammaLines.map .gammaStep ++ printedAbove verbose 0 .solvedGamma ++ printedAbove verbose 1 (.gamma cur.gamma)
        match sv.rest cur with
        | .error err => .error err
        | .ok ((omegas, psis), restLines) =>
          let cur := { cur with omegas := omegas, psis := psis }
          let lines := lines ++ restLines.map .restStep ++ printedAbove verbose 0 .solvedRest ++ printedAbove verbose 1 (.rest cur.omegas cur.psis)
          .ok (cur, lines)

/-- Variables of the loop and the lines printed so far, `/repo/utlvce/score.py:352-356`. -/
structure AltStateV (p l e : Nat) where
  st : AltState p l e
  lines : List (FitLine p l e)

/-- One iteration (or the exit) of the loop, `/repo/utlvce/score.py:362-410`. -/
noncomputable def altStepV (verbose : Int) (it : SetIter p) (sv : SolversV p l e) (cfg : StopCfg) (d : Data p e) (s : AltStateV p l e) :
    Except Err (AltStateV p l e ⊕ AltStateV p l e) :=
  open Classical in
  if ¬ (distGt s.st.diff cfg.thresholdDistB ∧ (s.st.i : Int) < cfg.maxIter ∧ (s.st.flucs : Int) < cfg.maxFluctuations) then .ok (.inr s)
  else
    match altBodyV verbose it sv s.st.i s.st.prev with
    | .error err => .error err
    | .ok (cur, lines) =>
      if p = 0 then .error .valueError -- maximum of an empty array
      else
        match cur.score (List.ofFn d.covs) (List.ofFn d.nObs) with
        | .error err => .error err
        | .ok score =>
          let flucs := if score.subGt s.st.prevScore cfg.thresholdFluctuation then s.st.flucs + 1 else s.st.flucs
          .ok (.inl
            { st :=
                { prev := cur
                  prevScore := score
                  diff := some (s.st.prev.B - cur.B)
                  i := s.st.i + 1
                  flucs := flucs
                  cur := some (cur, score) }
              lines := s.lines ++ lines ++
                printedAbove verbose 0 (.iter (s.st.i + 1) flucs (maxAbs (s.st.prev.B - cur.B)) (score.sub s.st.prevScore)) ++
                printedAbove verbose 1 (.newB cur.B) })

/-- `score_dag(..., verbose)` apart from the cache, `/repo/utlvce/score.py:318-418`. -/
noncomputable def fitDagV (verbose : Int) (it : SetIter p) (svd : Matrix (Fin p) (Fin p) ℝ → Matrix (Fin p) (Fin p) ℝ × (Fin p → ℝ))
    (svdU : Matrix (Fin p) (Fin l) ℝ → Matrix (Fin p) (Fin (min p l)) ℝ) (T : Texts)
    (sv : Finset (Fin p) → SolversV p l e) (cfg : StopCfg) (d : Data p e) (A : Adj p) (I : Finset (Fin p))
    (init : Option (LModel p l e)) : Except Err ((LModel p l e × Flt) × List (FitLine p l e)) :=
  if ! isDag it A then .error .valueError
  else
    match (match init with
      | some m => if m.A ≠ A then Except.error Err.valueError else .ok m
      | none => initialModel it svd d A I) with
    | .error err => .error err
    | .ok m =>
      match (if 0 < verbose then
          match m.str it svdU T with
          | .error err => .error err
          | .ok s => .ok [FitLine.initial s]
        else .ok [] : Except Err (List (FitLine p l e))) with
      | .error err => .error err
      | .ok lines =>
        match m.score (List.ofFn d.covs) (List.ofFn d.nObs) with
        | .error err => .error err
        | .ok score =>
          match runLoop (altStepV verbose it (sv I) cfg d)
            ⟨{ prev := m, prevScore := score, diff := none, i := 0, flucs := 0, cur := none }, lines⟩ with
          | .error err => .error err
          | .ok s =>
            match s.st.cur with
            | none => .error .unboundLocalError
            | some r => .ok (r, s.lines)

/-- `score_dag(A, I, init_model, verbose)`, `/repo/utlvce/score.py:277-418`, for a cache state, as `scoreDag`: a stored result is returned before
anything is printed.  `fit` is the computation that the cache wraps, with the lines it prints. -/
def scoreDagV {M L : Type} (copy : M → Except Err M) (fit : Adj p → Finset (Fin p) → Option M → Except Err ((M × Flt) × List L))
    (cache : Option (List (Entry p M))) (A : Adj p) (I : Finset (Fin p)) (init : Option M) :
    Except Err (((M × Flt) × Option (List (Entry p M))) × List L) :=
  match (match init, cache with
    | none, some c => cacheRead c A I
    | _, _ => Except.ok none) with
  | .error err => .error err
  | .ok (some r) => .ok ((r, cache), [])
  | .ok none =>
    match fit A I init with
    | .error err => .error err
    | .ok ((m, score), lines) =>
      match cache with
      | none => .ok (((m, score), none), lines)
      | some c =>
        match cacheWrite copy c A I m score true with
        | .error err => .error err
        | .ok c' => .ok (((m, score), some c'), lines)

end Verif
