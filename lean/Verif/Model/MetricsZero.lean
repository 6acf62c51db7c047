import Verif.Model.Text

/-!
# The metrics of `Model` when noise variances are zero, `/repo/utlvce/model.py:543-634`

`1 / omega` is then infinite, and products with it are infinite or NaN.
-/

namespace Verif

variable {p l e n : Nat}

/-- The sum of two floats, up to rounding.  See `/repo/utlvce/model.py:572`. -/
noncomputable def FloatVal.add : FloatVal → FloatVal → FloatVal
  | .nan, _ => .nan
  | _, .nan => .nan
  | .pinf, .ninf => .nan
  | .ninf, .pinf => .nan
  | .pinf, _ => .pinf
  | _, .pinf => .pinf
  | .ninf, _ => .ninf
  | _, .ninf => .ninf
  | .fin x, .fin y => .fin (x + y)

open Classical in
/-- The product of two floats, up to rounding.  See `/repo/utlvce/model.py:572`. -/
noncomputable def FloatVal.mul : FloatVal → FloatVal → FloatVal
  | .nan, _ => .nan
  | _, .nan => .nan
  | .fin x, .fin y => .fin (x * y)
  | .fin x, .pinf => if x = 0 then .nan else if 0 < x then .pinf else .ninf
  | .fin x, .ninf => if x = 0 then .nan else if 0 < x then .ninf else .pinf
  | .pinf, .fin y => if y = 0 then .nan else if 0 < y then .pinf else .ninf
  | .ninf, .fin y => if y = 0 then .nan else if 0 < y then .ninf else .pinf
  | .pinf, .pinf => .pinf
  | .ninf, .ninf => .pinf
  | .pinf, .ninf => .ninf
  | .ninf, .pinf => .ninf

open Classical in
/-- One entry of a product `@` of float matrices, `/repo/utlvce/model.py:572`.  Some implementations of BLAS leave out factors that are zero instead of
multiplying infinities with them; `skip` says whether this one does. -/
noncomputable def floatDot (skip : Bool) (x y : Fin n → FloatVal) : FloatVal :=
  (List.finRange n).foldl (fun acc j => acc.add (if skip = true ∧ (x j = .fin 0 ∨ y j = .fin 0) then .fin 0 else (x j).mul (y j))) (.fin 0)

/-- `np.diag(1 / omega)`, `/repo/utlvce/model.py:570`. -/
noncomputable def omegaInvF (om : Fin p → ℝ) (i j : Fin p) : FloatVal := if i = j then floatDiv 1 (om i) else .fin 0

/-- `(np.eye(p) - B.T).T @ omega_inv @ gamma.T`, `/repo/utlvce/model.py:572`, with infinities and NaN. -/
noncomputable def LModel.latentEffectsF (skip : Bool) (m : LModel p l e) (k : Fin e) (i : Fin p) (h : Fin l) : FloatVal :=
  floatDot skip (fun j => floatDot skip (fun a => .fin ((1 - m.B.transpose).transpose i a)) (fun a => omegaInvF (m.omegas k) a j))
    (fun j => .fin (m.gamma h j))

/-- The real number of a finite float.  See `/repo/utlvce/model.py:573`. -/
noncomputable def FloatVal.val : FloatVal → ℝ
  | .fin x => x
  | _ => 0

open Classical in
/-- The body of the loop, `/repo/utlvce/model.py:569-575`.  `np.linalg.svd` of a matrix that is not finite raises `LinAlgError` (it does not converge). -/
noncomputable def LModel.incoherenceF (skip : Bool) (svdU : Matrix (Fin p) (Fin l) ℝ → Matrix (Fin p) (Fin (min p l)) ℝ) (m : LModel p l e)
    (k : Fin e) : Except Err ℝ :=
  if ∀ i h, ∃ x, m.latentEffectsF skip k i h = .fin x then
    let U := svdU (fun i h => (m.latentEffectsF skip k i h).val)
    pyMax (List.ofFn (fun i => (U * U.transpose) i i))
  else .error .linAlgError

/-- The loop over the environments, `/repo/utlvce/model.py:568-575`. -/
noncomputable def incoherenceLoopF (skip : Bool) (svdU : Matrix (Fin p) (Fin l) ℝ → Matrix (Fin p) (Fin (min p l)) ℝ) (m : LModel p l e) :
    List (Fin e) → Except Err (List ℝ)
  | [] => .ok []
  | k :: ks =>
    match m.incoherenceF skip svdU k with
    | .error err => .error err
    | .ok x =>
      match incoherenceLoopF skip svdU m ks with
      | .error err => .error err
      | .ok xs => .ok (x :: xs)

/-- `scaled_latent_incoherence()`, `/repo/utlvce/model.py:543-577`, for all variances. -/
noncomputable def LModel.scaledLatentIncoherenceF (skip : Bool) (it : SetIter p)
    (svdU : Matrix (Fin p) (Fin l) ℝ → Matrix (Fin p) (Fin (min p l)) ℝ) (m : LModel p l e) : Except Err ℝ :=
  match pyMax (List.ofFn (degrees (moralGraph it m.A))) with
  | .error err => .error err
  | .ok d =>
    match incoherenceLoopF skip svdU m (List.finRange e) with
    | .error err => .error err
    | .ok xs =>
      match pyMax xs with
      | .error err => .error err
      | .ok x => .ok (x * (d : ℝ))

/-- `%s` of a float, `/repo/utlvce/model.py:628`. -/
def Texts.floatVal (T : Texts) : FloatVal → String
  | .fin x => T.float x
  | .pinf => "inf"
  | .ninf => "-inf"
  | .nan => "nan"

/-- The loop over the strengths, `/repo/utlvce/model.py:627-628`. -/
def strengthLinesF (T : Texts) : String → List (Nat × FloatVal) → String
  | string, [] => string
  | string, (i, s) :: rest => strengthLinesF T (string ++ "    X_" ++ toString i ++ ": " ++ T.floatVal s ++ "\n") rest

/-- `str(model)`, `/repo/utlvce/model.py:604-634`, for all variances. -/
noncomputable def LModel.strF (skip : Bool) (it : SetIter p) (svdU : Matrix (Fin p) (Fin l) ℝ → Matrix (Fin p) (Fin (min p l)) ℝ) (T : Texts)
    (m : LModel p l e) : Except Err String :=
  let string := rule70
  let string := string ++ "\nModel - p:" ++ toString p ++ " - l:" ++ toString l ++ " - e:" ++ toString e ++ "\n\n"
  let string := string ++ "A:\n" ++ T.ints m.A ++ "\n\n"
  let string := string ++ "B:\n" ++ T.floats m.B ++ "\n\n"
  let string := string ++ "gamma:\n" ++ T.floats m.gamma ++ "\n\n"
  let string := string ++ "omegas:\n" ++ T.floats m.omegas ++ "\n\n"
  let string := string ++ "psis:\n" ++ T.floats m.psis ++ "\n\n"
  let string := string ++ "Assumption deviation metrics\n"
  match m.scaledLatentIncoherenceF skip it svdU with
  | .error err => .error err
  | .ok x =>
    let string := string ++ "  latent incoherence x max. degree of moral graph: " ++ T.float x ++ "\n"
    let string := string ++ "  strength of interventions:\n"
    match m.interventionStrengthF with
    | .error err => .error err
    | .ok s =>
      let string := strengthLinesF T string (List.ofFn (fun i => (i.val, s i)))
      let string := string ++ "\n"
      let string := string ++ rule70 ++ "\n"
      .ok string

/-- `score_dag(..., verbose=1)` apart from the cache, `/repo/utlvce/score.py:318-410`, as `fitDagVerbose`, also for an `init_model` with zero variances. -/
noncomputable def fitDagVerboseF (skip : Bool) (it : SetIter p) (svd : Matrix (Fin p) (Fin p) ℝ → Matrix (Fin p) (Fin p) ℝ × (Fin p → ℝ))
    (svdU : Matrix (Fin p) (Fin l) ℝ → Matrix (Fin p) (Fin (min p l)) ℝ) (T : Texts)
    (sv : Finset (Fin p) → Solvers p l e) (cfg : StopCfg) (d : Data p e) (A : Adj p) (I : Finset (Fin p))
    (init : Option (LModel p l e)) : Except Err (LModel p l e × Flt) :=
  if ! isDag it A then .error .valueError
  else
    match (match init with
      | some m => if m.A ≠ A then Except.error Err.valueError else .ok m
      | none => initialModel it svd d A I) with
    | .error err => .error err
    | .ok m =>
      match m.strF skip it svdU T with
      | .error err => .error err
      | .ok _ => alternate it (sv I) cfg d m

end Verif
