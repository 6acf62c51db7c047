import Verif.Model.Metrics
import Verif.Model.Main

/-!
# Model of `Model.__str__`, `/repo/utlvce/model.py:604-634`, and of `verbose`
-/

namespace Verif

variable {p l e : Nat}

/-- `str(...)` of arrays and `%s` of floats (numpy).  See `/repo/utlvce/model.py:604-634`. -/
structure Texts where
  ints : {p : Nat} → Adj p → String
  floats : {a b : Nat} → Matrix (Fin a) (Fin b) ℝ → String
  float : ℝ → String

/-- `"-" * 70`, `/repo/utlvce/model.py:605,632`. -/
def rule70 : String := String.ofList (List.replicate 70 '-')

/-- The loop over the strengths, `/repo/utlvce/model.py:627-628`: the string so far and the pairs of `enumerate`. -/
def strengthLines (T : Texts) : String → List (Nat × ℝ) → String
  | string, [] => string
  | string, (i, s) :: rest => strengthLines T (string ++ "    X_" ++ toString i ++ ": " ++ T.float s ++ "\n") rest

/-- `str(model)`, `/repo/utlvce/model.py:604-634`.  (The order is that of the code: the incoherence is computed before the strengths.  For models whose largest noise variances are not zero, `interventionStrengthF` has the other case.) -/
noncomputable def LModel.str (it : SetIter p) (svdU : Matrix (Fin p) (Fin l) ℝ → Matrix (Fin p) (Fin (min p l)) ℝ) (T : Texts) (m : LModel p l e) :
    Except Err String :=
  let string := rule70
  let string := string ++ "\nModel - p:" ++ toString p ++ " - l:" ++ toString l ++ " - e:" ++ toString e ++ "\n\n"
  let string := string ++ "A:\n" ++ T.ints m.A ++ "\n\n"
  let string := string ++ "B:\n" ++ T.floats m.B ++ "\n\n"
  let string := string ++ "gamma:\n" ++ T.floats m.gamma ++ "\n\n"
  let string := string ++ "omegas:\n" ++ T.floats m.omegas ++ "\n\n"
  let string := string ++ "psis:\n" ++ T.floats m.psis ++ "\n\n"
  let string := string ++ "Assumption deviation metrics\n"
  match m.scaledLatentIncoherence it svdU with
  | .error err => .error err
  | .ok x =>
    let string := string ++ "  latent incoherence x max. degree of moral graph: " ++ T.float x ++ "\n"
    let string := string ++ "  strength of interventions:\n"
    match m.interventionStrength with
    | .error err => .error err
    | .ok s =>
      let string := strengthLines T string (List.ofFn (fun i => (i.val, s i)))
      let string := string ++ "\n"
      let string := string ++ rule70 ++ "\n"
      .ok string

/-- `score_dag(..., verbose=1)` apart from the cache, `/repo/utlvce/score.py:318-410`: as `fitDag`, but the initial model is printed first (lines
344-347). -/
noncomputable def fitDagVerbose (it : SetIter p) (svd : Matrix (Fin p) (Fin p) ℝ → Matrix (Fin p) (Fin p) ℝ × (Fin p → ℝ))
    (svdU : Matrix (Fin p) (Fin l) ℝ → Matrix (Fin p) (Fin (min p l)) ℝ) (T : Texts)
    (sv : Finset (Fin p) → Solvers p l e) (cfg : StopCfg) (d : Data p e) (A : Adj p) (I : Finset (Fin p))
    (init : Option (LModel p l e)) : Except Err (LModel p l e × Flt) :=
  if ! isDag it A then .error .valueError
  else
    match (match init with
      | some m => if m.A ≠ A then Except.error Err.valueError else .ok m
      | none => initialModel it svd d A I) with
    | .error err => .error err
    | .ok m =>
      match m.str it svdU T with
      | .error err => .error err
      | .ok _ => alternate it (sv I) cfg d m

end Verif
