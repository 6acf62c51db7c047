import Verif.Model.Main

/-!
# Model of `_fit_ges` with all its arguments, and of `_fit` with `ges_env`, `ges_phases` and `ges_lambdas`

`ges` stands for `ges.fit(GaussObsL0Pen(data, lmbda=lmbda), phases=phases, iterate=True)[0]`: any function of the phases, the penalty and the pooled
data, which may raise.  For pooled data without observations `np.log(N)` is minus infinity, and zero here.  `/repo/utlvce/main.py:295-317,461-466,699-744`
-/

namespace Verif

variable {p e : Nat}

/-- `l[i]` of a Python list; negative indices count from the end.  See `/repo/utlvce/main.py:463-464`. -/
def pyGet {α : Type} (l : List α) (i : Int) : Except Err α :=
  let j := if i < 0 then i + l.length else i
  if j < 0 then .error .indexError
  else
    match l[j.toNat]? with
    | none => .error .indexError
    | some x => .ok x

/-- `ges.fit` as used here, with the phases, the penalty `lmbda` and the pooled data, `/repo/utlvce/main.py:738-740`. -/
abbrev GesFun (p : Nat) := List String → ℝ → Sample p → Except Err (Adj p)

/-- The loop over the penalties, `/repo/utlvce/main.py:731-743`; `N` is the number of pooled observations. -/
noncomputable def gesLoop (it : SetIter p) (ges : GesFun p) (phases : List String) (pooled : Sample p) : List ℝ → List (Adj p) →
    Except Err (List (Adj p))
  | [], graphs => .ok graphs
  | pen :: lambdas, graphs =>
    let lmbda := pen * (1 / 2) * Real.log pooled.length
    match ges phases lmbda pooled with
    | .error err => .error err
    | .ok cpdag =>
      match allDags it cpdag with
      | .error err => .error err
      | .ok dags => gesLoop it ges phases pooled lambdas (graphs ++ dags)

/-- `_fit_ges(data, lambdas, phases)`, `/repo/utlvce/main.py:699-744`. -/
noncomputable def fitGesWith (it : SetIter p) (ges : GesFun p) (phases : Option (List String)) (lambdas : Option (List ℝ)) (data : List (Sample p)) :
    Except Err (List (Adj p)) :=
  let phases := phases.getD ["forward", "backward", "turning"]
  let lambdas := lambdas.getD [2]
  if data.length = 0 then .error .valueError -- np.vstack of an empty list
  else gesLoop it ges phases data.flatten lambdas []

/-- The arguments `ges_env`, `ges_phases` and `ges_lambdas` of `_fit`, `/repo/utlvce/main.py:312-314`. -/
structure GesArgs where
  env : Option Int := none
  phases : Option (List String) := none
  lambdas : Option (List ℝ) := none

/-- The initial graphs, `/repo/utlvce/main.py:461-466`. -/
noncomputable def initialGraphsWith (it : SetIter p) (ges : GesFun p) (args : GesArgs) (initial : Option (List (Adj p))) (training : List (Sample p)) :
    Except Err (List (Adj p)) :=
  match initial with
  | some gs => .ok gs
  | none =>
    match args.env with
    | none => fitGesWith it ges args.phases args.lambdas training
    | some k =>
      match pyGet training k with
      | .error err => .error err
      | .ok s => fitGesWith it ges args.phases args.lambdas [s]

/-- `_fit`, `/repo/utlvce/main.py:295-557`, as `fitMain`, with the arguments for GES; `E.gesFit` is not used. -/
noncomputable def fitMainWith (E : FitEnv p e) (ges : GesFun p) (args : GesArgs) (data : Fin e → Sample p) (solverKnown : Bool)
    (numsLatent : Option (List Nat)) (prune : Bool) (folds : List Rat) (thresholdGraph thresholdI : Option ℝ) (initial : Option (List (Adj p)))
    (randomState : Int) : Except Err (AnyModel p e × Finset (Fin p) × Flt) :=
  match splitData (E.rng randomState) (List.ofFn data) folds with
  | .error err => .error err
  | .ok [training, testG, testI] =>
    match initialGraphsWith E.it ges args initial training with
    | .error err => .error err
    | .ok graphs =>
      match latentNumbers E numsLatent training with
      | .error err => .error err
      | .ok ns =>
        match latentLoop E.it (E.fit (foldData E.cov training e)) (scoreCtor training solverKnown) prune thresholdGraph graphs
            (foldData E.cov testG e) ns [] with
        | .error err => .error err
        | .ok results =>
          match sortedM tupleLt (results.map (fun r => (r.2.1, r.1, r.2.2.1, r.2.2.2))) with
          | .error err => .error err
          | .ok [] => .error .indexError
          | .ok ((_, h, graph, obj) :: _) =>
            targetPhase E (E.fit (foldData E.cov training e) h) thresholdI (foldData E.cov testI e) graph obj
  | .ok _ => .error .valueError -- wrong number of folds

end Verif
