import Verif.Model.Main

/-!
# `_fit` with inexact test scores

The score of a model is computed in floating-point arithmetic (`/repo/utlvce/model.py:277-309`), with an error that depends on the
libraries and on the machine.  Here the number that the calls `model.score(test_data...)` return is an arbitrary function `sc` of the model and
of the data; the rest of `_fit` is as in `fitMain`.
-/

namespace Verif

variable {p e : Nat}

/-- The list comprehensions that score models on a test fold, with the computed scores, `/repo/utlvce/main.py:496-497,526-527`. -/
def testScoresR {β : Type} (sc : Data p e → AnyModel p e → Except Err Flt) (d : Data p e) (model : β → AnyModel p e) :
    List β → Except Err (List (Flt × β))
  | [] => .ok []
  | x :: xs =>
    match sc d (model x) with
    | .error err => .error err
    | .ok s =>
      match testScoresR sc d model xs with
      | .error err => .error err
      | .ok r => .ok ((s, x) :: r)

/-- The loop over the numbers of latents with the computed scores, `/repo/utlvce/main.py:485-504`. -/
noncomputable def latentLoopR (sc : Data p e → AnyModel p e → Except Err Flt) (it : SetIter p) (fit : Nat → Fitter p e)
    (ctor : Except Err Unit) (prune : Bool) (threshold : Option ℝ) (graphs : List (Adj p)) (test : Data p e) :
    List Nat → List (Nat × (Flt × Adj p × ScoreObj p e)) → Except Err (List (Nat × (Flt × Adj p × ScoreObj p e)))
  | [], results => .ok results
  | h :: hs, results =>
    match ctor with
    | .error err => .error err
    | .ok () =>
      match pruneGraphs it (fit h) prune threshold graphs { calls := 0, cache := [] } with
      | .error err => .error err
      | .ok (models, obj) =>
        match testScoresR sc test id models with
        | .error err => .error err
        | .ok scores =>
          match bestScoring (scores.map (fun x => (x.1, x.2.A))) with
          | .error err => .error err
          | .ok (s, A) => latentLoopR sc it fit ctor prune threshold graphs test hs (dictSet results h (s, A, obj))

/-- The end of `_fit` with the computed scores, `/repo/utlvce/main.py:524-530`. -/
noncomputable def targetPhaseR (sc : Data p e → AnyModel p e → Except Err Flt) (E : FitEnv p e) (fit : Fitter p e) (threshold : Option ℝ)
    (test : Data p e) (graph : Adj p) (obj : ScoreObj p e) : Except Err (AnyModel p e × Finset (Fin p) × Flt) :=
  match pruneI E.it E.argsort fit threshold graph obj with
  | .error err => .error err
  | .ok (models, _) =>
    match testScoresR sc test Prod.fst models with
    | .error err => .error err
    | .ok scores =>
      match bestScoring scores with
      | .error err => .error err
      | .ok (s, m, I) => .ok (m, I, s)

/-- `_fit` with the computed scores, `/repo/utlvce/main.py:295-557`.  The errors of the fits are part of `E.fit`, those of the variances
of the noise terms part of `E.argsort`. -/
noncomputable def fitMainR (sc : Data p e → AnyModel p e → Except Err Flt) (E : FitEnv p e) (data : Fin e → Sample p) (solverKnown : Bool)
    (numsLatent : Option (List Nat)) (prune : Bool) (folds : List Rat) (thresholdGraph thresholdI : Option ℝ)
    (initial : Option (List (Adj p))) (randomState : Int) : Except Err (AnyModel p e × Finset (Fin p) × Flt) :=
  match splitData (E.rng randomState) (List.ofFn data) folds with
  | .error err => .error err
  | .ok [training, testG, testI] =>
    match initialGraphs E initial training with
    | .error err => .error err
    | .ok graphs =>
      match latentNumbers E numsLatent training with
      | .error err => .error err
      | .ok ns =>
        match latentLoopR sc E.it (E.fit (foldData E.cov training e)) (scoreCtor training solverKnown) prune thresholdGraph graphs
            (foldData E.cov testG e) ns [] with
        | .error err => .error err
        | .ok results =>
          match sortedM tupleLt (results.map (fun r => (r.2.1, r.1, r.2.2.1, r.2.2.2))) with
          | .error err => .error err
          | .ok [] => .error .indexError
          | .ok ((_, h, graph, obj) :: _) =>
            targetPhaseR sc E (E.fit (foldData E.cov training e) h) thresholdI (foldData E.cov testI e) graph obj
  | .ok _ => .error .valueError -- wrong number of folds

end Verif
