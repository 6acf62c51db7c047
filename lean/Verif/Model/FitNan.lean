import Verif.Model.Cov

/-!
# `_fit` on folds with fewer than two observations

The definitions of `Model/Main.lean` that use the second and third fold, with the covariances that `np.cov` returns for any number of
observations (`npCovF`); C98 shows that they agree with those of `Model/Main.lean` if every environment has at least two observations.
-/

namespace Verif

open Matrix

variable {p l e : Nat}

/-- The loop of `Model.score`, `/repo/utlvce/model.py:304-308`; a covariance of `nan`s gives the trace `nan`, and `@` with a scalar raises.
(If only some of the covariances are scalars, NumPy 1.24 raises `ValueError` already when the array of covariances is made,
`/repo/utlvce/main.py:441,444`.) -/
noncomputable def scoreLoopF (IB : Matrix (Fin p) (Fin p) ℝ) (Ms : Fin e → Matrix (Fin p) (Fin p) ℝ) (nObs : List Nat) :
    Nat → List (CovArray p) → Flt → Except Err Flt
  | _, [], score => .ok score
  | i, sigma :: rest, score =>
    match nObs[i]? with
    | none => .error .indexError
    | some n =>
      if h : i < e then
        match sigma with
        | .scalar => .error .valueError
        | .nans => scoreLoopF IB Ms nObs (i + 1) rest (Flt.divNat (Flt.add score (Flt.smul n none)) nObs.sum)
        | .matrix S => scoreLoopF IB Ms nObs (i + 1) rest (Flt.divNat (Flt.add score (Flt.smul n (scoreTerm IB (Ms ⟨i, h⟩) S))) nObs.sum)
      else .error .indexError

/-- `m.score(test_sample_covariances, test_n_obs)`, `/repo/utlvce/main.py:441-446,496,526`, for the samples of a fold. -/
noncomputable def AnyModel.scoreFold (fold : List (Sample p)) (m : AnyModel p e) : Except Err Flt :=
  match m.2.invNoise with
  | .error err => .error err
  | .ok Ms => scoreLoopF m.2.IB Ms (List.ofFn fun k : Fin e => (fold.getD k.val []).length) 0
      (List.ofFn fun k : Fin e => npCovF (fold.getD k.val [])) (some 0)

/-- The list comprehensions that score models on a test fold, `/repo/utlvce/main.py:496-497,526-527`. -/
noncomputable def foldScores {β : Type} (fold : List (Sample p)) (model : β → AnyModel p e) : List β → Except Err (List (Flt × β))
  | [] => .ok []
  | x :: xs =>
    match (model x).scoreFold fold with
    | .error err => .error err
    | .ok s =>
      match foldScores fold model xs with
      | .error err => .error err
      | .ok r => .ok ((s, x) :: r)

/-- The loop over the numbers of latents, `/repo/utlvce/main.py:485-504`. -/
noncomputable def latentLoopF (it : SetIter p) (fit : Nat → Fitter p e) (ctor : Except Err Unit) (prune : Bool) (threshold : Option ℝ)
    (graphs : List (Adj p)) (test : List (Sample p)) :
    List Nat → List (Nat × (Flt × Adj p × ScoreObj p e)) → Except Err (List (Nat × (Flt × Adj p × ScoreObj p e)))
  | [], results => .ok results
  | h :: hs, results =>
    match ctor with
    | .error err => .error err
    | .ok () =>
      match pruneGraphs it (fit h) prune threshold graphs { calls := 0, cache := [] } with
      | .error err => .error err
      | .ok (models, obj) =>
        match foldScores test id models with
        | .error err => .error err
        | .ok scores =>
          match bestScoring (scores.map (fun x => (x.1, x.2.A))) with
          | .error err => .error err
          | .ok (s, A) => latentLoopF it fit ctor prune threshold graphs test hs (dictSet results h (s, A, obj))

/-- The end of `_fit`, `/repo/utlvce/main.py:524-530`. -/
noncomputable def targetPhaseF (E : FitEnv p e) (fit : Fitter p e) (threshold : Option ℝ) (test : List (Sample p)) (graph : Adj p)
    (obj : ScoreObj p e) : Except Err (AnyModel p e × Finset (Fin p) × Flt) :=
  match pruneI E.it E.argsort fit threshold graph obj with
  | .error err => .error err
  | .ok (models, _) =>
    match foldScores test Prod.fst models with
    | .error err => .error err
    | .ok scores =>
      match bestScoring scores with
      | .error err => .error err
      | .ok (s, m, I) => .ok (m, I, s)

/-- `_fit`, `/repo/utlvce/main.py:295-557`, with test folds of any size.  (Fits to training folds without any observation, which
`Score.__init__` accepts, are an arbitrary function here.) -/
noncomputable def fitMainF (E : FitEnv p e) (data : Fin e → Sample p) (solverKnown : Bool) (numsLatent : Option (List Nat))
    (prune : Bool) (folds : List Rat) (thresholdGraph thresholdI : Option ℝ) (initial : Option (List (Adj p))) (randomState : Int) :
    Except Err (AnyModel p e × Finset (Fin p) × Flt) :=
  match splitData (E.rng randomState) (List.ofFn data) folds with
  | .error err => .error err
  | .ok [training, testG, testI] =>
    match initialGraphs E initial training with
    | .error err => .error err
    | .ok graphs =>
      match latentNumbers E numsLatent training with
      | .error err => .error err
      | .ok ns =>
        match latentLoopF E.it (E.fit (foldData E.cov training e)) (scoreCtor training solverKnown) prune thresholdGraph graphs
            testG ns [] with
        | .error err => .error err
        | .ok results =>
          match sortedM tupleLt (results.map (fun r => (r.2.1, r.1, r.2.2.1, r.2.2.2))) with
          | .error err => .error err
          | .ok [] => .error .indexError
          | .ok ((_, h, graph, obj) :: _) =>
            targetPhaseF E (E.fit (foldData E.cov training e) h) thresholdI testI graph obj
  | .ok _ => .error .valueError -- wrong number of folds

end Verif
