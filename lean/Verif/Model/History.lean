import Verif.Model.Main

/-!
# The history that `_fit` returns

`_fit` returns a pair: the result and, depending on `store_history`, a dictionary about the run.  `fitMain` in `Model/Main.lean` is the
first component; here both are computed.
-/

namespace Verif

variable {p e : Nat}

/-- The dictionary `history`, `/repo/utlvce/main.py:548-555`; an optional field is `none` if the dictionary has no such key. -/
structure History (p e : Nat) where
  numLatent : Nat
  initialGraphs : List (Adj p)
  prunedGraphs : Option (List (Flt × Adj p))
  prunedIs : Option (List (Flt × AnyModel p e × Finset (Fin p)))
  trainCache : Option (ScoreObj p e)

/-- The loop over the numbers of latents, `/repo/utlvce/main.py:485-504`, with everything that is stored: for every number the best test
score, the graph attaining it, all test scores with their graphs, and the score object. -/
noncomputable def latentLoopH (it : SetIter p) (fit : Nat → Fitter p e) (ctor : Except Err Unit) (prune : Bool) (threshold : Option ℝ)
    (graphs : List (Adj p)) (test : Data p e) :
    List Nat → List (Nat × (Flt × Adj p × List (Flt × Adj p) × ScoreObj p e)) →
      Except Err (List (Nat × (Flt × Adj p × List (Flt × Adj p) × ScoreObj p e)))
  | [], results => .ok results
  | h :: hs, results =>
    match ctor with
    | .error err => .error err
    | .ok () =>
      match pruneGraphs it (fit h) prune threshold graphs { calls := 0, cache := [] } with
      | .error err => .error err
      | .ok (models, obj) =>
        match testScores test id models with
        | .error err => .error err
        | .ok scores =>
          match bestScoring (scores.map (fun x => (x.1, x.2.A))) with
          | .error err => .error err
          | .ok (s, A) =>
            latentLoopH it fit ctor prune threshold graphs test hs (dictSet results h (s, A, scores.map (fun x => (x.1, x.2.A)), obj))

/-- The end of `_fit`, `/repo/utlvce/main.py:545-555`: the history; `store_history` is an integer or `None`.  `None` is not equal to zero
but false, so that no branch assigns `history`.  The score object is a reference: what is stored is its state after the last call. -/
def makeHistory (store : Option Int) (numLatent : Nat) (graphs : List (Adj p)) (prunedGraphs : List (Flt × Adj p))
    (prunedIs : List (Flt × AnyModel p e × Finset (Fin p))) (cache : ScoreObj p e) : Except Err (Option (History p e)) :=
  match store with
  | none => .error .unboundLocalError
  | some k =>
    if k = 0 then .ok none
    else .ok (some {
      numLatent := numLatent
      initialGraphs := graphs
      prunedGraphs := if 1 < k then some prunedGraphs else none
      prunedIs := if 1 < k then some prunedIs else none
      trainCache := if 2 < k then some cache else none })

/-- `_fit`, `/repo/utlvce/main.py:295-557`, with both components of the result; see `fitMain` for the parameters. -/
noncomputable def fitMainH (E : FitEnv p e) (data : Fin e → Sample p) (solverKnown : Bool) (numsLatent : Option (List Nat))
    (prune : Bool) (folds : List Rat) (thresholdGraph thresholdI : Option ℝ) (initial : Option (List (Adj p))) (randomState : Int)
    (store : Option Int) : Except Err ((AnyModel p e × Finset (Fin p) × Flt) × Option (History p e)) :=
  match splitData (E.rng randomState) (List.ofFn data) folds with
  | .error err => .error err
  | .ok [training, testG, testI] =>
    match initialGraphs E initial training with
    | .error err => .error err
    | .ok graphs =>
      match latentNumbers E numsLatent training with
      | .error err => .error err
      | .ok ns =>
        match latentLoopH E.it (E.fit (foldData E.cov training e)) (scoreCtor training solverKnown) prune thresholdGraph graphs
            (foldData E.cov testG e) ns [] with
        | .error err => .error err
        | .ok results =>
          match sortedM tupleLt (results.map (fun r => (r.2.1, r.1, r.2.2.1, r.2.2.2.1, r.2.2.2.2))) with
          | .error err => .error err
          | .ok [] => .error .indexError
          | .ok ((_, h, graph, prunedGraphs, obj) :: _) =>
            match pruneI E.it E.argsort (E.fit (foldData E.cov training e) h) thresholdI graph obj with
            | .error err => .error err
            | .ok (models, obj) =>
              match testScores (foldData E.cov testI e) Prod.fst models with
              | .error err => .error err
              | .ok scores =>
                match bestScoring scores with
                | .error err => .error err
                | .ok (s, m, I) =>
                  match makeHistory store h graphs prunedGraphs scores obj with
                  | .error err => .error err
                  | .ok history => .ok ((m, I, s), history)
  | .ok _ => .error .valueError -- wrong number of folds

end Verif
