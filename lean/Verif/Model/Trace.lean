import Verif.Model.Main

/-!
# What `_fit` prints

With a non-zero `verbose`, `_fit` and its subroutines print lines about the run.  Here they are computed with the printed lines: the
numbers, graphs and sets in every line, without the words around them.  The lines of a run that ends with an exception, the time that
GES took and the notation of floating point numbers are not modelled.
-/

namespace Verif

variable {p e : Nat}

/-- The lines printed by `_fit` (`/repo/utlvce/main.py:468-537`), `_prune_graphs` (`:609-644`), `_prune_I` (`:671-685`) and `_fit_ges`
(`:732-743`). -/
inductive Line (p : Nat) where
  /-- `Running GES on pooled data ...`, `:732-733,742-743` -/
  | ges
  /-- `No. edges in initial graphs (n) [...]`, `:469-470` -/
  | initial (n : Nat) (edges : List Int)
  /-- `Selected h=[...] via the scree plot.`, `:478-479` -/
  | scree (hs : List Nat)
  /-- `Cross-validation for the graph-pruning phase`, `:484` -/
  | graphPhase
  /-- `h = ...`, `:488` -/
  | latents (h : Nat)
  /-- `Starting graph-pruning phase for n graphs - prune: ...`, `:609-610` -/
  | start (n : Nat) (prune : Bool)
  /-- `Graph i - #edges = ... - likl. = ...`, `:616-617` -/
  | graph (i : Nat) (edges : Int) (likl : Flt)
  /-- `thresholding - removed ... edges - likl. = ...`, `:628-629` -/
  | thresholded (removed : Int) (likl : Flt)
  /-- `removing edge (a, b) (weight) (... edges) -> likl. = ...`, `:643-644` -/
  | removing (edge : Fin p × Fin p) (weight : ℝ) (edges : Int) (likl : Flt)
  /-- `Best test score = ...`, `:500-501` -/
  | bestGraph (score : Flt)
  /-- `Best parameter: h = ...`, `:517` -/
  | bestLatents (h : Nat)
  /-- `Beginning I-pruning phase`, `:522` -/
  | targetPhase
  /-- `thresholding - I = ... - likl. = ...`, `:671-672` -/
  | thresholdedI (I : Finset (Fin p)) (likl : Flt)
  /-- `Pruning I - order = ... - likl. = ...`, `:677-678` -/
  | order (order : List (Fin p)) (likl : Flt)
  /-- `(likl. = ...): I - {j} = ...`, `:685-686` -/
  | without (likl : Flt) (j : Fin p) (I : Finset (Fin p))
  /-- `Best test score = ...`, `:531` -/
  | bestTargets (score : Flt)
  /-- `Best parameters: h = ... - graph with ... edges - Î = ...`, `:536-537` -/
  | final (h : Nat) (edges : Int) (I : Finset (Fin p))

/-- `print(...) if verbose else None`.  See `/repo/utlvce/main.py:468,479,484,537`. -/
def printed (verbose : Int) (lines : List (Line p)) : List (Line p) := if verbose = 0 then [] else lines

/-- Variables of the pruning loop and the lines printed so far.  See `/repo/utlvce/main.py:632-645`. -/
structure PruneStateV (p e : Nat) where
  state : PruneState p e
  lines : List (Line p)

/-- One iteration (or the exit) of the loop, `/repo/utlvce/main.py:634-644`, with the printed line. -/
noncomputable def pruneStepV (it : SetIter p) (fit : Fitter p e) (verbose : Int) (s : PruneStateV p e) :
    Except Err (PruneStateV p e ⊕ PruneStateV p e) :=
  if 0 < sumAll s.state.dag then
    match weakestEdge s.state.model.B with
    | .error err => .error err
    | .ok (a, b) =>
      let weight := s.state.model.B a b
      let dag := setEntry s.state.dag a b 0
      match s.state.obj.scoreDag it fit dag Finset.univ with
      | .error err => .error err
      | .ok ((m, likl), obj) => .ok (.inl {
          state := { dag := dag, model := m, obj := obj, models := s.state.models ++ [m] }
          lines := s.lines ++ printed verbose [.removing (a, b) weight (sumAll dag) likl] })
  else .ok (.inr s)

/-- The body of the loop over the candidate graphs, `/repo/utlvce/main.py:612-644`, for graph number `i`, with the printed lines. -/
noncomputable def pruneGraphV (it : SetIter p) (fit : Fitter p e) (verbose : Int) (prune : Bool) (threshold : Option ℝ) (obj : ScoreObj p e)
    (i : Nat) (graph : Adj p) : Except Err ((List (AnyModel p e) × ScoreObj p e) × List (Line p)) :=
  open Classical in
  match obj.scoreDag it fit graph Finset.univ with
  | .error err => .error err
  | .ok ((initial, likl), obj) =>
    let line := printed verbose [.graph i (sumAll graph) likl]
    if ! prune then .ok (([initial], obj), line)
    else
      match threshold with
      | some t =>
        if p = 0 then .error .valueError -- maximum of an empty array
        else
          let pruned : Adj p := fun i j => if maxAbs initial.B * t < |initial.B i j| then 1 else 0
          match obj.scoreDag it fit pruned Finset.univ with
          | .error err => .error err
          | .ok ((m, likl), obj) => .ok (([m], obj), line ++ printed verbose [.thresholded (sumAll graph - sumAll pruned) likl])
      | none =>
        match runLoop (pruneStepV it fit verbose)
            { state := { dag := graph, model := initial, obj := obj, models := [initial] }, lines := line } with
        | .error err => .error err
        | .ok s => .ok ((s.state.models, s.state.obj), s.lines)

/-- The loop `for i, graph in enumerate(graphs)`, `/repo/utlvce/main.py:611-644`, from number `i` on, with the printed lines. -/
noncomputable def pruneGraphsLoopV (it : SetIter p) (fit : Fitter p e) (verbose : Int) (prune : Bool) (threshold : Option ℝ) :
    Nat → List (Adj p) → ScoreObj p e → Except Err ((List (AnyModel p e) × ScoreObj p e) × List (Line p))
  | _, [], obj => .ok (([], obj), [])
  | i, g :: gs, obj =>
    match pruneGraphV it fit verbose prune threshold obj i g with
    | .error err => .error err
    | .ok ((ms, obj), out) =>
      match pruneGraphsLoopV it fit verbose prune threshold (i + 1) gs obj with
      | .error err => .error err
      | .ok ((ms', obj), out') => .ok ((ms ++ ms', obj), out ++ out')

/-- `_prune_graphs(graphs, score_class, debug, prune, threshold)`, `/repo/utlvce/main.py:603-645`, with the printed lines. -/
noncomputable def pruneGraphsV (it : SetIter p) (fit : Fitter p e) (verbose : Int) (prune : Bool) (threshold : Option ℝ)
    (graphs : List (Adj p)) (obj : ScoreObj p e) : Except Err ((List (AnyModel p e) × ScoreObj p e) × List (Line p)) :=
  if graphs.length = 0 then .error .indexError
  else
    match pruneGraphsLoopV it fit verbose prune threshold 0 graphs obj with
    | .error err => .error err
    | .ok (r, out) => .ok (r, printed verbose [.start graphs.length prune] ++ out)

/-- The loop `for j in order`, `/repo/utlvce/main.py:681-687`, with the printed lines. -/
noncomputable def pruneILoopV (it : SetIter p) (fit : Fitter p e) (verbose : Int) (graph : Adj p) :
    List (Fin p) → Finset (Fin p) → ScoreObj p e →
    Except Err ((List (AnyModel p e × Finset (Fin p)) × ScoreObj p e) × List (Line p))
  | [], _, obj => .ok (([], obj), [])
  | j :: order, I, obj =>
    let I := I.erase j
    match obj.scoreDag it fit graph I with
    | .error err => .error err
    | .ok ((m, likl), obj) =>
      match pruneILoopV it fit verbose graph order I obj with
      | .error err => .error err
      | .ok ((ms, obj), out) => .ok (((m, I) :: ms, obj), printed verbose [.without likl j I] ++ out)

/-- `_prune_I(graph, score_class, verbose, threshold)`, `/repo/utlvce/main.py:648-689`, with the printed lines. -/
noncomputable def pruneIV (it : SetIter p) (argsort : (Fin p → ℝ) → List (Fin p)) (fit : Fitter p e) (verbose : Int) (threshold : Option ℝ)
    (graph : Adj p) (obj : ScoreObj p e) : Except Err ((List (AnyModel p e × Finset (Fin p)) × ScoreObj p e) × List (Line p)) :=
  open Classical in
  match obj.scoreDag it fit graph Finset.univ with
  | .error err => .error err
  | .ok ((initial, likl), obj) =>
    let variances := varEnv initial.omegas
    match threshold with
    | some t =>
      if p = 0 then .error .valueError -- maximum of an empty array
      else
        let I : Finset (Fin p) := Finset.univ.filter (fun j => (⨆ i, variances i) * t < variances j)
        match obj.scoreDag it fit graph I with
        | .error err => .error err
        | .ok ((m, likl), obj) => .ok (([(m, I)], obj), printed verbose [.thresholdedI I likl])
    | none =>
      let order := argsort variances
      match pruneILoopV it fit verbose graph order Finset.univ obj with
      | .error err => .error err
      | .ok ((ms, obj), out) => .ok (((initial, Finset.univ) :: ms, obj), printed verbose [.order order likl] ++ out)

/-- The loop over the numbers of latents, `/repo/utlvce/main.py:485-504`, with the printed lines. -/
noncomputable def latentLoopV (it : SetIter p) (fit : Nat → Fitter p e) (ctor : Except Err Unit) (verbose : Int) (prune : Bool)
    (threshold : Option ℝ) (graphs : List (Adj p)) (test : Data p e) :
    List Nat → List (Nat × (Flt × Adj p × ScoreObj p e)) → Except Err (List (Nat × (Flt × Adj p × ScoreObj p e)) × List (Line p))
  | [], results => .ok (results, [])
  | h :: hs, results =>
    match ctor with
    | .error err => .error err
    | .ok () =>
      match pruneGraphsV it (fit h) verbose prune threshold graphs { calls := 0, cache := [] } with
      | .error err => .error err
      | .ok ((models, obj), out) =>
        match testScores test id models with
        | .error err => .error err
        | .ok scores =>
          match bestScoring (scores.map (fun x => (x.1, x.2.A))) with
          | .error err => .error err
          | .ok (s, A) =>
            match latentLoopV it fit ctor verbose prune threshold graphs test hs (dictSet results h (s, A, obj)) with
            | .error err => .error err
            | .ok (results, out') => .ok (results, printed verbose [.latents h] ++ out ++ printed verbose [.bestGraph s] ++ out')

/-- What `_fit_ges` prints, `/repo/utlvce/main.py:732-733,742-743`: here the condition is `verbose > 0`. -/
def gesLines (verbose : Int) (initial : Option (List (Adj p))) : List (Line p) :=
  match initial with
  | some _ => []
  | none => if 0 < verbose then [.ges] else []

/-- What is printed about the numbers of latents, `/repo/utlvce/main.py:478-479`. -/
def screeLines (verbose : Int) (numsLatent : Option (List Nat)) (ns : List Nat) : List (Line p) :=
  match numsLatent with
  | some _ => []
  | none => printed verbose [.scree ns]

/-- `_fit`, `/repo/utlvce/main.py:295-557`, with the printed lines; see `fitMain` for the other parameters.  `num_latent` is the number
selected at line 509, `best_model` the selected model. -/
noncomputable def fitMainV (E : FitEnv p e) (data : Fin e → Sample p) (solverKnown : Bool) (numsLatent : Option (List Nat))
    (prune : Bool) (folds : List Rat) (thresholdGraph thresholdI : Option ℝ) (initial : Option (List (Adj p))) (randomState : Int)
    (verbose : Int) : Except Err ((AnyModel p e × Finset (Fin p) × Flt) × List (Line p)) :=
  match splitData (E.rng randomState) (List.ofFn data) folds with
  | .error err => .error err
  | .ok [training, testG, testI] =>
    match initialGraphs E initial training with
    | .error err => .error err
    | .ok graphs =>
      match latentNumbers E numsLatent training with
      | .error err => .error err
      | .ok ns =>
        match latentLoopV E.it (E.fit (foldData E.cov training e)) (scoreCtor training solverKnown) verbose prune thresholdGraph graphs
            (foldData E.cov testG e) ns [] with
        | .error err => .error err
        | .ok (results, out) =>
          match sortedM tupleLt (results.map (fun r => (r.2.1, r.1, r.2.2.1, r.2.2.2))) with
          | .error err => .error err
          | .ok [] => .error .indexError
          | .ok ((_, h, graph, obj) :: _) =>
            match pruneIV E.it E.argsort (E.fit (foldData E.cov training e) h) verbose thresholdI graph obj with
            | .error err => .error err
            | .ok ((models, _), out') =>
              match testScores (foldData E.cov testI e) Prod.fst models with
              | .error err => .error err
              | .ok scores =>
                match bestScoring scores with
                | .error err => .error err
                | .ok (s, m, I) =>
                  .ok ((m, I, s),
                    gesLines verbose initial ++ printed verbose [.initial graphs.length (graphs.map sumAll)] ++
                    screeLines verbose numsLatent ns ++ printed verbose [.graphPhase] ++ out ++
                    printed verbose [.bestLatents h, .targetPhase] ++ out' ++
                    printed verbose [.bestTargets s, .final h (sumAll m.A) I])
  | .ok _ => .error .valueError -- wrong number of folds

end Verif
