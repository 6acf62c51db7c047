import Verif.Model.Score
import Verif.Model.ListUtils
import Verif.Model.Enum
import Verif.Model.Loop
import Mathlib.Analysis.SpecialFunctions.Log.Basic
import Mathlib.Analysis.Real.Pi.Bounds

/-!
# `/repo/utlvce/main.py`

The sub-procedures from other libraries are arbitrary functions: `cov` is `np.cov(x, rowvar=False)` (with real values, i.e. for
samples with at least two rows), `argsort` is `np.argsort`, `svals` the singular values of `np.linalg.svd` and `gesFit` the CPDAG
that `ges.fit` returns.  Printing (`verbose`), time measurement, garbage collection and the returned history are not modelled.
-/

namespace Verif

open Matrix

variable {p e : Nat}

/-! ## Models and score objects -/

/-- A `Model` object with any number of latent variables.  See `/repo/utlvce/main.py:487-491`. -/
abbrev AnyModel (p e : Nat) := (l : Nat) × LModel p l e

namespace AnyModel

/-- The attribute `A` of the model.  See `/repo/utlvce/model.py:232`. -/
def A (m : AnyModel p e) : Adj p := m.2.A
/-- The attribute `B` of the model.  See `/repo/utlvce/model.py:233`. -/
def B (m : AnyModel p e) : Matrix (Fin p) (Fin p) ℝ := m.2.B
/-- The attribute `omegas` of the model.  See `/repo/utlvce/model.py:235`. -/
def omegas (m : AnyModel p e) : Matrix (Fin e) (Fin p) ℝ := m.2.omegas
/-- `Model.score(...)`.  See `/repo/utlvce/model.py:277-309`. -/
noncomputable def scoreOn (d : Data p e) (m : AnyModel p e) : Except Err Flt := m.2.score (List.ofFn d.covs) (List.ofFn d.nObs)

/-- `Model.copy()`.  See `/repo/utlvce/model.py:244-275`. -/
noncomputable def copy (it : SetIter p) (m : AnyModel p e) : Except Err (AnyModel p e) :=
  match m.2.copy it with
  | .error err => .error err
  | .ok m' => .ok ⟨m.1, m'⟩

end AnyModel

/-- The state of a `Score` object: the number of calls of `score_dag` so far (which determines the random draws of the next fit) and
the cache.  See `/repo/utlvce/score.py:253,312-316,415-416`. -/
structure ScoreObj (p e : Nat) where
  calls : Nat
  cache : List (Entry p (AnyModel p e))

/-- Fitting a model: the outcome of the computation of `score_dag` in call number `n`, without the cache.
See `/repo/utlvce/score.py:318-418`. -/
abbrev Fitter (p e : Nat) := Nat → Adj p → Finset (Fin p) → Except Err (AnyModel p e × Flt)

/-- `score_class.score_dag(A, I)`, `/repo/utlvce/score.py:277-418`, on an object with a cache. -/
noncomputable def ScoreObj.scoreDag (it : SetIter p) (fit : Fitter p e) (st : ScoreObj p e) (A : Adj p) (I : Finset (Fin p)) :
    Except Err ((AnyModel p e × Flt) × ScoreObj p e) :=
  match Verif.scoreDag (AnyModel.copy it) (fun A I _ => fit st.calls A I) (some st.cache) A I none with
  | .error err => .error err
  | .ok (r, c) => .ok (r, { calls := st.calls + 1, cache := c.getD [] })

/-! ## Selection of the best score -/

/-- `np.argmin` of a list: the loop of numpy keeps the position of the current best value and replaces it by values that are
`better`; `ValueError` for an empty list.  See `/repo/utlvce/main.py:597`. -/
noncomputable def argminLoop {α : Type} (better : α → α → Prop) (best : α) (ind : Nat) : Nat → List α → Nat
  | _, [] => ind
  | i, x :: xs => open Classical in
    if better x best then argminLoop better x i (i + 1) xs else argminLoop better best ind (i + 1) xs

/-- `np.argmin(l)`.  See `/repo/utlvce/main.py:597` and `/repo/utlvce/utils.py:64,77`. -/
noncomputable def npArgmin {α : Type} (better : α → α → Prop) : List α → Except Err Nat
  | [] => .error .valueError
  | x :: xs => .ok (argminLoop better x 0 1 xs)

/-- When numpy's `argmin` of floats replaces the current best value: `not (x >= best)` while `best` is a number; it stops at the
first `nan`.  See `/repo/utlvce/main.py:597`. -/
def Flt.better (x best : Flt) : Prop :=
  match best, x with
  | none, _ => False
  | some _, none => True
  | some b, some v => v < b

/-- `_best_scoring(tuples)`, `/repo/utlvce/main.py:591-600`. -/
noncomputable def bestScoring {β : Type} (tuples : List (Flt × β)) : Except Err (Flt × β) :=
  match npArgmin Flt.better (tuples.map Prod.fst) with
  | .error err => .error err
  | .ok i =>
    match tuples[i]? with
    | none => .error .indexError
    | some t => .ok t

/-! ## Pruning of graphs -/

/-- `_weakest_edge(B)`, `/repo/utlvce/main.py:691-696`: zero entries count as infinite; the position in the flattened array is
converted to a pair of indices. -/
noncomputable def weakestEdge (B : Matrix (Fin p) (Fin p) ℝ) : Except Err (Fin p × Fin p) :=
  open Classical in
  match npArgmin (fun x y : WithTop ℝ => x < y) ((allPairs p).map (fun e => if B e.1 e.2 = 0 then ⊤ else ((|B e.1 e.2| : ℝ) : WithTop ℝ))) with
  | .error err => .error err
  | .ok i =>
    match (allPairs p)[i]? with
    | none => .error .indexError
    | some e => .ok e

/-- Variables of the pruning loop: `current_dag`, `current_model`, the score object and the list `pruned_models`.
See `/repo/utlvce/main.py:632-645`. -/
structure PruneState (p e : Nat) where
  dag : Adj p
  model : AnyModel p e
  obj : ScoreObj p e
  models : List (AnyModel p e)

/-- One iteration (or the exit) of the loop, `/repo/utlvce/main.py:634-644`. -/
noncomputable def pruneStep (it : SetIter p) (fit : Fitter p e) (s : PruneState p e) :
    Except Err (PruneState p e ⊕ PruneState p e) :=
  if 0 < sumAll s.dag then
    match weakestEdge s.model.B with
    | .error err => .error err
    | .ok (a, b) =>
      let dag := setEntry s.dag a b 0
      match s.obj.scoreDag it fit dag Finset.univ with
      | .error err => .error err
      | .ok ((m, _), obj) => .ok (.inl { dag := dag, model := m, obj := obj, models := s.models ++ [m] })
  else .ok (.inr s)

/-- `abs(B).max()` for a non-empty array.  See `/repo/utlvce/main.py:622`. -/
noncomputable def maxAbs (B : Matrix (Fin p) (Fin p) ℝ) : ℝ := ⨆ e : Fin p × Fin p, |B e.1 e.2|

/-- The body of the loop over the candidate graphs, `/repo/utlvce/main.py:612-644`; returns the models appended for this graph. -/
noncomputable def pruneGraph (it : SetIter p) (fit : Fitter p e) (prune : Bool) (threshold : Option ℝ) (obj : ScoreObj p e)
    (graph : Adj p) : Except Err (List (AnyModel p e) × ScoreObj p e) :=
  open Classical in
  match obj.scoreDag it fit graph Finset.univ with
  | .error err => .error err
  | .ok ((initial, _), obj) =>
    if ! prune then .ok ([initial], obj)
    else
      match threshold with
      | some t =>
        if p = 0 then .error .valueError -- maximum of an empty array
        else
          let pruned : Adj p := fun i j => if maxAbs initial.B * t < |initial.B i j| then 1 else 0
          match obj.scoreDag it fit pruned Finset.univ with
          | .error err => .error err
          | .ok ((m, _), obj) => .ok ([m], obj)
      | none =>
        match runLoop (pruneStep it fit) { dag := graph, model := initial, obj := obj, models := [initial] } with
        | .error err => .error err
        | .ok s => .ok (s.models, s.obj)

/-- The loop over the candidate graphs, `/repo/utlvce/main.py:611-644`. -/
noncomputable def pruneGraphsLoop (it : SetIter p) (fit : Fitter p e) (prune : Bool) (threshold : Option ℝ) :
    List (Adj p) → ScoreObj p e → Except Err (List (AnyModel p e) × ScoreObj p e)
  | [], obj => .ok ([], obj)
  | g :: gs, obj =>
    match pruneGraph it fit prune threshold obj g with
    | .error err => .error err
    | .ok (ms, obj) =>
      match pruneGraphsLoop it fit prune threshold gs obj with
      | .error err => .error err
      | .ok (ms', obj) => .ok (ms ++ ms', obj)

/-- `_prune_graphs(graphs, score_class, prune, threshold)`, `/repo/utlvce/main.py:603-645`; `graphs.shape[1]` does not exist for the
array of an empty list. -/
noncomputable def pruneGraphs (it : SetIter p) (fit : Fitter p e) (prune : Bool) (threshold : Option ℝ) (graphs : List (Adj p))
    (obj : ScoreObj p e) : Except Err (List (AnyModel p e) × ScoreObj p e) :=
  if graphs.length = 0 then .error .indexError else pruneGraphsLoop it fit prune threshold graphs obj

/-! ## Pruning of targets -/

/-- `np.var(omegas, axis=0)`, `/repo/utlvce/main.py:663`. -/
noncomputable def varEnv (om : Matrix (Fin e) (Fin p) ℝ) (j : Fin p) : ℝ :=
  (∑ k, (om k j - (∑ k, om k j) / (e : ℝ)) ^ 2) / (e : ℝ)

/-- The loop `for j in order`, `/repo/utlvce/main.py:681-686`. -/
noncomputable def pruneILoop (it : SetIter p) (fit : Fitter p e) (graph : Adj p) : List (Fin p) → Finset (Fin p) → ScoreObj p e →
    Except Err (List (AnyModel p e × Finset (Fin p)) × ScoreObj p e)
  | [], _, obj => .ok ([], obj)
  | j :: order, I, obj =>
    let I := I.erase j
    match obj.scoreDag it fit graph I with
    | .error err => .error err
    | .ok ((m, _), obj) =>
      match pruneILoop it fit graph order I obj with
      | .error err => .error err
      | .ok (ms, obj) => .ok ((m, I) :: ms, obj)

/-- `_prune_I(graph, score_class, threshold)`, `/repo/utlvce/main.py:648-688`. -/
noncomputable def pruneI (it : SetIter p) (argsort : (Fin p → ℝ) → List (Fin p)) (fit : Fitter p e) (threshold : Option ℝ)
    (graph : Adj p) (obj : ScoreObj p e) : Except Err (List (AnyModel p e × Finset (Fin p)) × ScoreObj p e) :=
  open Classical in
  match obj.scoreDag it fit graph Finset.univ with
  | .error err => .error err
  | .ok ((initial, _), obj) =>
    let variances := varEnv initial.omegas
    match threshold with
    | some t =>
      if p = 0 then .error .valueError -- maximum of an empty array
      else
        let I : Finset (Fin p) := Finset.univ.filter (fun j => (⨆ i, variances i) * t < variances j)
        match obj.scoreDag it fit graph I with
        | .error err => .error err
        | .ok ((m, _), obj) => .ok ([(m, I)], obj)
    | none =>
      match pruneILoop it fit graph (argsort variances) Finset.univ obj with
      | .error err => .error err
      | .ok (ms, obj) => .ok ((initial, Finset.univ) :: ms, obj)

/-! ## The number of latents -/

/-- `np.mean` of a list.  See `/repo/utlvce/main.py:586`. -/
noncomputable def meanList (l : List ℝ) : ℝ := l.sum / l.length

/-- `((x - x.mean())**2).sum()`.  See `/repo/utlvce/main.py:564`. -/
noncomputable def sumSq (l : List ℝ) : ℝ := (l.map (fun x => (x - meanList l) ^ 2)).sum

/-- `s.var(ddof=1) if len(s) > 1 else 0`, `/repo/utlvce/main.py:582-583`. -/
noncomputable def varOrZero (l : List ℝ) : ℝ := if 1 < l.length then sumSq l / ((l.length : ℝ) - 1) else 0

/-- `_gaussian_log_likelihood(sample, mean, var)`, `/repo/utlvce/main.py:560-565`, with the mean of the sample.  For `var = 0` (which
only happens if all elements are equal, see C66) the result is `-inf - 0/0 = nan`. -/
noncomputable def gaussLogLik (sample : List ℝ) (var : ℝ) : Flt :=
  open Classical in
  if var = 0 then none
  else some (- (1 / 2) * Real.log (2 * Real.pi) - (1 / 2) * Real.log var - sumSq sample / 2 / var)

/-- The body of the loop over `h`, `/repo/utlvce/main.py:579-588`; for two singular values `p - 2` is an integer zero in the
denominator of an integer quotient. -/
noncomputable def screeLik (svds : List ℝ) (h : Nat) : Except Err Flt :=
  let n := svds.length
  let s1 := svds.take h
  let s2 := svds.drop h
  if n = 2 then .error .zeroDivisionError
  else
    let var := (((h : ℝ) - 1) * varOrZero s1 + ((n : ℝ) - h - 1) * varOrZero s2) / ((n : ℝ) - 2)
    .ok (Flt.add (gaussLogLik s1 var) (gaussLogLik s2 var))

/-- The list `likelihoods`.  See `/repo/utlvce/main.py:578-587`. -/
noncomputable def screeLiks (svds : List ℝ) : List Nat → Except Err (List Flt)
  | [] => .ok []
  | h :: hs =>
    match screeLik svds h with
    | .error err => .error err
    | .ok x =>
      match screeLiks svds hs with
      | .error err => .error err
      | .ok xs => .ok (x :: xs)

/-- `x` replaces the largest element `best` seen so far in `np.argmax`.  See `/repo/utlvce/main.py:588`. -/
def Flt.larger (x best : Flt) : Prop :=
  match best, x with
  | none, _ => False
  | some _, none => True
  | some b, some v => b < v

/-- `_scree_selection(cov)`, `/repo/utlvce/main.py:568-588`, as a function of the singular values. -/
noncomputable def screeSelection (svds : List ℝ) : Except Err Nat :=
  match screeLiks svds (List.range' 1 (svds.length - 1)) with
  | .error err => .error err
  | .ok liks =>
    -- np.argmax: as argmin with the order reversed
    match npArgmin Flt.larger liks with
    | .error err => .error err
    | .ok i => .ok (i + 1)

/-! ## `_fit` -/

/-- `results[h] = v`: insertion into a dictionary (the position of an existing key is kept).  See `/repo/utlvce/main.py:503-504`. -/
def dictSet {β : Type} (dict : List (Nat × β)) (h : Nat) (v : β) : List (Nat × β) :=
  if dict.any (fun x => x.1 == h) then dict.map (fun x => if x.1 = h then (h, v) else x) else dict ++ [(h, v)]

/-- `a < b` for tuples `(test_score, h, best_graph, ...)`: the first different components are compared; comparing arrays raises
`ValueError`.  (A `nan` is different from every other object.).  See `/repo/utlvce/main.py:509`. -/
noncomputable def tupleLt {β : Type} (a b : Flt × Nat × β) : Except Err Bool :=
  open Classical in
  match a.1, b.1 with
  | some x, some y =>
    if x ≠ y then .ok (decide (x < y))
    else if a.2.1 ≠ b.2.1 then .ok (decide (a.2.1 < b.2.1))
    else .error .valueError
  | _, _ => .ok false

/-- The rest of a run: the elements `x` after `prev` for which the comparison with the element before gives `desc`, and what follows
them (`count_run` of CPython's `list.sort`).  See `/repo/utlvce/main.py:509`. -/
def takeRun {α : Type} (lt : α → α → Except Err Bool) (desc : Bool) : α → List α → Except Err (List α × List α)
  | _, [] => .ok ([], [])
  | prev, x :: xs =>
    match lt x prev with
    | .error err => .error err
    | .ok b =>
      if b = desc then
        match takeRun lt desc x xs with
        | .error err => .error err
        | .ok (run, rest) => .ok (x :: run, rest)
      else .ok ([], x :: xs)

/-- The first run, reversed if it is descending, and the rest of the list (`count_run` of CPython).  See `/repo/utlvce/main.py:509`. -/
def countRun {α : Type} (lt : α → α → Except Err Bool) : List α → Except Err (List α × List α)
  | [] => .ok ([], [])
  | [x] => .ok ([x], [])
  | x :: y :: xs =>
    match lt y x with
    | .error err => .error err
    | .ok desc =>
      match takeRun lt desc y xs with
      | .error err => .error err
      | .ok (run, rest) => .ok (if desc then (x :: y :: run).reverse else x :: y :: run, rest)

/-- Binary insertion (`binarysort` of CPython): `x` is compared with the middle element and inserted before or after it.
See `/repo/utlvce/main.py:509`. -/
def binInsert {α : Type} (lt : α → α → Except Err Bool) (x : α) (a : List α) : Except Err (List α) :=
  match h : a.drop (a.length / 2) with
  | [] => .ok [x]
  | y :: ys =>
    match lt x y with
    | .error err => .error err
    | .ok true =>
      match binInsert lt x (a.take (a.length / 2)) with
      | .error err => .error err
      | .ok r => .ok (r ++ y :: ys)
    | .ok false =>
      match binInsert lt x ys with
      | .error err => .error err
      | .ok r => .ok (a.take (a.length / 2) ++ y :: r)
termination_by a.length
decreasing_by
  all_goals
    have h1 := congrArg List.length h
    simp only [List.length_drop, List.length_cons] at h1
  · rw [List.length_take]; omega
  · omega

/-- The insertion of all elements after the first run.  See `/repo/utlvce/main.py:509`. -/
def insertAll {α : Type} (lt : α → α → Except Err Bool) : List α → List α → Except Err (List α)
  | a, [] => .ok a
  | a, x :: xs =>
    match binInsert lt x a with
    | .error err => .error err
    | .ok r => insertAll lt r xs

/-- Python's `sorted`: the first run is found and the other elements are inserted one by one.  This is what CPython 3.7 to 3.12 does with
fewer than 64 elements; longer lists are cut into such pieces and merged, with the same result if the comparison is a strict weak
order.  See `/repo/utlvce/main.py:509`. -/
def sortedM {α : Type} (lt : α → α → Except Err Bool) (l : List α) : Except Err (List α) :=
  match countRun lt l with
  | .error err => .error err
  | .ok (run, rest) => insertAll lt run rest

/-- The list comprehensions that score models on a test fold, `/repo/utlvce/main.py:496-497,526-527`. -/
noncomputable def testScores {β : Type} (d : Data p e) (model : β → AnyModel p e) : List β → Except Err (List (Flt × β))
  | [] => .ok []
  | x :: xs =>
    match (model x).scoreOn d with
    | .error err => .error err
    | .ok s =>
      match testScores d model xs with
      | .error err => .error err
      | .ok r => .ok ((s, x) :: r)

/-- The loop over the numbers of latents, `/repo/utlvce/main.py:485-504`: for every number the best test score, the graph attaining
it and the score object.  `ctor` is the outcome of `Score(training_data, h, ...)`. -/
noncomputable def latentLoop (it : SetIter p) (fit : Nat → Fitter p e) (ctor : Except Err Unit) (prune : Bool) (threshold : Option ℝ)
    (graphs : List (Adj p)) (test : Data p e) :
    List Nat → List (Nat × (Flt × Adj p × ScoreObj p e)) → Except Err (List (Nat × (Flt × Adj p × ScoreObj p e)))
  | [], results => .ok results
  | h :: hs, results =>
    match ctor with
    | .error err => .error err
    | .ok () =>
      match pruneGraphs it (fit h) prune threshold graphs { calls := 0, cache := [] } with
      | .error err => .error err
      | .ok (models, obj) =>
        match testScores test id models with
        | .error err => .error err
        | .ok scores =>
          match bestScoring (scores.map (fun x => (x.1, x.2.A))) with
          | .error err => .error err
          | .ok (s, A) => latentLoop it fit ctor prune threshold graphs test hs (dictSet results h (s, A, obj))

/-- A sample: the list of its rows.  See `/repo/utlvce/main.py:439-440`. -/
abbrev Sample (p : Nat) := List (Fin p → ℝ)

/-- Sample covariances and sizes of a fold.  See `/repo/utlvce/main.py:441-446`. -/
def foldData (cov : Sample p → Matrix (Fin p) (Fin p) ℝ) (fold : List (Sample p)) (e : Nat) : Data p e where
  covs k := cov (fold.getD k.val [])
  nObs k := (fold.getD k.val []).length

/-- The parameters of `_fit` that matter, and the functions from other libraries.  See `/repo/utlvce/main.py:295-316`. -/
structure FitEnv (p e : Nat) where
  it : SetIter p
  /-- the generator `np.random.default_rng(random_state)` when the `k`-th sample is shuffled -/
  rng : Int → Nat → Rng
  cov : Sample p → Matrix (Fin p) (Fin p) ℝ
  argsort : (Fin p → ℝ) → List (Fin p)
  svals : Matrix (Fin p) (Fin p) ℝ → List ℝ
  /-- `ges.fit` on the pooled data -/
  gesFit : Sample p → Adj p
  /-- `score_dag` of a `Score` object for the training data and a number of latents -/
  fit : Data p e → Nat → Fitter p e

/-- `_fit_ges(data)` with the default settings, `/repo/utlvce/main.py:699-744`. -/
def fitGes (it : SetIter p) (gesFit : Sample p → Adj p) (data : List (Sample p)) : Except Err (List (Adj p)) :=
  if data.length = 0 then .error .valueError -- np.vstack of an empty list
  else allDags it (gesFit data.flatten)

/-- The initial graphs: the given ones or those found by GES on the training data, `/repo/utlvce/main.py:461-466`. -/
def initialGraphs (E : FitEnv p e) (initial : Option (List (Adj p))) (training : List (Sample p)) : Except Err (List (Adj p)) :=
  match initial with
  | some gs => .ok gs
  | none => fitGes E.it E.gesFit training

/-- The numbers of latents to try, `/repo/utlvce/main.py:474-477`. -/
noncomputable def latentNumbers (E : FitEnv p e) (numsLatent : Option (List Nat)) (training : List (Sample p)) : Except Err (List Nat) :=
  match numsLatent with
  | some ns => .ok ns
  | none =>
    match training with
    | [] => .error .indexError
    | t :: _ =>
      match screeSelection (E.svals (E.cov t)) with
      | .error err => .error err
      | .ok h => .ok (List.range' 1 h)

/-- Whether `Score(training_data, h, ...)` succeeds, `/repo/utlvce/main.py:490`; this does not depend on `h`. -/
def scoreCtor (training : List (Sample p)) (solverKnown : Bool) : Except Err Unit :=
  match initScore (.list (training.map (fun s => .arr [s.length, p]))) solverKnown with
  | .error err => .error err
  | .ok _ => .ok ()

/-- The end of `_fit`: the targets for the selected graph, `/repo/utlvce/main.py:524-530`. -/
noncomputable def targetPhase (E : FitEnv p e) (fit : Fitter p e) (threshold : Option ℝ) (test : Data p e) (graph : Adj p)
    (obj : ScoreObj p e) : Except Err (AnyModel p e × Finset (Fin p) × Flt) :=
  match pruneI E.it E.argsort fit threshold graph obj with
  | .error err => .error err
  | .ok (models, _) =>
    match testScores test Prod.fst models with
    | .error err => .error err
    | .ok scores =>
      match bestScoring scores with
      | .error err => .error err
      | .ok (s, m, I) => .ok (m, I, s)

/-- `_fit`, `/repo/utlvce/main.py:295-557`, for data with `e` environments and `p` variables; `ges_env`, `ges_phases` and
`ges_lambdas` have their default values (as in all calls). -/
noncomputable def fitMain (E : FitEnv p e) (data : Fin e → Sample p) (solverKnown : Bool) (numsLatent : Option (List Nat))
    (prune : Bool) (folds : List Rat) (thresholdGraph thresholdI : Option ℝ) (initial : Option (List (Adj p))) (randomState : Int) :
    Except Err (AnyModel p e × Finset (Fin p) × Flt) :=
  match splitData (E.rng randomState) (List.ofFn data) folds with
  | .error err => .error err
  | .ok [training, testG, testI] =>
    match initialGraphs E initial training with
    | .error err => .error err
    | .ok graphs =>
      match latentNumbers E numsLatent training with
      | .error err => .error err
      | .ok ns =>
        match latentLoop E.it (E.fit (foldData E.cov training e)) (scoreCtor training solverKnown) prune thresholdGraph graphs
            (foldData E.cov testG e) ns [] with
        | .error err => .error err
        | .ok results =>
          match sortedM tupleLt (results.map (fun r => (r.2.1, r.1, r.2.2.1, r.2.2.2))) with
          | .error err => .error err
          | .ok [] => .error .indexError
          | .ok ((_, h, graph, obj) :: _) =>
            targetPhase E (E.fit (foldData E.cov training e) h) thresholdI (foldData E.cov testI e) graph obj
  | .ok _ => .error .valueError -- wrong number of folds

/-- The common end of the two functions of the API, `/repo/utlvce/main.py:170-173,286-289`. -/
noncomputable def withIcpdag (it : SetIter p) : Except Err (AnyModel p e × Finset (Fin p) × Flt) →
    Except Err (Adj p × Finset (Fin p) × AnyModel p e)
  | .error err => .error err
  | .ok (m, I, _) =>
    match dagToIcpdag it m.A (it.toList I) with
    | .error err => .error err
    | .ok P => .ok (P, I, m)

/-- `equivalence_class(candidate_dags, data, ...)`, `/repo/utlvce/main.py:52-173`: the argument `random_state` is not used. -/
noncomputable def equivalenceClass (E : FitEnv p e) (candidates : List (Adj p)) (data : Fin e → Sample p) (solverKnown : Bool)
    (pruneEdges : Bool) (numsLatent : Option (List Nat)) (folds : List Rat) (_randomState : Int) :
    Except Err (Adj p × Finset (Fin p) × AnyModel p e) :=
  withIcpdag E.it (fitMain E data solverKnown numsLatent pruneEdges folds none none (some candidates) 42)

/-- `equivalence_class_w_ges(data, ...)`, `/repo/utlvce/main.py:176-289`: the argument `random_state` is not used. -/
noncomputable def equivalenceClassGes (E : FitEnv p e) (data : Fin e → Sample p) (solverKnown : Bool)
    (numsLatent : Option (List Nat)) (folds : List Rat) (_randomState : Int) : Except Err (Adj p × Finset (Fin p) × AnyModel p e) :=
  withIcpdag E.it (fitMain E data solverKnown numsLatent true folds none none none 42)

/-- The fitting function of the code.  See `/repo/utlvce/score.py:318-418`. -/
noncomputable def codeFit (it : SetIter p) (svd : Matrix (Fin p) (Fin p) ℝ → Matrix (Fin p) (Fin p) ℝ × (Fin p → ℝ)) (num : NumLib p e)
    (cfg : ScoreCfg) (u v : Nat → Nat → Nat → Fin (p * p) → ℝ) (d : Data p e) (h : Nat) : Fitter p e := fun n A I =>
  match (fitDag it svd (fun I => codeSolvers it num cfg d (u h n) (v h n) I) cfg.stop d A I none : Except Err (LModel p h e × Flt)) with
  | .error err => .error err
  | .ok (m, s) => .ok (⟨h, m⟩, s)

end Verif
