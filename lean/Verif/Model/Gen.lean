import Verif.Model.LModel
import Verif.Model.Graph
import Verif.Model.ListUtils
import Mathlib.Data.List.Sort

/-!
# Model of `/repo/utlvce/generators.py`

Random draws are parameters; what is known about them (the intervals of `uniform`, the permutation property) is a hypothesis of the
theorems.  Negative sizes and seeds and the checks numpy makes on the arguments of its generators are in `Model/GenArgs.lean`; here `p`, `e` and
`num_latent` are natural numbers.  What is printed with `verbose` and `debug` is in `Model/Verbose.lean` and `Model/Debug.lean`.
-/

namespace Verif

variable {p l e : Nat}

/-- The draws of `sample_parameters`, in the order of the calls.  See `/repo/utlvce/generators.py:408-444`. -/
structure Draws (p l e : Nat) where
  /-- `rng.uniform(B_lo, B_hi, size=A.shape)`, line 409 -/
  weights : Fin p → Fin p → ℝ
  /-- `rng.choice(range(p), size=n_latent_edges)` and the normal draws for latent `i`, lines 414-417 -/
  sparse : Fin l → List (Fin p × ℝ)
  /-- `rng.normal(0, 1 / np.sqrt(p), size=(num_latent, p))`, line 419 -/
  dense : Fin l → Fin p → ℝ
  /-- `rng.uniform(var_lo, var_hi, size=p)`, line 422 -/
  base : Fin p → ℝ
  /-- `rng.uniform(int_var_lo, int_var_hi, size=(e - 1))` for target `j`, lines 425-426; entry `k` is the one for environment
  `k > 0` -/
  interventions : Fin p → Fin e → ℝ
  /-- `rng.uniform(var_lo, var_hi, size=(e, p))`, line 429 -/
  omegas : Fin e → Fin p → ℝ
  /-- `rng.uniform(psi_lo, psi_hi, size=num_latent)`, line 436 -/
  psiBase : Fin l → ℝ
  /-- `rng.uniform(int_psi_lo, int_psi_hi, size=(e, num_latent))` in iteration `k` of the loop, lines 439-440 -/
  psiInterventions : Nat → Fin e → Fin l → ℝ
  /-- `rng.uniform(psi_lo, psi_hi, size=(e, num_latent))`, line 444 -/
  psis : Fin e → Fin l → ℝ

/-- `gamma[i, non_zeros] = values`: for a repeated index the last value stays.  See `/repo/utlvce/generators.py:416`. -/
def scatterRow (row : Fin p → ℝ) : List (Fin p × ℝ) → Fin p → ℝ
  | [] => row
  | (j, x) :: rest => scatterRow (Function.update row j x) rest

/-- `gamma`, `/repo/utlvce/generators.py:411-419`. -/
def genGamma (sparse : Bool) (dr : Draws p l e) : Matrix (Fin l) (Fin p) ℝ :=
  if sparse then Matrix.of (fun i => scatterRow (fun _ => 0) (dr.sparse i)) else Matrix.of dr.dense

/-- The loop `for j in I`, `/repo/utlvce/generators.py:423-427`: `omegas += interventions` is inside the loop, so the interventions of
earlier targets are added again in every later iteration.  The state is the pair `(interventions, omegas)`. -/
def omegaLoop (dr : Draws p l e) : List (Fin p) → Matrix (Fin e) (Fin p) ℝ → Matrix (Fin e) (Fin p) ℝ → Matrix (Fin e) (Fin p) ℝ
  | [], _, om => om
  | j :: js, ints, om =>
    let ints' : Matrix (Fin e) (Fin p) ℝ := Matrix.of (fun k i => if i = j ∧ k.val ≠ 0 then dr.interventions j k else ints k i)
    omegaLoop dr js ints' (om + ints')

/-- `omegas`, `/repo/utlvce/generators.py:421-432`. -/
noncomputable def genOmegas (it : SetIter p) (I : Finset (Fin p)) (obs : Bool) (dr : Draws p l e) : Matrix (Fin e) (Fin p) ℝ :=
  if obs ∧ 1 < e then omegaLoop dr (it.toList I) 0 (Matrix.of (fun _ j => dr.base j))
  else Matrix.of (fun k j => if j ∉ I then (∑ h, dr.omegas h j) / (e : ℝ) else dr.omegas k j)

/-- The loop `for k in range(1, e)`, `/repo/utlvce/generators.py:437-442`. -/
def psiLoop (dr : Draws p l e) : List Nat → Matrix (Fin e) (Fin l) ℝ → Matrix (Fin e) (Fin l) ℝ
  | [], ps => ps
  | k :: ks, ps =>
    let ps1 : Matrix (Fin e) (Fin l) ℝ := Matrix.of (fun h i =>
      if h.val = k then (if h0 : 0 < e then ps ⟨0, h0⟩ i else 0) else ps h i)
    let ints : Matrix (Fin e) (Fin l) ℝ := Matrix.of (fun h i => if h.val = 0 then 0 else dr.psiInterventions k h i)
    psiLoop dr ks (ps1 + ints)

/-- `psis`, `/repo/utlvce/generators.py:434-444`. -/
def genPsis (obs : Bool) (dr : Draws p l e) : Matrix (Fin e) (Fin l) ℝ :=
  if obs ∧ 1 < e ∧ 0 < l then
    psiLoop dr (List.range' 1 (e - 1)) (Matrix.of (fun k i => if k.val = 0 then dr.psiBase i else 0))
  else Matrix.of dr.psis

/-- The elements of a set of integers that are variable indices.  See `/repo/utlvce/generators.py:405,424,431`. -/
def targetsOf (p : Nat) (I : Finset Int) : Finset (Fin p) := Finset.univ.filter (fun j => (j.val : Int) ∈ I)

/-- `sample_parameters(A, I, num_latent, e, ...)`, `/repo/utlvce/generators.py:284-455`. -/
noncomputable def sampleParameters (it : SetIter p) (A : Adj p) (I : Finset Int) (sparse obs : Bool) (dr : Draws p l e) :
    Except Err (LModel p l e) :=
  if ! isDag it A then .error .valueError
  else if ¬ (I ⊆ (Finset.range p).image (fun (i : Nat) => (i : Int))) then .error .valueError
  else
    let B : Matrix (Fin p) (Fin p) ℝ := Matrix.of (fun i j => (A i j : ℝ) * dr.weights i j)
    mkModel it A B (genGamma sparse dr) (genOmegas it (targetsOf p I) obs dr) (genPsis obs dr)

/-- `chain_graph_model(p, I, ..., obs, random_state)`, `/repo/utlvce/generators.py:44-159`: the arguments `obs` and `random_state` are
not used.  `draws` gives the outcome of the draws for each random state. -/
noncomputable def chainGraphModel (it : SetIter p) (I : Finset Int) (sparse _obs : Bool) (draws : Int → Draws p l e) (_randomState : Int) :
    Except Err (LModel p l e) :=
  sampleParameters it (chainGraph p) I sparse true (draws 42)

/-- The draws of `_dag_avg_deg`: `np.random.uniform(size=(p, p))`, `np.random.uniform(w_min, w_max, ...)` and
`np.random.permutation(p)`, `/repo/utlvce/generators.py:585-592`. -/
structure GraphDraws (p : Nat) where
  unif : Fin p → Fin p → ℝ
  weights : Fin p → Fin p → ℝ
  perm : Equiv.Perm (Fin p)

/-- `np.triu((U <= prob).astype(float), k=1)`, `/repo/utlvce/generators.py:585-587`. -/
noncomputable def upperGraph (prob : ℝ) (g : GraphDraws p) : Matrix (Fin p) (Fin p) ℝ :=
  open Classical in Matrix.of (fun i j => if i < j then (if g.unif i j ≤ prob then 1 else 0) else 0)

/-- `_dag_avg_deg(p, k, w_min, w_max, return_ordering=True)`, `/repo/utlvce/generators.py:531-598`: the matrix and the ordering
`np.argsort(permutation)` (`insertionSort` gives the only list that sorts the distinct values). -/
noncomputable def dagAvgDeg (k : ℝ) (g : GraphDraws p) : Except Err (Matrix (Fin p) (Fin p) ℝ × List (Fin p)) :=
  if p = 1 then .error .zeroDivisionError
  else
    let prob := k / ((p : ℝ) - 1)
    let W : Matrix (Fin p) (Fin p) ℝ := Matrix.of (fun i j => upperGraph prob g i j * g.weights i j)
    .ok (Matrix.of (fun i j => W (g.perm i) (g.perm j)), (List.finRange p).insertionSort (fun a b => g.perm a ≤ g.perm b))

/-- `random_graph_model(p, k, I, ..., obs, random_state)`, `/repo/utlvce/generators.py:162-281`: `random_state` only determines the
graph.  With the default `w_min = w_max = 1` all weights are one, so the entries of the matrix are zero or one. -/
noncomputable def randomGraphModel (it : SetIter p) (k : ℝ) (I : Finset Int) (sparse obs : Bool) (gdraws : Int → GraphDraws p)
    (draws : Int → Draws p l e) (randomState : Int) : Except Err (LModel p l e) :=
  open Classical in
  match dagAvgDeg k (gdraws randomState) with
  | .error err => .error err
  | .ok (W, _) => sampleParameters it (fun i j => if W i j = 1 then 1 else 0) I sparse obs (draws 42)

/-- The argument `num_targets` of `intervention_targets`: an `int` or a `tuple` of integers.
See `/repo/utlvce/generators.py:458-470,513-516`. -/
inductive NumTargets where
  | int (n : Int)
  | tuple (l : List Int)

/-- `rng.choice(range(p), replace=False, size=n)`: `ValueError` for a negative size or one above `p`.  See `/repo/utlvce/generators.py:523`. -/
def choiceTargets (rng : Rng) (p : Nat) (n : Int) : Except Err (List (Fin p)) :=
  if n < 0 ∨ (p : Int) < n then .error .valueError else .ok (rng.choice (List.finRange p) n.toNat)

/-- `intervention_targets(p, num_targets)`, `/repo/utlvce/generators.py:458-524`; `draw lo hi` is the outcome of `rng.integers(lo, hi)`
(a number in `[lo, hi)`; numpy raises `ValueError` if `lo >= hi`). -/
def interventionTargets (rng : Rng) (draw : Int → Int → Int) (p : Nat) : NumTargets → Except Err (Finset (Fin p))
  | .int n =>
    if (p : Int) < n then .error .valueError
    else
      match choiceTargets rng p n with
      | .error err => .error err
      | .ok ts => .ok ts.toFinset
  | .tuple [lo, hi] =>
    if (p : Int) < max lo hi then .error .valueError
    else if hi ≤ lo then .error .valueError -- rng.integers
    else
      match choiceTargets rng p (draw lo hi) with
      | .error err => .error err
      | .ok ts => .ok ts.toFinset
  | .tuple _ => .error .valueError

end Verif
