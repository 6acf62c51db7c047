import Verif.Model.Main

/-!
# Shapes of the arrays in `score_dag`

The rest of the model has the shapes of the arrays in its types.  Here they are values: the covariances that `np.cov` computes from raw
data, the unpacking of their shape, and candidate graphs whose size differs from the number of variables of the data.
-/

namespace Verif

open Matrix

variable {p q e : Nat}

/-- The shape of `np.cov(x, rowvar=False)` for an array with `p` columns, `/repo/utlvce/score.py:246-247`: the result is squeezed, so it has
no axes if there is a single column. -/
def covShape (p : Nat) : List Nat := if p = 1 then [] else [p, p]

/-- The shape of `np.array` of a list of arrays that all have the same shape.  See `/repo/utlvce/score.py:246-247`. -/
def stackShape : List (List Nat) → List Nat
  | [] => [0]
  | s :: ss => (ss.length + 1) :: s

/-- The shape of `Score.sample_covariances` for raw data from `e` environments with `p` columns, `/repo/utlvce/score.py:246-247`. -/
def rawShape (e p : Nat) : List Nat := stackShape (List.replicate e (covShape p))

/-- `(e, p, _) = sample_covariances.shape`, `/repo/utlvce/score.py:933,1009,1084`. -/
def unpack3 : List Nat → Except Err (Nat × Nat × Nat)
  | [a, b, c] => .ok (a, b, c)
  | _ => .error .valueError

/-- `score_dag` without `init_model` of an object whose covariances have the given shape: after the check of the graph
(`/repo/utlvce/score.py:316-318`) the shape is unpacked by `_initialize_B` before anything else is computed. -/
def shapedFit (it : SetIter p) (shape : List Nat) (fit : Fitter p e) : Fitter p e := fun n A I =>
  if ! isDag it A then .error .valueError
  else
    match unpack3 shape with
    | .error err => .error err
    | .ok _ => fit n A I

/-- The parents of `j` among the variables of the data, for a graph that may have another number of nodes.  See `/repo/utlvce/score.py:943`. -/
def paOfSized (A : Adj q) (j : Fin q) : Finset (Fin p) := Finset.univ.filter (fun i => ∃ h : i.val < q, A ⟨i, h⟩ j ≠ 0)

/-- The loop over `j` of `_initialize_B` for a graph with `q` nodes and data with `p` variables, `/repo/utlvce/score.py:942-944`; only the
exceptions are modelled.  `A[:, j]` raises `IndexError` if the graph is too small, `cov[pa, :]` if a parent is not a variable. -/
noncomputable def regressSized (A : Adj q) (cov : Matrix (Fin p) (Fin p) ℝ) : List (Fin p) → Except Err Unit
  | [] => .ok ()
  | j :: js =>
    open Classical in
    if h : j.val < q then
      if ∃ i : Fin q, A i ⟨j, h⟩ ≠ 0 ∧ p ≤ i.val then .error .indexError
      else if (covPa cov (paOfSized A ⟨j, h⟩)).det = 0 then .error .linAlgError
      else regressSized A cov js
    else .error .indexError

/-- `score_dag` without `init_model` up to the construction of the initial model, for a graph with `q` nodes and data with `p` variables,
`/repo/utlvce/score.py:316-342`; only the exceptions are modelled.  The constructor compares the shapes of `A` and `B`
(`/repo/utlvce/model.py:200`); the other initial values do not depend on the graph. -/
noncomputable def startSized (it : SetIter q) (d : Data p e) (A : Adj q) : Except Err Unit :=
  if ! isDag it A then .error .valueError
  else
    match initCovariance d .avg with
    | .error err => .error err
    | .ok cov =>
      match regressSized A cov (List.finRange p) with
      | .error err => .error err
      | .ok () => if q ≠ p then .error .valueError else .ok ()

end Verif
