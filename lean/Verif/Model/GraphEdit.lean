import Verif.Model.Graph
import Verif.Model.Rng

/-!
# Supergraph tests, factorization, random edge addition and removal (`/repo/utlvce/utils.py:839-911`)
-/

namespace Verif

variable {p : Nat}

/-- `A.astype(bool).astype(int)`, `/repo/utlvce/utils.py:876, 889`. -/
def asBinary (A : Adj p) : Adj p := fun i j => if A i j ≠ 0 then 1 else 0

/-- `to_factorization(G)`, `/repo/utlvce/utils.py:839-845`: the sorted parents of each node. -/
def toFactorization (it : SetIter p) (G : Adj p) : Except Err (List (List (Fin p))) :=
  if ! isDag it G then .error .valueError
  else .ok ((List.finRange p).map (fun j => pySorted (fun a b => decide (a ≤ b)) (it.toList (pa j G))))

/-- `is_supergraph(sup, A)`, `/repo/utlvce/utils.py:848-851`; comparing a boolean array with `A` compares `True` with 1. -/
def isSupergraph (sup A : Adj p) : Bool :=
  decide (∀ i j, (if sup i j ≠ 0 ∧ A i j ≠ 0 then (1 : Int) else 0) = A i j)

/-- `has_subgraph(L1, L2)`, `/repo/utlvce/utils.py:854-861`. -/
def hasSubgraph : List (Adj p) → List (Adj p) → Bool
  | [], _ => true
  | A1 :: rest, L2 => if ! (L2.map (fun A2 => isSupergraph A1 A2)).any id then false else hasSubgraph rest L2

/-- `has_supergraph(L1, L2)`, `/repo/utlvce/utils.py:864-871`. -/
def hasSupergraph : List (Adj p) → List (Adj p) → Bool
  | [], _ => true
  | A1 :: rest, L2 => if ! (L2.map (fun A2 => isSupergraph A2 A1)).any id then false else hasSupergraph rest L2

/-- `remove_edges(A, no_edges)`, `/repo/utlvce/utils.py:874-884`. -/
def removeEdges (rng : Rng) (A : Adj p) (n : Nat) : Except Err (Adj p) :=
  let A := asBinary A
  let edges := directedEdges A
  if edges.length < n then .error .valueError
  else .ok ((rng.choice edges n).foldl (fun pruned e => setEntry pruned e.1 e.2 0) A)

/-- The `while` loop of `add_edges`, `/repo/utlvce/utils.py:904-909`; the index `i` into `edges` is the position in the list. -/
def addLoop (it : SetIter p) (A : Adj p) (n : Int) : List (Fin p × Fin p) → Adj p → Adj p
  | [], sup => sup
  | e :: es, sup =>
    if sumAll sup - sumAll A < n then
      let next := setEntry sup e.1 e.2 1
      addLoop it A n es (if isDag it next then next else sup)
    else sup

/-- `add_edges(A, no_edges)`, `/repo/utlvce/utils.py:887-911`. -/
def addEdges (it : SetIter p) (rng : Rng) (A : Adj p) (n : Int) : Except Err (Adj p) :=
  let A := asBinary A
  let edges := rng.shuffle (wherePairs (fun i j => A i j + A j i + (if i = j then 1 else 0) = 0))
  let canAdd : Int := (p : Int) * (p - 1) / 2 - sumAll A
  if n > canAdd then .error .valueError
  else
    let sup := addLoop it A n edges A
    if sumAll sup - sumAll A = n then .ok sup else .error .assertionError

end Verif
