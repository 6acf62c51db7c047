import Verif.Model.Graph
import Verif.Model.Pdag

/-!
# Graphs of machine integers

`topological_ordering` and `is_dag` add up the entries of the adjacency matrix.  numpy adds integers modulo 2^64 (arrays of smaller signed
integers are added as `int64`), silently and whatever the order of the additions.  Nothing else in these functions, and in `order_edges`,
`label_edges` and `dag_to_cpdag`, computes with the entries: they are only compared with zero.  The labels of `order_edges`, at most the number of
edges, are small enough for `int64`.
-/

namespace Verif

variable {p : Nat}

/-- The 64-bit integer that is congruent to `x` modulo 2^64.  See `/repo/utlvce/utils.py:396,401,411`. -/
def wrap64 (x : Int) : Int := (x + 2 ^ 63) % 2 ^ 64 - 2 ^ 63

/-- `topological_ordering(A)`, `/repo/utlvce/utils.py:372-414`, for an array of 64-bit integers. -/
def wtopologicalOrdering (it : SetIter p) (A : Adj p) : Except Err (List (Fin p)) :=
  if wrap64 (sumAll (onlyUndirected A)) > 0 then .error .valueError
  else
    match topoLoop it (p * p + p) A (whereVec (fun j => decide (wrap64 (colSum A j) = 0))).reverse [] with
    | .error e => .error e
    | .ok (A', ordering) => if wrap64 (sumAll A') > 0 then .error .valueError else .ok ordering

/-- `is_dag(A)`, `/repo/utlvce/utils.py:210-228`, for an array of 64-bit integers. -/
def wisDag (it : SetIter p) (A : Adj p) : Bool :=
  match wtopologicalOrdering it A with
  | .ok _ => true
  | .error _ => false

/-- `order_edges(G)`, `/repo/utlvce/utils.py:1082-1120`, for an array of 64-bit integers. -/
def worderEdges (it : SetIter p) (G : Adj p) : Except Err (Adj p) :=
  if ! wisDag it G then .error .valueError
  else
    match wtopologicalOrdering it G with
    | .error e => .error e
    | .ok order => orderEdgesLoop order (p * p) 1 (fun a b => if G a b ≠ 0 then -1 else 0)

/-- `label_edges(ordered)`, `/repo/utlvce/utils.py:1123-1184`, for an array of 64-bit integers. -/
def wlabelEdges (it : SetIter p) (O : Adj p) : Except Err (Adj p) :=
  if ! wisDag it O then .error .valueError
  else if pySorted (fun a b => decide (a ≤ b)) (nonzeroEntries O) ≠ (List.range (nnz O)).map (fun k : Nat => (k : Int) + 1) then
    .error .valueError
  else labelLoop O p (fun a b => if O a b ≠ 0 then -2 else 0)

/-- `dag_to_cpdag(G)`, `/repo/utlvce/utils.py:980-1009`, for an array of 64-bit integers. -/
def wdagToCpdag (it : SetIter p) (G : Adj p) : Except Err (Adj p) :=
  match worderEdges it G with
  | .error e => .error e
  | .ok O =>
    match wlabelEdges it O with
    | .error e => .error e
    | .ok L => .ok (fun a b => if L a b = -1 ∨ L b a = -1 then 1 else if L a b = 1 then L a b else 0)

end Verif
