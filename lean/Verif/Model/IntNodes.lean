import Verif.Model.Meek

/-!
# Nodes given as Python integers

The functions of `/repo/utlvce/utils.py` that take nodes index arrays with them.  Elsewhere in the model a node is an element of `Fin p`; here it is
any integer, and numpy counts negative ones from the end and raises `IndexError` for those outside `-p, ..., p - 1`.  The sets that the functions
return are `np.where` results, so they contain non-negative nodes, except that of `chain_component`, which keeps the integer it was given.
-/

namespace Verif
variable {p : Nat}

/-- The row or column that numpy selects for the index `i` of an axis of length `p`; used at `/repo/utlvce/utils.py:124,144,164,182`. -/
def nodeOf (p : Nat) (i : Int) : Except Err (Fin p) :=
  if h : 0 ≤ i ∧ i < p then .ok ⟨i.toNat, by omega⟩
  else if h : -(p : Int) ≤ i ∧ i < 0 then .ok ⟨(i + p).toNat, by omega⟩
  else .error .indexError

/-- `neighbors(i, A)`, `/repo/utlvce/utils.py:106-124`. -/
def zneighbors (i : Int) (A : Adj p) : Except Err (Finset (Fin p)) :=
  match nodeOf p i with
  | .error e => .error e
  | .ok k => .ok (neighbors k A)

/-- `adj(i, A)`, `/repo/utlvce/utils.py:127-144`. -/
def zadj (i : Int) (A : Adj p) : Except Err (Finset (Fin p)) :=
  match nodeOf p i with
  | .error e => .error e
  | .ok k => .ok (adj k A)

/-- `pa(i, A)`, `/repo/utlvce/utils.py:147-164`. -/
def zpa (i : Int) (A : Adj p) : Except Err (Finset (Fin p)) :=
  match nodeOf p i with
  | .error e => .error e
  | .ok k => .ok (pa k A)

/-- `ch(i, A)`, `/repo/utlvce/utils.py:167-182`. -/
def zch (i : Int) (A : Adj p) : Except Err (Finset (Fin p)) :=
  match nodeOf p i with
  | .error e => .error e
  | .ok k => .ok (ch k A)

/-- `na(y, x, A)`, `/repo/utlvce/utils.py:84-103`. -/
def zna (y x : Int) (A : Adj p) : Except Err (Finset (Fin p)) :=
  match zneighbors y A with
  | .error e => .error e
  | .ok N =>
    match zadj x A with
    | .error e => .error e
    | .ok M => .ok (N ∩ M)

/-- Indexing with a list of integers, `A[S, :]`, `/repo/utlvce/utils.py:203,566`. -/
def nodesOf (p : Nat) : List Int → Except Err (List (Fin p))
  | [] => .ok []
  | i :: is =>
    match nodeOf p i with
    | .error e => .error e
    | .ok k =>
      match nodesOf p is with
      | .error e => .error e
      | .ok ks => .ok (k :: ks)

/-- `is_clique(S, A)`, `/repo/utlvce/utils.py:185-207`.  `S` is the list of the elements of the set; the rows and columns of the sub-matrix are the
positions in this list, and the number of non-zero entries is counted over pairs of positions. -/
def zisClique (S : List Int) (A : Adj p) : Except Err Bool :=
  match nodesOf p S with
  | .error e => .error e
  | .ok ks => .ok (decide ((ks.map fun a => (ks.filter fun b => decide (skeleton A a b ≠ 0)).length).sum = S.length * (S.length - 1)))

/-- `induced_subgraph(S, G)`, `/repo/utlvce/utils.py:545-569`. -/
def zinducedSubgraph (S : List Int) (G : Adj p) : Except Err (Adj p) :=
  match nodesOf p S with
  | .error e => .error e
  | .ok ks => .ok (inducedSubgraph ks.toFinset G)

/-- The list `directed_edges` of `dag_to_icpdag`, `/repo/utlvce/utils.py:1516-1519`: the targets stay as they were given. -/
def ztargetEdges (it : SetIter p) (G : Adj p) : List Int → Except Err (List (Int × Int))
  | [] => .ok []
  | i :: is =>
    match zch i G with
    | .error e => .error e
    | .ok C =>
      match zpa i G with
      | .error e => .error e
      | .ok D =>
        match ztargetEdges it G is with
        | .error e => .error e
        | .ok es => .ok ((it.toList C).map (fun j => (i, (j.val : Int))) ++ (it.toList D).map (fun j => ((j.val : Int), i)) ++ es)

/-- `while len(directed_edges) > 0` loop, `/repo/utlvce/utils.py:1520-1524`. -/
def zicpdagLoop : List (Int × Int) → Adj p → Except Err (Adj p)
  | [], P => .ok P
  | (x, y) :: es, P =>
    match nodeOf p y with
    | .error e => .error e
    | .ok y' =>
      match nodeOf p x with
      | .error e => .error e
      | .ok x' =>
        match maximallyOrient (setEntry P y' x' 0) with
        | .error e => .error e
        | .ok P' => zicpdagLoop es P'

/-- `dag_to_icpdag(G, I)`, `/repo/utlvce/utils.py:1513-1526`; `I` in the order in which Python iterates over it. -/
def zdagToIcpdag (it : SetIter p) (G : Adj p) (I : List Int) : Except Err (Adj p) :=
  match dagToCpdag it G with
  | .error e => .error e
  | .ok C =>
    match ztargetEdges it G I with
    | .error e => .error e
    | .ok es =>
      match zicpdagLoop es.reverse C with
      | .error e => .error e
      | .ok P =>
        match isConsistentExtension it G P with
        | .error e => .error e
        | .ok true => .ok P
        | .ok false => .error .assertionError

/-- The loop over the targets in `pdag_to_icpdag`, `/repo/utlvce/utils.py:1505-1508`. -/
def zcheckTargets (P : Adj p) : List Int → Except Err Unit
  | [] => .ok ()
  | i :: is =>
    match zneighbors i P with
    | .error e => .error e
    | .ok N => if N.card > 0 then .error .valueError else zcheckTargets P is

/-- `pdag_to_icpdag(P, I)`, `/repo/utlvce/utils.py:1503-1510`. -/
def zpdagToIcpdag (it : SetIter p) (P : Adj p) (I : List Int) : Except Err (Adj p) :=
  match zcheckTargets P I with
  | .error e => .error e
  | .ok () =>
    match pdagToDag P with
    | .error e => .error e
    | .ok G => zdagToIcpdag it G I

/-- The order in which Python iterates over a set of integers, `/repo/utlvce/utils.py:539`; the theorems hold for all of them. -/
structure IntIter where
  toList : Finset Int → List Int
  mem : ∀ s i, i ∈ toList s ↔ i ∈ s

/-- `for j in to_visit`, `/repo/utlvce/utils.py:539-541`, with sets of integers. -/
def zcomponentPass (A : Adj p) : List Int → Finset Int → Finset Int → Except Err (Finset Int × Finset Int)
  | [], visited, toVisit => .ok (visited, toVisit)
  | j :: js, visited, toVisit =>
    match zneighbors j A with
    | .error e => .error e
    | .ok N =>
      let visited' := insert j visited
      zcomponentPass A js visited' ((toVisit ∪ N.image (fun k : Fin p => (k.val : Int))) \ visited')

/-- `while len(to_visit) > 0`, `/repo/utlvce/utils.py:538-541`. -/
def zcomponentLoop (it : IntIter) (A : Adj p) : Nat → Finset Int → Finset Int → Except Err (Finset Int)
  | 0, _, _ => .error .diverge
  | n + 1, visited, toVisit =>
    if toVisit.card > 0 then
      match zcomponentPass A (it.toList toVisit) visited toVisit with
      | .error e => .error e
      | .ok s => zcomponentLoop it A n s.1 s.2
    else .ok visited

/-- `chain_component(i, G)`, `/repo/utlvce/utils.py:516-542`. -/
def zchainComponent (it : IntIter) (i : Int) (G : Adj p) : Except Err (Finset Int) :=
  zcomponentLoop it (onlyUndirected G) (p + 2) ∅ {i}

end Verif
