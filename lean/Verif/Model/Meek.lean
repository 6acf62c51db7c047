import Verif.Model.Pdag

/-!
# Meek rules and I-CPDAGs (`/repo/utlvce/utils.py:1413-1526`)
-/

namespace Verif

variable {p : Nat}

/-- `rule_1(i, j, A)`, `/repo/utlvce/utils.py:1413-1418`. -/
def rule1 (i j : Fin p) (A : Adj p) : Bool := decide ((pa i A).card > 0) && ! decide (pa i A ⊆ adj j A)

/-- `rule_2(i, j, A)`, `/repo/utlvce/utils.py:1421-1423`. -/
def rule2 (i j : Fin p) (A : Adj p) : Bool := decide ((ch i A ∩ pa j A).card > 0)

/-- `rule_3(i, j, A)`, `/repo/utlvce/utils.py:1426-1436`; the two loops return `True` at the first hit, so they are an
existence test whatever the iteration order. -/
def rule3 (i j : Fin p) (A : Adj p) : Bool :=
  let inter := neighbors i A ∩ pa j A
  decide (inter.card ≥ 2) && decide (∃ k ∈ inter, ∃ l ∈ inter \ {k}, k ∉ adj l A)

/-- `rule_4(i, j, A)`, `/repo/utlvce/utils.py:1439-1453`. -/
def rule4 (i j : Fin p) (A : Adj p) : Bool :=
  let Ks := pa j A ∩ neighbors i A
  if Ks.card > 0 then
    let Hs := neighbors i A ∩ Ks.biUnion (fun k => pa k A)
    if Hs.card > 0 then decide (∃ h ∈ Hs, h ∉ adj j A) else false
  else false

/-- The disjunction tested at `/repo/utlvce/utils.py:1483,1491`. -/
def anyRule (i j : Fin p) (A : Adj p) : Bool := rule1 i j A || rule2 i j A || rule3 i j A || rule4 i j A

/-- `for (i, j) in undirected_edges(P)` body, `/repo/utlvce/utils.py:1482-1499` (the list is computed before the loop
starts); the flag is `oriented_edges`. -/
def orientPass : List (Fin p × Fin p) → Adj p → Bool → Adj p × Bool
  | [], P, flag => (P, flag)
  | (i, j) :: es, P, flag =>
    if anyRule i j P then orientPass es (setEntry P j i 0) true
    else if anyRule j i P then orientPass es (setEntry P i j 0) true
    else orientPass es P flag

/-- `while oriented_edges`, `/repo/utlvce/utils.py:1480-1499`. -/
def orientLoop : Nat → Adj p → Except Err (Adj p)
  | 0, _ => .error .diverge
  | n + 1, P =>
    match orientPass (undirectedEdges P) P false with
    | (P', true) => orientLoop n P'
    | (P', false) => .ok P'

/-- `maximally_orient(P)`, `/repo/utlvce/utils.py:1456-1500` (for the debugging output see `Model/Debug.lean`). -/
def maximallyOrient (P : Adj p) : Except Err (Adj p) :=
  match pdagToDag P with
  | .error e => .error e
  | .ok _ => orientLoop (p * p + 1) P

/-- The list `directed_edges` of `dag_to_icpdag`, `/repo/utlvce/utils.py:1516-1519`.  `I` is the sequence of targets in
the order in which Python iterates over them. -/
def targetEdges (it : SetIter p) (G : Adj p) (I : List (Fin p)) : List (Fin p × Fin p) :=
  I.flatMap (fun i => (it.toList (ch i G)).map (fun j => (i, j)) ++ (it.toList (pa i G)).map (fun j => (j, i)))

/-- `while len(directed_edges) > 0` loop, `/repo/utlvce/utils.py:1520-1524`; the argument is the list in popping
order (`pop()` takes the last element). -/
def icpdagLoop : List (Fin p × Fin p) → Adj p → Except Err (Adj p)
  | [], P => .ok P
  | (x, y) :: es, P =>
    match maximallyOrient (setEntry P y x 0) with
    | .error e => .error e
    | .ok P' => icpdagLoop es P'

/-- `dag_to_icpdag(G, I)`, `/repo/utlvce/utils.py:1513-1526`. -/
def dagToIcpdag (it : SetIter p) (G : Adj p) (I : List (Fin p)) : Except Err (Adj p) :=
  match dagToCpdag it G with
  | .error e => .error e
  | .ok C =>
    match icpdagLoop (targetEdges it G I).reverse C with
    | .error e => .error e
    | .ok P =>
      match isConsistentExtension it G P with
      | .error e => .error e
      | .ok true => .ok P
      | .ok false => .error .assertionError

/-- `pdag_to_icpdag(P, I)`, `/repo/utlvce/utils.py:1503-1510`. -/
def pdagToIcpdag (it : SetIter p) (P : Adj p) (I : List (Fin p)) : Except Err (Adj p) :=
  if ∃ i ∈ I, (neighbors i P).card > 0 then .error .valueError
  else
    match pdagToDag P with
    | .error e => .error e
    | .ok G => dagToIcpdag it G I

end Verif
