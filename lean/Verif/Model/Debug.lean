import Verif.Model.Meek
import Verif.Model.Gen

/-!
# The debugging output of the graph functions

`pdag_to_dag`, `maximally_orient`, `dag_to_icpdag` and `is_consistent_extension` print what they do if `debug` is set.  Here they are computed
with the printed lines, also those before an exception: the numbers, sets and graphs in every line, without the words around them.
-/

namespace Verif

variable {p : Nat}

/-- The lines printed by `/repo/utlvce/utils.py:830-836,1040-1061,1487-1498,1521`. -/
inductive DLine (p : Nat) where
  /-- `print(P)`, `:1040`: the graph that is left -/
  | graph {n : Nat} (P : Adj n)
  /-- `print(indexes)`, `:1041`: the variables that are left -/
  | indexes (l : List (Fin p))
  /-- `i: ... : n= ... adj= ... ch= ...`, `:1054-1055` -/
  | node {n : Nat} (i : Fin n) (neighbors adj ch : Finset (Fin n))
  /-- `Found candidate i (indexes[i])`, `:1060-1061` -/
  | candidate (i : Nat) (v : Fin p)
  /-- `Rules: ... => Oriented i -> j`, `:1488-1490`; `swapped` for the lines of the second case, `:1496-1498`, which say `Orjented` -/
  | oriented (rules : List Bool) (i j : Fin p) (swapped : Bool)
  /-- `print(directed_edges)`, `:1521` -/
  | stack (l : List (Fin p × Fin p))
  /-- `v-structures (...) (P,G): ...`, `:831-832` -/
  | vstructures (same : Bool) (P G : Finset (Fin p × Fin p × Fin p))
  /-- `skeleton (...) (P,G): ...`, `:833-834` -/
  | skeleton (same : Bool) (P G : Adj p)
  /-- `orientation (...) (P,G): ...`, `:835` -/
  | orientation (same : Bool) (P G : Adj p)

/-- `print(...) if debug else None`.  See `/repo/utlvce/utils.py:1040-1041,1055,1061,1521`. -/
def shown (debug : Bool) (lines : List (DLine p)) : List (DLine p) := if debug then lines else []

/-- What the inner loop of `pdag_to_dag` prints, `/repo/utlvce/utils.py:1044-1076`, from the nodes `is` on. -/
def searchLines {n : Nat} (P : Adj n) (idx : Fin n → Fin p) : List (Fin n) → List (DLine p)
  | [] => []
  | i :: is => .node i (neighbors i P) (adj i P) (ch i P) :: if isCandidate P i then [.candidate i.val (idx i)] else searchLines P idx is

/-- `while P.size > 0` of `pdag_to_dag`, `/repo/utlvce/utils.py:1039-1078`, with the printed lines. -/
def pdagToDagLoopD (debug : Bool) : (n : Nat) → Adj n → (Fin n → Fin p) → Adj p → List (DLine p) × Except Err (Adj p)
  | 0, _, _, G => ([], .ok G)
  | n + 1, P, idx, G =>
    let lines := shown debug (.graph P :: .indexes (List.ofFn idx) :: searchLines P idx (List.finRange (n + 1)))
    match findCandidate P with
    | none => (lines, .error .valueError)
    | some i =>
      let r := pdagToDagLoopD debug n (fun a b => P (i.succAbove a) (i.succAbove b)) (fun a => idx (i.succAbove a)) (orientInto G P idx i)
      (lines ++ r.1, r.2)

/-- `pdag_to_dag(P, debug)`, `/repo/utlvce/utils.py:1012-1079`, with the printed lines. -/
def pdagToDagD (debug : Bool) (P : Adj p) : List (DLine p) × Except Err (Adj p) := pdagToDagLoopD debug p P id (onlyDirected P)

/-- The list `rules`, `/repo/utlvce/utils.py:1488-1489,1496-1497`. -/
def ruleList (i j : Fin p) (P : Adj p) : List Bool := [rule1 i j P, rule2 i j P, rule3 i j P, rule4 i j P]

/-- The loop over the undirected edges, `/repo/utlvce/utils.py:1482-1499`, with the printed lines. -/
def orientPassD (debug : Bool) : List (Fin p × Fin p) → Adj p → Bool → List (DLine p) × Adj p × Bool
  | [], P, flag => ([], P, flag)
  | (i, j) :: es, P, flag =>
    if anyRule i j P then
      let r := orientPassD debug es (setEntry P j i 0) true
      (shown debug [.oriented (ruleList i j P) i j false] ++ r.1, r.2)
    else if anyRule j i P then
      let r := orientPassD debug es (setEntry P i j 0) true
      (shown debug [.oriented (ruleList j i P) j i true] ++ r.1, r.2)
    else orientPassD debug es P flag

/-- `while oriented_edges`, `/repo/utlvce/utils.py:1480-1499`, with the printed lines. -/
def orientLoopD (debug : Bool) : Nat → Adj p → List (DLine p) × Except Err (Adj p)
  | 0, _ => ([], .error .diverge)
  | n + 1, P =>
    match orientPassD debug (undirectedEdges P) P false with
    | (out, P', true) => (out ++ (orientLoopD debug n P').1, (orientLoopD debug n P').2)
    | (out, P', false) => (out, .ok P')

/-- `maximally_orient(P, debug)`, `/repo/utlvce/utils.py:1456-1500`, with the printed lines; `pdag_to_dag` is called without `debug`. -/
def maximallyOrientD (debug : Bool) (P : Adj p) : List (DLine p) × Except Err (Adj p) :=
  match pdagToDag P with
  | .error e => ([], .error e)
  | .ok _ => orientLoopD debug (p * p + 1) P

/-- `while len(directed_edges) > 0`, `/repo/utlvce/utils.py:1520-1524`, with the printed lines; the argument is the list in popping order. -/
def icpdagLoopD (debug : Bool) : List (Fin p × Fin p) → Adj p → List (DLine p) × Except Err (Adj p)
  | [], P => ([], .ok P)
  | (x, y) :: es, P =>
    match maximallyOrientD debug (setEntry P y x 0) with
    | (out, .error e) => (shown debug [.stack ((x, y) :: es).reverse] ++ out, .error e)
    | (out, .ok P') => (shown debug [.stack ((x, y) :: es).reverse] ++ out ++ (icpdagLoopD debug es P').1, (icpdagLoopD debug es P').2)

/-- `dag_to_icpdag(G, I, debug)`, `/repo/utlvce/utils.py:1513-1526`, with the printed lines. -/
def dagToIcpdagD (debug : Bool) (it : SetIter p) (G : Adj p) (I : List (Fin p)) : List (DLine p) × Except Err (Adj p) :=
  match dagToCpdag it G with
  | .error e => ([], .error e)
  | .ok C =>
    match icpdagLoopD debug (targetEdges it G I).reverse C with
    | (out, .error e) => (out, .error e)
    | (out, .ok P) =>
      match isConsistentExtension it G P with
      | .error e => (out, .error e)
      | .ok true => (out, .ok P)
      | .ok false => (out, .error .assertionError)

/-- `is_consistent_extension(G, P, debug)`, `/repo/utlvce/utils.py:793-836`, with the printed lines. -/
def isConsistentExtensionD (debug : Bool) (it : SetIter p) (G P : Adj p) : List (DLine p) × Except Err Bool :=
  if ! isDag it G then ([], .error .valueError)
  else
    let sameV := decide (vstructures it P = vstructures it G)
    let sameSkel := decide (∀ i j, skeleton P i j = skeleton G i j)
    let sameOri := decide (∀ i j, onlyDirected P i j ≠ 0 → G i j ≠ 0)
    (shown debug [.vstructures sameV (vstructures it P) (vstructures it G), .skeleton sameSkel (skeleton P) (skeleton G),
      .orientation sameOri P G], .ok (sameV && sameOri && sameSkel))

/-- The two lines printed by `_dag_avg_deg`, `/repo/utlvce/generators.py:584,594`; the average is NaN (`none`) without nodes. -/
inductive DegLine where
  | prob (p : Nat) (k prob : ℝ)
  | avgDegree (x : Flt)

/-- `_dag_avg_deg(p, k, w_min, w_max, return_ordering=True, debug=True)`, `/repo/utlvce/generators.py:531-598`, with the printed lines. -/
noncomputable def dagAvgDegD (k : ℝ) (g : GraphDraws p) : List DegLine × Except Err (Matrix (Fin p) (Fin p) ℝ × List (Fin p)) :=
  if p = 1 then ([], .error .zeroDivisionError)
  else
    let prob := k / ((p : ℝ) - 1)
    let A := upperGraph prob g
    ([.prob p k prob, .avgDegree (if p = 0 then none else some ((∑ i, ∑ j, A i j) * 2 / p))], dagAvgDeg k g)

end Verif
