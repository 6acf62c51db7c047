import Verif.Model.Enum
import Verif.Model.FloatSplit

/-!
# Graph functions on matrices of floating-point numbers

The other modules take adjacency matrices of integers.  Here the entries are doubles, with rounding, infinities and NaN: the functions of
`/repo/utlvce/utils.py` that compute with the entries of a graph that a user gives, as a matrix of weights for example.  Signed zeros are not
distinguished; no comparison in the code does.
-/

namespace Verif

variable {p : Nat}

/-- A double: a finite number, an infinity or NaN.  See `/repo/utlvce/utils.py:396,401,411,790`. -/
inductive Dbl where
  | fin (x : ℚ)
  | pinf
  | ninf
  | nan
  deriving DecidableEq

/-- Rounding of a rational number to binary64: to the nearest multiple of the unit in the last place, ties to even ones, with gradual underflow
and overflow to infinity.  See `/repo/utlvce/utils.py:396,401,411,790`. -/
def Dbl.round (x : ℚ) : Dbl :=
  if x = 0 then .fin 0
  else
    let e := max (Int.log 2 |x| - 52) (-1074)
    let r := (pyRound (x / (2 : ℚ) ^ e) : ℚ) * (2 : ℚ) ^ e
    if |r| < (2 : ℚ) ^ (1024 : ℤ) then .fin r else if 0 < r then .pinf else .ninf

/-- The sum of two doubles.  See `/repo/utlvce/utils.py:396,401,411,790`. -/
def Dbl.add : Dbl → Dbl → Dbl
  | .nan, _ => .nan
  | _, .nan => .nan
  | .pinf, .ninf => .nan
  | .ninf, .pinf => .nan
  | .pinf, _ => .pinf
  | _, .pinf => .pinf
  | .ninf, _ => .ninf
  | _, .ninf => .ninf
  | .fin x, .fin y => Dbl.round (x + y)

/-- `x > 0`, `/repo/utlvce/utils.py:396,411`; false for NaN. -/
def Dbl.gtZero : Dbl → Bool
  | .fin x => decide (0 < x)
  | .pinf => true
  | .ninf => false
  | .nan => false

/-- `x == 0`, `/repo/utlvce/utils.py:164,182,401,598`; false for NaN. -/
def Dbl.isZero (x : Dbl) : Bool := decide (x = .fin 0)

/-- The ways to add a list of numbers: any order, any bracketing.  numpy adds blocks pairwise and does not document the order.
See `/repo/utlvce/utils.py:396,401,411`. -/
inductive SumOf : List Dbl → Dbl → Prop where
  | nil : SumOf [] (.fin 0)
  | single (x : Dbl) : SumOf [x] x
  | add {l l₁ l₂ : List Dbl} {x y : Dbl} : l.Perm (l₁ ++ l₂) → SumOf l₁ x → SumOf l₂ y → SumOf l (x.add y)

/-- `np.sum` of doubles in some order.  See `/repo/utlvce/utils.py:396,401,411`. -/
structure Summer where
  sum : List Dbl → Dbl
  isSum : ∀ l, SumOf l (sum l)

/-- A `p x p` array of doubles.  See `/repo/utlvce/utils.py:93-95`. -/
abbrev FAdj (p : Nat) := Fin p → Fin p → Dbl

/-- `A.sum()`, `/repo/utlvce/utils.py:396,411`. -/
def fsumAll (S : Summer) (A : FAdj p) : Dbl := S.sum ((allPairs p).map fun e => A e.1 e.2)

/-- `A.sum(axis=0)`, `/repo/utlvce/utils.py:401`. -/
def fcolSum (S : Summer) (A : FAdj p) (j : Fin p) : Dbl := S.sum ((List.finRange p).map fun i => A i j)

/-- `A[i, j] = v`, `/repo/utlvce/utils.py:407`. -/
def fsetEntry (A : FAdj p) (i j : Fin p) (v : Dbl) : FAdj p := fun a b => if a = i ∧ b = j then v else A a b

/-- `neighbors(i, A)`, `/repo/utlvce/utils.py:106-124`. -/
def fneighbors (i : Fin p) (A : FAdj p) : Finset (Fin p) := Finset.univ.filter fun j => ! (A i j).isZero && ! (A j i).isZero

/-- `adj(i, A)`, `/repo/utlvce/utils.py:127-144`. -/
def fadj (i : Fin p) (A : FAdj p) : Finset (Fin p) := Finset.univ.filter fun j => ! (A i j).isZero || ! (A j i).isZero

/-- `pa(i, A)`, `/repo/utlvce/utils.py:147-164`. -/
def fpa (i : Fin p) (A : FAdj p) : Finset (Fin p) := Finset.univ.filter fun j => ! (A j i).isZero && (A i j).isZero

/-- `ch(i, A)`, `/repo/utlvce/utils.py:167-182`. -/
def fch (i : Fin p) (A : FAdj p) : Finset (Fin p) := Finset.univ.filter fun j => ! (A i j).isZero && (A j i).isZero

/-- `only_directed(P)`, `/repo/utlvce/utils.py:645-666`. -/
def fonlyDirected (P : FAdj p) : FAdj p := fun i j => if ! (P i j).isZero && (P j i).isZero then P i j else .fin 0

/-- `only_undirected(P)`, `/repo/utlvce/utils.py:669-690`. -/
def fonlyUndirected (P : FAdj p) : FAdj p := fun i j => if ! (P i j).isZero && ! (P j i).isZero then P i j else .fin 0

/-- `skeleton(A)`, `/repo/utlvce/utils.py:775-790`; the result is an array of integers. -/
def fskeleton (A : FAdj p) : Adj p := fun i j => if ! ((A i j).add (A j i)).isZero then 1 else 0

/-- inner `for j in ch(i, A)` loop of `topological_ordering`, `/repo/utlvce/utils.py:406-409`; the stack is kept top-first. -/
def ftopoInner (i : Fin p) : List (Fin p) → FAdj p → List (Fin p) → FAdj p × List (Fin p)
  | [], A, sinks => (A, sinks)
  | j :: js, A, sinks =>
    let A' := fsetEntry A i j (.fin 0)
    ftopoInner i js A' (if (fpa j A').card = 0 then j :: sinks else sinks)

/-- `while len(sinks) > 0` loop of `topological_ordering`, `/repo/utlvce/utils.py:403-409`. -/
def ftopoLoop (it : SetIter p) : Nat → FAdj p → List (Fin p) → List (Fin p) → Except Err (FAdj p × List (Fin p))
  | _, A, [], ordering => .ok (A, ordering)
  | 0, _, _ :: _, _ => .error .diverge
  | n + 1, A, i :: sinks, ordering =>
    let s := ftopoInner i (it.toList (fch i A)) A sinks
    ftopoLoop it n s.1 s.2 (ordering ++ [i])

/-- `topological_ordering(A)`, `/repo/utlvce/utils.py:372-414`. -/
def ftopologicalOrdering (S : Summer) (it : SetIter p) (A : FAdj p) : Except Err (List (Fin p)) :=
  if (fsumAll S (fonlyUndirected A)).gtZero then .error .valueError
  else
    match ftopoLoop it (p * p + p) A (whereVec (fun j => (fcolSum S A j).isZero)).reverse [] with
    | .error e => .error e
    | .ok (A', ordering) => if (fsumAll S A').gtZero then .error .valueError else .ok ordering

/-- `is_dag(A)`, `/repo/utlvce/utils.py:210-228`. -/
def fisDag (S : Summer) (it : SetIter p) (A : FAdj p) : Bool :=
  match ftopologicalOrdering S it A with
  | .ok _ => true
  | .error _ => false

/-- `is_chain_graph(A)`, `/repo/utlvce/utils.py:246-251`. -/
def fisChainGraph (A : FAdj p) : Bool := decide (∀ i j, A i j = .fin (chainGraph p i j))

/-- `vstructures(A)`, `/repo/utlvce/utils.py:572-604`. -/
def fvstructures (it : SetIter p) (A : FAdj p) : Finset (Fin p × Fin p × Fin p) :=
  let dirA := fonlyDirected A
  let colliders := whereVec (fun c => (Finset.univ.filter (fun i => ! (dirA i c).isZero)).card > 1)
  let vstructs := colliders.flatMap (fun c =>
    (combinations2 (it.toList (fpa c A))).filterMap (fun e =>
      if (A e.1 e.2).isZero && (A e.2 e.1).isZero then
        some (if e.1 < e.2 then (e.1, c, e.2) else (e.2, c, e.1))
      else none))
  vstructs.toFinset

/-- `is_consistent_extension(G, P)`, `/repo/utlvce/utils.py:793-836`, for a graph of doubles and a PDAG of integers, as in
`dag_to_icpdag`. -/
def fisConsistentExtension (S : Summer) (it : SetIter p) (G : FAdj p) (P : Adj p) : Except Err Bool :=
  if ! fisDag S it G then .error .valueError
  else
    let sameV := decide (vstructures it P = fvstructures it G)
    let sameSkel := decide (∀ i j, skeleton P i j = fskeleton G i j)
    let sameOri := decide (∀ i j, onlyDirected P i j ≠ 0 → (G i j).isZero = false)
    .ok (sameV && sameOri && sameSkel)

/-- `order_edges(G)`, `/repo/utlvce/utils.py:1082-1120`; the labels are integers. -/
def forderEdges (S : Summer) (it : SetIter p) (G : FAdj p) : Except Err (Adj p) :=
  if ! fisDag S it G then .error .valueError
  else
    match ftopologicalOrdering S it G with
    | .error e => .error e
    | .ok order => orderEdgesLoop order (p * p) 1 (fun a b => if ! (G a b).isZero then -1 else 0)

/-- `dag_to_cpdag(G)`, `/repo/utlvce/utils.py:980-1009`. -/
def fdagToCpdag (S : Summer) (it : SetIter p) (G : FAdj p) : Except Err (Adj p) :=
  match forderEdges S it G with
  | .error e => .error e
  | .ok O =>
    match labelEdges it O with
    | .error e => .error e
    | .ok L => .ok (fun a b => if L a b = -1 ∨ L b a = -1 then 1 else if L a b = 1 then L a b else 0)

/-- The edges at the targets, `/repo/utlvce/utils.py:1515-1519`. -/
def ftargetEdges (it : SetIter p) (G : FAdj p) (I : List (Fin p)) : List (Fin p × Fin p) :=
  I.flatMap (fun i => (it.toList (fch i G)).map (fun j => (i, j)) ++ (it.toList (fpa i G)).map (fun j => (j, i)))

/-- `dag_to_icpdag(G, I)`, `/repo/utlvce/utils.py:1513-1526`. -/
def fdagToIcpdag (S : Summer) (it : SetIter p) (G : FAdj p) (I : List (Fin p)) : Except Err (Adj p) :=
  match fdagToCpdag S it G with
  | .error e => .error e
  | .ok C =>
    match icpdagLoop (ftargetEdges it G I).reverse C with
    | .error e => .error e
    | .ok P =>
      match fisConsistentExtension S it G P with
      | .error e => .error e
      | .ok true => .ok P
      | .ok false => .error .assertionError

/-- `mec(A, check_chain)`, `/repo/utlvce/utils.py:254-287`. -/
def fmec (S : Summer) (it : SetIter p) (A : FAdj p) (checkChain : Bool) : Except Err (List (Adj p)) :=
  if ! fisDag S it A then .error .valueError
  else if checkChain && fisChainGraph A then .ok (chainGraphMEC p)
  else
    match fdagToCpdag S it A with
    | .error e => .error e
    | .ok C => allDags it C

/-- `chain_graph_IMEC(A, I)`, `/repo/utlvce/utils.py:349-369`. -/
def fchainGraphIMEC (A : FAdj p) (I : List (Fin p)) : Except Err (List (Adj p)) :=
  if ! fisChainGraph A then .error .valueError
  else .ok ((chainGraphMEC p).filter (fun me => decide (∀ k, ∀ i ∈ I, A k i = .fin (me k i))))

/-- `imec(A, I, check_chain)`, `/repo/utlvce/utils.py:290-329`. -/
def fimec (S : Summer) (it : SetIter p) (A : FAdj p) (I : Finset Int) (checkChain : Bool) : Except Err (List (Adj p)) :=
  if ! fisDag S it A then .error .valueError
  else if ¬ (∀ i ∈ I, 0 ≤ i ∧ i < (p : Int)) then .error .valueError
  else
    let targets := it.toList (Finset.univ.filter (fun i : Fin p => (i.val : Int) ∈ I))
    if checkChain && fisChainGraph A then fchainGraphIMEC A targets
    else
      match fdagToIcpdag S it A targets with
      | .error e => .error e
      | .ok C => allDags it C

end Verif
