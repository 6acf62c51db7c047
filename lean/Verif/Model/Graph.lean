import Verif.Model.Basic

/-!
# Elementary graph functions of `/repo/utlvce/utils.py`
-/

namespace Verif

variable {p : Nat}

/-- `neighbors(i, A)`, `/repo/utlvce/utils.py:106-124`. -/
def neighbors (i : Fin p) (A : Adj p) : Finset (Fin p) :=
  Finset.univ.filter (fun j => A i j ≠ 0 ∧ A j i ≠ 0)

/-- `adj(i, A)`, `/repo/utlvce/utils.py:127-144`. -/
def adj (i : Fin p) (A : Adj p) : Finset (Fin p) :=
  Finset.univ.filter (fun j => A i j ≠ 0 ∨ A j i ≠ 0)

/-- `pa(i, A)`, `/repo/utlvce/utils.py:147-164`. -/
def pa (i : Fin p) (A : Adj p) : Finset (Fin p) :=
  Finset.univ.filter (fun j => A j i ≠ 0 ∧ A i j = 0)

/-- `ch(i, A)`, `/repo/utlvce/utils.py:167-182`. -/
def ch (i : Fin p) (A : Adj p) : Finset (Fin p) :=
  Finset.univ.filter (fun j => A i j ≠ 0 ∧ A j i = 0)

/-- `na(y, x, A)`, `/repo/utlvce/utils.py:84-103`. -/
def na (y x : Fin p) (A : Adj p) : Finset (Fin p) := neighbors y A ∩ adj x A

/-- `only_directed(P)`, `/repo/utlvce/utils.py:645-666`. -/
def onlyDirected (P : Adj p) : Adj p := fun i j => if P i j ≠ 0 ∧ P j i = 0 then P i j else 0

/-- `only_undirected(P)`, `/repo/utlvce/utils.py:669-690`. -/
def onlyUndirected (P : Adj p) : Adj p := fun i j => if P i j ≠ 0 ∧ P j i ≠ 0 then P i j else 0

/-- `undirected_edges(P)`, `/repo/utlvce/utils.py:693-711`. -/
def undirectedEdges (P : Adj p) : List (Fin p × Fin p) :=
  (wherePairs (fun i j => onlyUndirected P i j ≠ 0)).filter (fun e => e.1 > e.2)

/-- `directed_edges(A)`, `/repo/utlvce/utils.py:714-728`. -/
def directedEdges (A : Adj p) : List (Fin p × Fin p) :=
  wherePairs (fun i j => onlyDirected A i j ≠ 0)

/-- `edge_weights(W)`, `/repo/utlvce/utils.py:731-739`; the dict is an association list with the (distinct)
keys in insertion order. -/
def edgeWeights (W : Adj p) : List ((Fin p × Fin p) × Int) :=
  (wherePairs (fun i j => W i j ≠ 0)).map (fun e => (e, W e.1 e.2))

/-- `skeleton(A)`, `/repo/utlvce/utils.py:775-790`. -/
def skeleton (A : Adj p) : Adj p := fun i j => if A i j + A j i ≠ 0 then 1 else 0

/-- `is_clique(S, A)`, `/repo/utlvce/utils.py:185-207`.  The sub-matrix `A[S,:][:,S]` is represented by
restricting the indices to `S` (the count of non-zero entries does not depend on the re-indexing). -/
def isClique (S : Finset (Fin p)) (A : Adj p) : Bool :=
  decide (((S ×ˢ S).filter (fun e => skeleton A e.1 e.2 ≠ 0)).card = S.card * (S.card - 1))

/-- `is_complete(P)`, `/repo/utlvce/utils.py:231-235`; both sides of the comparison are multiplied by two. -/
def isComplete (P : Adj p) : Bool :=
  decide ((Finset.univ.filter (fun e : Fin p × Fin p => P e.1 e.2 + P e.2 e.1 ≠ 0)).card = p * (p - 1))

/-- `induced_subgraph(S, G)`, `/repo/utlvce/utils.py:545-569`. -/
def inducedSubgraph (S : Finset (Fin p)) (G : Adj p) : Adj p :=
  let mask : Fin p → Fin p → Bool := fun i _ => decide (i ∈ S)
  let mask' : Fin p → Fin p → Bool := fun i j => mask i j && mask j i
  fun i j => if mask' i j then G i j else 0

/-- `degrees(A)`, `/repo/utlvce/utils.py:628-642`. -/
def degrees (A : Adj p) (j : Fin p) : Int := ∑ i, skeleton A i j

/-- inner `for j in ch(i, A)` loop of `topological_ordering`, `/repo/utlvce/utils.py:406-409`.  The Python
list `sinks` is used as a stack (`append`/`pop`); the model keeps it top-first. -/
def topoInner (i : Fin p) : List (Fin p) → Adj p → List (Fin p) → Adj p × List (Fin p)
  | [], A, sinks => (A, sinks)
  | j :: js, A, sinks =>
    let A' := setEntry A i j 0
    topoInner i js A' (if (pa j A').card = 0 then j :: sinks else sinks)

/-- `while len(sinks) > 0` loop of `topological_ordering`, `/repo/utlvce/utils.py:403-409`. -/
def topoLoop (it : SetIter p) : Nat → Adj p → List (Fin p) → List (Fin p) → Except Err (Adj p × List (Fin p))
  | _, A, [], ordering => .ok (A, ordering)
  | 0, _, _ :: _, _ => .error .diverge
  | n + 1, A, i :: sinks, ordering =>
    let s := topoInner i (it.toList (ch i A)) A sinks
    topoLoop it n s.1 s.2 (ordering ++ [i])

/-- `topological_ordering(A)`, `/repo/utlvce/utils.py:372-414`. -/
def topologicalOrdering (it : SetIter p) (A : Adj p) : Except Err (List (Fin p)) :=
  if sumAll (onlyUndirected A) > 0 then .error .valueError
  else
    match topoLoop it (p * p + p) A (whereVec (fun j => colSum A j = 0)).reverse [] with
    | .error e => .error e
    | .ok (A', ordering) => if sumAll A' > 0 then .error .valueError else .ok ordering

/-- `is_dag(A)`, `/repo/utlvce/utils.py:210-228`.  `ValueError` is the only exception
`topological_ordering` can raise (theorem `topologicalOrdering_error`). -/
def isDag (it : SetIter p) (A : Adj p) : Bool :=
  match topologicalOrdering it A with
  | .ok _ => true
  | .error _ => false

/-- `chain_graph(p)`, `/repo/utlvce/utils.py:238-243`. -/
def chainGraph (p : Nat) : Adj p := fun i j => if i.val + 1 = j.val then 1 else 0

/-- `is_chain_graph(A)`, `/repo/utlvce/utils.py:246-251`. -/
def isChainGraph (A : Adj p) : Bool := decide (∀ i j, A i j = chainGraph p i j)

/-- `itertools.combinations(l, 2)`.  See `/repo/utlvce/utils.py:597`. -/
def combinations2 {α : Type} : List α → List (α × α)
  | [] => []
  | x :: xs => xs.map (fun y => (x, y)) ++ combinations2 xs

/-- `vstructures(A)`, `/repo/utlvce/utils.py:572-604`. -/
def vstructures (it : SetIter p) (A : Adj p) : Finset (Fin p × Fin p × Fin p) :=
  let dirA := onlyDirected A
  let colliders := whereVec (fun c => (Finset.univ.filter (fun i => dirA i c ≠ 0)).card > 1)
  let vstructs := colliders.flatMap (fun c =>
    (combinations2 (it.toList (pa c A))).filterMap (fun e =>
      if A e.1 e.2 = 0 ∧ A e.2 e.1 = 0 then
        some (if e.1 < e.2 then (e.1, c, e.2) else (e.2, c, e.1))
      else none))
  vstructs.toFinset

/-- `moral_graph(A)`, `/repo/utlvce/utils.py:607-625`.  The `for` loop over the set of v-structures only
writes the constant 1, so it is given by its effect on each entry. -/
def moralGraph (it : SetIter p) (A : Adj p) : Adj p := fun a b =>
  if ∃ c, (a, c, b) ∈ vstructures it A ∨ (b, c, a) ∈ vstructures it A then 1 else skeleton A a b

/-- `is_consistent_extension(G, P)`, `/repo/utlvce/utils.py:793-836`. -/
def isConsistentExtension (it : SetIter p) (G P : Adj p) : Except Err Bool :=
  if ! isDag it G then .error .valueError
  else
    let sameV := decide (vstructures it P = vstructures it G)
    let sameSkel := decide (∀ i j, skeleton P i j = skeleton G i j)
    let sameOri := decide (∀ i j, onlyDirected P i j ≠ 0 → G i j ≠ 0)
    .ok (sameV && sameOri && sameSkel)

end Verif
