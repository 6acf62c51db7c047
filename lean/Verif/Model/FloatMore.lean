import Verif.Model.FloatGraph
import Verif.Model.Paths
import Verif.Model.GraphEdit

/-!
# The remaining graph functions on matrices of floating-point numbers

Paths, chain components, subgraphs, cliques, moral graphs, degrees, edge lists, supergraph tests and random edge changes of
`/repo/utlvce/utils.py` for matrices of doubles.
-/

namespace Verif

variable {p : Nat}

/-- `na(y, x, A)`, `/repo/utlvce/utils.py:84-103`. -/
def fna (y x : Fin p) (A : FAdj p) : Finset (Fin p) := fneighbors y A ∩ fadj x A

/-- `directed_edges(A)`, `/repo/utlvce/utils.py:714-728`; `np.where` takes NaN to be true. -/
def fdirectedEdges (A : FAdj p) : List (Fin p × Fin p) := wherePairs (fun i j => ! (fonlyDirected A i j).isZero)

/-- `edge_weights(W)`, `/repo/utlvce/utils.py:731-739`. -/
def fedgeWeights (W : FAdj p) : List ((Fin p × Fin p) × Dbl) :=
  (wherePairs (fun i j => ! (W i j).isZero)).map (fun e => (e, W e.1 e.2))

/-- `is_clique(S, A)`, `/repo/utlvce/utils.py:185-207`, as `isClique`. -/
def fisClique (S : Finset (Fin p)) (A : FAdj p) : Bool :=
  decide (((S ×ˢ S).filter (fun e => fskeleton A e.1 e.2 ≠ 0)).card = S.card * (S.card - 1))

/-- `is_complete(P)`, `/repo/utlvce/utils.py:231-235`; both sides of the comparison are multiplied by two. -/
def fisComplete (P : FAdj p) : Bool :=
  decide ((Finset.univ.filter (fun e : Fin p × Fin p => ! ((P e.1 e.2).add (P e.2 e.1)).isZero)).card = p * (p - 1))

/-- `induced_subgraph(S, G)`, `/repo/utlvce/utils.py:545-569`. -/
def finducedSubgraph (S : Finset (Fin p)) (G : FAdj p) : FAdj p :=
  let mask : Fin p → Fin p → Bool := fun i _ => decide (i ∈ S)
  let mask' : Fin p → Fin p → Bool := fun i j => mask i j && mask j i
  fun i j => if mask' i j then G i j else .fin 0

/-- `degrees(A)`, `/repo/utlvce/utils.py:628-642`. -/
def fdegrees (A : FAdj p) (j : Fin p) : Int := ∑ i, fskeleton A i j

/-- `moral_graph(A)`, `/repo/utlvce/utils.py:607-625`, as `moralGraph`. -/
def fmoralGraph (it : SetIter p) (A : FAdj p) : Adj p := fun a b =>
  if ∃ c, (a, c, b) ∈ fvstructures it A ∨ (b, c, a) ∈ fvstructures it A then 1 else fskeleton A a b

/-- `accessible[i] = ch(i, A) | neighbors(i, A)`, `/repo/utlvce/utils.py:438-442`. -/
def faccessible (A : FAdj p) (i : Fin p) : Finset (Fin p) := fch i A ∪ fneighbors i A

/-- The `while len(stack) > 0` loop, `/repo/utlvce/utils.py:443-455`. -/
def fpathLoop (it : SetIter p) (A : FAdj p) (dst : Fin p) :
    Nat → List (PathEntry p) → List (List (Fin p)) → Except Err (List (List (Fin p)))
  | _, [], paths => .ok paths
  | 0, _ :: _, _ => .error .diverge
  | n + 1, e :: stack, paths =>
    if e.node = dst then fpathLoop it A dst n stack (paths ++ [e.visited ++ [e.node]])
    else
      match e.toVisit with
      | [] => fpathLoop it A dst n stack paths
      | next :: rest =>
        let nextToVisit := it.toList ((faccessible A next \ e.visited.toFinset) \ {e.node})
        fpathLoop it A dst n
          (⟨next, e.visited ++ [e.node], nextToVisit.reverse⟩ :: ⟨e.node, e.visited, rest⟩ :: stack) paths

/-- `semi_directed_paths(fro, to, A)`, `/repo/utlvce/utils.py:417-456`. -/
def fsemiDirectedPaths (it : SetIter p) (fro dst : Fin p) (A : FAdj p) : Except Err (List (List (Fin p))) :=
  fpathLoop it A dst (pathFuel p (2 * p + 1)) [⟨fro, [], (it.toList (faccessible A fro)).reverse⟩] []

/-- The nested loops of `separates` over the pairs `(a, b)`, `/repo/utlvce/utils.py:486-491`. -/
def fsepLoop (it : SetIter p) (S : Finset (Fin p)) (G : FAdj p) : List (Fin p × Fin p) → Except Err Bool
  | [] => .ok true
  | (a, b) :: rest =>
    match fsemiDirectedPaths it a b G with
    | .error e => .error e
    | .ok paths => if paths.any (fun path => decide (path.toFinset ∩ S = ∅)) then .ok false else fsepLoop it S G rest

/-- `separates(S, A, B, G)`, `/repo/utlvce/utils.py:459-491`. -/
def fseparates (it : SetIter p) (S A B : Finset (Fin p)) (G : FAdj p) : Except Err Bool :=
  if (A ∩ B).card ≠ 0 ∨ (A ∩ S).card ≠ 0 ∨ (B ∩ S).card ≠ 0 then .error .valueError
  else fsepLoop it S G ((it.toList A).flatMap (fun a => (it.toList B).map (fun b => (a, b))))

/-- `for j in to_visit`, `/repo/utlvce/utils.py:539-541`. -/
def fcomponentPass (A : FAdj p) : List (Fin p) → Finset (Fin p) → Finset (Fin p) → Finset (Fin p) × Finset (Fin p)
  | [], visited, toVisit => (visited, toVisit)
  | j :: js, visited, toVisit =>
    let visited' := insert j visited
    fcomponentPass A js visited' ((toVisit ∪ fneighbors j A) \ visited')

/-- `while len(to_visit) > 0`, `/repo/utlvce/utils.py:538-541`. -/
def fcomponentLoop (it : SetIter p) (A : FAdj p) : Nat → Finset (Fin p) → Finset (Fin p) → Except Err (Finset (Fin p))
  | 0, _, _ => .error .diverge
  | n + 1, visited, toVisit =>
    if toVisit.card > 0 then
      let s := fcomponentPass A (it.toList toVisit) visited toVisit
      fcomponentLoop it A n s.1 s.2
    else .ok visited

/-- `chain_component(i, G)`, `/repo/utlvce/utils.py:516-542`. -/
def fchainComponent (it : SetIter p) (i : Fin p) (G : FAdj p) : Except Err (Finset (Fin p)) :=
  fcomponentLoop it (fonlyUndirected G) (p + 1) ∅ {i}

/-- `to_factorization(G)`, `/repo/utlvce/utils.py:839-845`. -/
def ftoFactorization (S : Summer) (it : SetIter p) (G : FAdj p) : Except Err (List (List (Fin p))) :=
  if ! fisDag S it G then .error .valueError
  else .ok ((List.finRange p).map (fun j => pySorted (fun a b => decide (a ≤ b)) (it.toList (fpa j G))))

/-- `is_supergraph(sup, A)`, `/repo/utlvce/utils.py:848-851`: `np.logical_and` takes NaN to be true, and the comparison of its result with `A`
compares `True` with 1. -/
def fisSupergraph (sup A : FAdj p) : Bool :=
  decide (∀ i j, (if ! (sup i j).isZero && ! (A i j).isZero then Dbl.fin 1 else Dbl.fin 0) = A i j)

/-- `has_subgraph(L1, L2)`, `/repo/utlvce/utils.py:854-861`. -/
def fhasSubgraph : List (FAdj p) → List (FAdj p) → Bool
  | [], _ => true
  | A1 :: rest, L2 => if ! (L2.map (fun A2 => fisSupergraph A1 A2)).any id then false else fhasSubgraph rest L2

/-- `has_supergraph(L1, L2)`, `/repo/utlvce/utils.py:864-871`. -/
def fhasSupergraph : List (FAdj p) → List (FAdj p) → Bool
  | [], _ => true
  | A1 :: rest, L2 => if ! (L2.map (fun A2 => fisSupergraph A2 A1)).any id then false else fhasSupergraph rest L2

/-- `A.astype(bool).astype(int)`, `/repo/utlvce/utils.py:876,889`; NaN is true. -/
def fasBinary (A : FAdj p) : Adj p := fun i j => if ! (A i j).isZero then 1 else 0

/-- `remove_edges(A, no_edges)`, `/repo/utlvce/utils.py:874-884`; the conversion comes first, then as `removeEdges`. -/
def fremoveEdges (rng : Rng) (A : FAdj p) (n : Nat) : Except Err (Adj p) :=
  let A := fasBinary A
  let edges := directedEdges A
  if edges.length < n then .error .valueError
  else .ok ((rng.choice edges n).foldl (fun pruned e => setEntry pruned e.1 e.2 0) A)

/-- `add_edges(A, no_edges)`, `/repo/utlvce/utils.py:887-911`; the conversion comes first, then as `addEdges`. -/
def faddEdges (it : SetIter p) (rng : Rng) (A : FAdj p) (n : Int) : Except Err (Adj p) :=
  let A := fasBinary A
  let edges := rng.shuffle (wherePairs (fun i j => A i j + A j i + (if i = j then 1 else 0) = 0))
  let canAdd : Int := (p : Int) * (p - 1) / 2 - sumAll A
  if n > canAdd then .error .valueError
  else
    let sup := addLoop it A n edges A
    if sumAll sup - sumAll A = n then .ok sup else .error .assertionError

end Verif
