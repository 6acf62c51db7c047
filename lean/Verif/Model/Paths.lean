import Verif.Model.Graph

/-!
# Path enumeration, separation and chain components (`/repo/utlvce/utils.py:417-542`)
-/

namespace Verif

variable {p : Nat}

/-- `accessible[i] = ch(i, A) | neighbors(i, A)`, `/repo/utlvce/utils.py:438-442`. -/
def accessible (A : Adj p) (i : Fin p) : Finset (Fin p) := ch i A ∪ neighbors i A

/-- A stack entry `(current_node, visited, to_visit)`; `to_visit` is kept in popping order (Python pops the last
element), i.e. it is the reverse of the Python list.  See `/repo/utlvce/utils.py:439-455`. -/
structure PathEntry (p : Nat) where
  node : Fin p
  visited : List (Fin p)
  toVisit : List (Fin p)

/-- Fuel for a search of depth `d`: an upper bound on the number of iterations (`Proof/Paths.lean`).  See `/repo/utlvce/utils.py:444`. -/
def pathFuel (p : Nat) : Nat → Nat
  | 0 => 1
  | d + 1 => 1 + p * (1 + pathFuel p d)

/-- The `while len(stack) > 0` loop, `/repo/utlvce/utils.py:443-455`. -/
def pathLoop (it : SetIter p) (A : Adj p) (dst : Fin p) :
    Nat → List (PathEntry p) → List (List (Fin p)) → Except Err (List (List (Fin p)))
  | _, [], paths => .ok paths
  | 0, _ :: _, _ => .error .diverge
  | n + 1, e :: stack, paths =>
    if e.node = dst then pathLoop it A dst n stack (paths ++ [e.visited ++ [e.node]])
    else
      match e.toVisit with
      | [] => pathLoop it A dst n stack paths
      | next :: rest =>
        let nextToVisit := it.toList ((accessible A next \ e.visited.toFinset) \ {e.node})
        pathLoop it A dst n
          (⟨next, e.visited ++ [e.node], nextToVisit.reverse⟩ :: ⟨e.node, e.visited, rest⟩ :: stack) paths

/-- `semi_directed_paths(fro, to, A)`, `/repo/utlvce/utils.py:417-456`. -/
def semiDirectedPaths (it : SetIter p) (fro dst : Fin p) (A : Adj p) : Except Err (List (List (Fin p))) :=
  pathLoop it A dst (pathFuel p (2 * p + 1)) [⟨fro, [], (it.toList (accessible A fro)).reverse⟩] []

/-- The nested loops of `separates` over the pairs `(a, b)`, `/repo/utlvce/utils.py:486-491`. -/
def sepLoop (it : SetIter p) (S : Finset (Fin p)) (G : Adj p) : List (Fin p × Fin p) → Except Err Bool
  | [] => .ok true
  | (a, b) :: rest =>
    match semiDirectedPaths it a b G with
    | .error e => .error e
    | .ok paths => if paths.any (fun path => decide (path.toFinset ∩ S = ∅)) then .ok false else sepLoop it S G rest

/-- `separates(S, A, B, G)`, `/repo/utlvce/utils.py:459-491`. -/
def separates (it : SetIter p) (S A B : Finset (Fin p)) (G : Adj p) : Except Err Bool :=
  if (A ∩ B).card ≠ 0 ∨ (A ∩ S).card ≠ 0 ∨ (B ∩ S).card ≠ 0 then .error .valueError
  else sepLoop it S G ((it.toList A).flatMap (fun a => (it.toList B).map (fun b => (a, b))))

/-- `for j in to_visit`, `/repo/utlvce/utils.py:539-541`; the iterated set is the one bound to `to_visit` when the loop
starts. -/
def componentPass (A : Adj p) : List (Fin p) → Finset (Fin p) → Finset (Fin p) → Finset (Fin p) × Finset (Fin p)
  | [], visited, toVisit => (visited, toVisit)
  | j :: js, visited, toVisit =>
    let visited' := insert j visited
    componentPass A js visited' ((toVisit ∪ neighbors j A) \ visited')

/-- `while len(to_visit) > 0`, `/repo/utlvce/utils.py:538-541`. -/
def componentLoop (it : SetIter p) (A : Adj p) : Nat → Finset (Fin p) → Finset (Fin p) → Except Err (Finset (Fin p))
  | 0, _, _ => .error .diverge
  | n + 1, visited, toVisit =>
    if toVisit.card > 0 then
      let s := componentPass A (it.toList toVisit) visited toVisit
      componentLoop it A n s.1 s.2
    else .ok visited

/-- `chain_component(i, G)`, `/repo/utlvce/utils.py:516-542`. -/
def chainComponent (it : SetIter p) (i : Fin p) (G : Adj p) : Except Err (Finset (Fin p)) :=
  componentLoop it (onlyUndirected G) (p + 1) ∅ {i}

/-- `is_stable_set(S, j, I, G)`, `/repo/utlvce/utils.py:500-513`: the extended graph is built, then the name `d_separated`
is looked up; its only definition in the module is commented out (`utils.py:494-497`) and it is not imported.  An index
in `I` outside the graph raises `IndexError` while the graph is built (negative indices count from the end). -/
def isStableSet (S : Finset (Fin p)) (j : Fin p) (I : List Int) (G : Adj p) : Except Err Bool :=
  let _ := (S, j, G)
  if ∃ i ∈ I, i < - ((p : Int) + I.length) ∨ (p : Int) + I.length ≤ i then .error .indexError else .error .nameError

end Verif
