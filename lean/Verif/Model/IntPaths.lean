import Verif.Model.IntNodes
import Verif.Model.Paths

/-!
# Paths and separation for nodes given as Python integers

`semi_directed_paths` keeps the integer `fro` in the path and compares the nodes it meets, which are non-negative, with the integers it was given.
-/

namespace Verif
variable {p : Nat}

/-- A stack entry `(current_node, visited, to_visit)`, `/repo/utlvce/utils.py:439`, with `to_visit` in popping order. -/
structure ZPathEntry (p : Nat) where
  node : Int
  visited : List Int
  toVisit : List (Fin p)

/-- The `while len(stack) > 0` loop, `/repo/utlvce/utils.py:444-455`.  The elements of `to_visit` come from `np.where`, so they are keys of
`accessible`. -/
def zpathLoop (it : SetIter p) (A : Adj p) (dst : Int) : Nat → List (ZPathEntry p) → List (List Int) → Except Err (List (List Int))
  | _, [], paths => .ok paths
  | 0, _ :: _, _ => .error .diverge
  | n + 1, e :: stack, paths =>
    if e.node = dst then zpathLoop it A dst n stack (paths ++ [e.visited ++ [e.node]])
    else
      match e.toVisit with
      | [] => zpathLoop it A dst n stack paths
      | next :: rest =>
        let nextToVisit := it.toList ((accessible A next).filter fun j => (j.val : Int) ∉ e.visited ∧ (j.val : Int) ≠ e.node)
        zpathLoop it A dst n (⟨next.val, e.visited ++ [e.node], nextToVisit.reverse⟩ :: ⟨e.node, e.visited, rest⟩ :: stack) paths

/-- `semi_directed_paths(fro, to, A)`, `/repo/utlvce/utils.py:417-456`. -/
def zsemiDirectedPaths (it : SetIter p) (fro dst : Int) (A : Adj p) : Except Err (List (List Int)) :=
  match nodeOf p fro with
  | .error e => .error e
  | .ok k => zpathLoop it A dst (pathFuel (p + 2) (2 * (p + 2) + 1)) [⟨fro, [], (it.toList (accessible A k)).reverse⟩] []

/-- The nested loops of `separates` over the pairs `(a, b)`, `/repo/utlvce/utils.py:486-490`. -/
def zsepLoop (it : SetIter p) (S : Finset Int) (G : Adj p) : List (Int × Int) → Except Err Bool
  | [] => .ok true
  | (a, b) :: rest =>
    match zsemiDirectedPaths it a b G with
    | .error e => .error e
    | .ok paths => if paths.any (fun path => decide (path.toFinset ∩ S = ∅)) then .ok false else zsepLoop it S G rest

/-- `separates(S, A, B, G)`, `/repo/utlvce/utils.py:459-491`. -/
def zseparates (it : SetIter p) (itz : IntIter) (S A B : Finset Int) (G : Adj p) : Except Err Bool :=
  if (A ∩ B).card ≠ 0 ∨ (A ∩ S).card ≠ 0 ∨ (B ∩ S).card ≠ 0 then .error .valueError
  else zsepLoop it S G ((itz.toList A).flatMap (fun a => (itz.toList B).map (fun b => (a, b))))

end Verif
