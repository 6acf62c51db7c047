import Verif.Model.Basic
import Verif.Model.Rng
import Mathlib.Data.Rat.Floor

/-!
# List utilities (`/repo/utlvce/utils.py:1242-1317, 1346-1403`)
-/

namespace Verif

/-- `sort(L, order=None)`, `/repo/utlvce/utils.py:1263-1265` (with an order: `sortBy` in `Model/Pdag.lean`). -/
def sortPlain (L : List Nat) : List Nat := pySorted (fun a b => decide (a ≤ b)) L

/-- `itertools.combinations(l, r)`.  See `/repo/utlvce/utils.py:1291`. -/
def combinations {α : Type} : List α → Nat → List (List α)
  | _, 0 => [[]]
  | [], _ + 1 => []
  | x :: xs, r + 1 => (combinations xs r).map (x :: ·) ++ combinations xs (r + 1)

/-- `subsets(S)`, `/repo/utlvce/utils.py:1274-1292`. -/
def subsets {p : Nat} (it : SetIter p) (S : Finset (Fin p)) : List (Finset (Fin p)) :=
  (List.range (S.card + 1)).flatMap (fun r => (combinations (it.toList S) r).map List.toFinset)

/-- `member(L, A)`, `/repo/utlvce/utils.py:1295-1317`, for a three-dimensional array `L`. -/
def member {p : Nat} (L : List (Adj p)) (A : Adj p) : Option Nat :=
  let index := (List.range L.length).filter (fun k => decide (L[k]? = some A))
  match index with
  | [] => none
  | k :: _ => some k

/-- `all_but(k, p)`, `/repo/utlvce/utils.py:1400-1403`; a single number is the one-element list. -/
def allBut (k : List Int) (p : Nat) : List Nat := (List.range p).filter (fun i => decide ((i : Int) ∉ k))

/-- `sorted_tuple(iterable)`, `/repo/utlvce/utils.py:1393-1397`. -/
def sortedTuple (l : List Nat) : List Nat := pySorted (fun a b => decide (a ≤ b)) l

/-- Python's `round`: to the nearest integer, ties to the even one.  See `/repo/utlvce/utils.py:1382` and `/repo/utlvce/generators.py:412`. -/
def pyRound (x : Rat) : Int :=
  let f := ⌊x⌋
  let d := x - f
  if d < 1 / 2 then f
  else if 1 / 2 < d then f + 1
  else if f % 2 = 0 then f else f + 1

/-- A slice bound of Python's `l[a:b]`: negative bounds count from the end, and bounds are clipped to the length.
See `/repo/utlvce/utils.py:1383,1385`. -/
def sliceBound (n : Nat) (a : Int) : Nat := if a < 0 then (a + n).toNat else min a.toNat n

/-- `l[a:b]`.  See `/repo/utlvce/utils.py:1383,1385`. -/
def pySlice {α : Type} (l : List α) (a b : Int) : List α :=
  (l.take (sliceBound l.length b)).drop (sliceBound l.length a)

/-- The inner loop `for i, ratio in enumerate(ratios)`, `/repo/utlvce/utils.py:1380-1387`; the condition `i < n_folds` always
holds, so the `else` branch is unreachable. -/
def splitSample {α : Type} (sample : List α) (nFolds : Nat) : List (Nat × Rat) → Int → List (List α)
  | [], _ => []
  | (i, ratio) :: rest, start =>
    let foldSize := pyRound (sample.length * ratio)
    let fold := if i < nFolds then pySlice sample start (start + foldSize) else sample.drop start.toNat
    fold :: splitSample sample nFolds rest (start + foldSize)

/-- `split_data(data, ratios)`, `/repo/utlvce/utils.py:1346-1390`.  Ratios are exact rationals: the rounding of binary
floating point in `np.sum(ratios)` and `n * ratio` is not modelled.  `rng k` is the generator when sample `k` is shuffled. -/
def splitData {α : Type} (rng : Nat → Rng) (data : List (List α)) (ratios : List Rat) :
    Except Err (List (List (List α))) :=
  if ratios.sum ≠ 1 then .error .valueError
  else
    let nFolds := ratios.length
    let perEnv := data.zipIdx.map (fun s =>
      splitSample ((rng s.2).shuffle s.1) nFolds (ratios.zipIdx.map (fun r => (r.2, r.1))) 0)
    let folds := (List.range nFolds).map (fun i => perEnv.map (fun f => f.getD i []))
    if folds.length ≠ nFolds then .error .assertionError
    else if (folds.getD 0 []).length ≠ data.length then .error .assertionError
    else .ok folds

end Verif
