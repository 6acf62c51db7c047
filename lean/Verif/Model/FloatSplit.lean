import Verif.Model.ListUtils
import Mathlib.Data.Int.Log

/-!
# `split_data` with floating-point ratios

`splitData` in `Model/ListUtils.lean` computes with exact rationals.  Here the ratios are doubles, and the sums and products are those of IEEE
754 binary64 arithmetic (without overflow and underflow, which need numbers outside `2^-1022 .. 2^1023`).
-/

namespace Verif

/-- Rounding of a rational number to a double: to a multiple of the unit in the last place, ties to even ones.
See `/repo/utlvce/utils.py:1369,1382`. -/
def fl (x : ℚ) : ℚ :=
  if x = 0 then 0 else (pyRound (x / (2 : ℚ) ^ (Int.log 2 |x| - 52)) : ℚ) * (2 : ℚ) ^ (Int.log 2 |x| - 52)

/-- `np.sum(ratios)`, `/repo/utlvce/utils.py:1369`, for fewer than eight doubles, which NumPy adds from left to right. -/
def fsum (ratios : List ℚ) : ℚ := ratios.foldl (fun s r => fl (s + r)) 0

/-- The inner loop `for i, ratio in enumerate(ratios)`, `/repo/utlvce/utils.py:1380-1387`, with `n * ratio` in floating point. -/
def splitSampleF {α : Type} (sample : List α) (nFolds : Nat) : List (Nat × Rat) → Int → List (List α)
  | [], _ => []
  | (i, ratio) :: rest, start =>
    let foldSize := pyRound (fl (fl sample.length * ratio))
    let fold := if i < nFolds then pySlice sample start (start + foldSize) else sample.drop start.toNat
    fold :: splitSampleF sample nFolds rest (start + foldSize)

/-- `split_data(data, ratios)`, `/repo/utlvce/utils.py:1346-1390`, for fewer than eight ratios, which are doubles.  `rng k` is the generator when
sample `k` is shuffled. -/
def splitDataF {α : Type} (rng : Nat → Rng) (data : List (List α)) (ratios : List Rat) :
    Except Err (List (List (List α))) :=
  if fsum ratios ≠ 1 then .error .valueError
  else
    let nFolds := ratios.length
    let perEnv := data.zipIdx.map (fun s =>
      splitSampleF ((rng s.2).shuffle s.1) nFolds (ratios.zipIdx.map (fun r => (r.2, r.1))) 0)
    let folds := (List.range nFolds).map (fun i => perEnv.map (fun f => f.getD i []))
    if folds.length ≠ nFolds then .error .assertionError
    else if (folds.getD 0 []).length ≠ data.length then .error .assertionError
    else .ok folds

end Verif
