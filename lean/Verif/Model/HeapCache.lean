import Verif.Model.Heap

/-!
# The cache of `Score` as a holder of references

`Score.lean` treats the cached models as values.  Here the cache holds references to `Model` objects in a heap.
-/

namespace Verif

/-- The cache: the pairs `(A, I)` (values: `write` stores copies of both, and nothing else refers to these), references to `Model` objects and
scores, `/repo/utlvce/score.py:429-433`. -/
abbrev RefCache (K S : Type) := List (K × Nat × S)

/-- `_Cache._find` and `_Cache.read` for caches with at most one entry per pair (C41), `/repo/utlvce/score.py:435-472`: the reference that is
stored is returned. -/
def RefCache.read {K S : Type} [DecidableEq K] (c : RefCache K S) (k : K) : Option (Nat × S) :=
  (c.find? (fun x => decide (x.1 = k))).map Prod.snd

/-- A new object with six new arrays: `current_model` at the end of the procedure, whose attributes were assigned one by one
(`/repo/utlvce/score.py:364-389`). -/
def Heap.newObject {V : Type} (h : Heap V) (vals : Attr → V) : Heap V × Nat :=
  let n := h.arrays.length
  ({ arrays := h.arrays ++ [vals .A, vals .B, vals .gamma, vals .omegas, vals .psis, vals .IB],
     objects := h.objects ++ [fun | .A => n | .B => n + 1 | .gamma => n + 2 | .omegas => n + 3 | .psis => n + 4 | .IB => n + 5] },
   h.objects.length)

/-- `score_dag(A, I)` with a cache, `/repo/utlvce/score.py:312-418`, for the pair `k`: `fit` is the procedure, which gives the contents of the
attributes of the fitted model and its score.  `useInit` tells whether `init_model` is given.  The objects used in between, to which no
reference remains, are left out. -/
def scoreDagRef {V K S : Type} [DecidableEq K] (check : V → V → V → V → V → Bool) (mkIB : V → V) (fit : K → Except Err ((Attr → V) × S))
    (useInit : Bool) (h : Heap V) (c : RefCache K S) (k : K) : Except Err ((Heap V × RefCache K S) × Nat × S) :=
  match (if useInit then none else c.read k) with
  | some r => .ok ((h, c), r)
  | none =>
    match fit k with
    | .error err => .error err
    | .ok (vals, s) =>
      let (h, m) := h.newObject vals
      match c.read k with
      | some _ => .error .valueError
      | none =>
        match h.copyModel check mkIB m with
        | .error err => .error err
        | .ok (h, m') => .ok ((h, c ++ [(k, m', s)]), m, s)

end Verif
