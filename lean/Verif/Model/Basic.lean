import Mathlib.Data.Fintype.Basic
import Mathlib.Data.Fintype.BigOperators
import Mathlib.Data.Finset.Card
import Mathlib.Data.List.Sort
import Mathlib.Algebra.BigOperators.Group.Finset.Basic
import Mathlib.Algebra.Order.BigOperators.Group.Finset

/-!
# Basic conventions of the model

* `Adj p` : a numpy `p x p` integer array.
* `Err`   : the Python exceptions the modelled code can raise, plus `diverge` (a `while` loop that has not
  finished when its fuel is used up).
* `SetIter p` : an arbitrary enumeration order of Python sets of node indices.
-/

namespace Verif

/-- A numpy `p x p` array of integers, `A[i, j]` is `A i j` (e.g. `/repo/utlvce/utils.py:88-95`). -/
abbrev Adj (p : Nat) := Fin p → Fin p → Int

/-- Python exceptions as values.  `diverge` is not a Python exception: it marks a `while` loop that did
not finish within its fuel.  See `/repo/utlvce/utils.py:282,397,1077,1477`. -/
inductive Err where
  | valueError
  | typeError
  | assertionError
  | indexError
  | nameError
  | unboundLocalError
  | zeroDivisionError
  | linAlgError
  | exception
  | diverge
  deriving DecidableEq, Repr

/-- Iteration order of a Python `set` of node indices.  CPython iterates in hash-table order, which is not
part of the language; the model takes the order as a parameter and every theorem quantifies over it.
See `/repo/utlvce/utils.py:124,182,539,597`. -/
structure SetIter (p : Nat) where
  toList : Finset (Fin p) → List (Fin p)
  nodup : ∀ s, (toList s).Nodup
  mem : ∀ s i, i ∈ toList s ↔ i ∈ s

/-- The increasing iteration order; shows that `SetIter p` is inhabited and is used in the examples.  Not part of `/repo`. -/
def SetIter.incr (p : Nat) : SetIter p where
  toList s := (List.finRange p).filter (fun i => decide (i ∈ s))
  nodup s := (List.nodup_finRange p).filter _
  mem s i := by simp

/-- The decreasing iteration order (a second inhabitant, used in examples).  Not part of `/repo`. -/
def SetIter.decr (p : Nat) : SetIter p where
  toList s := ((List.finRange p).filter (fun i => decide (i ∈ s))).reverse
  nodup s := by
    rw [List.nodup_reverse]
    exact (List.nodup_finRange p).filter _
  mem s i := by simp

/-- numpy item assignment `A[i, j] = v` on a copied array.  See `/repo/utlvce/utils.py:1118,1562` and `/repo/utlvce/main.py:638`. -/
def setEntry {p : Nat} (A : Adj p) (i j : Fin p) (v : Int) : Adj p :=
  fun a b => if a = i ∧ b = j then v else A a b

/-- `np.where(cond)[0]` for a condition on nodes: increasing list of indices.  See `/repo/utlvce/utils.py:124,144,164,182,401,592,1116,1163`. -/
def whereVec {p : Nat} (c : Fin p → Bool) : List (Fin p) := (List.finRange p).filter c

/-- All index pairs of a `p x p` array in row-major order.  See `/repo/utlvce/utils.py:709,727,1006,1111`. -/
def allPairs (p : Nat) : List (Fin p × Fin p) := (List.finRange p).flatMap (fun i => (List.finRange p).map (fun j => (i, j)))

/-- `zip(*np.where(cond))` for a condition on pairs: row-major list of index pairs.  See `/repo/utlvce/utils.py:709,727,735,891,1006,1544`. -/
def wherePairs {p : Nat} (c : Fin p → Fin p → Bool) : List (Fin p × Fin p) :=
  (allPairs p).filter (fun e => c e.1 e.2)

/-- Python's `sorted`: the stable sorting of the list (computed by insertion; a stable sort has only one result).
See `/repo/utlvce/utils.py:845,1145,1265,1271,1397`. -/
def pySorted {α : Type} (le : α → α → Bool) (l : List α) : List α := l.insertionSort (fun a b => le a b = true)

/-- `A.sum()`.  See `/repo/utlvce/utils.py:396,411,897,904`. -/
def sumAll {p : Nat} (A : Adj p) : Int := ∑ i, ∑ j, A i j

/-- `A.sum(axis=0)`.  See `/repo/utlvce/utils.py:401,642`. -/
def colSum {p : Nat} (A : Adj p) (j : Fin p) : Int := ∑ i, A i j

/-- `(A != 0).sum()`, the number of non-zero entries.  See `/repo/utlvce/utils.py:205,233,1144`. -/
def nnz {p : Nat} (A : Adj p) : Nat := (Finset.univ.filter (fun e : Fin p × Fin p => A e.1 e.2 ≠ 0)).card

end Verif
