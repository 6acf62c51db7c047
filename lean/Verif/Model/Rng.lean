import Mathlib.Data.List.Perm.Subperm

/-!
# Random number generator

`np.random.default_rng(seed)` is an oracle: the model takes the outcome of each random draw as a parameter and the
theorems quantify over all outcomes allowed by numpy's documentation.
-/

namespace Verif

/-- Combinatorial draws of a `numpy.random.Generator`: `shuffle` (any permutation) and `choice(l, n, replace=False)` (any
`n` positions of `l` in any order), used at `/repo/utlvce/utils.py:882, 894, 1370` and `/repo/utlvce/generators.py`. -/
structure Rng where
  shuffle : {α : Type} → List α → List α
  shuffle_perm : ∀ {α : Type} (l : List α), (shuffle l).Perm l
  choice : {α : Type} → List α → Nat → List α
  choice_length : ∀ {α : Type} (l : List α) (n : Nat), n ≤ l.length → (choice l n).length = n
  choice_subperm : ∀ {α : Type} (l : List α) (n : Nat), n ≤ l.length → (choice l n).Subperm l

/-- A generator that changes nothing (used in examples).  Not part of `/repo`. -/
def Rng.front : Rng where
  shuffle l := l
  shuffle_perm l := List.Perm.refl l
  choice l n := l.take n
  choice_length l n h := by simp; omega
  choice_subperm l n _ := (List.take_sublist n l).subperm

/-- A generator that reverses (used in examples).  Not part of `/repo`. -/
def Rng.back : Rng where
  shuffle l := l.reverse
  shuffle_perm l := List.reverse_perm l
  choice l n := l.reverse.take n
  choice_length l n h := by simp; omega
  choice_subperm l n _ := (List.take_sublist n l.reverse).subperm.trans (List.reverse_perm l).subperm

end Verif
