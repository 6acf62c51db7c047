import Verif.Props.Enum
import Verif.Props.GraphEdit
import Verif.Props.Meek
import Verif.Props.Paths
import Verif.Props.ListUtils

/-!
# The expected values of the project's own unit tests

Validation of the model, not proofs of properties: the inputs and expected outputs that are written out in
`/repo/utlvce/test/test_utils.py` and `/repo/utlvce/test/test_pdag_to_cpdag.py`, evaluated in the model by the kernel.  Sets are iterated in
increasing order, as CPython does for sets of small numbers.  The tests with random inputs are theorems in `Props/Suite.lean`.
-/

namespace Verif

/-- The call raises the exception. -/
def raises {α : Type} (r : Except Err α) (e : Err) : Bool :=
  match r with
  | .ok _ => false
  | .error e' => decide (e' = e)

theorem eq_of_raises {α : Type} {r : Except Err α} {e : Err} (h : raises r e = true) : r = .error e := by
  cases r with
  | ok a => simp [raises] at h
  | error e' =>
    simp only [raises, decide_eq_true_eq] at h
    rw [h]

/-- The call returns the value. -/
def returns {α : Type} [DecidableEq α] (r : Except Err α) (a : α) : Bool :=
  match r with
  | .ok a' => decide (a' = a)
  | .error _ => false

theorem eq_of_okEq' {α : Type} [DecidableEq α] {r : Except Err α} {a : α} (h : returns r a = true) : r = .ok a := by
  cases r with
  | error e => simp [returns] at h
  | ok a' =>
    simp only [returns, decide_eq_true_eq] at h
    rw [h]

/-- The call returns the elements of the list in some order. -/
def okPerm {α : Type} [DecidableEq α] (r : Except Err (List α)) (l : List α) : Bool :=
  match r with
  | .ok l' => l'.isPerm l
  | .error _ => false

-- `test_is_dag_1..3`, `/repo/utlvce/test/test_utils.py:68-93`
example : isDag (SetIter.incr 5) (![![0, 0, 1, 0, 0], ![0, 0, 1, 0, 0], ![0, 0, 0, 1, 1], ![0, 0, 0, 0, 1], ![0, 0, 0, 0, 0]] : Adj 5) = true := by decide +kernel
example : isDag (SetIter.incr 5) (![![0, 0, 1, 0, 0], ![0, 0, 1, 0, 0], ![0, 0, 0, 1, 1], ![1, 0, 0, 0, 1], ![0, 0, 0, 0, 0]] : Adj 5) = false := by decide +kernel
example : isDag (SetIter.incr 5) (![![0, 0, 1, 0, 0], ![0, 0, 1, 0, 0], ![0, 0, 0, 1, 1], ![0, 0, 0, 0, 1], ![0, 0, 0, 1, 0]] : Adj 5) = false := by decide +kernel

-- `test_topological_sort_1, 2`, `/repo/utlvce/test/test_utils.py:95-115`
example : topologicalOrdering (SetIter.incr 5) (![![0, 0, 1, 0, 0], ![0, 0, 1, 0, 0], ![0, 0, 0, 1, 1], ![0, 0, 0, 0, 1], ![0, 0, 0, 0, 0]] : Adj 5) = .ok [1, 0, 2, 3, 4] := eq_of_okEq' (by decide +kernel)
example : topologicalOrdering (SetIter.incr 5) (![![0, 0, 1, 0, 0], ![0, 0, 1, 0, 0], ![0, 0, 0, 1, 1], ![1, 0, 0, 0, 1], ![0, 0, 0, 0, 0]] : Adj 5) = .error .valueError := eq_of_raises (by decide +kernel)

-- `test_neighbors`, `/repo/utlvce/test/test_utils.py:132-146`
example : ∀ i, neighbors i (0 : Adj 4) = ∅ := by decide +kernel
example : [0, 1, 2, 3].map (fun i => neighbors i (![![0, 1, 1, 0], ![0, 0, 1, 0], ![0, 1, 0, 1], ![0, 0, 1, 0]] : Adj 4)) = [∅, {2}, {1, 3}, {2}] := by decide +kernel

-- `test_adj`, `/repo/utlvce/test/test_utils.py:148-162`
example : ∀ i, adj i (0 : Adj 4) = ∅ := by decide +kernel
example : [0, 1, 2, 3].map (fun i => adj i (![![0, 1, 1, 0], ![0, 0, 1, 0], ![0, 1, 0, 1], ![0, 0, 1, 0]] : Adj 4)) = [{1, 2}, {0, 2}, {0, 1, 3}, {2}] := by decide +kernel

-- `test_na`, `/repo/utlvce/test/test_utils.py:164-203`
example : [0, 1, 2, 3].map (fun y => [0, 1, 2, 3].map (fun x => na y x (![![0, 1, 1, 0], ![0, 0, 1, 0], ![0, 1, 0, 1], ![0, 0, 1, 0]] : Adj 4))) =
    [[∅, ∅, ∅, ∅], [{2}, {2}, ∅, {2}], [{1}, ∅, {1, 3}, ∅], [{2}, {2}, ∅, {2}]] := by decide +kernel

-- `test_pa`, `/repo/utlvce/test/test_utils.py:205-219`
example : ∀ i, pa i (0 : Adj 4) = ∅ := by decide +kernel
example : [0, 1, 2, 3].map (fun i => pa i (![![0, 1, 1, 0], ![0, 0, 1, 0], ![0, 1, 0, 1], ![0, 0, 1, 0]] : Adj 4)) = [∅, {0}, {0}, ∅] := by decide +kernel

-- `test_ch`, `/repo/utlvce/test/test_utils.py:221-235`
example : ∀ i, ch i (0 : Adj 4) = ∅ := by decide +kernel
example : [0, 1, 2, 3].map (fun i => ch i (![![0, 1, 1, 0], ![0, 0, 1, 0], ![0, 1, 0, 1], ![0, 0, 1, 0]] : Adj 4)) = [{1, 2}, ∅, ∅, ∅] := by decide +kernel

-- `test_is_clique`, `/repo/utlvce/test/test_utils.py:237-258`
example : [{0}, {1}, {2}, {3}, {0, 1}, {0, 2}, {0, 3}, {1, 2}, {1, 3}, {2, 3}, {0, 1, 2}, {0, 1, 3}, {0, 2, 3}, {1, 2, 3}, {0, 1, 2, 3}].map (fun S => isClique S (![![0, 1, 1, 0], ![0, 0, 1, 0], ![0, 1, 0, 1], ![0, 0, 1, 0]] : Adj 4)) =
    [true, true, true, true, true, true, false, true, false, true, true, false, false, false, false] := by decide +kernel

-- `test_semi_directed_paths_1`, `/repo/utlvce/test/test_utils.py:260-317`
example : okPerm (semiDirectedPaths (SetIter.incr 4) 0 1 (![![0, 1, 1, 0], ![0, 0, 1, 0], ![0, 1, 0, 1], ![0, 0, 1, 0]] : Adj 4)) [[0, 1], [0, 2, 1]] = true := by decide +kernel
example : okPerm (semiDirectedPaths (SetIter.incr 4) 1 0 (![![0, 1, 1, 0], ![0, 0, 1, 0], ![0, 1, 0, 1], ![0, 0, 1, 0]] : Adj 4)) [] = true := by decide +kernel
example : okPerm (semiDirectedPaths (SetIter.incr 4) 0 2 (![![0, 1, 1, 0], ![0, 0, 1, 0], ![0, 1, 0, 1], ![0, 0, 1, 0]] : Adj 4)) [[0, 2], [0, 1, 2]] = true := by decide +kernel
example : okPerm (semiDirectedPaths (SetIter.incr 4) 2 0 (![![0, 1, 1, 0], ![0, 0, 1, 0], ![0, 1, 0, 1], ![0, 0, 1, 0]] : Adj 4)) [] = true := by decide +kernel
example : okPerm (semiDirectedPaths (SetIter.incr 4) 0 3 (![![0, 1, 1, 0], ![0, 0, 1, 0], ![0, 1, 0, 1], ![0, 0, 1, 0]] : Adj 4)) [[0, 2, 3], [0, 1, 2, 3]] = true := by decide +kernel
example : okPerm (semiDirectedPaths (SetIter.incr 4) 3 0 (![![0, 1, 1, 0], ![0, 0, 1, 0], ![0, 1, 0, 1], ![0, 0, 1, 0]] : Adj 4)) [] = true := by decide +kernel
example : okPerm (semiDirectedPaths (SetIter.incr 4) 1 2 (![![0, 1, 1, 0], ![0, 0, 1, 0], ![0, 1, 0, 1], ![0, 0, 1, 0]] : Adj 4)) [[1, 2]] = true := by decide +kernel
example : okPerm (semiDirectedPaths (SetIter.incr 4) 2 1 (![![0, 1, 1, 0], ![0, 0, 1, 0], ![0, 1, 0, 1], ![0, 0, 1, 0]] : Adj 4)) [[2, 1]] = true := by decide +kernel
example : okPerm (semiDirectedPaths (SetIter.incr 4) 1 3 (![![0, 1, 1, 0], ![0, 0, 1, 0], ![0, 1, 0, 1], ![0, 0, 1, 0]] : Adj 4)) [[1, 2, 3]] = true := by decide +kernel
example : okPerm (semiDirectedPaths (SetIter.incr 4) 3 1 (![![0, 1, 1, 0], ![0, 0, 1, 0], ![0, 1, 0, 1], ![0, 0, 1, 0]] : Adj 4)) [[3, 2, 1]] = true := by decide +kernel
example : okPerm (semiDirectedPaths (SetIter.incr 4) 2 3 (![![0, 1, 1, 0], ![0, 0, 1, 0], ![0, 1, 0, 1], ![0, 0, 1, 0]] : Adj 4)) [[2, 3]] = true := by decide +kernel
example : okPerm (semiDirectedPaths (SetIter.incr 4) 3 2 (![![0, 1, 1, 0], ![0, 0, 1, 0], ![0, 1, 0, 1], ![0, 0, 1, 0]] : Adj 4)) [[3, 2]] = true := by decide +kernel

-- `test_semi_directed_paths_3, with the simple paths written out`, `/repo/utlvce/test/test_utils.py:338-352`
example : okPerm (semiDirectedPaths (SetIter.incr 4) 0 1 (![![0, 1, 0, 0], ![1, 0, 1, 1], ![0, 1, 0, 1], ![0, 1, 1, 0]] : Adj 4)) [[0, 1]] = true := by decide +kernel
example : okPerm (semiDirectedPaths (SetIter.incr 4) 0 2 (![![0, 1, 0, 0], ![1, 0, 1, 1], ![0, 1, 0, 1], ![0, 1, 1, 0]] : Adj 4)) [[0, 1, 2], [0, 1, 3, 2]] = true := by decide +kernel
example : okPerm (semiDirectedPaths (SetIter.incr 4) 0 3 (![![0, 1, 0, 0], ![1, 0, 1, 1], ![0, 1, 0, 1], ![0, 1, 1, 0]] : Adj 4)) [[0, 1, 2, 3], [0, 1, 3]] = true := by decide +kernel
example : okPerm (semiDirectedPaths (SetIter.incr 4) 1 0 (![![0, 1, 0, 0], ![1, 0, 1, 1], ![0, 1, 0, 1], ![0, 1, 1, 0]] : Adj 4)) [[1, 0]] = true := by decide +kernel
example : okPerm (semiDirectedPaths (SetIter.incr 4) 1 2 (![![0, 1, 0, 0], ![1, 0, 1, 1], ![0, 1, 0, 1], ![0, 1, 1, 0]] : Adj 4)) [[1, 2], [1, 3, 2]] = true := by decide +kernel
example : okPerm (semiDirectedPaths (SetIter.incr 4) 1 3 (![![0, 1, 0, 0], ![1, 0, 1, 1], ![0, 1, 0, 1], ![0, 1, 1, 0]] : Adj 4)) [[1, 2, 3], [1, 3]] = true := by decide +kernel
example : okPerm (semiDirectedPaths (SetIter.incr 4) 2 0 (![![0, 1, 0, 0], ![1, 0, 1, 1], ![0, 1, 0, 1], ![0, 1, 1, 0]] : Adj 4)) [[2, 1, 0], [2, 3, 1, 0]] = true := by decide +kernel
example : okPerm (semiDirectedPaths (SetIter.incr 4) 2 1 (![![0, 1, 0, 0], ![1, 0, 1, 1], ![0, 1, 0, 1], ![0, 1, 1, 0]] : Adj 4)) [[2, 1], [2, 3, 1]] = true := by decide +kernel
example : okPerm (semiDirectedPaths (SetIter.incr 4) 2 3 (![![0, 1, 0, 0], ![1, 0, 1, 1], ![0, 1, 0, 1], ![0, 1, 1, 0]] : Adj 4)) [[2, 1, 3], [2, 3]] = true := by decide +kernel
example : okPerm (semiDirectedPaths (SetIter.incr 4) 3 0 (![![0, 1, 0, 0], ![1, 0, 1, 1], ![0, 1, 0, 1], ![0, 1, 1, 0]] : Adj 4)) [[3, 1, 0], [3, 2, 1, 0]] = true := by decide +kernel
example : okPerm (semiDirectedPaths (SetIter.incr 4) 3 1 (![![0, 1, 0, 0], ![1, 0, 1, 1], ![0, 1, 0, 1], ![0, 1, 1, 0]] : Adj 4)) [[3, 1], [3, 2, 1]] = true := by decide +kernel
example : okPerm (semiDirectedPaths (SetIter.incr 4) 3 2 (![![0, 1, 0, 0], ![1, 0, 1, 1], ![0, 1, 0, 1], ![0, 1, 1, 0]] : Adj 4)) [[3, 1, 2], [3, 2]] = true := by decide +kernel

-- `test_skeleton`, `/repo/utlvce/test/test_utils.py:354-379`
example : ∀ i j, skeleton (![![0, 1, 1, 0], ![1, 0, 1, 0], ![1, 1, 0, 1], ![0, 0, 1, 0]] : Adj 4) i j = (![![0, 1, 1, 0], ![1, 0, 1, 0], ![1, 1, 0, 1], ![0, 0, 1, 0]] : Adj 4) i j := by decide +kernel
example : ∀ i j, skeleton (![![0, 1, 1, 0], ![0, 0, 1, 0], ![0, 0, 0, 1], ![0, 0, 0, 0]] : Adj 4) i j = (![![0, 1, 1, 0], ![1, 0, 1, 0], ![1, 1, 0, 1], ![0, 0, 1, 0]] : Adj 4) i j := by decide +kernel
example : ∀ i j, skeleton (![![0, 1, 1, 0], ![1, 0, 1, 0], ![0, 0, 0, 1], ![0, 0, 1, 0]] : Adj 4) i j = (![![0, 1, 1, 0], ![1, 0, 1, 0], ![1, 1, 0, 1], ![0, 0, 1, 0]] : Adj 4) i j := by decide +kernel
example : ∀ i j, skeleton (![![0, 1, 1, 0], ![0, 0, 1, 0], ![0, 0, 0, 1], ![0, 0, 1, 0]] : Adj 4) i j = (![![0, 1, 1, 0], ![1, 0, 1, 0], ![1, 1, 0, 1], ![0, 0, 1, 0]] : Adj 4) i j := by decide +kernel

-- `test_only_directed` (the weights 0.5 and 1 as 5 and 10; arbitrary weights: C04), `/repo/utlvce/test/test_utils.py:381-402`
example : ∀ i j, onlyDirected (![![0, 1, 1, 0], ![1, 0, 1, 0], ![1, 1, 0, 1], ![0, 0, 1, 0]] : Adj 4) i j = 0 := by decide +kernel
example : ∀ i j, onlyDirected (![![0, 5, 10, 0], ![0, 0, 10, 0], ![0, 10, 0, 10], ![0, 0, 10, 0]] : Adj 4) i j = (![![0, 5, 10, 0], ![0, 0, 0, 0], ![0, 0, 0, 0], ![0, 0, 0, 0]] : Adj 4) i j := by decide +kernel

-- `test_only_undirected`, `/repo/utlvce/test/test_utils.py:404-431`
example : ∀ i j, onlyUndirected (![![0, 1, 1, 0], ![0, 0, 1, 0], ![0, 0, 0, 1], ![0, 0, 0, 0]] : Adj 4) i j = 0 := by decide +kernel
example : ∀ i j, onlyUndirected (![![0, 1, 1, 0], ![0, 0, 1, 0], ![0, 1, 0, 1], ![0, 0, 1, 0]] : Adj 4) i j = (![![0, 0, 0, 0], ![0, 0, 1, 0], ![0, 1, 0, 1], ![0, 0, 1, 0]] : Adj 4) i j := by decide +kernel

-- `test_vstructures`, `/repo/utlvce/test/test_utils.py:433-482`
example : vstructures (SetIter.incr 4) (![![0, 1, 1, 0], ![1, 0, 1, 0], ![1, 1, 0, 1], ![0, 0, 1, 0]] : Adj 4) = ∅ := by decide +kernel
example : vstructures (SetIter.incr 4) (![![0, 1, 1, 0], ![0, 0, 1, 0], ![0, 0, 0, 1], ![0, 0, 0, 0]] : Adj 4) = ∅ := by decide +kernel
example : vstructures (SetIter.incr 4) (![![0, 1, 1, 0], ![0, 0, 1, 0], ![0, 0, 0, 0], ![0, 0, 1, 0]] : Adj 4) = {(1, 2, 3), (0, 2, 3)} := by decide +kernel
example : vstructures (SetIter.incr 3) (![![0, 0, 1], ![0, 0, 1], ![0, 0, 0]] : Adj 3) = {(0, 2, 1)} := by decide +kernel
example : vstructures (SetIter.incr 4) (![![0, 1, 1, 0], ![1, 0, 1, 0], ![0, 0, 0, 0], ![0, 0, 1, 0]] : Adj 4) = {(1, 2, 3), (0, 2, 3)} := by decide +kernel
example : vstructures (SetIter.incr 4) (![![0, 1, 1, 0], ![1, 0, 1, 0], ![0, 0, 0, 1], ![0, 0, 0, 0]] : Adj 4) = ∅ := by decide +kernel
example : vstructures (SetIter.incr 4) (![![0, 1, 1, 0], ![1, 0, 1, 0], ![0, 0, 0, 1], ![0, 0, 1, 0]] : Adj 4) = ∅ := by decide +kernel
example : vstructures (SetIter.incr 3) (![![0, 0, 1], ![0, 0, 1], ![0, 1, 0]] : Adj 3) = ∅ := by decide +kernel

-- `test_is_consistent_extension_precondition`, `/repo/utlvce/test/test_utils.py:484-504`
example : isConsistentExtension (SetIter.incr 4) (![![0, 0, 1, 0], ![1, 0, 0, 0], ![0, 1, 0, 1], ![0, 0, 1, 0]] : Adj 4) (![![0, 1, 1, 0], ![1, 0, 1, 0], ![0, 1, 0, 1], ![0, 0, 1, 0]] : Adj 4) = .error .valueError := eq_of_raises (by decide +kernel)
example : isConsistentExtension (SetIter.incr 4) (![![0, 1, 1, 0], ![0, 0, 1, 0], ![0, 0, 0, 1], ![0, 0, 1, 0]] : Adj 4) (![![0, 1, 1, 0], ![1, 0, 1, 0], ![0, 1, 0, 1], ![0, 0, 1, 0]] : Adj 4) = .error .valueError := eq_of_raises (by decide +kernel)

-- `test_is_consistent_extension_1`, `/repo/utlvce/test/test_utils.py:506-533`
example : isConsistentExtension (SetIter.incr 4) (![![0, 1, 1, 0], ![0, 0, 1, 0], ![0, 0, 0, 1], ![0, 0, 0, 0]] : Adj 4) (![![0, 1, 1, 0], ![1, 0, 1, 0], ![0, 1, 0, 1], ![0, 0, 1, 0]] : Adj 4) = .ok true := eq_of_okEq' (by decide +kernel)
example : isConsistentExtension (SetIter.incr 4) (![![0, 1, 1, 0], ![0, 0, 1, 0], ![0, 0, 0, 0], ![0, 0, 1, 0]] : Adj 4) (![![0, 1, 1, 0], ![1, 0, 1, 0], ![0, 1, 0, 1], ![0, 0, 1, 0]] : Adj 4) = .ok false := eq_of_okEq' (by decide +kernel)
example : isConsistentExtension (SetIter.incr 4) (![![0, 1, 1, 0], ![0, 0, 0, 0], ![0, 1, 0, 0], ![0, 0, 1, 0]] : Adj 4) (![![0, 1, 1, 0], ![1, 0, 1, 0], ![0, 1, 0, 1], ![0, 0, 1, 0]] : Adj 4) = .ok false := eq_of_okEq' (by decide +kernel)
example : isConsistentExtension (SetIter.incr 4) (![![0, 1, 1, 0], ![0, 0, 1, 1], ![0, 0, 0, 1], ![0, 0, 0, 0]] : Adj 4) (![![0, 1, 1, 0], ![1, 0, 1, 0], ![0, 1, 0, 1], ![0, 0, 1, 0]] : Adj 4) = .ok false := eq_of_okEq' (by decide +kernel)
example : isConsistentExtension (SetIter.incr 4) (![![0, 0, 0, 0], ![1, 0, 1, 0], ![1, 0, 0, 1], ![0, 0, 0, 0]] : Adj 4) (![![0, 1, 1, 0], ![1, 0, 1, 0], ![0, 1, 0, 1], ![0, 0, 1, 0]] : Adj 4) = .ok false := eq_of_okEq' (by decide +kernel)

-- `test_is_consistent_extension_2`, `/repo/utlvce/test/test_utils.py:535-564`
example : isConsistentExtension (SetIter.incr 4) (![![0, 0, 1, 0], ![1, 0, 1, 0], ![0, 0, 0, 1], ![0, 0, 0, 0]] : Adj 4) (![![0, 1, 1, 0], ![1, 0, 1, 0], ![0, 0, 0, 1], ![0, 0, 1, 0]] : Adj 4) = .ok true := eq_of_okEq' (by decide +kernel)
example : isConsistentExtension (SetIter.incr 4) (![![0, 1, 1, 0], ![0, 0, 1, 0], ![0, 0, 0, 1], ![0, 0, 0, 0]] : Adj 4) (![![0, 1, 1, 0], ![1, 0, 1, 0], ![0, 0, 0, 1], ![0, 0, 1, 0]] : Adj 4) = .ok true := eq_of_okEq' (by decide +kernel)
example : isConsistentExtension (SetIter.incr 4) (![![0, 0, 1, 0], ![1, 0, 1, 0], ![0, 0, 0, 0], ![0, 0, 1, 0]] : Adj 4) (![![0, 1, 1, 0], ![1, 0, 1, 0], ![0, 0, 0, 1], ![0, 0, 1, 0]] : Adj 4) = .ok false := eq_of_okEq' (by decide +kernel)
example : isConsistentExtension (SetIter.incr 4) (![![0, 1, 1, 0], ![0, 0, 1, 0], ![0, 0, 0, 0], ![0, 0, 1, 0]] : Adj 4) (![![0, 1, 1, 0], ![1, 0, 1, 0], ![0, 0, 0, 1], ![0, 0, 1, 0]] : Adj 4) = .ok false := eq_of_okEq' (by decide +kernel)

-- `test_separates_preconditions`, `/repo/utlvce/test/test_utils.py:566-595`
example : separates (SetIter.incr 5) {1} {1, 2} {3, 4} (![![0, 0, 1, 0, 0], ![0, 0, 1, 0, 0], ![1, 1, 0, 1, 1], ![0, 0, 0, 0, 0], ![0, 0, 0, 0, 0]] : Adj 5) = .error .valueError := eq_of_raises (by decide +kernel)
example : separates (SetIter.incr 5) {0, 1} {2} {0, 3, 4} (![![0, 0, 1, 0, 0], ![0, 0, 1, 0, 0], ![1, 1, 0, 1, 1], ![0, 0, 0, 0, 0], ![0, 0, 0, 0, 0]] : Adj 5) = .error .valueError := eq_of_raises (by decide +kernel)
example : separates (SetIter.incr 5) {0, 1} {2, 3} {3, 4} (![![0, 0, 1, 0, 0], ![0, 0, 1, 0, 0], ![1, 1, 0, 1, 1], ![0, 0, 0, 0, 0], ![0, 0, 0, 0, 0]] : Adj 5) = .error .valueError := eq_of_raises (by decide +kernel)
example : separates (SetIter.incr 5) {0, 1} {0, 2, 3} {1, 3, 4} (![![0, 0, 1, 0, 0], ![0, 0, 1, 0, 0], ![1, 1, 0, 1, 1], ![0, 0, 0, 0, 0], ![0, 0, 0, 0, 0]] : Adj 5) = .error .valueError := eq_of_raises (by decide +kernel)

-- `test_separates_1`, `/repo/utlvce/test/test_utils.py:597-609`
example : separates (SetIter.incr 5) {2} {0, 1} {3, 4} (![![0, 0, 1, 0, 0], ![0, 0, 1, 0, 0], ![1, 1, 0, 1, 1], ![0, 0, 0, 0, 0], ![0, 0, 0, 0, 0]] : Adj 5) = .ok true := eq_of_okEq' (by decide +kernel)
example : separates (SetIter.incr 5) {2} {3, 4} {0, 1} (![![0, 0, 1, 0, 0], ![0, 0, 1, 0, 0], ![1, 1, 0, 1, 1], ![0, 0, 0, 0, 0], ![0, 0, 0, 0, 0]] : Adj 5) = .ok true := eq_of_okEq' (by decide +kernel)
example : separates (SetIter.incr 5) ∅ {0, 1} {3, 4} (![![0, 0, 1, 0, 0], ![0, 0, 1, 0, 0], ![1, 1, 0, 1, 1], ![0, 0, 0, 0, 0], ![0, 0, 0, 0, 0]] : Adj 5) = .ok false := eq_of_okEq' (by decide +kernel)
example : separates (SetIter.incr 5) ∅ {3, 4} {0, 1} (![![0, 0, 1, 0, 0], ![0, 0, 1, 0, 0], ![1, 1, 0, 1, 1], ![0, 0, 0, 0, 0], ![0, 0, 0, 0, 0]] : Adj 5) = .ok true := eq_of_okEq' (by decide +kernel)
example : separates (SetIter.incr 5) ∅ {3} {0} (![![0, 0, 1, 0, 0], ![0, 0, 1, 0, 0], ![1, 1, 0, 1, 1], ![0, 0, 0, 0, 0], ![0, 0, 0, 0, 0]] : Adj 5) = .ok true := eq_of_okEq' (by decide +kernel)
example : separates (SetIter.incr 5) ∅ {0} {3} (![![0, 0, 1, 0, 0], ![0, 0, 1, 0, 0], ![1, 1, 0, 1, 1], ![0, 0, 0, 0, 0], ![0, 0, 0, 0, 0]] : Adj 5) = .ok false := eq_of_okEq' (by decide +kernel)
example : separates (SetIter.incr 5) {2} {0} {3} (![![0, 0, 1, 0, 0], ![0, 0, 1, 0, 0], ![1, 1, 0, 1, 1], ![0, 0, 0, 0, 0], ![0, 0, 0, 0, 0]] : Adj 5) = .ok true := eq_of_okEq' (by decide +kernel)

-- `test_separates_2`, `/repo/utlvce/test/test_utils.py:611-620`
example : separates (SetIter.incr 5) {2} {0, 1} {3, 4} (![![0, 0, 1, 0, 0], ![0, 0, 1, 0, 1], ![1, 1, 0, 1, 1], ![0, 0, 1, 0, 1], ![0, 0, 1, 1, 0]] : Adj 5) = .ok false := eq_of_okEq' (by decide +kernel)
example : separates (SetIter.incr 5) {2} {0} {3, 4} (![![0, 0, 1, 0, 0], ![0, 0, 1, 0, 1], ![1, 1, 0, 1, 1], ![0, 0, 1, 0, 1], ![0, 0, 1, 1, 0]] : Adj 5) = .ok true := eq_of_okEq' (by decide +kernel)
example : separates (SetIter.incr 5) {2, 1} {0} {3, 4} (![![0, 0, 1, 0, 0], ![0, 0, 1, 0, 1], ![1, 1, 0, 1, 1], ![0, 0, 1, 0, 1], ![0, 0, 1, 1, 0]] : Adj 5) = .ok true := eq_of_okEq' (by decide +kernel)
example : separates (SetIter.incr 5) {2, 4} {1} {3} (![![0, 0, 1, 0, 0], ![0, 0, 1, 0, 1], ![1, 1, 0, 1, 1], ![0, 0, 1, 0, 1], ![0, 0, 1, 1, 0]] : Adj 5) = .ok true := eq_of_okEq' (by decide +kernel)

-- `test_chain_component_1`, `/repo/utlvce/test/test_utils.py:622-634`
example : chainComponent (SetIter.incr 5) 0 (![![0, 0, 1, 0, 0], ![0, 0, 1, 0, 0], ![0, 0, 0, 1, 1], ![0, 0, 1, 0, 0], ![0, 0, 1, 0, 0]] : Adj 5) = .ok {0} := eq_of_okEq' (by decide +kernel)
example : chainComponent (SetIter.incr 5) 1 (![![0, 0, 1, 0, 0], ![0, 0, 1, 0, 0], ![0, 0, 0, 1, 1], ![0, 0, 1, 0, 0], ![0, 0, 1, 0, 0]] : Adj 5) = .ok {1} := eq_of_okEq' (by decide +kernel)
example : chainComponent (SetIter.incr 5) 2 (![![0, 0, 1, 0, 0], ![0, 0, 1, 0, 0], ![0, 0, 0, 1, 1], ![0, 0, 1, 0, 0], ![0, 0, 1, 0, 0]] : Adj 5) = .ok {2, 3, 4} := eq_of_okEq' (by decide +kernel)
example : chainComponent (SetIter.incr 5) 3 (![![0, 0, 1, 0, 0], ![0, 0, 1, 0, 0], ![0, 0, 0, 1, 1], ![0, 0, 1, 0, 0], ![0, 0, 1, 0, 0]] : Adj 5) = .ok {2, 3, 4} := eq_of_okEq' (by decide +kernel)
example : chainComponent (SetIter.incr 5) 4 (![![0, 0, 1, 0, 0], ![0, 0, 1, 0, 0], ![0, 0, 0, 1, 1], ![0, 0, 1, 0, 0], ![0, 0, 1, 0, 0]] : Adj 5) = .ok {2, 3, 4} := eq_of_okEq' (by decide +kernel)

-- `test_chain_component_2`, `/repo/utlvce/test/test_utils.py:636-654`
example : chainComponent (SetIter.incr 8) 0 (![![0, 1, 0, 1, 0, 0, 0, 0], ![0, 0, 0, 1, 0, 0, 0, 0], ![0, 1, 0, 0, 0, 0, 0, 0], ![1, 1, 0, 0, 0, 0, 0, 0], ![0, 0, 0, 1, 0, 1, 1, 1], ![0, 0, 0, 0, 1, 0, 0, 0], ![0, 0, 0, 0, 0, 0, 0, 0], ![0, 0, 0, 0, 1, 1, 1, 0]] : Adj 8) = .ok {0, 1, 3} := eq_of_okEq' (by decide +kernel)
example : chainComponent (SetIter.incr 8) 1 (![![0, 1, 0, 1, 0, 0, 0, 0], ![0, 0, 0, 1, 0, 0, 0, 0], ![0, 1, 0, 0, 0, 0, 0, 0], ![1, 1, 0, 0, 0, 0, 0, 0], ![0, 0, 0, 1, 0, 1, 1, 1], ![0, 0, 0, 0, 1, 0, 0, 0], ![0, 0, 0, 0, 0, 0, 0, 0], ![0, 0, 0, 0, 1, 1, 1, 0]] : Adj 8) = .ok {0, 1, 3} := eq_of_okEq' (by decide +kernel)
example : chainComponent (SetIter.incr 8) 2 (![![0, 1, 0, 1, 0, 0, 0, 0], ![0, 0, 0, 1, 0, 0, 0, 0], ![0, 1, 0, 0, 0, 0, 0, 0], ![1, 1, 0, 0, 0, 0, 0, 0], ![0, 0, 0, 1, 0, 1, 1, 1], ![0, 0, 0, 0, 1, 0, 0, 0], ![0, 0, 0, 0, 0, 0, 0, 0], ![0, 0, 0, 0, 1, 1, 1, 0]] : Adj 8) = .ok {2} := eq_of_okEq' (by decide +kernel)
example : chainComponent (SetIter.incr 8) 3 (![![0, 1, 0, 1, 0, 0, 0, 0], ![0, 0, 0, 1, 0, 0, 0, 0], ![0, 1, 0, 0, 0, 0, 0, 0], ![1, 1, 0, 0, 0, 0, 0, 0], ![0, 0, 0, 1, 0, 1, 1, 1], ![0, 0, 0, 0, 1, 0, 0, 0], ![0, 0, 0, 0, 0, 0, 0, 0], ![0, 0, 0, 0, 1, 1, 1, 0]] : Adj 8) = .ok {0, 1, 3} := eq_of_okEq' (by decide +kernel)
example : chainComponent (SetIter.incr 8) 4 (![![0, 1, 0, 1, 0, 0, 0, 0], ![0, 0, 0, 1, 0, 0, 0, 0], ![0, 1, 0, 0, 0, 0, 0, 0], ![1, 1, 0, 0, 0, 0, 0, 0], ![0, 0, 0, 1, 0, 1, 1, 1], ![0, 0, 0, 0, 1, 0, 0, 0], ![0, 0, 0, 0, 0, 0, 0, 0], ![0, 0, 0, 0, 1, 1, 1, 0]] : Adj 8) = .ok {4, 5, 7} := eq_of_okEq' (by decide +kernel)
example : chainComponent (SetIter.incr 8) 5 (![![0, 1, 0, 1, 0, 0, 0, 0], ![0, 0, 0, 1, 0, 0, 0, 0], ![0, 1, 0, 0, 0, 0, 0, 0], ![1, 1, 0, 0, 0, 0, 0, 0], ![0, 0, 0, 1, 0, 1, 1, 1], ![0, 0, 0, 0, 1, 0, 0, 0], ![0, 0, 0, 0, 0, 0, 0, 0], ![0, 0, 0, 0, 1, 1, 1, 0]] : Adj 8) = .ok {4, 5, 7} := eq_of_okEq' (by decide +kernel)
example : chainComponent (SetIter.incr 8) 6 (![![0, 1, 0, 1, 0, 0, 0, 0], ![0, 0, 0, 1, 0, 0, 0, 0], ![0, 1, 0, 0, 0, 0, 0, 0], ![1, 1, 0, 0, 0, 0, 0, 0], ![0, 0, 0, 1, 0, 1, 1, 1], ![0, 0, 0, 0, 1, 0, 0, 0], ![0, 0, 0, 0, 0, 0, 0, 0], ![0, 0, 0, 0, 1, 1, 1, 0]] : Adj 8) = .ok {6} := eq_of_okEq' (by decide +kernel)
example : chainComponent (SetIter.incr 8) 7 (![![0, 1, 0, 1, 0, 0, 0, 0], ![0, 0, 0, 1, 0, 0, 0, 0], ![0, 1, 0, 0, 0, 0, 0, 0], ![1, 1, 0, 0, 0, 0, 0, 0], ![0, 0, 0, 1, 0, 1, 1, 1], ![0, 0, 0, 0, 1, 0, 0, 0], ![0, 0, 0, 0, 0, 0, 0, 0], ![0, 0, 0, 0, 1, 1, 1, 0]] : Adj 8) = .ok {4, 5, 7} := eq_of_okEq' (by decide +kernel)

-- `test_induced_graph_2`, `/repo/utlvce/test/test_utils.py:704-737`
example : ∀ S ∈ ([∅, {0}, {1}, {2}, {3}, {4}, {0, 1}, {0, 3}, {0, 4}, {3, 4}, {1, 3}, {1, 4}] : List (Finset (Fin 5))), ∀ i j,
    inducedSubgraph S (![![0, 0, 1, 0, 0], ![0, 0, 1, 0, 0], ![0, 0, 0, 1, 1], ![0, 0, 1, 0, 0], ![0, 0, 1, 0, 0]] : Adj 5) i j = 0 := by decide +kernel
example : ∀ i j, inducedSubgraph {0, 1, 2} (![![0, 0, 1, 0, 0], ![0, 0, 1, 0, 0], ![0, 0, 0, 1, 1], ![0, 0, 1, 0, 0], ![0, 0, 1, 0, 0]] : Adj 5) i j = (![![0, 0, 1, 0, 0], ![0, 0, 1, 0, 0], ![0, 0, 0, 0, 0], ![0, 0, 0, 0, 0], ![0, 0, 0, 0, 0]] : Adj 5) i j := by decide +kernel
example : ∀ i j, inducedSubgraph {0, 2, 3} (![![0, 0, 1, 0, 0], ![0, 0, 1, 0, 0], ![0, 0, 0, 1, 1], ![0, 0, 1, 0, 0], ![0, 0, 1, 0, 0]] : Adj 5) i j = (![![0, 0, 1, 0, 0], ![0, 0, 0, 0, 0], ![0, 0, 0, 1, 0], ![0, 0, 1, 0, 0], ![0, 0, 0, 0, 0]] : Adj 5) i j := by decide +kernel
example : ∀ i j, inducedSubgraph {1, 2, 3, 4} (![![0, 0, 1, 0, 0], ![0, 0, 1, 0, 0], ![0, 0, 0, 1, 1], ![0, 0, 1, 0, 0], ![0, 0, 1, 0, 0]] : Adj 5) i j = (![![0, 0, 0, 0, 0], ![0, 0, 1, 0, 0], ![0, 0, 0, 1, 1], ![0, 0, 1, 0, 0], ![0, 0, 1, 0, 0]] : Adj 5) i j := by decide +kernel

-- `test_sort_2`, `/repo/utlvce/test/test_utils.py:757-771`
example : sortBy ([3, 6, 1, 2, 0] : List (Fin 7)) [0, 2, 4, 6, 1, 3, 5] = .ok [0, 2, 6, 1, 3] := eq_of_okEq' (by decide +kernel)
example : sortBy ([0, 1, 0, 6, 1, 9, 9, 4] : List (Fin 10)) [0, 2, 4, 6, 8, 1, 3, 5, 7, 9] = .ok [0, 0, 4, 6, 1, 1, 9, 9] := eq_of_okEq' (by decide +kernel)
example : sortBy ([8, 8, 1, 9, 7, 1, 3, 0, 2, 4, 0, 1, 3, 7, 5] : List (Fin 11)) [7, 3, 6, 5, 0, 4, 1, 2, 6, 8, 9] = .ok [7, 7, 3, 3, 5, 0, 0, 4, 1, 1, 1, 2, 8, 8, 9] := eq_of_okEq' (by decide +kernel)

-- `test_all_dags_2..5`, `/repo/utlvce/test/test_utils.py:854-920`
example : okPerm (allDags (SetIter.incr 3) (![![0, 1, 0], ![1, 0, 1], ![0, 1, 0]] : Adj 3)) [![![0, 0, 0], ![1, 0, 1], ![0, 0, 0]], ![![0, 1, 0], ![0, 0, 1], ![0, 0, 0]], ![![0, 0, 0], ![1, 0, 0], ![0, 1, 0]]] = true := by decide +kernel
example : okPerm (allDags (SetIter.incr 3) (![![0, 1, 0], ![0, 0, 0], ![0, 1, 0]] : Adj 3)) [![![0, 1, 0], ![0, 0, 0], ![0, 1, 0]]] = true := by decide +kernel
example : okPerm (allDags (SetIter.incr 3) (![![0, 1, 0], ![0, 0, 1], ![0, 1, 0]] : Adj 3)) [![![0, 1, 0], ![0, 0, 1], ![0, 0, 0]]] = true := by decide +kernel
example : okPerm (allDags (SetIter.incr 5) (![![0, 0, 1, 0, 0], ![0, 0, 1, 0, 0], ![0, 1, 0, 1, 1], ![0, 0, 1, 0, 1], ![0, 0, 1, 1, 0]] : Adj 5)) [![![0, 0, 1, 0, 0], ![0, 0, 0, 0, 0], ![0, 1, 0, 1, 1], ![0, 0, 0, 0, 1], ![0, 0, 0, 0, 0]], ![![0, 0, 1, 0, 0], ![0, 0, 0, 0, 0], ![0, 1, 0, 1, 1], ![0, 0, 0, 0, 0], ![0, 0, 0, 1, 0]]] = true := by decide +kernel

-- `test_is_complete_1`, `/repo/utlvce/test/test_utils.py:922-930`
example : isComplete (fun i j : Fin 5 => if i = j then 0 else 1) = true := by decide +kernel
example : isComplete (fun i j : Fin 5 => if i < j then 1 else 0) = true := by decide +kernel

-- `test_degrees_2`, `/repo/utlvce/test/test_utils.py:954-966`
example : ∀ i, degrees (![![0, 1, 0, 0], ![0, 0, 1, 1], ![0, 0, 0, 1], ![0, 0, 0, 0]] : Adj 4) i = ![1, 3, 2, 2] i := by decide +kernel

-- `test_moral_graph_2, 3`, `/repo/utlvce/test/test_utils.py:979-1001`
example : ∀ i j, moralGraph (SetIter.incr 3) (![![0, 1, 0], ![0, 0, 0], ![0, 1, 0]] : Adj 3) i j = (![![0, 1, 1], ![1, 0, 1], ![1, 1, 0]] : Adj 3) i j := by decide +kernel
example : ∀ i j, moralGraph (SetIter.incr 5) (![![0, 0, 1, 0, 0], ![0, 0, 1, 0, 0], ![0, 0, 0, 1, 1], ![0, 0, 0, 0, 1], ![0, 0, 0, 0, 0]] : Adj 5) i j = (![![0, 1, 1, 0, 0], ![1, 0, 1, 0, 0], ![1, 1, 0, 1, 1], ![0, 0, 1, 0, 1], ![0, 0, 1, 1, 0]] : Adj 5) i j := by decide +kernel

-- `test_supergraph_1` (a function inside another test, never run by unittest), `/repo/utlvce/test/test_utils.py:1104-1127`
example : isSupergraph (![![0, 1, 1], ![0, 0, 0], ![0, 0, 0]] : Adj 3) (![![0, 1, 0], ![0, 0, 0], ![0, 0, 0]] : Adj 3) = true := by decide +kernel
example : isSupergraph (![![0, 1, 0], ![0, 0, 0], ![0, 0, 0]] : Adj 3) (![![0, 1, 1], ![0, 0, 0], ![0, 0, 0]] : Adj 3) = false := by decide +kernel
example : isSupergraph (![![0, 1, 0], ![0, 0, 1], ![0, 0, 0]] : Adj 3) (![![0, 1, 0], ![0, 0, 0], ![0, 0, 0]] : Adj 3) = true := by decide +kernel
example : isSupergraph (![![0, 1, 0], ![0, 0, 0], ![0, 0, 0]] : Adj 3) (![![0, 1, 0], ![0, 0, 1], ![0, 0, 0]] : Adj 3) = false := by decide +kernel
example : isSupergraph (![![0, 1, 0], ![0, 0, 0], ![0, 0, 0]] : Adj 3) (![![0, 0, 0], ![1, 0, 0], ![0, 0, 0]] : Adj 3) = false := by decide +kernel
example : isSupergraph (![![0, 1, 1], ![0, 0, 1], ![0, 0, 0]] : Adj 3) (![![0, 1, 0], ![0, 0, 0], ![0, 0, 0]] : Adj 3) = true := by decide +kernel
example : isSupergraph (![![0, 1, 1], ![0, 0, 1], ![0, 0, 0]] : Adj 3) (![![0, 1, 1], ![0, 0, 0], ![0, 0, 0]] : Adj 3) = true := by decide +kernel
example : isSupergraph (![![0, 1, 1], ![0, 0, 1], ![0, 0, 0]] : Adj 3) (![![0, 1, 0], ![0, 0, 1], ![0, 0, 0]] : Adj 3) = true := by decide +kernel
example : isSupergraph (![![0, 1, 0], ![0, 0, 0], ![0, 0, 0]] : Adj 3) (![![0, 1, 1], ![0, 0, 1], ![0, 0, 0]] : Adj 3) = false := by decide +kernel
example : isSupergraph (![![0, 1, 1], ![0, 0, 0], ![0, 0, 0]] : Adj 3) (![![0, 1, 1], ![0, 0, 1], ![0, 0, 0]] : Adj 3) = false := by decide +kernel
example : isSupergraph (![![0, 1, 0], ![0, 0, 1], ![0, 0, 0]] : Adj 3) (![![0, 1, 1], ![0, 0, 1], ![0, 0, 0]] : Adj 3) = false := by decide +kernel

-- `test_pdag_to_dag_1..5`, `/repo/utlvce/test/test_pdag_to_cpdag.py:50-108`
example : pdagToDag (![![0, 0, 1, 0], ![0, 0, 1, 1], ![1, 0, 0, 0], ![0, 0, 0, 0]] : Adj 4) = .ok ![![0, 0, 0, 0], ![0, 0, 1, 1], ![1, 0, 0, 0], ![0, 0, 0, 0]] := eq_of_okEq (by decide +kernel)
example : pdagToDag (![![0, 0, 1, 0], ![1, 0, 0, 1], ![1, 0, 0, 0], ![0, 0, 0, 0]] : Adj 4) = .ok ![![0, 0, 1, 0], ![1, 0, 0, 1], ![0, 0, 0, 0], ![0, 0, 0, 0]] := eq_of_okEq (by decide +kernel)
example : okEq (pdagToDag (![![0, 0, 1, 0], ![0, 0, 0, 1], ![1, 1, 0, 0], ![0, 0, 0, 0]] : Adj 4)) ![![0, 0, 0, 0], ![0, 0, 0, 1], ![1, 1, 0, 0], ![0, 0, 0, 0]] || okEq (pdagToDag (![![0, 0, 1, 0], ![0, 0, 0, 1], ![1, 1, 0, 0], ![0, 0, 0, 0]] : Adj 4)) ![![0, 0, 1, 0], ![0, 0, 0, 1], ![0, 1, 0, 0], ![0, 0, 0, 0]] := by decide +kernel
example : pdagToDag (![![0, 0, 1, 1], ![0, 0, 1, 0], ![1, 0, 0, 0], ![0, 0, 1, 0]] : Adj 4) = .error .valueError := eq_of_raises (by decide +kernel)
example : pdagToDag (![![0, 1, 1, 0], ![0, 0, 1, 0], ![0, 0, 0, 0], ![0, 0, 1, 0]] : Adj 4) = .ok ![![0, 1, 1, 0], ![0, 0, 1, 0], ![0, 0, 0, 0], ![0, 0, 1, 0]] := eq_of_okEq (by decide +kernel)
example : isConsistentExtension (SetIter.incr 4) (![![0, 1, 1, 0], ![0, 0, 1, 0], ![0, 0, 0, 0], ![0, 0, 1, 0]] : Adj 4) (![![0, 1, 1, 0], ![0, 0, 1, 0], ![0, 0, 0, 0], ![0, 0, 1, 0]] : Adj 4) = .ok true := eq_of_okEq' (by decide +kernel)

-- `test_order_edges_preconditions, 1`, `/repo/utlvce/test/test_pdag_to_cpdag.py:133-165`
example : orderEdges (SetIter.incr 5) (![![0, 0, 1, 1, 1], ![0, 0, 1, 1, 1], ![0, 0, 0, 1, 1], ![0, 0, 0, 0, 1], ![0, 0, 1, 0, 0]] : Adj 5) = .error .valueError := eq_of_raises (by decide +kernel)
example : orderEdges (SetIter.incr 5) (![![0, 0, 1, 1, 1], ![0, 0, 1, 1, 1], ![0, 0, 0, 1, 0], ![0, 0, 0, 0, 1], ![0, 0, 1, 0, 0]] : Adj 5) = .error .valueError := eq_of_raises (by decide +kernel)
example : orderEdges (SetIter.incr 5) (![![0, 0, 1, 1, 1], ![0, 0, 1, 1, 1], ![0, 0, 0, 1, 1], ![0, 0, 0, 0, 1], ![0, 0, 0, 0, 0]] : Adj 5) = .ok ![![0, 0, 9, 6, 2], ![0, 0, 8, 5, 1], ![0, 0, 0, 7, 3], ![0, 0, 0, 0, 4], ![0, 0, 0, 0, 0]] := eq_of_okEq (by decide +kernel)

-- `test_label_edges_preconditions`, `/repo/utlvce/test/test_pdag_to_cpdag.py:178-210`
example : labelEdges (SetIter.incr 5) (![![0, 0, 1, 1, 1], ![0, 0, 1, 1, 1], ![0, 0, 0, 1, 1], ![0, 0, 0, 0, 1], ![0, 0, 0, 0, 0]] : Adj 5) = .error .valueError := eq_of_raises (by decide +kernel)
example : labelEdges (SetIter.incr 5) (![![0, 0, 9, 6, 1], ![0, 0, 8, 5, 1], ![0, 0, 0, 7, 3], ![0, 0, 0, 0, 4], ![0, 0, 0, 0, 0]] : Adj 5) = .error .valueError := eq_of_raises (by decide +kernel)

-- `test_label_edges_1`, `/repo/utlvce/test/test_pdag_to_cpdag.py:212-226`
example : (orderEdges (SetIter.incr 5) (![![0, 0, 1, 0, 0], ![0, 0, 1, 0, 0], ![0, 0, 0, 1, 1], ![0, 0, 0, 0, 1], ![0, 0, 0, 0, 0]] : Adj 5) >>= labelEdges (SetIter.incr 5)) = .ok ![![0, 0, 1, 0, 0], ![0, 0, 1, 0, 0], ![0, 0, 0, 1, 1], ![0, 0, 0, 0, -1], ![0, 0, 0, 0, 0]] := eq_of_okEq (by decide +kernel)

-- `test_maximally_orient_1`, `/repo/utlvce/test/test_pdag_to_cpdag.py:308-450`
example : maximallyOrient (![![0, 1, 0], ![0, 0, 1], ![0, 1, 0]] : Adj 3) = .ok ![![0, 1, 0], ![0, 0, 1], ![0, 0, 0]] := eq_of_okEq (by decide +kernel)
example : maximallyOrient (![![0, 1, 1, 0], ![0, 0, 1, 0], ![0, 1, 0, 0], ![0, 0, 1, 0]] : Adj 4) = .ok ![![0, 1, 1, 0], ![0, 0, 0, 0], ![0, 1, 0, 0], ![0, 0, 1, 0]] := eq_of_okEq (by decide +kernel)
example : maximallyOrient (![![0, 1, 1], ![0, 0, 1], ![0, 1, 0]] : Adj 3) = .ok ![![0, 1, 1], ![0, 0, 1], ![0, 1, 0]] := eq_of_okEq (by decide +kernel)
example : maximallyOrient (![![0, 0, 1, 0, 0], ![0, 0, 1, 0, 0], ![0, 0, 0, 1, 1], ![0, 0, 1, 0, 0], ![0, 0, 1, 0, 0]] : Adj 5) = .ok ![![0, 0, 1, 0, 0], ![0, 0, 1, 0, 0], ![0, 0, 0, 1, 1], ![0, 0, 0, 0, 0], ![0, 0, 0, 0, 0]] := eq_of_okEq (by decide +kernel)
example : maximallyOrient (![![0, 1, 1], ![0, 0, 1], ![1, 0, 0]] : Adj 3) = .ok ![![0, 1, 1], ![0, 0, 1], ![0, 0, 0]] := eq_of_okEq (by decide +kernel)
example : maximallyOrient (![![0, 1, 1, 1], ![0, 0, 0, 1], ![0, 0, 0, 1], ![1, 0, 0, 0]] : Adj 4) = .ok ![![0, 1, 1, 1], ![0, 0, 0, 1], ![0, 0, 0, 1], ![0, 0, 0, 0]] := eq_of_okEq (by decide +kernel)
example : maximallyOrient (![![0, 1, 1], ![0, 0, 0], ![1, 1, 0]] : Adj 3) = .ok ![![0, 1, 1], ![0, 0, 0], ![1, 1, 0]] := eq_of_okEq (by decide +kernel)
example : maximallyOrient (![![0, 1, 0, 1, 0], ![0, 0, 1, 1, 0], ![0, 0, 0, 0, 1], ![1, 0, 0, 0, 1], ![0, 0, 1, 1, 0]] : Adj 5) = .error .valueError := eq_of_raises (by decide +kernel)
example : maximallyOrient (![![0, 1, 1, 1], ![1, 0, 0, 1], ![1, 0, 0, 1], ![1, 0, 0, 0]] : Adj 4) = .ok ![![0, 1, 1, 1], ![1, 0, 0, 1], ![1, 0, 0, 1], ![0, 0, 0, 0]] := eq_of_okEq (by decide +kernel)
example : maximallyOrient (![![0, 1, 1, 1], ![1, 0, 1, 1], ![1, 0, 0, 1], ![1, 0, 0, 0]] : Adj 4) = .ok ![![0, 1, 1, 1], ![1, 0, 1, 1], ![1, 0, 0, 1], ![1, 0, 0, 0]] := eq_of_okEq (by decide +kernel)
example : maximallyOrient (![![0, 1, 1, 1], ![1, 0, 0, 1], ![0, 0, 0, 1], ![1, 0, 0, 0]] : Adj 4) = .ok ![![0, 1, 1, 1], ![1, 0, 0, 1], ![0, 0, 0, 1], ![0, 0, 0, 0]] := eq_of_okEq (by decide +kernel)
example : maximallyOrient (![![0, 1, 1, 1, 1, 0], ![1, 0, 0, 1, 1, 0], ![1, 0, 0, 1, 1, 0], ![1, 0, 0, 0, 0, 0], ![1, 0, 0, 0, 0, 0], ![0, 0, 0, 0, 1, 0]] : Adj 6) = .error .valueError := eq_of_raises (by decide +kernel)
example : maximallyOrient (![![0, 0, 0, 1], ![1, 0, 0, 1], ![0, 1, 0, 1], ![1, 1, 1, 0]] : Adj 4) = .ok ![![0, 0, 0, 0], ![1, 0, 0, 1], ![0, 1, 0, 1], ![1, 1, 1, 0]] := eq_of_okEq (by decide +kernel)
example : maximallyOrient (![![0, 0, 0, 1], ![1, 0, 0, 1], ![1, 1, 0, 1], ![1, 1, 1, 0]] : Adj 4) = .ok ![![0, 0, 0, 1], ![1, 0, 0, 1], ![1, 1, 0, 1], ![1, 1, 1, 0]] := eq_of_okEq (by decide +kernel)
example : maximallyOrient (![![0, 1, 0, 0, 1], ![0, 0, 1, 0, 1], ![0, 0, 0, 1, 1], ![0, 0, 0, 0, 1], ![1, 1, 1, 1, 0]] : Adj 5) = .ok ![![0, 1, 0, 0, 1], ![0, 0, 1, 0, 1], ![0, 0, 0, 1, 0], ![0, 0, 0, 0, 0], ![1, 1, 1, 1, 0]] := eq_of_okEq (by decide +kernel)

-- `test_maximally_orient_3`, `/repo/utlvce/test/test_pdag_to_cpdag.py:478-492`
example : maximallyOrient (![![0, 0, 0, 0, 1], ![0, 0, 0, 1, 1], ![0, 0, 0, 0, 0], ![0, 1, 0, 0, 0], ![0, 1, 0, 0, 0]] : Adj 5) = .ok ![![0, 0, 0, 0, 1], ![0, 0, 0, 1, 0], ![0, 0, 0, 0, 0], ![0, 0, 0, 0, 0], ![0, 1, 0, 0, 0]] := eq_of_okEq (by decide +kernel)

-- `test_meek_rule_1_a`, `/repo/utlvce/test/test_pdag_to_cpdag.py:494-506`
example : ([rule1 1 2] : List (Adj 3 → Bool)).all (· ![![0, 1, 0], ![0, 0, 1], ![0, 1, 0]]) = true := by decide +kernel
example : ([rule1 2 1, rule2 1 2, rule2 2 1, rule3 1 2, rule3 2 1, rule4 1 2, rule4 2 1] : List (Adj 3 → Bool)).any (· ![![0, 1, 0], ![0, 0, 1], ![0, 1, 0]]) = false := by decide +kernel

-- `test_meek_rule_1_b`, `/repo/utlvce/test/test_pdag_to_cpdag.py:508-521`
example : ([rule1 2 1] : List (Adj 4 → Bool)).all (· ![![0, 1, 1, 0], ![0, 0, 1, 0], ![0, 1, 0, 0], ![0, 0, 1, 0]]) = true := by decide +kernel
example : ([rule1 1 2, rule2 1 2, rule2 2 1, rule3 1 2, rule3 2 1, rule4 1 2, rule4 2 1] : List (Adj 4 → Bool)).any (· ![![0, 1, 1, 0], ![0, 0, 1, 0], ![0, 1, 0, 0], ![0, 0, 1, 0]]) = false := by decide +kernel

-- `test_meek_rule_1_c`, `/repo/utlvce/test/test_pdag_to_cpdag.py:523-535`
example : ([rule1 1 2, rule1 2 1, rule2 1 2, rule2 2 1, rule3 1 2, rule3 2 1, rule4 1 2, rule4 2 1] : List (Adj 3 → Bool)).any (· ![![0, 1, 1], ![0, 0, 1], ![0, 1, 0]]) = false := by decide +kernel

-- `test_meek_rule_1_d`, `/repo/utlvce/test/test_pdag_to_cpdag.py:537-559`
example : ([rule1 2 3, rule1 2 4] : List (Adj 5 → Bool)).all (· ![![0, 0, 1, 0, 0], ![0, 0, 1, 0, 0], ![0, 0, 0, 1, 1], ![0, 0, 1, 0, 0], ![0, 0, 1, 0, 0]]) = true := by decide +kernel
example : ([rule1 3 2, rule1 4 2, rule2 2 3, rule2 3 2, rule2 2 4, rule2 4 2, rule3 2 3, rule3 3 2, rule3 2 4, rule3 4 2, rule4 2 3, rule4 3 2, rule4 2 4, rule4 4 2] : List (Adj 5 → Bool)).any (· ![![0, 0, 1, 0, 0], ![0, 0, 1, 0, 0], ![0, 0, 0, 1, 1], ![0, 0, 1, 0, 0], ![0, 0, 1, 0, 0]]) = false := by decide +kernel

-- `test_meek_rule_2_a`, `/repo/utlvce/test/test_pdag_to_cpdag.py:561-573`
example : ([rule2 0 2] : List (Adj 3 → Bool)).all (· ![![0, 1, 1], ![0, 0, 1], ![1, 0, 0]]) = true := by decide +kernel
example : ([rule2 2 0, rule1 0 2, rule1 2 0, rule3 0 2, rule3 2 0, rule4 0 2, rule4 2 0] : List (Adj 3 → Bool)).any (· ![![0, 1, 1], ![0, 0, 1], ![1, 0, 0]]) = false := by decide +kernel

-- `test_meek_rule_2_b`, `/repo/utlvce/test/test_pdag_to_cpdag.py:575-588`
example : ([rule2 0 3] : List (Adj 4 → Bool)).all (· ![![0, 1, 1, 1], ![0, 0, 0, 1], ![0, 0, 0, 1], ![1, 0, 0, 0]]) = true := by decide +kernel
example : ([rule2 3 0, rule1 0 3, rule1 3 0, rule3 0 3, rule3 3 0, rule4 0 3, rule4 3 0] : List (Adj 4 → Bool)).any (· ![![0, 1, 1, 1], ![0, 0, 0, 1], ![0, 0, 0, 1], ![1, 0, 0, 0]]) = false := by decide +kernel

-- `test_meek_rule_2_c`, `/repo/utlvce/test/test_pdag_to_cpdag.py:590-602`
example : ([rule1 0 2, rule1 2 0, rule2 0 2, rule2 2 0, rule3 0 2, rule3 2 0, rule4 0 2, rule4 2 0] : List (Adj 3 → Bool)).any (· ![![0, 1, 1], ![0, 0, 0], ![1, 1, 0]]) = false := by decide +kernel

-- `test_meek_rule_2_d`, `/repo/utlvce/test/test_pdag_to_cpdag.py:604-618`
example : ([rule2 0 3] : List (Adj 5 → Bool)).all (· ![![0, 1, 0, 1, 0], ![0, 0, 1, 1, 0], ![0, 0, 0, 0, 1], ![1, 0, 0, 0, 1], ![0, 0, 1, 1, 0]]) = true := by decide +kernel
example : ([rule2 3 0, rule2 2 4, rule2 4 2, rule2 3 4, rule2 4 3] : List (Adj 5 → Bool)).any (· ![![0, 1, 0, 1, 0], ![0, 0, 1, 1, 0], ![0, 0, 0, 0, 1], ![1, 0, 0, 0, 1], ![0, 0, 1, 1, 0]]) = false := by decide +kernel

-- `test_meek_rule_3_a`, `/repo/utlvce/test/test_pdag_to_cpdag.py:620-639`
example : ([rule3 0 3] : List (Adj 4 → Bool)).all (· ![![0, 1, 1, 1], ![1, 0, 0, 1], ![1, 0, 0, 1], ![1, 0, 0, 0]]) = true := by decide +kernel
example : ([rule3 3 0, rule3 0 1, rule3 1 0, rule3 0 2, rule3 2 0, rule1 0 3, rule1 3 0, rule1 0 1, rule1 1 0, rule1 0 2, rule1 2 0, rule2 0 3, rule2 3 0, rule2 0 1, rule2 1 0, rule2 0 2, rule2 2 0, rule4 0 3, rule4 3 0, rule4 0 1, rule4 1 0, rule4 0 2, rule4 2 0] : List (Adj 4 → Bool)).any (· ![![0, 1, 1, 1], ![1, 0, 0, 1], ![1, 0, 0, 1], ![1, 0, 0, 0]]) = false := by decide +kernel

-- `test_meek_rule_3_b`, `/repo/utlvce/test/test_pdag_to_cpdag.py:641-659`
example : ([rule2 0 3] : List (Adj 4 → Bool)).all (· ![![0, 1, 1, 1], ![1, 0, 0, 1], ![0, 0, 0, 1], ![1, 0, 0, 0]]) = true := by decide +kernel
example : ([rule2 3 0, rule3 0 3, rule3 3 0, rule1 0 1, rule1 1 0, rule2 0 1, rule2 1 0, rule3 0 1, rule3 1 0, rule4 0 1, rule4 1 0] : List (Adj 4 → Bool)).any (· ![![0, 1, 1, 1], ![1, 0, 0, 1], ![0, 0, 0, 1], ![1, 0, 0, 0]]) = false := by decide +kernel

-- `test_meek_rule_3_c`, `/repo/utlvce/test/test_pdag_to_cpdag.py:661-686`
example : ([rule3 0 3, rule3 0 4, rule1 4 0] : List (Adj 6 → Bool)).all (· ![![0, 1, 1, 1, 1, 0], ![1, 0, 0, 1, 1, 0], ![1, 0, 0, 1, 1, 0], ![1, 0, 0, 0, 0, 0], ![1, 0, 0, 0, 0, 0], ![0, 0, 0, 0, 1, 0]]) = true := by decide +kernel
example : ([rule3 3 0, rule3 4 0, rule1 0 4, rule3 0 1, rule3 1 0, rule3 0 2, rule3 2 0, rule2 0 3, rule2 3 0, rule2 0 4, rule2 4 0, rule2 0 1, rule2 1 0, rule2 0 2, rule2 2 0, rule4 0 3, rule4 3 0, rule4 0 4, rule4 4 0, rule4 0 1, rule4 1 0, rule4 0 2, rule4 2 0] : List (Adj 6 → Bool)).any (· ![![0, 1, 1, 1, 1, 0], ![1, 0, 0, 1, 1, 0], ![1, 0, 0, 1, 1, 0], ![1, 0, 0, 0, 0, 0], ![1, 0, 0, 0, 0, 0], ![0, 0, 0, 0, 1, 0]]) = false := by decide +kernel

-- `test_meek_rule_3_d`, `/repo/utlvce/test/test_pdag_to_cpdag.py:688-695`
example : ([rule3 0 3] : List (Adj 4 → Bool)).any (· ![![0, 1, 1, 1], ![1, 0, 1, 1], ![1, 1, 0, 1], ![1, 0, 0, 0]]) = false := by decide +kernel

-- `test_meek_rule_4_a`, `/repo/utlvce/test/test_pdag_to_cpdag.py:697-716`
example : ([rule4 1 3] : List (Adj 4 → Bool)).all (· ![![0, 1, 1, 0], ![1, 0, 1, 1], ![0, 1, 0, 1], ![0, 1, 0, 0]]) = true := by decide +kernel
example : ([rule4 3 1, rule4 0 1, rule4 1 0, rule4 1 2, rule4 2 1, rule1 1 3, rule1 3 1, rule1 0 1, rule1 1 0, rule1 1 2, rule1 2 1, rule2 1 3, rule2 3 1, rule2 0 1, rule2 1 0, rule2 1 2, rule2 2 1, rule3 1 3, rule3 3 1, rule3 0 1, rule3 1 0, rule3 1 2, rule3 2 1] : List (Adj 4 → Bool)).any (· ![![0, 1, 1, 0], ![1, 0, 1, 1], ![0, 1, 0, 1], ![0, 1, 0, 0]]) = false := by decide +kernel

-- `test_meek_rule_4_b`, `/repo/utlvce/test/test_pdag_to_cpdag.py:718-744`
example : ([rule4 4 2, rule4 4 3] : List (Adj 5 → Bool)).all (· ![![0, 1, 0, 0, 1], ![0, 0, 1, 0, 1], ![0, 0, 0, 1, 1], ![0, 0, 0, 0, 1], ![1, 1, 1, 1, 0]]) = true := by decide +kernel
example : ([rule4 2 4, rule4 3 4, rule1 4 2, rule1 2 4, rule1 4 3, rule1 3 4, rule2 4 2, rule2 2 4, rule2 4 3, rule2 3 4, rule3 4 2, rule3 2 4, rule3 4 3, rule3 3 4, rule1 0 4, rule1 4 0, rule1 1 4, rule1 4 1, rule2 0 4, rule2 4 0, rule2 1 4, rule2 4 1, rule3 0 4, rule3 4 0, rule3 1 4, rule3 4 1, rule4 0 4, rule4 4 0, rule4 1 4, rule4 4 1] : List (Adj 5 → Bool)).any (· ![![0, 1, 0, 0, 1], ![0, 0, 1, 0, 1], ![0, 0, 0, 1, 1], ![0, 0, 0, 0, 1], ![1, 1, 1, 1, 0]]) = false := by decide +kernel

-- `test_meek_rule_4_c`, `/repo/utlvce/test/test_pdag_to_cpdag.py:746-753`
example : ([rule4 0 1] : List (Adj 4 → Bool)).any (· ![![0, 1, 1, 1], ![1, 0, 1, 0], ![1, 1, 0, 1], ![1, 1, 0, 0]]) = false := by decide +kernel

-- `test_chain_graph_MEC` for p up to 4 (all p, and IMEC: C25, C26), `/repo/utlvce/test/test_utils.py:1186-1217`
example : okPerm (mec (SetIter.incr 1) (chainGraph 1) false) (chainGraphMEC 1) = true := by decide +kernel
example : okPerm (mec (SetIter.incr 2) (chainGraph 2) false) (chainGraphMEC 2) = true := by decide +kernel
example : okPerm (mec (SetIter.incr 3) (chainGraph 3) false) (chainGraphMEC 3) = true := by decide +kernel
example : okPerm (mec (SetIter.incr 4) (chainGraph 4) false) (chainGraphMEC 4) = true := by decide +kernel

end Verif
