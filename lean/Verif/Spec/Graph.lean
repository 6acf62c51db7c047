import Verif.Model.Basic
import Mathlib.Logic.Relation

/-!
# Independent specification of the graph notions

`A : Adj p` represents the graph with an edge `i → j` whenever `A i j ≠ 0`; a pair with edges in both directions
is an undirected edge `i - j` (`/repo/utlvce/utils.py:93-95`).  Nothing in this file refers to a model function.
-/

namespace Verif.Spec

variable {p : Nat}

/-- There is an edge out of `i` into `j` (directed, or one half of an undirected edge). -/
def Edge (A : Adj p) (i j : Fin p) : Prop := A i j ≠ 0

/-- `i → j` is a directed edge. -/
def DirEdge (A : Adj p) (i j : Fin p) : Prop := A i j ≠ 0 ∧ A j i = 0

/-- `i - j` is an undirected edge. -/
def UndEdge (A : Adj p) (i j : Fin p) : Prop := A i j ≠ 0 ∧ A j i ≠ 0

/-- `i` and `j` are joined by some edge. -/
def Adjacent (A : Adj p) (i j : Fin p) : Prop := A i j ≠ 0 ∨ A j i ≠ 0

instance (A : Adj p) (i j : Fin p) : Decidable (Edge A i j) := inferInstanceAs (Decidable (A i j ≠ 0))
instance (A : Adj p) (i j : Fin p) : Decidable (DirEdge A i j) := inferInstanceAs (Decidable (_ ∧ _))
instance (A : Adj p) (i j : Fin p) : Decidable (UndEdge A i j) := inferInstanceAs (Decidable (_ ∧ _))
instance (A : Adj p) (i j : Fin p) : Decidable (Adjacent A i j) := inferInstanceAs (Decidable (_ ∨ _))

/-- No walk `i → … → i` of positive length: no self-loops, no undirected edges, no directed cycles. -/
def Acyclic (A : Adj p) : Prop := ∀ i, ¬ Relation.TransGen (Edge A) i i

/-- `l` lists every node exactly once and every edge goes forward in `l`. -/
def IsTopoOrder (A : Adj p) (l : List (Fin p)) : Prop :=
  l.Nodup ∧ (∀ i, i ∈ l) ∧ ∀ i j, Edge A i j → ∃ l1 l2 l3, l = l1 ++ i :: l2 ++ j :: l3

/-- All entries are non-negative. -/
def Nonneg (A : Adj p) : Prop := ∀ i j, 0 ≤ A i j

/-- All entries are 0 or 1. -/
def ZeroOne (A : Adj p) : Prop := ∀ i j, A i j = 0 ∨ A i j = 1

/-- No self-loops. -/
def NoLoops (A : Adj p) : Prop := ∀ i, A i i = 0

/-- `i → c ← j` with `i, j` distinct and not adjacent. -/
def VStructure (A : Adj p) (i c j : Fin p) : Prop :=
  DirEdge A i c ∧ DirEdge A j c ∧ i ≠ j ∧ ¬ Adjacent A i j

def SameSkeleton (A B : Adj p) : Prop := ∀ i j, Adjacent A i j ↔ Adjacent B i j

def SameVStructures (A B : Adj p) : Prop := ∀ i c j, VStructure A i c j ↔ VStructure B i c j

/-- Markov equivalence of DAGs in the sense used throughout the code (`utils.py:254-287`, `813-817`): same
skeleton and same v-structures.  `C115_markov_equiv_iff` shows that this is the same as having the same d-separations. -/
def MarkovEquiv (G H : Adj p) : Prop := SameSkeleton G H ∧ SameVStructures G H

/-- `G` is a consistent extension of the PDAG `P` (`utils.py:813-817`). -/
def IsExtension (G P : Adj p) : Prop :=
  Acyclic G ∧ SameSkeleton G P ∧ SameVStructures G P ∧ ∀ i j, DirEdge P i j → Edge G i j

/-- Same parents at every target. -/
def SameParentsAt (I : Finset (Fin p)) (G H : Adj p) : Prop := ∀ i ∈ I, ∀ k, Edge G k i ↔ Edge H k i

/-- Interventional equivalence (`utils.py:349-369`: members of the Markov equivalence class whose parents of the
intervened variables match). -/
def IEquiv (I : Finset (Fin p)) (G H : Adj p) : Prop := MarkovEquiv G H ∧ SameParentsAt I G H

end Verif.Spec
