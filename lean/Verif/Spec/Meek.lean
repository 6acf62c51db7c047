import Verif.Spec.Graph

/-!
# Meek's orientation rules, stated on the graph
-/

namespace Verif.Spec

variable {p : Nat}

/-- One of Meek's rules R1-R4 demands that the undirected edge `i - j` be oriented `i → j`. -/
inductive Forces (P : Adj p) (i j : Fin p) : Prop
  /-- R1: `k → i - j` with `k`, `j` not adjacent -/
  | r1 (k : Fin p) (h1 : DirEdge P k i) (h2 : ¬ Adjacent P k j) : Forces P i j
  /-- R2: `i → k → j` -/
  | r2 (k : Fin p) (h1 : DirEdge P i k) (h2 : DirEdge P k j) : Forces P i j
  /-- R3: `i - k → j`, `i - l → j` with `k`, `l` distinct and not adjacent -/
  | r3 (k l : Fin p) (h : k ≠ l) (h1 : UndEdge P i k) (h2 : UndEdge P i l) (h3 : DirEdge P k j) (h4 : DirEdge P l j)
      (h5 : ¬ Adjacent P k l) : Forces P i j
  /-- R4: `i - h → k → j`, `i - k` with `h`, `j` not adjacent -/
  | r4 (k h : Fin p) (h1 : UndEdge P i k) (h2 : UndEdge P i h) (h3 : DirEdge P h k) (h4 : DirEdge P k j)
      (h5 : ¬ Adjacent P h j) : Forces P i j

/-- No rule applies to an undirected edge. -/
def MeekClosed (P : Adj p) : Prop := ∀ i j, UndEdge P i j → ¬ Forces P i j

end Verif.Spec
