import Verif.Proof.GraphBasic
import Mathlib.Data.Fin.VecNotation
import Mathlib.Algebra.BigOperators.Ring.Finset

/-!
# Properties C01-C06, C10-C12, C69: elementary graph functions
-/

namespace Verif
open Spec
variable {p : Nat}

/-! ## C01 / C02 -/

/-- C01: `is_dag` decides acyclicity of every non-negative matrix (self-loops and two-cycles are cycles),
whatever the iteration order of sets. -/
theorem C01_isDag_iff_acyclic (it : SetIter p) (A : Adj p) (hA : Nonneg A) : isDag it A = true ↔ Acyclic A :=
  isDag_iff it hA

/-- C01: the answer does not depend on the order in which sets are iterated. -/
theorem C01_isDag_order_independent (it it' : SetIter p) (A : Adj p) (hA : Nonneg A) :
    isDag it A = isDag it' A := by
  rw [Bool.eq_iff_iff, isDag_iff it hA, isDag_iff it' hA]

/-- C01: Kahn's loop always terminates, and `ValueError` is the only exception, for every matrix (also with
negative entries). -/
theorem C01_always_returns (it : SetIter p) (A : Adj p) :
    (∃ l, topologicalOrdering it A = .ok l) ∨ topologicalOrdering it A = .error .valueError :=
  topologicalOrdering_cases it A

/-- C02: a returned list contains every node exactly once, sources before targets. -/
theorem C02_topological_ordering_sound (it : SetIter p) (A : Adj p) (hA : Nonneg A) (l : List (Fin p))
    (h : topologicalOrdering it A = .ok l) : IsTopoOrder A l := (topologicalOrdering_spec it A hA).1 l h

/-- C02: `ValueError` is raised exactly for cyclic graphs. -/
theorem C02_raises_iff_cyclic (it : SetIter p) (A : Adj p) (hA : Nonneg A) :
    topologicalOrdering it A = .error .valueError ↔ ¬ Acyclic A := by
  rw [← topologicalOrdering_ok_iff it hA]
  rcases topologicalOrdering_cases it A with ⟨l, hl⟩ | hl <;> simp [hl]

/-- The position of the source of an edge is smaller than the position of its target. -/
theorem C02_positions (it : SetIter p) (A : Adj p) (hA : Nonneg A) (l : List (Fin p))
    (h : topologicalOrdering it A = .ok l) (i j : Fin p) (hij : Edge A i j) : l.idxOf i < l.idxOf j :=
  (C02_topological_ordering_sound it A hA l h).idx_lt hij

-- non-vacuity: a DAG with weights, a cyclic graph
example : Nonneg (p := 3) ![![0, 2, 1], ![0, 0, 0], ![0, 5, 0]] := by unfold Nonneg; decide
example : topologicalOrdering (SetIter.incr 3) ![![0, 2, 1], ![0, 0, 0], ![0, 5, 0]] = .ok [0, 2, 1] := by
  decide +kernel
example : isDag (SetIter.incr 3) ![![0, 1, 0], ![0, 0, 1], ![1, 0, 0]] = false := by decide +kernel
example : isDag (SetIter.incr 1) ![![1]] = false := by decide +kernel

/-! ## C69: the sign hypothesis is needed -/

/-- C69: with a negative entry `is_dag` accepts the two-cycle `0 ⇄ 1` ... -/
theorem C69_negative_weight_accepted :
    ∃ (A : Adj 2), ¬ Acyclic A ∧ ∀ it : SetIter 2, isDag it A = true := by
  refine ⟨![![0, -1], ![1, 0]], ?_, ?_⟩
  · intro h
    exact h 0 (Relation.TransGen.tail (Relation.TransGen.single (show Edge _ 0 1 by unfold Edge; decide))
      (show Edge _ 1 0 by unfold Edge; decide))
  · intro it
    have : topologicalOrdering it ![![0, -1], ![1, 0]] = .ok [] := by
      unfold topologicalOrdering
      rw [if_neg (by decide +kernel)]
      have : (whereVec (fun j : Fin 2 => decide (colSum (![![0, -1], ![1, 0]] : Adj 2) j = 0))).reverse = [] := by
        decide +kernel
      rw [this, topoLoop]
      dsimp only
      rw [if_neg (by decide +kernel)]
    unfold isDag
    rw [this]

/-- C69: ... and `topological_ordering` can return a list with a repeated node for a DAG with a negative
weight. -/
theorem C69_negative_weight_repeats :
    ∃ (A : Adj 3), Acyclic A ∧ ∃ l, topologicalOrdering (SetIter.incr 3) A = .ok l ∧ ¬ l.Nodup := by
  refine ⟨![![0, 0, 1], ![0, 0, -1], ![0, 0, 0]], ?_, ?_⟩
  · have key : ∀ a b, Edge (![![0, 0, 1], ![0, 0, -1], ![0, 0, 0]] : Adj 3) a b → a < b := by
      unfold Edge; decide
    intro i hi
    have : ∀ a b, Relation.TransGen (Edge (![![0, 0, 1], ![0, 0, -1], ![0, 0, 0]] : Adj 3)) a b → a < b := by
      intro a b hab
      induction hab with
      | single h => exact key _ _ h
      | tail _ h ih => exact lt_trans ih (key _ _ h)
    exact lt_irrefl _ (this i i hi)
  · exact ⟨[2, 1, 0, 2], by decide +kernel, by decide⟩

/-! ## C03 -/

/-- C03: neighbours, parents and children partition the adjacent nodes of a node. -/
theorem C03_partition (A : Adj p) (i : Fin p) :
    adj i A = neighbors i A ∪ pa i A ∪ ch i A ∧ Disjoint (neighbors i A) (pa i A) ∧
      Disjoint (neighbors i A) (ch i A) ∧ Disjoint (pa i A) (ch i A) := by
  refine ⟨?_, ?_, ?_, ?_⟩
  · ext j
    simp only [mem_adj, Finset.mem_union, mem_neighbors, mem_pa, mem_ch]
    by_cases h1 : A i j = 0 <;> by_cases h2 : A j i = 0 <;> simp [h1, h2]
  all_goals
    rw [Finset.disjoint_left]
    intro j
    simp only [mem_neighbors, mem_pa, mem_ch]
    tauto

/-- C03: what each relation means. -/
theorem C03_meaning (A : Adj p) (i j : Fin p) :
    (j ∈ pa i A ↔ DirEdge A j i) ∧ (j ∈ ch i A ↔ DirEdge A i j) ∧ (j ∈ neighbors i A ↔ UndEdge A i j) ∧
      (j ∈ adj i A ↔ Adjacent A i j) := by
  simp [DirEdge, UndEdge, Adjacent]

/-- C03: parent/child duality and symmetry. -/
theorem C03_duality (A : Adj p) (i j : Fin p) :
    (j ∈ pa i A ↔ i ∈ ch j A) ∧ (j ∈ neighbors i A ↔ i ∈ neighbors j A) ∧ (j ∈ adj i A ↔ i ∈ adj j A) := by
  simp only [mem_pa, mem_ch, mem_neighbors, mem_adj]
  tauto

/-- C03: `na(y, x, A)` are the nodes joined to `y` by an undirected edge and adjacent to `x`. -/
theorem C03_na (A : Adj p) (y x j : Fin p) : j ∈ na y x A ↔ UndEdge A y j ∧ Adjacent A x j := by
  simp [na, UndEdge, Adjacent]

example : pa 2 (![![0, 1, 1], ![1, 0, 1], ![0, 0, 0]] : Adj 3) = {0, 1} ∧
    neighbors 0 (![![0, 1, 1], ![1, 0, 1], ![0, 0, 0]] : Adj 3) = {1} := by decide

/-! ## C04 -/

/-- C04: every matrix is the sum of its directed and undirected parts, with disjoint supports, weights kept. -/
theorem C04_decomposition (P : Adj p) (i j : Fin p) :
    P i j = onlyDirected P i j + onlyUndirected P i j ∧
      (onlyDirected P i j = 0 ∨ onlyUndirected P i j = 0) := by
  unfold onlyDirected onlyUndirected
  by_cases h1 : P i j = 0 <;> by_cases h2 : P j i = 0 <;> simp [h1, h2]

/-- C04: the non-zero entries of the two parts. -/
theorem C04_supports (P : Adj p) (i j : Fin p) :
    (onlyDirected P i j ≠ 0 ↔ DirEdge P i j) ∧ (onlyUndirected P i j ≠ 0 ↔ UndEdge P i j) :=
  ⟨onlyDirected_ne, onlyUndirected_ne⟩

/-- C04: `directed_edges` lists each directed edge exactly once. -/
theorem C04_directed_edges (A : Adj p) :
    (directedEdges A).Nodup ∧ ∀ i j, (i, j) ∈ directedEdges A ↔ DirEdge A i j := by
  refine ⟨nodup_wherePairs, fun i j => ?_⟩
  simp only [directedEdges, mem_wherePairs, decide_eq_true_eq]
  exact onlyDirected_ne

/-- C04: `undirected_edges` lists each undirected edge exactly once, as `(i, j)` with `i > j`. -/
theorem C04_undirected_edges (P : Adj p) :
    (undirectedEdges P).Nodup ∧ ∀ i j, (i, j) ∈ undirectedEdges P ↔ UndEdge P i j ∧ j < i := by
  refine ⟨nodup_wherePairs.filter _, fun i j => ?_⟩
  simp only [undirectedEdges, List.mem_filter, mem_wherePairs, decide_eq_true_eq]
  rw [onlyUndirected_ne]
  exact Iff.rfl

/-- C04: `edge_weights` maps exactly the non-zero entries to their weights, with distinct keys. -/
theorem C04_edge_weights (W : Adj p) :
    ((edgeWeights W).map Prod.fst).Nodup ∧ ∀ i j w, ((i, j), w) ∈ edgeWeights W ↔ W i j ≠ 0 ∧ w = W i j := by
  constructor
  · have : (edgeWeights W).map Prod.fst = wherePairs (fun i j => decide (W i j ≠ 0)) := by
      unfold edgeWeights
      rw [List.map_map]
      exact List.map_id _
    rw [this]; exact nodup_wherePairs
  · intro i j w
    simp only [edgeWeights, List.mem_map, mem_wherePairs, decide_eq_true_eq]
    constructor
    · rintro ⟨⟨a, b⟩, h, he⟩
      simp only [Prod.mk.injEq] at he
      obtain ⟨⟨rfl, rfl⟩, rfl⟩ := he
      exact ⟨h, rfl⟩
    · rintro ⟨h, rfl⟩
      exact ⟨(i, j), h, rfl⟩

example : undirectedEdges (![![0, 3, 1], ![2, 0, 0], ![0, 0, 0]] : Adj 3) = [(1, 0)] ∧
    directedEdges (![![0, 3, 1], ![2, 0, 0], ![0, 0, 0]] : Adj 3) = [(0, 2)] := by decide

/-! ## C05 -/

/-- C05: `vstructures` returns exactly the triples `(i, c, j)`, `i < j`, with `i → c ← j` and `i, j` not
adjacent. -/
theorem C05_vstructures_exact (it : SetIter p) (A : Adj p) (i c j : Fin p) :
    (i, c, j) ∈ vstructures it A ↔ i < j ∧ VStructure A i c j := mem_vstructures it A i c j

example : vstructures (SetIter.decr 3) (![![0, 0, 1], ![0, 0, 1], ![0, 0, 0]] : Adj 3) = {(0, 2, 1)} := by
  decide +kernel

/-! ## C06 -/

/-- C06: `is_clique(S, A)` is true iff every two distinct nodes of `S` are adjacent. -/
theorem C06_is_clique (S : Finset (Fin p)) (A : Adj p) (hA : Nonneg A) (hl : NoLoops A) :
    isClique S A = true ↔ ∀ i ∈ S, ∀ j ∈ S, i ≠ j → Adjacent A i j := by
  unfold isClique
  rw [decide_eq_true_iff, card_pairs_eq_iff S (fun a b => skeleton A a b ≠ 0)]
  · simp only [skeleton_ne hA]
  · intro a _ h
    rw [skeleton_ne hA] at h
    unfold Adjacent at h
    simp [hl a] at h

/-- C06: `is_complete(P)` is true iff every two distinct nodes are adjacent. -/
theorem C06_is_complete (A : Adj p) (hA : Nonneg A) (hl : NoLoops A) :
    isComplete A = true ↔ ∀ i j, i ≠ j → Adjacent A i j := by
  have h1 : ∀ i j, A i j + A j i ≠ 0 ↔ Adjacent A i j := by
    intro i j; unfold Adjacent
    have := hA i j; have := hA j i
    omega
  unfold isComplete
  rw [decide_eq_true_iff]
  have := card_pairs_eq_iff (Finset.univ : Finset (Fin p)) (fun a b => A a b + A b a ≠ 0) (by
    intro a _ h; simp [hl a] at h)
  rw [Finset.univ_product_univ, Finset.card_univ, Fintype.card_fin] at this
  rw [this]
  simp only [h1, Finset.mem_univ, true_implies]

/-- C06 boundary: with a self-loop in `S` the count is off: a complete graph with a self-loop is rejected. -/
theorem C06_self_loop_boundary : ∃ A : Adj 2, (∀ i j, i ≠ j → Adjacent A i j) ∧
    isClique Finset.univ A = false ∧ isComplete A = false :=
  ⟨![![1, 1], ![0, 0]], by unfold Adjacent; decide, by decide, by decide⟩

example : isClique {0, 2} (![![0, 1, 1], ![0, 0, 0], ![0, 0, 0]] : Adj 3) = true ∧
    isClique {0, 1, 2} (![![0, 1, 1], ![0, 0, 0], ![0, 0, 0]] : Adj 3) = false := by decide

/-! ## C10 -/

/-- C10: `induced_subgraph` keeps exactly the edges between nodes of `S`. -/
theorem C10_induced_subgraph (S : Finset (Fin p)) (G : Adj p) (i j : Fin p) :
    (i ∈ S ∧ j ∈ S → inducedSubgraph S G i j = G i j) ∧ (¬ (i ∈ S ∧ j ∈ S) → inducedSubgraph S G i j = 0) := by
  unfold inducedSubgraph
  by_cases h1 : i ∈ S <;> by_cases h2 : j ∈ S <;> simp [h1, h2]

/-- C10: removing edges keeps a DAG a DAG. -/
theorem C10_induced_subgraph_acyclic (S : Finset (Fin p)) (G : Adj p) (h : Acyclic G) :
    Acyclic (inducedSubgraph S G) := by
  refine h.mono ?_
  intro a b hab
  unfold Edge at hab ⊢
  by_cases hs : a ∈ S ∧ b ∈ S
  · rwa [(C10_induced_subgraph S G a b).1 hs] at hab
  · exact absurd ((C10_induced_subgraph S G a b).2 hs) hab

example : inducedSubgraph {0, 2} (![![0, 1, 1], ![0, 0, 7], ![0, 0, 0]] : Adj 3) =
    ![![0, 0, 1], ![0, 0, 0], ![0, 0, 0]] := by decide

/-! ## C11 -/

/-- C11: for a DAG, `moral_graph` joins two distinct nodes iff they are adjacent or have a common child. -/
theorem C11_moral_graph (it : SetIter p) (A : Adj p) (hA : Nonneg A) (hac : Acyclic A) (i j : Fin p) (hij : i ≠ j) :
    (moralGraph it A i j = 1 ↔ Adjacent A i j ∨ ∃ c, Edge A i c ∧ Edge A j c) ∧
      (moralGraph it A i j = 0 ∨ moralGraph it A i j = 1) := by
  unfold moralGraph
  have hd : ∀ a b, Edge A a b → DirEdge A a b := fun a b h => ⟨h, hac.no_two h⟩
  constructor
  · constructor
    · intro h
      split at h
      · rename_i hc
        obtain ⟨c, hc | hc⟩ := hc <;> rw [mem_vstructures] at hc
        · exact Or.inr ⟨c, hc.2.1.1, hc.2.2.1.1⟩
        · exact Or.inr ⟨c, hc.2.2.1.1, hc.2.1.1⟩
      · left; rw [← skeleton_ne hA, h]; exact one_ne_zero
    · intro h
      split
      · rfl
      · rename_i hc
        rcases skeleton_zeroOne A i j with h0 | h0
        · exfalso
          have hna : ¬ Adjacent A i j := fun ha => (skeleton_ne hA).2 ha h0
          rcases h with h | ⟨c, h1, h2⟩
          · exact hna h
          · have hv : VStructure A i c j := ⟨hd _ _ h1, hd _ _ h2, hij, hna⟩
            apply hc
            rcases lt_or_gt_of_ne hij with hl | hl
            · exact ⟨c, Or.inl ((mem_vstructures it A i c j).2 ⟨hl, hv⟩)⟩
            · exact ⟨c, Or.inr ((mem_vstructures it A j c i).2 ⟨hl, VStructure.symm hv⟩)⟩
        · exact h0
  · split
    · exact Or.inr rfl
    · exact skeleton_zeroOne A i j

/-- C11: the moral graph is symmetric (for every matrix). -/
theorem C11_moral_graph_symm (it : SetIter p) (A : Adj p) (i j : Fin p) : moralGraph it A i j = moralGraph it A j i := by
  unfold moralGraph
  have : (∃ c, (i, c, j) ∈ vstructures it A ∨ (j, c, i) ∈ vstructures it A) ↔
      (∃ c, (j, c, i) ∈ vstructures it A ∨ (i, c, j) ∈ vstructures it A) := by
    constructor <;> rintro ⟨c, h⟩ <;> exact ⟨c, h.symm⟩
  simp only [this]
  unfold skeleton
  rw [add_comm]

/-- C11: `degrees(A)[j]` is the number of nodes adjacent to `j`. -/
theorem C11_degrees (A : Adj p) (hA : Nonneg A) (j : Fin p) :
    degrees A j = (Finset.univ.filter (fun i => Adjacent A i j)).card := by
  unfold degrees
  rw [Finset.card_filter, Nat.cast_sum]
  refine Finset.sum_congr rfl fun i _ => ?_
  have := skeleton_ne hA (i := i) (j := j)
  rcases skeleton_zeroOne A i j with h | h
  · rw [h] at this
    have hn : ¬ Adjacent A i j := by simpa using this
    simp [h, hn]
  · rw [h] at this
    have hn : Adjacent A i j := by simpa using this
    simp [h, hn]

example : moralGraph (SetIter.incr 3) (![![0, 0, 1], ![0, 0, 1], ![0, 0, 0]] : Adj 3) =
    ![![0, 1, 1], ![1, 0, 1], ![1, 1, 0]] := by decide +kernel

/-! ## C12 -/

/-- C12: `is_consistent_extension` raises `ValueError` exactly when `G` is not a DAG. -/
theorem C12_raises (it : SetIter p) (G P : Adj p) (hG : Nonneg G) :
    isConsistentExtension it G P = .error .valueError ↔ ¬ Acyclic G := by
  rw [← isDag_iff it hG]
  unfold isConsistentExtension
  cases h : isDag it G <;> simp

/-- C12: for a DAG `G` it answers, and the answer is true exactly when `G` is a consistent extension of `P`. -/
theorem C12_exact (it : SetIter p) (G P : Adj p) (hG : Nonneg G) (hP : Nonneg P) (hac : Acyclic G) :
    ∃ b, isConsistentExtension it G P = .ok b ∧ (b = true ↔ IsExtension G P) := by
  have hd := (isDag_iff it hG).2 hac
  unfold isConsistentExtension
  rw [hd]
  refine ⟨_, rfl, ?_⟩
  simp only [Bool.and_eq_true, decide_eq_true_eq, vstructures_eq_iff, skeleton_eq_iff hP hG, onlyDirected_ne]
  unfold IsExtension
  constructor
  · rintro ⟨⟨h1, h2⟩, h3⟩
    exact ⟨hac, fun i j => (h3 i j).symm, fun i c j => (h1 i c j).symm, h2⟩
  · rintro ⟨_, h1, h2, h3⟩
    exact ⟨⟨fun i c j => (h2 i c j).symm, h3⟩, fun i j => (h1 i j).symm⟩

example : isConsistentExtension (SetIter.incr 3) ![![0, 1, 0], ![0, 0, 1], ![0, 0, 0]]
    ![![0, 1, 0], ![1, 0, 1], ![0, 1, 0]] = .ok true ∧
  isConsistentExtension (SetIter.incr 3) ![![0, 1, 0], ![0, 0, 0], ![0, 1, 0]]
    ![![0, 1, 0], ![1, 0, 1], ![0, 1, 0]] = .ok false := by decide +kernel

end Verif
