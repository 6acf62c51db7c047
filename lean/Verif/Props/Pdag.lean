import Verif.Proof.PdagToDag
import Verif.Proof.Cpdag
import Mathlib.Data.Fin.VecNotation

/-!
# Properties C13-C19: PDAG to DAG, DAG to CPDAG
-/

namespace Verif
open Spec
variable {p : Nat}

/-! ## C13 / C14: `pdag_to_dag` -/

/-- C13: a returned graph is a consistent extension. -/
theorem C13_pdag_to_dag_sound (P G : Adj p) (hl : NoLoops P) (h : pdagToDag P = .ok G) : IsExtension G P :=
  ((pdagToDag_spec P hl).1 G h).1

/-- C13: the weights of the directed edges are kept, the edges oriented by the algorithm get weight 1, and
nothing else is non-zero. -/
theorem C13_pdag_to_dag_entries (P G : Adj p) (hl : NoLoops P) (h : pdagToDag P = .ok G) (a b : Fin p) :
    (DirEdge P a b → G a b = P a b) ∧ (UndEdge P a b → G a b = 0 ∨ G a b = 1) ∧ (P a b = 0 → G a b = 0) := by
  obtain ⟨h1, h2⟩ := (pdagToDag_spec P hl).1 G h
  refine ⟨(h2 a b).1, (h2 a b).2, fun h0 => ?_⟩
  by_contra hc
  have h3 := (h1.2.1 a b).1 (Or.inl hc)
  have h4 : DirEdge P b a := ⟨h3.resolve_left (by simp [h0]), h0⟩
  exact hc (h1.1.no_two (h1.2.2.2 b a h4))

/-- C14: `ValueError` exactly when there is no consistent extension; otherwise a graph is returned (no other
exception, and the search always terminates). -/
theorem C14_pdag_to_dag_complete (P : Adj p) (hl : NoLoops P) :
    (pdagToDag P = .error .valueError ↔ ¬ ∃ D, IsExtension D P) ∧
      ((∃ G, pdagToDag P = .ok G) ↔ ∃ D, IsExtension D P) := by
  obtain ⟨h1, h2, h3⟩ := pdagToDag_spec P hl
  constructor
  · constructor
    · intro h hex
      obtain ⟨G, hG⟩ := h2 hex
      rw [h] at hG
      exact absurd hG (by simp)
    · intro hno
      rcases h3 with ⟨G, hG⟩ | h
      · exact absurd ⟨G, (h1 G hG).1⟩ hno
      · exact h
  · exact ⟨fun ⟨G, hG⟩ => ⟨G, (h1 G hG).1⟩, h2⟩

-- 0 → 1 - 2 - 3 has an extension, the undirected 4-cycle has none
example : NoLoops (![![0, 1, 0, 0], ![0, 0, 1, 0], ![0, 1, 0, 1], ![0, 0, 1, 0]] : Adj 4) ∧
    ∃ G, pdagToDag (![![0, 1, 0, 0], ![0, 0, 1, 0], ![0, 1, 0, 1], ![0, 0, 1, 0]] : Adj 4) = .ok G ∧
      G = ![![0, 1, 0, 0], ![0, 0, 1, 0], ![0, 0, 0, 1], ![0, 0, 0, 0]] := by
  refine ⟨by unfold NoLoops; decide, _, rfl, ?_⟩
  decide +kernel

example : ¬ ∃ D, IsExtension D (![![0, 1, 0, 1], ![1, 0, 1, 0], ![0, 1, 0, 1], ![1, 0, 1, 0]] : Adj 4) := by
  rw [← (C14_pdag_to_dag_complete _ (by unfold NoLoops; decide)).1]
  have : findCandidate (![![0, 1, 0, 1], ![1, 0, 1, 0], ![0, 1, 0, 1], ![1, 0, 1, 0]] : Adj 4) = none := by
    decide +kernel
  unfold pdagToDag pdagToDagLoop
  rw [this]

/-- C13, boundary: the absence of self-loops is needed.  A self-loop is dropped from the search for a sink but its
entry is set in the result, which is not acyclic. -/
theorem C13_self_loop_boundary : ∃ (P G : Adj 1), pdagToDag P = .ok G ∧ ¬ Acyclic G := by
  refine ⟨![![1]], fun _ _ => 1, ?_, ?_⟩
  · have h1 : pdagToDag (![![1]] : Adj 1) = .ok (orientInto (onlyDirected ![![1]]) (![![1]] : Adj 1) id 0) := by
      have : findCandidate (![![1]] : Adj 1) = some 0 := by decide +kernel
      unfold pdagToDag pdagToDagLoop
      rw [this]
      rfl
    rw [h1]
    congr 1
    decide +kernel
  · intro h
    exact h 0 (Relation.TransGen.single (show (1 : Int) ≠ 0 by decide))

/-! ## C15: `order_edges` -/

/-- C15: for a DAG, `order_edges` returns; its non-zero entries are exactly at the edges; the labels are a
permutation of `1, …, |E|`; (for the order,
see `C15_order`); and `label_edges` accepts the result. -/
theorem C15_order_edges (it : SetIter p) (G : Adj p) (hG : Nonneg G) (hac : Acyclic G) :
    ∃ O, orderEdges it G = .ok O ∧ (∀ a b, O a b ≠ 0 ↔ Edge G a b) ∧
      (((allPairs p).map (fun e => O e.1 e.2)).filter (fun v => v ≠ 0)).Perm
        ((List.range (Finset.univ.filter (fun e : Fin p × Fin p => G e.1 e.2 ≠ 0)).card).map (fun k : Nat => (k : Int) + 1)) ∧
      ∃ L, labelEdges it O = .ok L := by
  obtain ⟨O, pos, h1, h2, h3⟩ := orderEdges_spec it hG hac
  obtain ⟨L, h4, _⟩ := labelEdges_spec it h2.sorted h3
  refine ⟨O, h1, h2.edge, ?_, L, h4⟩
  have : nnz O = (Finset.univ.filter (fun e : Fin p × Fin p => G e.1 e.2 ≠ 0)).card := by
    unfold nnz
    congr 1
    apply Finset.filter_congr
    intro e _
    exact h2.edge e.1 e.2
  rw [← this]
  exact h3

/-- C15: two edges never share a label. -/
theorem C15_labels_distinct (it : SetIter p) (G : Adj p) (hG : Nonneg G) (hac : Acyclic G) (O : Adj p)
    (h : orderEdges it G = .ok O) (a b a' b' : Fin p) (e : Edge G a b) (e' : Edge G a' b') (heq : O a b = O a' b') :
    a = a' ∧ b = b' := by
  obtain ⟨O', pos, h1, h2, _⟩ := orderEdges_spec it hG hac
  rw [h] at h1
  cases h1
  have hb : b = b' := by
    apply h2.inj
    rcases lt_trichotomy (pos b) (pos b') with hlt | heq' | hlt
    · have := h2.target a b a' b' e e' hlt; omega
    · exact heq'
    · have := h2.target a' b' a b e' e hlt; omega
  subst hb
  refine ⟨?_, rfl⟩
  apply h2.inj
  rcases lt_trichotomy (pos a) (pos a') with hlt | heq' | hlt
  · have := h2.source a' a b e' e hlt; omega
  · exact heq'
  · have := h2.source a a' b e e' hlt; omega

/-- C15: the order is Chickering's: for some total order of the nodes along which all edges point forward, an edge
into an earlier node gets a larger label, and among the edges into one node the later source gets the larger label. -/
theorem C15_order (it : SetIter p) (G : Adj p) (hG : Nonneg G) (hac : Acyclic G) (O : Adj p)
    (h : orderEdges it G = .ok O) : ∃ l, IsTopoOrder G l ∧
      (∀ x y x' y', Edge G x y → Edge G x' y' → l.idxOf y < l.idxOf y' → O x' y' < O x y) ∧
      (∀ x x' y, Edge G x y → Edge G x' y → l.idxOf x' < l.idxOf x → O x' y < O x y) := by
  obtain ⟨order, hord⟩ := (topologicalOrdering_ok_iff it hG).2 hac
  have hto := (topologicalOrdering_spec it G hG).1 order hord
  obtain ⟨O', h1, h2, _⟩ := orderEdges_spec' it hG hac hord
  rw [h] at h1
  cases h1
  exact ⟨order, hto, h2.target, h2.source⟩

/-- C15: the labels lie between 1 and the number of edges. -/
theorem C15_labels_range (it : SetIter p) (G : Adj p) (hG : Nonneg G) (hac : Acyclic G) (O : Adj p)
    (h : orderEdges it G = .ok O) (a b : Fin p) (e : Edge G a b) :
    1 ≤ O a b ∧ O a b ≤ (Finset.univ.filter (fun e : Fin p × Fin p => G e.1 e.2 ≠ 0)).card := by
  obtain ⟨O', h1, h2, h3, _⟩ := C15_order_edges it G hG hac
  rw [h] at h1
  cases h1
  have hm : O a b ∈ ((allPairs p).map (fun e => O e.1 e.2)).filter (fun v => v ≠ 0) := by
    rw [List.mem_filter]
    exact ⟨List.mem_map.2 ⟨(a, b), mem_allPairs _, rfl⟩, by simpa using (h2 a b).2 e⟩
  rw [h3.mem_iff] at hm
  simp only [List.mem_map, List.mem_range] at hm
  obtain ⟨k, hk, hk'⟩ := hm
  omega

/-- C15: `ValueError` exactly for graphs that are not DAGs. -/
theorem C15_raises_iff_cyclic (it : SetIter p) (G : Adj p) (hG : Nonneg G) :
    orderEdges it G = .error .valueError ↔ ¬ Acyclic G := orderEdges_error it hG

example : orderEdges (SetIter.incr 3) (![![0, 1, 1], ![0, 0, 1], ![0, 0, 0]] : Adj 3) =
    .ok ![![0, 3, 1], ![0, 0, 2], ![0, 0, 0]] := eq_of_okEq (by decide +kernel)

/-! ## C16 / C17: the CPDAG is the essential graph -/

/-- C16: a directed edge of the CPDAG is in every equivalent DAG. -/
theorem C16_compelled (it : SetIter p) (G C : Adj p) (hG : Nonneg G) (hac : Acyclic G) (h : dagToCpdag it G = .ok C)
    (i j : Fin p) (hij : DirEdge C i j) (H : Adj p) (hH : Acyclic H) (heq : MarkovEquiv G H) : Edge H i j := by
  obtain ⟨L, pos, h1, h2⟩ := dagToCpdag_labelling it hG hac
  rw [h] at h1
  cases h1
  exact h2.compelled hH heq.1 heq.2 _ j rfl i ((h2.dirEdge_cpdag i j).1 hij)

/-- C17: entry `[i, j]` of the CPDAG is 1 if some Markov equivalent DAG contains `i → j`, and 0 otherwise.  The call
never fails on a DAG. -/
theorem C17_essential_graph (it : SetIter p) (G : Adj p) (hG : Nonneg G) (hac : Acyclic G) :
    ∃ C, dagToCpdag it G = .ok C ∧ ∀ i j,
      (C i j = 1 ↔ ∃ H, Acyclic H ∧ MarkovEquiv G H ∧ Edge H i j) ∧ (C i j = 0 ↔ ¬ ∃ H, Acyclic H ∧ MarkovEquiv G H ∧ Edge H i j) := by
  obtain ⟨C, h1, h2, h3⟩ := dagToCpdag_spec it hG hac
  refine ⟨C, h1, fun i j => ?_⟩
  rw [← h3]
  unfold Edge
  rcases h2 i j with h | h <;> simp [h]

/-- C17: an undirected edge of the CPDAG is oriented both ways in the equivalence class. -/
theorem C17_reversible (it : SetIter p) (G C : Adj p) (hG : Nonneg G) (hac : Acyclic G) (h : dagToCpdag it G = .ok C)
    (i j : Fin p) (hij : UndEdge C i j) :
    (∃ H, Acyclic H ∧ MarkovEquiv G H ∧ Edge H i j) ∧ (∃ H, Acyclic H ∧ MarkovEquiv G H ∧ Edge H j i) := by
  obtain ⟨C', h1, _, h3⟩ := dagToCpdag_spec it hG hac
  rw [h] at h1
  cases h1
  exact ⟨(h3 i j).1 hij.1, (h3 j i).1 hij.2⟩

/-- C17: non-DAGs are rejected with `ValueError`. -/
theorem C17_raises_iff_cyclic (it : SetIter p) (G : Adj p) (hG : Nonneg G) :
    dagToCpdag it G = .error .valueError ↔ ¬ Acyclic G := dagToCpdag_error it hG

-- 0 → 1 → 3 ← 2: the v-structure at 3 is compelled, 0 - 1 is reversible
example : dagToCpdag (SetIter.incr 4) (![![0, 1, 0, 0], ![0, 0, 0, 1], ![0, 0, 0, 1], ![0, 0, 0, 0]] : Adj 4) =
    .ok ![![0, 1, 0, 0], ![1, 0, 0, 1], ![0, 0, 0, 1], ![0, 0, 0, 0]] := eq_of_okEq (by decide +kernel)

/-! ## C18: CPDAGs identify equivalence classes -/

/-- C18: equal CPDAGs exactly for equivalent DAGs (also across different iteration orders of sets). -/
theorem C18_cpdag_eq_iff (it it' : SetIter p) (G H : Adj p) (hG : Nonneg G) (hacG : Acyclic G) (hH : Nonneg H)
    (hacH : Acyclic H) : dagToCpdag it G = dagToCpdag it' H ↔ MarkovEquiv G H := by
  obtain ⟨L, pos, h1, h2⟩ := dagToCpdag_labelling it hG hacG
  obtain ⟨L', pos', h1', h2'⟩ := dagToCpdag_labelling it' hH hacH
  rw [h1, h1']
  constructor
  · intro h
    have h : cpdagOf L = cpdagOf L' := by injection h
    exact h2.markovEquiv_cpdag.trans (h ▸ h2'.markovEquiv_cpdag.symm)
  · intro h
    congr 1
    refine zeroOne_ext (cpdagOf_zeroOne L) (cpdagOf_zeroOne L') (fun i j => ?_)
    rw [h2.edge_cpdag_iff, h2'.edge_cpdag_iff]
    constructor
    · rintro ⟨K, k1, k2, k3⟩; exact ⟨K, k1, h.symm.trans k2, k3⟩
    · rintro ⟨K, k1, k2, k3⟩; exact ⟨K, k1, h.trans k2, k3⟩

/-- C18: the CPDAG has the skeleton and the v-structures of the DAG, and its consistent extensions are exactly the
equivalent DAGs. -/
theorem C18_extensions (it : SetIter p) (G C : Adj p) (hG : Nonneg G) (hac : Acyclic G) (h : dagToCpdag it G = .ok C) :
    MarkovEquiv G C ∧ ∀ H, IsExtension H C ↔ Acyclic H ∧ MarkovEquiv G H := by
  obtain ⟨L, pos, h1, h2⟩ := dagToCpdag_labelling it hG hac
  rw [h] at h1
  cases h1
  exact ⟨h2.markovEquiv_cpdag, h2.isExtension_cpdag⟩

/-! ## C19: `pdag_to_cpdag` -/

/-- all extensions of a PDAG are equivalent -/
theorem C19_extensions_equivalent (P G H : Adj p) (hG : IsExtension G P) (hH : IsExtension H P) : MarkovEquiv G H :=
  ⟨fun i j => (hG.2.1 i j).trans (hH.2.1 i j).symm, fun i c j => (hG.2.2.1 i c j).trans (hH.2.2.1 i c j).symm⟩

theorem pdagToDag_nonneg {P G : Adj p} (hP : Nonneg P) (hl : NoLoops P) (h : pdagToDag P = .ok G) : Nonneg G := by
  intro a b
  obtain ⟨h1, h2, h3⟩ := C13_pdag_to_dag_entries P G hl h a b
  by_cases h0 : P a b = 0
  · rw [h3 h0]
  · by_cases h0' : P b a = 0
    · rw [h1 ⟨h0, h0'⟩]; exact hP a b
    · rcases h2 ⟨h0, h0'⟩ with h | h <;> omega

/-- C19: `ValueError` iff there is no consistent extension; otherwise the result is the CPDAG of every consistent
extension. -/
theorem C19_pdag_to_cpdag (it : SetIter p) (P : Adj p) (hP : Nonneg P) (hl : NoLoops P) :
    (pdagToCpdag it P = .error .valueError ↔ ¬ ∃ D, IsExtension D P) ∧
      ∀ H, Nonneg H → IsExtension H P → ∀ it', pdagToCpdag it P = dagToCpdag it' H := by
  obtain ⟨hc1, hc2⟩ := C14_pdag_to_dag_complete P hl
  constructor
  · unfold pdagToCpdag
    constructor
    · intro h hex
      obtain ⟨G, hG⟩ := hc2.2 hex
      have hext := C13_pdag_to_dag_sound P G hl hG
      rw [hG] at h
      dsimp only at h
      exact (dagToCpdag_error it (pdagToDag_nonneg hP hl hG)).1 h hext.1
    · intro h
      rw [hc1.2 h]
  · intro H hH hext it'
    obtain ⟨G, hG⟩ := hc2.2 ⟨H, hext⟩
    have hextG := C13_pdag_to_dag_sound P G hl hG
    unfold pdagToCpdag
    rw [hG]
    exact (C18_cpdag_eq_iff it it' G H (pdagToDag_nonneg hP hl hG) hextG.1 hH hext.1).2
      (C19_extensions_equivalent P G H hextG hext)

/-- C19: `pdag_to_cpdag` is the identity on CPDAGs. -/
theorem C19_idempotent (it it' : SetIter p) (G C : Adj p) (hG : Nonneg G) (hac : Acyclic G) (h : dagToCpdag it G = .ok C) :
    pdagToCpdag it' C = .ok C := by
  have hC01 : ZeroOne C := by
    obtain ⟨C', h1, h2, _⟩ := dagToCpdag_spec it hG hac
    rw [h] at h1; cases h1; exact h2
  obtain ⟨hme, hext⟩ := C18_extensions it G C hG hac h
  have hl : NoLoops C := by
    intro i
    by_contra hc
    have := (hme.1 i i).2 (Or.inl hc)
    rcases this with h' | h' <;> exact h' (hac.noLoops i)
  rw [(C19_pdag_to_cpdag it' C hC01.nonneg hl).2 G hG ((hext G).2 ⟨hac, MarkovEquiv.refl G⟩) it, h]

example : pdagToCpdag (SetIter.incr 3) (![![0, 1, 0], ![1, 0, 1], ![0, 0, 0]] : Adj 3) =
    .ok ![![0, 1, 0], ![1, 0, 1], ![0, 1, 0]] := eq_of_okEq (by decide +kernel)

end Verif
