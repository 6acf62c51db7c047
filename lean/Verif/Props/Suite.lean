import Verif.Props.Enum
import Verif.Props.GraphEdit
import Verif.Props.Meek
import Verif.Props.Paths
import Verif.Props.ListUtils
import Verif.Props.LModel
import Verif.Props.SuiteLiterals

/-!
# C114: what the test suite checks on random graphs holds for all graphs

Each theorem names the test of `/repo/utlvce/test/test_utils.py` (or another file of that directory) whose assertions it
turns into a statement about all inputs.  (The literal expectations of the same tests are in `SuiteLiterals.lean`.)
-/

namespace Verif

open Spec

variable {p l l' e : Nat}

/-- C114, `test_chain_component_4`: in a DAG the chain component of a node is the node. -/
theorem C114_chain_component (it : SetIter p) (A : Adj p) (hac : Acyclic A) (i : Fin p) :
    chainComponent it i A = .ok {i} := by
  obtain ⟨V, h1, h2⟩ := C09_chain_component it i A
  rw [h1]
  congr 1
  ext j
  rw [h2, Finset.mem_singleton]
  constructor
  · intro h
    rcases Relation.ReflTransGen.cases_head h with h | ⟨c, hc, _⟩
    · exact h.symm
    · exact absurd (hac.no_two hc.1) hc.2
  · rintro rfl
    exact Relation.ReflTransGen.refl

/-- C114, `test_all_dags_0`: a DAG is its only consistent extension. -/
theorem C114_all_dags_dag (it : SetIter p) (A : Adj p) (hA : ZeroOne A) (hac : Acyclic A) : allDags it A = .ok [A] := by
  refine C23_no_undirected_unchecked it A hA (fun i => ?_) ?_
  · by_contra h
    exact hac i (Relation.TransGen.single h)
  · rintro ⟨i, j, h⟩
    exact h.2 (hac.no_two h.1)

/-- the pairs joined by an edge, with the smaller node last -/
def halfPairs (A : Adj p) : Finset (Fin p × Fin p) :=
  Finset.univ.filter (fun e => Adjacent A e.1 e.2 ∧ e.2 < e.1)

theorem nnz_dag (H : Adj p) (hac : Acyclic H) : nnz H = (halfPairs H).card := by
  unfold nnz halfPairs
  refine Finset.card_bij' (fun e _ => if e.2 < e.1 then e else (e.2, e.1))
    (fun e _ => if H e.1 e.2 ≠ 0 then e else (e.2, e.1)) ?_ ?_ ?_ ?_
  · rintro ⟨a, b⟩ h
    simp only [Finset.mem_filter, Finset.mem_univ, true_and] at h ⊢
    have hne : a ≠ b := by
      rintro rfl
      exact hac a (Relation.TransGen.single h)
    split_ifs with hlt
    · exact ⟨Or.inl h, hlt⟩
    · exact ⟨Or.inr h, lt_of_le_of_ne (not_lt.1 hlt) hne⟩
  · rintro ⟨a, b⟩ h
    simp only [Finset.mem_filter, Finset.mem_univ, true_and] at h ⊢
    split_ifs with h0
    · exact h0
    · rcases h.1 with h1 | h1
      · exact absurd h1 h0
      · exact h1
  · rintro ⟨a, b⟩ h
    simp only [Finset.mem_filter, Finset.mem_univ, true_and] at h
    have h2 : H b a = 0 := hac.no_two h
    dsimp only
    split_ifs <;> simp_all
  · rintro ⟨a, b⟩ h
    simp only [Finset.mem_filter, Finset.mem_univ, true_and] at h
    dsimp only
    by_cases h3 : H a b ≠ 0
    · rw [if_pos h3, if_pos h.2]
    · rw [if_neg h3, if_neg (not_lt.2 (le_of_lt h.2))]

/-- C114, `test_all_dags_1`: a PDAG with `u` undirected edges has at most `2 ^ u` consistent extensions, all with as many edges
as the PDAG (undirected edges counted once). -/
theorem C114_all_dags (it : SetIter p) (P : Adj p) (hP : ZeroOne P) (hl : NoLoops P) (l : List (Adj p))
    (h : allDags it P = .ok l) (hu : (∃ i j, UndEdge P i j) ∨ Acyclic P) :
    l.length ≤ 2 ^ (undirectedEdges P).length ∧
      ∀ H ∈ l, nnz H = (directedEdges P).length + (undirectedEdges P).length := by
  obtain ⟨l', h1, h2, h3⟩ := C23_all_dags it P hP hl hu
  rw [h] at h1
  cases h1
  constructor
  · -- an extension is determined by the undirected edges that keep the listed direction
    have hU := (C04_undirected_edges P)
    have hcard : (undirectedEdges P).length = (undirectedEdges P).toFinset.card := (List.toFinset_card_of_nodup hU.1).symm
    rw [hcard, ← Finset.card_powerset, ← List.toFinset_card_of_nodup h2]
    refine Finset.card_le_card_of_injOn (fun H => (undirectedEdges P).toFinset.filter (fun e => H e.1 e.2 ≠ 0)) ?_ ?_
    · intro H _
      rw [Finset.mem_coe, Finset.mem_powerset]
      exact Finset.filter_subset _ _
    · intro H hH K hK hHK
      rw [Finset.mem_coe, List.mem_toFinset, h3] at hH hK
      dsimp only at hHK
      have key : ∀ i j, j < i → UndEdge P i j → (H i j ≠ 0 ↔ K i j ≠ 0) := by
        intro i j hji hu
        have := Finset.ext_iff.1 hHK (i, j)
        simp only [Finset.mem_filter, List.mem_toFinset, hU.2] at this
        tauto
      have hno : ∀ {H : Adj p}, IsExtension H P → ∀ i j, UndEdge P i j → (H i j ≠ 0 ↔ ¬ H j i ≠ 0) := by
        intro H hH i j hu
        constructor
        · intro h1 h2
          exact h2 (hH.1.no_two h1)
        · intro h1
          rcases (hH.2.1 i j).2 (Or.inl hu.1) with h | h
          · exact h
          · exact absurd h h1
      refine zeroOne_ext hH.1 hK.1 (fun i j => ?_)
      unfold Edge
      by_cases hu : UndEdge P i j
      · rcases lt_trichotomy i j with hlt | rfl | hlt
        · rw [hno hH.2 i j hu, hno hK.2 i j hu, key j i hlt ⟨hu.2, hu.1⟩]
        · exact absurd (hl i) hu.1
        · exact key i j hlt hu
      · have : ∀ {H : Adj p}, IsExtension H P → (H i j ≠ 0 ↔ DirEdge P i j) := by
          intro H hH
          constructor
          · intro h0
            rcases (hH.2.1 i j).1 (Or.inl h0) with h | h
            · refine ⟨h, ?_⟩
              by_contra h'
              exact hu ⟨h, h'⟩
            · exfalso
              by_cases h' : P i j = 0
              · exact hH.2.2.2 j i ⟨h, h'⟩ (hH.1.no_two h0)
              · exact hu ⟨h', h⟩
          · intro hd
            exact hH.2.2.2 i j hd
        rw [this hH.2, this hK.2]
  · intro H hH
    have hH' := ((h3 H).1 hH).2
    have hD := C04_directed_edges P
    have hU := C04_undirected_edges P
    rw [nnz_dag H hH'.1, ← List.toFinset_card_of_nodup hD.1, ← List.toFinset_card_of_nodup hU.1]
    have hsplit : halfPairs H = ((directedEdges P).toFinset.image (fun e => if e.2 < e.1 then e else (e.2, e.1))) ∪
        (undirectedEdges P).toFinset := by
      ext ⟨a, b⟩
      simp only [halfPairs, Finset.mem_filter, Finset.mem_univ, true_and, Finset.mem_union, Finset.mem_image,
        List.mem_toFinset, hU.2, Prod.exists, hD.2]
      rw [hH'.2.1 a b]
      constructor
      · rintro ⟨h1, h2⟩
        by_cases h3 : P a b = 0
        · have h4 : P b a ≠ 0 := h1.resolve_left (fun h => h h3)
          exact Or.inl ⟨b, a, ⟨h4, h3⟩, by rw [if_neg (not_lt.2 (le_of_lt h2))]⟩
        · by_cases h4 : P b a = 0
          · exact Or.inl ⟨a, b, ⟨h3, h4⟩, by rw [if_pos h2]⟩
          · exact Or.inr ⟨⟨h3, h4⟩, h2⟩
      · rintro (⟨c, d, h1, h2⟩ | ⟨h1, h2⟩)
        · split_ifs at h2 with h3
          · simp only [Prod.mk.injEq] at h2
            obtain ⟨rfl, rfl⟩ := h2
            exact ⟨Or.inl h1.1, h3⟩
          · simp only [Prod.mk.injEq] at h2
            obtain ⟨rfl, rfl⟩ := h2
            refine ⟨Or.inr h1.1, lt_of_le_of_ne (not_lt.1 h3) ?_⟩
            rintro rfl
            exact h1.1 h1.2
        · exact ⟨Or.inl h1.1, h2⟩
    rw [hsplit, Finset.card_union_of_disjoint, Finset.card_image_of_injOn]
    · rintro ⟨a, b⟩ h1 ⟨c, d⟩ h2 h3
      simp only [Finset.mem_coe, List.mem_toFinset, hD.2] at h1 h2
      dsimp only at h3
      split_ifs at h3 with h4 h5 h5
      · exact h3
      · simp only [Prod.mk.injEq] at h3
        obtain ⟨rfl, rfl⟩ := h3
        exact absurd h2.2 h1.1
      · simp only [Prod.mk.injEq] at h3
        obtain ⟨rfl, rfl⟩ := h3
        exact absurd h2.2 h1.1
      · simp only [Prod.mk.injEq] at h3
        obtain ⟨rfl, rfl⟩ := h3
        rfl
    · rw [Finset.disjoint_left]
      rintro ⟨a, b⟩ h1 h2
      simp only [Finset.mem_image, List.mem_toFinset, hU.2, Prod.exists, hD.2] at h1 h2
      obtain ⟨c, d, h3, h4⟩ := h1
      split_ifs at h4
      · simp only [Prod.mk.injEq] at h4
        obtain ⟨rfl, rfl⟩ := h4
        exact h2.1.2 h3.2
      · simp only [Prod.mk.injEq] at h4
        obtain ⟨rfl, rfl⟩ := h4
        exact h2.1.1 h3.2

/-- C114, `test_degrees_1`: in a DAG the degree of a node is the number of its parents plus the number of its children, and the
degrees add up to twice the number of edges. -/
theorem C114_degrees (A : Adj p) (hA : Nonneg A) (hac : Acyclic A) :
    (∀ j, degrees A j = (pa j A).card + (ch j A).card) ∧ ∑ j, degrees A j = 2 * (nnz A : Int) := by
  have hdeg : ∀ j, degrees A j = (pa j A).card + (ch j A).card := by
    intro j
    rw [C11_degrees A hA j, ← Nat.cast_add, ← Finset.card_union_of_disjoint (C03_partition A j).2.2.2]
    congr 2
    ext i
    simp only [Finset.mem_filter, Finset.mem_univ, true_and, Finset.mem_union, (C03_meaning A j i).1, (C03_meaning A j i).2.1]
    constructor
    · rintro (h | h)
      · exact Or.inl ⟨h, hac.no_two h⟩
      · exact Or.inr ⟨h, hac.no_two h⟩
    · rintro (h | h)
      · exact Or.inl h.1
      · exact Or.inr h.1
  refine ⟨hdeg, ?_⟩
  have h1 : ∀ j, ((pa j A).card : Int) = ∑ i, if A i j ≠ 0 then 1 else 0 := by
    intro j
    rw [Finset.sum_boole]
    congr 2
    ext i
    rw [(C03_meaning A j i).1]
    simp only [Finset.mem_filter, Finset.mem_univ, true_and]
    exact ⟨fun h => h.1, fun h => ⟨h, hac.no_two h⟩⟩
  have h2 : ∀ j, ((ch j A).card : Int) = ∑ i, if A j i ≠ 0 then 1 else 0 := by
    intro j
    rw [Finset.sum_boole]
    congr 2
    ext i
    rw [(C03_meaning A j i).2.1]
    simp only [Finset.mem_filter, Finset.mem_univ, true_and]
    exact ⟨fun h => h.1, fun h => ⟨h, hac.no_two h⟩⟩
  have h3 : (nnz A : Int) = ∑ i, ∑ j, if A i j ≠ 0 then 1 else 0 := by
    unfold nnz
    rw [← Finset.sum_product', Finset.univ_product_univ, Finset.sum_boole]
  simp only [hdeg, Finset.sum_add_distrib, h1, h2]
  rw [← h3, Finset.sum_comm, ← h3]
  ring

/-- C114, `test_degrees_1`: graphs with the same skeleton have the same degrees; in particular a DAG and its CPDAG. -/
theorem C114_degrees_cpdag (it : SetIter p) (A C : Adj p) (hA : Nonneg A) (hac : Acyclic A)
    (h : dagToCpdag it A = .ok C) : degrees C = degrees A := by
  have hC : Nonneg C := by
    obtain ⟨L, pos, h1, _⟩ := dagToCpdag_labelling it hA hac
    rw [h] at h1
    cases h1
    exact (cpdagOf_zeroOne L).nonneg
  have hs := (skeleton_eq_iff hA hC).2 (C18_extensions it A C hA hac h).1.1
  funext j
  unfold degrees
  exact Finset.sum_congr rfl (fun i _ => (hs i j).symm)

/-- C114, `test_moral_graph_1`: Markov equivalent graphs have the same moral graph. -/
theorem C114_moral_graph (it it' : SetIter p) (A B : Adj p) (hA : Nonneg A) (hB : Nonneg B) (h : MarkovEquiv A B) :
    moralGraph it A = moralGraph it' B := by
  have hs := (skeleton_eq_iff hA hB).2 h.1
  funext a b
  have hv : ∀ i c j, (i, c, j) ∈ vstructures it A ↔ (i, c, j) ∈ vstructures it' B := by
    intro i c j
    rw [mem_vstructures, mem_vstructures, h.2 i c j]
  unfold moralGraph
  refine if_congr (exists_congr fun c => ?_) rfl (hs a b)
  rw [hv a c b, hv b c a]

/-- C114, `test_moral_graph_1`: a DAG and its CPDAG have the same moral graph. -/
theorem C114_moral_graph_cpdag (it it' : SetIter p) (A C : Adj p) (hA : Nonneg A) (hac : Acyclic A)
    (h : dagToCpdag it A = .ok C) : moralGraph it' C = moralGraph it A := by
  have hC : Nonneg C := by
    obtain ⟨L, pos, h1, _⟩ := dagToCpdag_labelling it hA hac
    rw [h] at h1
    cases h1
    exact (cpdagOf_zeroOne L).nonneg
  exact (C114_moral_graph it it' A C hA hC (C18_extensions it A C hA hac h).1).symm

/-- C114, `test_label_edges_2`: the labels of the edges of a DAG are 1 exactly at the edges that are directed in the CPDAG and -1
exactly at those that are not. -/
theorem C114_label_edges (it : SetIter p) (A C O L : Adj p) (hA : Nonneg A) (hac : Acyclic A)
    (hC : dagToCpdag it A = .ok C) (hO : orderEdges it A = .ok O) (hL : labelEdges it O = .ok L) (a b : Fin p) :
    (L a b = 1 ↔ DirEdge C a b) ∧ (L a b = -1 ↔ UndEdge C a b ∧ Edge A a b) ∧ (L a b = 0 ↔ ¬ Edge A a b) := by
  obtain ⟨O', pos, h1, h2, h3⟩ := orderEdges_spec it hA hac
  rw [hO] at h1
  cases h1
  obtain ⟨L', h4, h5⟩ := labelEdges_spec it h2.sorted h3
  rw [hL] at h4
  cases h4
  have hC' : C = cpdagOf L := by
    unfold dagToCpdag at hC
    rw [hO] at hC
    dsimp only at hC
    rw [hL] at hC
    cases hC
    rfl
  subst hC'
  refine ⟨(h5.dirEdge_cpdag a b).symm, ?_, ?_⟩
  · rw [h5.undEdge_cpdag]
    constructor
    · intro h
      exact ⟨Or.inl h, h5.edge_of_rev h⟩
    · rintro ⟨h | h, he⟩
      · exact h
      · exact absurd (hac.no_two he) (h5.edge_of_rev h)
  · constructor
    · intro h he
      rcases h5.vals a b he with h' | h' <;> omega
    · intro h
      exact h5.zero a b h

/-- C114, `test_pdag_to_cpdag` (`test_pdag_to_cpdag.py`) and `test_is_consistent_extension`: if `P` arises from a DAG `A` by
undirecting edges that are in no v-structure, then `A` is recognised as a consistent extension of `P`, and the CPDAG of `A` is
recovered from `P`. -/
theorem C114_undirect (it it' : SetIter p) (A P : Adj p) (hA : Nonneg A) (hac : Acyclic A) (hP : Nonneg P)
    (hkeep : ∀ i j, Edge A i j → Edge P i j)
    (hnew : ∀ i j, Edge P i j → Edge A i j ∨ Edge A j i ∧ ∀ k, ¬ VStructure A j i k) :
    isConsistentExtension it A P = .ok true ∧ pdagToCpdag it P = dagToCpdag it' A := by
  have hadj : SameSkeleton A P := by
    intro i j
    constructor
    · rintro (h | h)
      · exact Or.inl (hkeep _ _ h)
      · exact Or.inr (hkeep _ _ h)
    · rintro (h | h)
      · rcases hnew _ _ h with h | h
        · exact Or.inl h
        · exact Or.inr h.1
      · rcases hnew _ _ h with h | h
        · exact Or.inr h
        · exact Or.inl h.1
  have hdir : ∀ i j, DirEdge P i j → Edge A i j := by
    intro i j h
    rcases hnew _ _ h.1 with h' | h'
    · exact h'
    · exact absurd h.2 (hkeep _ _ h'.1)
  have hv1 : ∀ i c j, VStructure A i c j → DirEdge P i c := by
    intro i c j hv
    refine ⟨hkeep _ _ hv.1.1, ?_⟩
    by_contra h
    rcases hnew _ _ h with h' | h'
    · exact h' hv.1.2
    · exact h'.2 j hv
  have hext : IsExtension A P := by
    refine ⟨hac, hadj, fun i c j => ⟨fun h => ?_, fun h => ?_⟩, hdir⟩
    · exact ⟨hv1 i c j h, hv1 j c i h.symm, h.2.2.1, fun h' => h.2.2.2 ((hadj i j).2 h')⟩
    · exact ⟨⟨hdir _ _ h.1, hac.no_two (hdir _ _ h.1)⟩, ⟨hdir _ _ h.2.1, hac.no_two (hdir _ _ h.2.1)⟩, h.2.2.1,
        fun h' => h.2.2.2 ((hadj i j).1 h')⟩
  have hl : NoLoops P := by
    intro i
    by_contra h
    rcases hnew _ _ h with h' | h'
    · exact hac i (Relation.TransGen.single h')
    · exact hac i (Relation.TransGen.single h'.1)
  refine ⟨?_, (C19_pdag_to_cpdag it P hP hl).2 A hA hext it'⟩
  obtain ⟨b, h1, h2⟩ := C12_exact it A P hA hP hac
  rw [h1, h2.2 hext]

/-- C114, `test_dag_to_icpdag_1`: the DAG is a consistent extension of its I-CPDAG, in which the edges at the targets are
directed. -/
theorem C114_icpdag (it : SetIter p) (A P : Adj p) (hA : Nonneg A) (hac : Acyclic A) (I : List (Fin p))
    (h : dagToIcpdag it A I = .ok P) : isConsistentExtension it A P = .ok true ∧ ∀ i ∈ I, neighbors i P = ∅ := by
  obtain ⟨P', h1, h2⟩ := C21_interventional_essential_graph it A hA hac I
  rw [h] at h1
  cases h1
  have h01 : ZeroOne P := by
    intro i j
    by_cases hx : ∃ H, Acyclic H ∧ IEquiv I.toFinset A H ∧ Edge H i j
    · exact Or.inr ((h2 i j).1.2 hx)
    · exact Or.inl ((h2 i j).2.2 hx)
  have hne : ∀ i j, P i j ≠ 0 ↔ ∃ H, Acyclic H ∧ IEquiv I.toFinset A H ∧ Edge H i j := by
    intro i j
    rw [ne_eq, (h2 i j).2, not_not]
  constructor
  · obtain ⟨b, h3, h4⟩ := C12_exact it A P hA h01.nonneg hac
    rw [h3, h4.2 ((C21_extensions it A P hA hac I h A).2 ⟨hac, MarkovEquiv.refl A, fun i _ k => Iff.rfl⟩)]
  · intro i hi
    rw [Finset.eq_empty_iff_forall_notMem]
    intro j hj
    rw [(C03_meaning P i j).2.2.1] at hj
    obtain ⟨H, hH, hHe, hij⟩ := (hne i j).1 hj.1
    obtain ⟨K, hK, hKe, hji⟩ := (hne j i).1 hj.2
    have hi' : i ∈ I.toFinset := List.mem_toFinset.2 hi
    have e1 : Edge A j i := (hKe.2 i hi' j).2 hji
    have e2 : Edge H j i := (hHe.2 i hi' j).1 e1
    exact e2 (hH.no_two hij)

/-- C114, `test_chain_graph`: `chain_graph(p)` is recognised as a chain graph and has `p - 1` edges. -/
theorem C114_chain_graph (p : Nat) : isChainGraph (chainGraph p) = true ∧ sumAll (chainGraph p) = ((p - 1 : Nat) : Int) := by
  refine ⟨isChainGraph_iff.2 rfl, ?_⟩
  unfold sumAll chainGraph
  have h1 : ∀ i : Fin p, (∑ j : Fin p, if i.val + 1 = j.val then (1 : Int) else 0) = if i.val + 1 < p then 1 else 0 := by
    intro i
    by_cases h : i.val + 1 < p
    · rw [if_pos h, Finset.sum_eq_single (⟨i.val + 1, h⟩ : Fin p)]
      · simp
      · intro j _ hj
        rw [if_neg]
        intro hc
        exact hj (Fin.ext hc.symm)
      · simp
    · rw [if_neg h]
      refine Finset.sum_eq_zero (fun j _ => ?_)
      rw [if_neg]
      have := j.isLt
      omega
  rw [Finset.sum_congr rfl (fun i _ => h1 i), Fin.sum_univ_eq_sum_range (fun i => if i + 1 < p then (1 : Int) else 0)]
  cases p with
  | zero => simp
  | succ n =>
    rw [Finset.sum_range_succ, if_neg (by omega), add_zero, Finset.sum_congr rfl (g := fun _ => (1 : Int))]
    · simp
    · intro i hi
      rw [Finset.mem_range] at hi
      rw [if_pos (by omega)]

/-- C114, `test_imec_1`: if all variables are intervened on, only the DAG is left. -/
theorem C114_imec_all (it : SetIter p) (A : Adj p) (hA : ZeroOne A) (hac : Acyclic A) (c : Bool) (hp : 0 < p ∨ c = false) :
    imec it A ((Finset.univ : Finset (Fin p)).image (fun i : Fin p => (i.val : Int))) c = .ok [A] := by
  obtain ⟨l, h1, h2, h3⟩ := C26_imec it A hA.nonneg hac Finset.univ c hp
  rw [h1]
  congr 1
  have hmem : ∀ H, H ∈ l ↔ H = A := by
    intro H
    rw [h3]
    constructor
    · rintro ⟨h4, _, h5⟩
      exact zeroOne_ext h4 hA (fun i j => (h5.2 j (Finset.mem_univ _) i).symm)
    · rintro rfl
      exact ⟨hA, hac, MarkovEquiv.refl _, fun _ _ _ => Iff.rfl⟩
  exact List.perm_singleton.1 ((List.perm_ext_iff_of_nodup h2 (List.nodup_singleton A)).2 (fun H => by
    rw [hmem, List.mem_singleton]))

theorem foldl_setEntry (l : List (Fin p × Fin p)) (Z : Adj p) (a b : Fin p) :
    l.foldl (fun M e => setEntry M e.1 e.2 1) Z a b = if (a, b) ∈ l then 1 else Z a b := by
  induction l generalizing Z with
  | nil => simp
  | cons x xs ih =>
    rw [List.foldl_cons, ih]
    by_cases h : (a, b) ∈ xs
    · rw [if_pos h, if_pos (List.mem_cons_of_mem _ h)]
    · rw [if_neg h]
      unfold setEntry
      by_cases h' : (a, b) = x
      · subst h'
        simp
      · rw [if_neg, if_neg]
        · rw [List.mem_cons]; tauto
        · intro hc
          exact h' (Prod.ext hc.1 hc.2)

/-- C114, `test_directed_edges`: a DAG is recovered from the list of its directed edges, of which there are as many as entries. -/
theorem C114_directed_edges (A : Adj p) (hA : ZeroOne A) (hac : Acyclic A) :
    (directedEdges A).foldl (fun M e => setEntry M e.1 e.2 1) (fun _ _ => 0) = A ∧ (directedEdges A).length = nnz A := by
  have hD := C04_directed_edges A
  constructor
  · funext a b
    rw [foldl_setEntry]
    by_cases h : A a b = 0
    · rw [if_neg, h]
      rw [hD.2]
      exact fun hc => hc.1 h
    · rw [if_pos ((hD.2 a b).2 ⟨h, hac.no_two h⟩)]
      exact ((hA a b).resolve_left h).symm
  · rw [← List.toFinset_card_of_nodup hD.1]
    unfold nnz
    congr 1
    ext ⟨a, b⟩
    simp only [List.mem_toFinset, hD.2, Finset.mem_filter, Finset.mem_univ, true_and]
    exact ⟨fun h => h.1, fun h => ⟨h, hac.no_two h⟩⟩

/-- C114, `test_remove_edges`: removing as many edges as a DAG has leaves the empty graph, and one more is refused. -/
theorem C114_remove_all (rng : Rng) (A : Adj p) (hac : Acyclic A) :
    removeEdges rng A (nnz A) = .ok (fun _ _ => 0) ∧ removeEdges rng A (nnz A + 1) = .error .valueError := by
  have hcard : (Finset.univ.filter (fun e : Fin p × Fin p => DirEdge A e.1 e.2)).card = nnz A := by
    unfold nnz
    congr 1
    ext ⟨a, b⟩
    simp only [Finset.mem_filter, Finset.mem_univ, true_and]
    exact ⟨fun h => h.1, fun h => ⟨h, hac.no_two h⟩⟩
  constructor
  · rcases h : removeEdges rng A (nnz A) with e | R
    · have h1 := (C29_raises_iff rng A (nnz A)).2 e h
      subst h1
      have := (C29_raises_iff rng A (nnz A)).1.1 h
      rw [hcard] at this
      exact absurd this (lt_irrefl _)
    · have h1 := (C29_remove_edges rng A R (nnz A) h).2.2.2.1
      have h2 : nnz R = 0 := by omega
      congr 1
      funext a b
      unfold nnz at h2
      rw [Finset.card_eq_zero, Finset.filter_eq_empty_iff] at h2
      have := @h2 (a, b) (Finset.mem_univ _)
      simpa using this
  · rw [(C29_raises_iff rng A (nnz A + 1)).1, hcard]
    exact Nat.lt_succ_self _

/-- C114, `test_add_edges`: adding all missing edges to a DAG gives a complete DAG, and one more is refused. -/
theorem C114_add_all (it : SetIter p) (rng : Rng) (A : Adj p) (hac : Acyclic A) (n : Nat)
    (hn : (n : Int) = p * (p - 1) / 2 - nnz A) :
    (∃ S, addEdges it rng A n = .ok S ∧ Acyclic S ∧ ∀ i j, skeleton S i j = if i = j then 0 else 1) ∧
      addEdges it rng A (n + 1) = .error .valueError := by
  constructor
  · obtain ⟨S, h1, h2, h3, h4, h5⟩ := C28_add_edges it rng A hac n (le_of_eq hn)
    refine ⟨S, h1, h3, ?_⟩
    have h6 := C28_bound_meaning S h3
    have h7 : (Finset.univ.filter (fun e : Fin p × Fin p => e.1 ≠ e.2 ∧ ¬ Adjacent S e.1 e.2)).card = 0 := by
      rw [h5] at h6
      push_cast at h6
      omega
    rw [Finset.card_eq_zero, Finset.filter_eq_empty_iff] at h7
    intro i j
    by_cases hij : i = j
    · subst hij
      have : S i i = 0 := by
        by_contra h
        exact h3 i (Relation.TransGen.single h)
      simp [skeleton, this]
    · rw [if_neg hij]
      have h8 := @h7 (i, j) (Finset.mem_univ _)
      have h9 : Adjacent S i j := by
        by_contra hc
        exact h8 ⟨hij, hc⟩
      exact (skeleton_zeroOne S i j).resolve_left ((skeleton_ne h2.nonneg).2 h9)
  · refine C28_raises it rng A hac (n + 1) ?_
    push_cast
    omega

/-- C114, `test_maximally_orient_2`: the check of the test that the result is a consistent extension can never come out false: it
is true if every edge of the result is directed, and raises the `ValueError` that the test catches otherwise. -/
theorem C114_maximally_orient (it : SetIter p) (P Q : Adj p) (hP : Nonneg P) (hD : ∃ D, IsExtension D P)
    (h : maximallyOrient P = .ok Q) :
    ((¬ ∃ i j, UndEdge Q i j) → isConsistentExtension it Q P = .ok true) ∧
      ((∃ i j, UndEdge Q i j) → isConsistentExtension it Q P = .error .valueError) := by
  obtain ⟨hsk, hdir, hw⟩ := C20_only_orients P Q hD h
  have hQ : Nonneg Q := by
    intro i j
    rcases hw i j with h | h <;> rw [h]
    exact hP i j
  constructor
  · intro hu
    obtain ⟨Q', h1, _, h2⟩ := C20_sound_and_closed P hD
    rw [h] at h1
    cases h1
    obtain ⟨D, hDP⟩ := hD
    have hDQ := (h2 D).2 hDP
    have hed : ∀ i j, Edge D i j ↔ Edge Q i j := by
      intro i j
      constructor
      · intro he
        rcases (hDQ.2.1 i j).1 (Or.inl he) with h' | h'
        · exact h'
        · by_contra hc
          have hc' : Q i j = 0 := by simpa [Edge] using hc
          exact hDQ.2.2.2 j i ⟨h', hc'⟩ (hDQ.1.no_two he)
      · intro he
        refine hDQ.2.2.2 i j ⟨he, ?_⟩
        by_contra hc
        exact hu ⟨i, j, he, hc⟩
    have hacQ : Acyclic Q := acyclic_congr hed hDQ.1
    obtain ⟨b, h3, h4⟩ := C12_exact it Q P hQ hP hacQ
    rw [h3, h4.2 ⟨hacQ, hsk, fun i c j => (hDQ.2.2.1 i c j).symm.trans (hDP.2.2.1 i c j), fun i j hd => (hdir i j hd).1⟩]
  · rintro ⟨i, j, hu⟩
    rw [C12_raises it Q P hQ]
    intro hac
    exact hu.2 (hac.no_two hu.1)

/-- C114, `test_sort_*`: sorting a permutation of `order` by `order` gives `order`, and sorting nothing gives nothing. -/
theorem C114_sort (L order : List (Fin p)) (hnd : order.Nodup) (hall : ∀ i, i ∈ order) :
    (L.Perm order → sortBy L order = .ok order) ∧ sortBy [] order = .ok [] := by
  constructor
  · intro hp
    obtain ⟨r, h1, h2, h3⟩ := C31_sort_by_order L order hnd hall
    rw [h1]
    congr 1
    refine List.Perm.eq_of_pairwise (le := fun a b => order.idxOf a ≤ order.idxOf b) ?_ h3 ?_ (h2.trans hp)
    · intro a b _ _ h4 h5
      exact (List.idxOf_inj (hall a)).1 (le_antisymm h4 h5)
    · rw [List.pairwise_iff_getElem]
      intro i j hi hj hij
      rw [List.Nodup.idxOf_getElem hnd, List.Nodup.idxOf_getElem hnd]
      exact le_of_lt hij
  · obtain ⟨r, h1, h2, h3⟩ := C31_sort_by_order [] order hnd hall
    rw [h1, List.perm_nil.1 h2]

/-- C114, `test_is_complete` / `test_induced_subgraph`: a complete DAG is recognised; without nodes the induced subgraph is
empty, with all nodes it is the graph. -/
theorem C114_induced (G : Adj p) : inducedSubgraph ∅ G = (fun _ _ => 0) ∧ inducedSubgraph Finset.univ G = G := by
  constructor
  · funext i j
    exact (C10_induced_subgraph ∅ G i j).2 (by simp)
  · funext i j
    exact (C10_induced_subgraph Finset.univ G i j).1 (by simp)

theorem roundHalfEven_int (x : Rat) (k : Int) (h : x = k) : Spec.RoundHalfEven x k := by
  subst h
  constructor
  · simp
  · intro h
    simp at h

/-- C114, `test_split_data_1`: with `k` equal ratios and a sample whose size is a multiple of `k`, every fold has exactly the
`k`-th part of the observations and none is dropped. -/
theorem C114_split_equal {α : Type} (rng : Nat → Rng) (data : List (List α)) (k : Nat) (hk : 0 < k)
    (folds : List (List (List α))) (h : splitData rng data (List.replicate k (1 / (k : Rat))) = .ok folds) (e : Nat)
    (sample : List α) (he : data[e]? = some sample) (q : Nat) (hq : sample.length = k * q) :
    (foldsOf folds e).flatten.Perm sample ∧ ∀ fold ∈ foldsOf folds e, fold.length = q := by
  have hk' : (k : Rat) ≠ 0 := by exact_mod_cast (Nat.pos_iff_ne_zero.1 hk)
  have hsum : (List.replicate k (1 / (k : Rat))).sum = 1 := by
    rw [List.sum_replicate, nsmul_eq_mul, mul_one_div, div_self hk']
  have hr : ∀ r ∈ List.replicate k (1 / (k : Rat)), 0 ≤ r := by
    intro r hr
    rw [(List.mem_replicate.1 hr).2]
    positivity
  have hval : (sample.length : Rat) * (1 / (k : Rat)) = ((q : Int) : Rat) := by
    rw [hq]
    push_cast
    field_simp
  have hround : pyRound ((sample.length : Rat) * (1 / (k : Rat))) = q :=
    ((pyRound_iff _ _).1 (roundHalfEven_int _ _ hval)).symm
  have hcov : (foldsOf folds e).flatten.Perm sample := by
    rw [C33_covers_iff rng data _ hr folds h e sample he pyRound (fun x => (pyRound_iff x _).2 rfl)]
    rw [List.map_replicate, List.sum_replicate, hround, hq]
    simp
  refine ⟨hcov, ?_⟩
  obtain ⟨folds', h1, h2, h3, h4⟩ := C32_folds rng data _ hsum hr
  rw [h] at h1
  cases h1
  obtain ⟨_, _, h7⟩ := h4 e sample he
  have hlen : (foldsOf folds e).length = k := by
    have : (foldsOf folds e).length = folds.length := by unfold foldsOf; simp
    rw [this, h2, List.length_replicate]
  -- the first `i` folds have `i * q` observations
  have hpre : ∀ i, i ≤ k → ∀ fold ∈ (foldsOf folds e).take i, fold.length = q := by
    intro i
    induction i with
    | zero => simp
    | succ i ih =>
      intro hi fold hf
      have hi' : i < (foldsOf folds e).length := by omega
      rw [List.take_succ_eq_append_getElem hi', List.mem_append, List.mem_singleton] at hf
      rcases hf with hf | hf
      · exact ih (by omega) fold hf
      · have h8 := h7 i fold (1 / (k : Rat)) q (by rw [hf, List.getElem?_eq_getElem hi'])
          (by rw [List.getElem?_replicate, if_pos (by omega)]) (roundHalfEven_int _ _ hval)
        have h9 : (((foldsOf folds e).take i).map List.length).sum = i * q := by
          rw [List.map_congr_left (g := fun _ => q) (fun x hx => ih (by omega) x hx), List.map_const', List.sum_replicate,
            List.length_take, min_eq_left (by omega), smul_eq_mul]
        rw [h9, hq] at h8
        have h10 : (q : Int) ≤ (k * q : Nat) - (i * q : Nat) := by
          have : (i + 1) * q ≤ k * q := Nat.mul_le_mul_right q hi
          have h11 : (i + 1) * q = i * q + q := by ring
          omega
        rw [min_eq_left h10] at h8
        exact_mod_cast h8
  intro fold hf
  refine hpre k le_rfl fold ?_
  rwa [List.take_of_length_le (by omega)]

/-- C114, `test_split_data_3`: the test splits 99 observations in two halves and asserts that none is dropped.  This holds
exactly for the sample sizes that do not leave the remainder 1 when divided by 4: with 97 or 101 observations the test would fail. -/
theorem C114_split_halves {α : Type} (rng : Nat → Rng) (data : List (List α)) (folds : List (List (List α)))
    (h : splitData rng data [1 / 2, 1 / 2] = .ok folds) (e : Nat) (sample : List α) (he : data[e]? = some sample) :
    (foldsOf folds e).flatten.Perm sample ↔ sample.length % 4 ≠ 1 := by
  have hr : ∀ r ∈ [(1 : Rat) / 2, 1 / 2], 0 ≤ r := by
    intro r hr
    simp only [List.mem_cons, List.not_mem_nil, or_false, or_self] at hr
    rw [hr]
    norm_num
  rw [C33_covers_iff rng data _ hr folds h e sample he pyRound (fun x => (pyRound_iff x _).2 rfl)]
  generalize sample.length = n
  have key : ∀ k : Int, Spec.RoundHalfEven ((n : Rat) * (1 / 2)) k → pyRound ((n : Rat) * (1 / 2)) = k :=
    fun k hk => ((pyRound_iff _ _).1 hk).symm
  simp only [List.map_cons, List.map_nil, List.sum_cons, List.sum_nil, add_zero]
  obtain ⟨m, hm⟩ : ∃ m, n = 4 * m + n % 4 := ⟨n / 4, by omega⟩
  have hlt : n % 4 < 4 := Nat.mod_lt _ (by norm_num)
  generalize n % 4 = r at *
  subst hm
  interval_cases r
  · have := key (2 * m) (roundHalfEven_int _ _ (by push_cast; ring))
    rw [this]
    push_cast
    omega
  · have := key (2 * m) (by
      constructor
      · rw [show (((4 * m + 1 : Nat) : Rat) * (1 / 2) - ((2 * m : Int) : Rat)) = 1 / 2 by push_cast; ring]
        norm_num
      · intro _
        exact even_two_mul _)
    rw [this]
    push_cast
    omega
  · have := key (2 * m + 1) (roundHalfEven_int _ _ (by push_cast; ring))
    rw [this]
    push_cast
    omega
  · have := key (2 * m + 2) (by
      constructor
      · rw [show (((4 * m + 3 : Nat) : Rat) * (1 / 2) - ((2 * m + 2 : Int) : Rat)) = -(1 / 2) by push_cast; ring]
        norm_num
      · intro _
        exact ⟨m + 1, by ring⟩)
    rw [this]
    push_cast
    omega

/-- C114: models with the same graph and coefficients and the same noise covariances have the same covariances. -/
theorem C114_covariances (it : SetIter p) (A : Adj p) (hA : Nonneg A) (B : Matrix (Fin p) (Fin p) ℝ)
    (gamma : Matrix (Fin l) (Fin p) ℝ) (gamma' : Matrix (Fin l') (Fin p) ℝ) (omegas omegas' : Matrix (Fin e) (Fin p) ℝ)
    (psis : Matrix (Fin e) (Fin l) ℝ) (psis' : Matrix (Fin e) (Fin l') ℝ) (m : LModel p l e) (m' : LModel p l' e)
    (h : mkModel it A B gamma omegas psis = .ok m) (h' : mkModel it A B gamma' omegas' psis' = .ok m')
    (heq : ∀ k, noiseCov gamma (psis k) (omegas k) = noiseCov gamma' (psis' k) (omegas' k)) :
    m.covariances = m'.covariances := by
  obtain ⟨_, C, h1, h2⟩ := C35_covariances it A hA B gamma omegas psis m h
  obtain ⟨_, C', h1', h2'⟩ := C35_covariances it A hA B gamma' omegas' psis' m' h'
  rw [h1, h1']
  congr 1
  funext k
  refine (h2' k).2 (C k) ?_
  rw [← heq k]
  exact (h2 k).1

/-- C114, `test_covariances_2`: latent variables without effects do not change the covariances (whatever their number and
variances). -/
theorem C114_covariances_zero (it : SetIter p) (A : Adj p) (hA : Nonneg A) (B : Matrix (Fin p) (Fin p) ℝ)
    (omegas : Matrix (Fin e) (Fin p) ℝ) (psis : Matrix (Fin e) (Fin l) ℝ) (psis' : Matrix (Fin e) (Fin 0) ℝ) (m : LModel p l e)
    (m' : LModel p 0 e) (h : mkModel it A B 0 omegas psis = .ok m) (h' : mkModel it A B 0 omegas psis' = .ok m') :
    m.covariances = m'.covariances :=
  C114_covariances it A hA B 0 0 omegas omegas psis psis' m m' h h' (fun k => by
    funext i j
    simp [noiseCov])

/-- C114, `test_covariances_3`: if every variable has a latent variable of its own, the covariances are those of the model without
latent variables whose noise variances are increased by the variances of the latent variables. -/
theorem C114_covariances_one (it : SetIter p) (A : Adj p) (hA : Nonneg A) (B : Matrix (Fin p) (Fin p) ℝ)
    (omegas : Matrix (Fin e) (Fin p) ℝ) (psis : Matrix (Fin e) (Fin p) ℝ) (psis' : Matrix (Fin e) (Fin 0) ℝ) (m : LModel p p e)
    (m' : LModel p 0 e) (h : mkModel it A B 1 omegas psis = .ok m) (h' : mkModel it A B 0 (omegas + psis) psis' = .ok m') :
    m.covariances = m'.covariances :=
  C114_covariances it A hA B 1 0 omegas (omegas + psis) psis psis' m m' h h' (fun k => by
    funext i j
    by_cases hij : i = j
    · subst hij
      simp [noiseCov, Matrix.one_apply, add_comm]
    · simp only [noiseCov, Matrix.one_apply, if_neg hij, Matrix.zero_apply, zero_mul, Finset.sum_const_zero, add_zero]
      refine Finset.sum_eq_zero (fun x _ => ?_)
      by_cases h1 : x = i
      · subst h1
        rw [if_neg hij, mul_zero]
      · rw [if_neg h1, zero_mul, zero_mul])

/-! ## The hypotheses can be met -/

/-- `0 → 1 → 2` -/
private def chain3 : Adj 3 := ![![0, 1, 0], ![0, 0, 1], ![0, 0, 0]]

private theorem chain3_acyclic : Acyclic chain3 :=
  (isDag_iff (SetIter.incr 3) (by unfold Nonneg; decide)).1 (by decide +kernel)

/-- the chain with its first edge undirected -/
private def chain3u : Adj 3 := ![![0, 1, 0], ![1, 0, 1], ![0, 0, 0]]

example : isConsistentExtension (SetIter.incr 3) chain3 chain3u = .ok true ∧
    pdagToCpdag (SetIter.incr 3) chain3u = dagToCpdag (SetIter.incr 3) chain3 :=
  C114_undirect _ _ chain3 chain3u (by unfold Nonneg; decide) chain3_acyclic (by unfold Nonneg; decide)
    (by unfold Edge; decide) (by unfold Edge VStructure DirEdge Adjacent; decide)

example : chainComponent (SetIter.incr 3) 1 chain3 = .ok {1} := C114_chain_component _ _ chain3_acyclic 1

example : moralGraph (SetIter.incr 3) chain3 = moralGraph (SetIter.incr 3) ![![0, 0, 0], ![1, 0, 1], ![0, 0, 0]] :=
  C114_moral_graph _ _ _ _ (by unfold Nonneg; decide) (by unfold Nonneg; decide)
    (by unfold MarkovEquiv SameSkeleton SameVStructures VStructure DirEdge Adjacent; decide)

example (rng : Rng) : addEdges (SetIter.incr 3) rng chain3 2 = .error .valueError :=
  (C114_add_all _ _ chain3 chain3_acyclic 1 (by decide +kernel)).2

/-- `0 → 1 - 2` becomes `0 → 1 → 2`, and the check of the test succeeds; `0 - 1 → 2` keeps its undirected edge, and it raises -/
example (it : SetIter 3) : isConsistentExtension it chain3 ![![0, 1, 0], ![0, 0, 1], ![0, 1, 0]] = .ok true ∧
    isConsistentExtension it chain3u chain3u = .error .valueError := by
  have h1 : maximallyOrient (![![0, 1, 0], ![0, 0, 1], ![0, 1, 0]] : Adj 3) = .ok chain3 := eq_of_okEq (by decide +kernel)
  have h2 : maximallyOrient chain3u = .ok chain3u := eq_of_okEq (by decide +kernel)
  have e1 : ∃ D, IsExtension D (![![0, 1, 0], ![0, 0, 1], ![0, 1, 0]] : Adj 3) := by
    by_contra hc
    rw [(C20_raises_iff _ (by unfold NoLoops; decide)).2 hc] at h1
    cases h1
  have e2 : ∃ D, IsExtension D chain3u := by
    by_contra hc
    rw [(C20_raises_iff _ (by unfold NoLoops; decide)).2 hc] at h2
    cases h2
  exact ⟨(C114_maximally_orient it _ _ (by unfold Nonneg; decide) e1 h1).1 (by unfold UndEdge; decide),
    (C114_maximally_orient it _ _ (by unfold Nonneg; decide) e2 h2).2 (by unfold UndEdge; decide)⟩

example (it : SetIter 2) : ∃ l, allDags it ![![0, 1], ![1, 0]] = .ok l ∧ l.length ≤ 2 ^ 1 ∧ ∀ H ∈ l, nnz H = 1 := by
  have h01 : ZeroOne (![![0, 1], ![1, 0]] : Adj 2) := by unfold ZeroOne; decide
  have hnl : NoLoops (![![0, 1], ![1, 0]] : Adj 2) := by unfold NoLoops; decide
  have hu : ∃ i j, UndEdge (![![0, 1], ![1, 0]] : Adj 2) i j := ⟨0, 1, by decide⟩
  obtain ⟨l, h1, _⟩ := C23_all_dags it _ h01 hnl (Or.inl hu)
  have := C114_all_dags it _ h01 hnl l h1 (Or.inl hu)
  exact ⟨l, h1, this⟩

/-- five observations: one is dropped; seven: none is -/
example (rng : Nat → Rng) : ∃ folds, splitData rng [[1, 2, 3, 4, 5], [1, 2, 3, 4, 5, 6, 7]] [1 / 2, 1 / 2] = .ok folds ∧
    ¬ (foldsOf folds 0).flatten.Perm [1, 2, 3, 4, 5] ∧ (foldsOf folds 1).flatten.Perm [1, 2, 3, 4, 5, 6, 7] := by
  obtain ⟨folds, h, _⟩ := C32_folds rng [[1, 2, 3, 4, 5], [1, 2, 3, 4, 5, 6, 7]] [1 / 2, 1 / 2] (by norm_num)
    (by intro r hr; simp at hr; rw [hr]; norm_num)
  refine ⟨folds, h, ?_, ?_⟩
  · rw [C114_split_halves rng _ folds h 0 _ rfl]
    decide
  · rw [C114_split_halves rng _ folds h 1 _ rfl]
    decide

example (rng : Nat → Rng) : ∃ folds, splitData rng [[1, 2, 3, 4, 5, 6]] (List.replicate 3 (1 / ((3 : Nat) : Rat))) = .ok folds ∧
    ∀ fold ∈ foldsOf folds 0, fold.length = 2 := by
  obtain ⟨folds, h, _⟩ := C32_folds rng [[1, 2, 3, 4, 5, 6]] (List.replicate 3 (1 / ((3 : Nat) : Rat)))
    (by rw [List.sum_replicate]; norm_num) (by intro r hr; rw [(List.mem_replicate.1 hr).2]; positivity)
  exact ⟨folds, h, (C114_split_equal rng _ 3 (by norm_num) folds h 0 _ rfl 2 rfl).2⟩

example : ∃ (m : LModel 2 2 2) (m' : LModel 2 0 2),
    mkModel (SetIter.incr 2) ![![0, 1], ![0, 0]] !![0, 3; 0, 0] 1 !![1, 2; 1, 1] !![1, 1; 2, 3] = .ok m ∧
    mkModel (SetIter.incr 2) ![![0, 1], ![0, 0]] !![0, 3; 0, 0] 0 (!![1, 2; 1, 1] + !![1, 1; 2, 3]) 0 = .ok m' ∧
    m.covariances = m'.covariances := by
  have hN : Nonneg (![![0, 1], ![0, 0]] : Adj 2) := by unfold Nonneg; decide
  have h1 := mkModel_eq_ok (it := SetIter.incr 2) hN (1 : Matrix (Fin 2) (Fin 2) ℝ) !![1, 2; 1, 1]
    (!![1, 1; 2, 3] : Matrix (Fin 2) (Fin 2) ℝ) exModel_acyclic exModel_respects
  have h2 := mkModel_eq_ok (it := SetIter.incr 2) hN (0 : Matrix (Fin 0) (Fin 2) ℝ)
    ((!![1, 2; 1, 1] : Matrix (Fin 2) (Fin 2) ℝ) + !![1, 1; 2, 3]) 0 exModel_acyclic exModel_respects
  exact ⟨_, _, h1, h2, C114_covariances_one _ _ hN _ _ _ _ _ _ h1 h2⟩

end Verif
