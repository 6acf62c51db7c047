import Verif.Proof.Icpdag
import Verif.Props.Pdag

/-!
# Properties C20-C22, C27: Meek rules and I-CPDAGs
-/

namespace Verif
open Spec
variable {p : Nat}

/-! ## C20: `maximally_orient` -/

/-- C20: `ValueError` exactly when there is no consistent extension. -/
theorem C20_raises_iff (P : Adj p) (hl : NoLoops P) :
    maximallyOrient P = .error .valueError ↔ ¬ ∃ D, IsExtension D P := maximallyOrient_error hl

/-- C20: otherwise the loop terminates, no rule applies to a remaining undirected edge, and the consistent extensions
are unchanged. -/
theorem C20_sound_and_closed (P : Adj p) (hD : ∃ D, IsExtension D P) :
    ∃ P', maximallyOrient P = .ok P' ∧ MeekClosed P' ∧ ∀ H, IsExtension H P' ↔ IsExtension H P := by
  obtain ⟨P', h1, _, h3, h4⟩ := maximallyOrient_spec hD
  exact ⟨P', h1, h3, h4⟩

/-- C20: only undirected edges are changed: the skeleton, the directed edges and the weights are kept. -/
theorem C20_only_orients (P P' : Adj p) (hD : ∃ D, IsExtension D P) (h : maximallyOrient P = .ok P') :
    SameSkeleton P' P ∧ (∀ i j, DirEdge P i j → DirEdge P' i j) ∧ ∀ i j, P' i j = 0 ∨ P' i j = P i j := by
  obtain ⟨P1, h1, h2, _⟩ := maximallyOrient_spec hD
  rw [h] at h1
  cases h1
  exact ⟨h2.skel, h2.dir, h2.entry⟩

/-- C20 (Meek's completeness theorem for arbitrary background knowledge): the result is *maximally* oriented: `[i, j]` is
non-zero iff some consistent extension of `P` contains `i → j`.  In particular both directions of every remaining
undirected edge occur. -/
theorem C20_maximal (P P' : Adj p) (hD : ∃ D, IsExtension D P) (h : maximallyOrient P = .ok P') (i j : Fin p) :
    P' i j ≠ 0 ↔ ∃ H, IsExtension H P ∧ Edge H i j := by
  obtain ⟨D, hD⟩ := hD
  obtain ⟨P1, h1, _, h3, h4⟩ := maximallyOrient_spec ⟨D, hD⟩
  rw [h] at h1
  cases h1
  have := edge_iff_ext ((h4 D).2 hD) h3 i j
  rw [show (P' i j ≠ 0) ↔ Edge P' i j from Iff.rfl, this]
  simp only [h4]

/-- C20: a second application changes nothing. -/
theorem C20_idempotent (P P' : Adj p) (hD : ∃ D, IsExtension D P) (h : maximallyOrient P = .ok P') :
    maximallyOrient P' = .ok P' := by
  obtain ⟨D, hD⟩ := hD
  obtain ⟨P1, h1, h2, h3, h4⟩ := maximallyOrient_spec ⟨D, hD⟩
  rw [h] at h1
  cases h1
  have hD' := (h4 D).2 hD
  obtain ⟨P2, g1, g2, _, g4⟩ := maximallyOrient_spec ⟨D, hD'⟩
  rw [g1]
  congr 1
  funext i j
  rcases g2.entry i j with h5 | h5
  · by_contra hne
    have hE : Edge P' i j := fun hc => hne (by rw [h5, hc])
    obtain ⟨H, k1, k2⟩ := (edge_iff_ext hD' h3 i j).1 hE
    have := (C20_maximal P' P2 ⟨D, hD'⟩ g1 i j).2 ⟨H, k1, k2⟩
    exact this h5
  · exact h5

-- rule 4 is needed here: 0 - 1, 0 - 2, 0 - 3, 3 → 2 → 1 with 3, 1 not adjacent
example : maximallyOrient (![![0, 1, 1, 1], ![1, 0, 0, 0], ![1, 1, 0, 0], ![1, 0, 1, 0]] : Adj 4) =
    .ok ![![0, 1, 1, 1], ![0, 0, 0, 0], ![1, 1, 0, 0], ![1, 0, 1, 0]] := eq_of_okEq (by decide +kernel)

-- its extension
example : ∃ D, IsExtension D (![![0, 1, 1, 1], ![1, 0, 0, 0], ![1, 1, 0, 0], ![1, 0, 1, 0]] : Adj 4) := by
  rw [← (C14_pdag_to_dag_complete _ (by unfold NoLoops; decide)).2]
  exact ⟨![![0, 1, 0, 0], ![0, 0, 0, 0], ![1, 1, 0, 0], ![1, 0, 1, 0]], eq_of_okEq (by decide +kernel)⟩

/-! ## C21: `dag_to_icpdag` -/

/-- C21: never fails on a DAG, and the entry `[i, j]` is 1 iff a DAG equivalent to `G` with the same parents at the targets
contains `i → j`, and 0 otherwise.  `I` is any sequence of targets (any iteration order, repetitions allowed). -/
theorem C21_interventional_essential_graph (it : SetIter p) (G : Adj p) (hG : Nonneg G) (hac : Acyclic G)
    (I : List (Fin p)) :
    ∃ P, dagToIcpdag it G I = .ok P ∧ ∀ i j,
      (P i j = 1 ↔ ∃ H, Acyclic H ∧ IEquiv I.toFinset G H ∧ Edge H i j) ∧
      (P i j = 0 ↔ ¬ ∃ H, Acyclic H ∧ IEquiv I.toFinset G H ∧ Edge H i j) := by
  obtain ⟨P, h1, h2, _, _⟩ := dagToIcpdag_spec it hG hac I
  refine ⟨P, h1, fun i j => ?_⟩
  rw [← dagToIcpdag_edge hG hac h1]
  unfold Edge
  rcases h2 i j with h | h <;> simp [h]

/-- C21: the consistent extensions of the I-CPDAG are exactly the interventionally equivalent DAGs. -/
theorem C21_extensions (it : SetIter p) (G P : Adj p) (hG : Nonneg G) (hac : Acyclic G) (I : List (Fin p))
    (h : dagToIcpdag it G I = .ok P) (H : Adj p) : IsExtension H P ↔ Acyclic H ∧ IEquiv I.toFinset G H := by
  obtain ⟨P', h1, _, _, h4⟩ := dagToIcpdag_spec it hG hac I
  rw [h] at h1
  cases h1
  exact h4 H

/-- C21: the result depends only on the set of targets, not on the iteration orders. -/
theorem C21_order_independent (it it' : SetIter p) (G : Adj p) (hG : Nonneg G) (hac : Acyclic G) (I I' : List (Fin p))
    (hI : I.toFinset = I'.toFinset) : dagToIcpdag it G I = dagToIcpdag it' G I' := by
  obtain ⟨P, h1, h2, _⟩ := dagToIcpdag_spec it hG hac I
  obtain ⟨P', h1', h2', _⟩ := dagToIcpdag_spec it' hG hac I'
  rw [h1, h1']
  congr 1
  refine zeroOne_ext h2 h2' (fun i j => ?_)
  rw [dagToIcpdag_edge hG hac h1, dagToIcpdag_edge hG hac h1', hI]

/-- C21: `ValueError` exactly for graphs that are not DAGs. -/
theorem C21_raises_iff_cyclic (it : SetIter p) (G : Adj p) (hG : Nonneg G) (I : List (Fin p)) :
    dagToIcpdag it G I = .error .valueError ↔ ¬ Acyclic G := dagToIcpdag_error it hG I

/-- C21: equal I-CPDAGs exactly for interventionally equivalent DAGs. -/
theorem C21_icpdag_eq_iff (it it' : SetIter p) (G H : Adj p) (hG : Nonneg G) (hacG : Acyclic G) (hH : Nonneg H)
    (hacH : Acyclic H) (I : List (Fin p)) : dagToIcpdag it G I = dagToIcpdag it' H I ↔ IEquiv I.toFinset G H := by
  obtain ⟨P, h1, h2, h3, h4⟩ := dagToIcpdag_spec it hG hacG I
  obtain ⟨P', h1', h2', h3', h4'⟩ := dagToIcpdag_spec it' hH hacH I
  have hrefl : ∀ G : Adj p, IEquiv I.toFinset G G := fun G => ⟨MarkovEquiv.refl G, fun _ _ _ => Iff.rfl⟩
  rw [h1, h1']
  constructor
  · intro h
    have h : P = P' := by injection h
    subst h
    exact ((h4 H).1 ((h4' H).2 ⟨hacH, hrefl H⟩)).2
  · intro h
    congr 1
    refine zeroOne_ext h2 h2' (fun i j => ?_)
    rw [dagToIcpdag_edge hG hacG h1, dagToIcpdag_edge hH hacH h1']
    constructor
    · rintro ⟨K, k1, k2, k3⟩
      exact ⟨K, k1, ⟨h.1.symm.trans k2.1, fun i hi k => (h.2 i hi k).symm.trans (k2.2 i hi k)⟩, k3⟩
    · rintro ⟨K, k1, k2, k3⟩
      exact ⟨K, k1, ⟨h.1.trans k2.1, fun i hi k => (h.2 i hi k).trans (k2.2 i hi k)⟩, k3⟩

-- the chain 0 → 1 → 2 → 3 with target 1: 0 → 1 and 1 → 2 are identified, and rule 1 orients 2 → 3
example : dagToIcpdag (SetIter.incr 4) (chainGraph 4) [1] = .ok (chainGraph 4) := eq_of_okEq (by decide +kernel)

-- with target 3 only 2 → 3 is identified
example : dagToIcpdag (SetIter.incr 4) (chainGraph 4) [3] =
    .ok ![![0, 1, 0, 0], ![1, 0, 1, 0], ![0, 1, 0, 1], ![0, 0, 0, 0]] := eq_of_okEq (by decide +kernel)

/-! ## C22: boundary target sets -/

/-- C22: without targets it is the CPDAG. -/
theorem C22_no_targets (it : SetIter p) (G : Adj p) (hG : Nonneg G) (hac : Acyclic G) :
    dagToIcpdag it G [] = dagToCpdag it G := by
  obtain ⟨P, h1, h2, _, h4⟩ := dagToIcpdag_spec it hG hac []
  obtain ⟨C, g1, g2, g3⟩ := dagToCpdag_spec it hG hac
  rw [h1, g1]
  congr 1
  refine zeroOne_ext h2 g2 (fun i j => ?_)
  rw [dagToIcpdag_edge hG hac h1, g3]
  simp [IEquiv, SameParentsAt]

/-- C22: if every node is a target it is the 0/1 adjacency matrix of `G`. -/
theorem C22_all_targets (it : SetIter p) (G P : Adj p) (hG : Nonneg G) (hac : Acyclic G) (I : List (Fin p))
    (hI : ∀ i, i ∈ I) (h : dagToIcpdag it G I = .ok P) (i j : Fin p) : P i j = if G i j ≠ 0 then 1 else 0 := by
  obtain ⟨P', h1, h2, _, _⟩ := dagToIcpdag_spec it hG hac I
  have hE := dagToIcpdag_edge hG hac h i j
  rw [h] at h1
  cases h1
  have : Edge P i j ↔ Edge G i j := by
    rw [hE]
    constructor
    · rintro ⟨H, _, k2, k3⟩
      exact (k2.2 j (List.mem_toFinset.2 (hI j)) i).2 k3
    · intro hij
      exact ⟨G, hac, ⟨MarkovEquiv.refl G, fun _ _ _ => Iff.rfl⟩, hij⟩
  unfold Edge at this
  rcases h2 i j with h3 | h3
  · rw [h3] at this ⊢
    rw [if_neg (fun hc => absurd (this.2 hc) (by simp))]
  · rw [h3] at this ⊢
    rw [if_pos (this.1 (by simp))]

/-- C22: more targets never lose an orientation. -/
theorem C22_monotone (it it' : SetIter p) (G P P' : Adj p) (hG : Nonneg G) (hac : Acyclic G) (I I' : List (Fin p))
    (hI : ∀ i ∈ I, i ∈ I') (h : dagToIcpdag it G I = .ok P) (h' : dagToIcpdag it' G I' = .ok P') :
    (∀ i j, DirEdge P i j → DirEdge P' i j) ∧ (∀ i j, Edge P' i j → Edge P i j) ∧ SameSkeleton P P' := by
  have hmono : ∀ i j, Edge P' i j → Edge P i j := by
    intro i j hij
    obtain ⟨H, k1, k2, k3⟩ := (dagToIcpdag_edge hG hac h' i j).1 hij
    refine (dagToIcpdag_edge hG hac h i j).2 ⟨H, k1, ⟨k2.1, fun a ha => k2.2 a ?_⟩, k3⟩
    rw [List.mem_toFinset] at ha ⊢
    exact hI a ha
  have hrefl : ∀ I : List (Fin p), IEquiv I.toFinset G G := fun I => ⟨MarkovEquiv.refl G, fun _ _ _ => Iff.rfl⟩
  have e1 := (C21_extensions it G P hG hac I h G).2 ⟨hac, hrefl I⟩
  have e2 := (C21_extensions it' G P' hG hac I' h' G).2 ⟨hac, hrefl I'⟩
  refine ⟨fun i j hij => ?_, hmono, fun i j => (e1.2.1 i j).symm.trans (e2.2.1 i j)⟩
  have hno : P' j i = 0 := by
    by_contra hc
    exact hmono j i hc hij.2
  refine ⟨?_, hno⟩
  intro hc
  have : Adjacent P' i j := (e2.2.1 i j).1 ((e1.2.1 i j).2 (Or.inl hij.1))
  rcases this with h1 | h1
  · exact h1 hc
  · exact h1 hno

/-! ## C27: `pdag_to_icpdag` -/

/-- C27: `ValueError` iff a target has an undirected edge or there is no consistent extension; otherwise the result is
the I-CPDAG of every consistent extension. -/
theorem C27_pdag_to_icpdag (it : SetIter p) (P : Adj p) (hP : Nonneg P) (hl : NoLoops P) (I : List (Fin p)) :
    (pdagToIcpdag it P I = .error .valueError ↔ (∃ i ∈ I, ∃ j, UndEdge P i j) ∨ ¬ ∃ D, IsExtension D P) ∧
      ((∀ i ∈ I, ∀ j, ¬ UndEdge P i j) → ∀ H, Nonneg H → IsExtension H P → ∀ it', pdagToIcpdag it P I = dagToIcpdag it' H I) := by
  have hcond : (∃ i ∈ I, (neighbors i P).card > 0) ↔ ∃ i ∈ I, ∃ j, UndEdge P i j := by
    constructor
    · rintro ⟨i, hi, h⟩
      obtain ⟨j, hj⟩ := Finset.card_pos.1 h
      exact ⟨i, hi, j, mem_neighbors.1 hj⟩
    · rintro ⟨i, hi, j, h⟩
      exact ⟨i, hi, Finset.card_pos.2 ⟨j, mem_neighbors.2 h⟩⟩
  have hc := C14_pdag_to_dag_complete P hl
  have hmain : (∀ i ∈ I, ∀ j, ¬ UndEdge P i j) → ∀ H, Nonneg H → IsExtension H P → ∀ it', pdagToIcpdag it P I = dagToIcpdag it' H I := by
    intro hno H hH hext it'
    obtain ⟨G, hG⟩ := hc.2.2 ⟨H, hext⟩
    have hGext := C13_pdag_to_dag_sound P G hl hG
    have hnc : ¬ ∃ i ∈ I, (neighbors i P).card > 0 := by
      rw [hcond]
      rintro ⟨i, hi, j, hij⟩
      exact hno i hi j hij
    unfold pdagToIcpdag
    rw [if_neg hnc, hG]
    dsimp only
    rw [C21_icpdag_eq_iff it it' G H (pdagToDag_nonneg hP hl hG) hGext.1 hH hext.1]
    refine ⟨C19_extensions_equivalent P G H hGext hext, ?_⟩
    have key : ∀ (A B : Adj p), IsExtension A P → IsExtension B P → ∀ i ∈ I, ∀ k, Edge A k i → Edge B k i := by
      intro A B hA hB i hi k hk
      rcases ((hA.2.1 k i).1 (Or.inl hk)).cases with h1 | h1 | h1
      · exact hB.2.2.2 k i h1
      · exact absurd (hA.1.no_two (hA.2.2.2 i k h1)) hk
      · exact absurd h1.symm (hno i hi k)
    intro i hi k
    rw [List.mem_toFinset] at hi
    exact ⟨key G H hGext hext i hi k, key H G hext hGext i hi k⟩
  refine ⟨?_, hmain⟩
  constructor
  · intro h
    by_contra hn
    push Not at hn
    obtain ⟨hno, D, hD⟩ := hn
    have hD' := hD.congr (H := support D) (fun i j => edge_support.symm)
    have h2 := hmain hno (support D) (support_zeroOne D).nonneg hD' it
    rw [h] at h2
    exact (dagToIcpdag_error it (support_zeroOne D).nonneg I).1 h2.symm hD'.1
  · intro h
    unfold pdagToIcpdag
    by_cases hu : ∃ i ∈ I, (neighbors i P).card > 0
    · rw [if_pos hu]
    · rw [if_neg hu]
      rcases h with h | h
      · exact absurd (hcond.2 h) hu
      · rw [hc.1.2 h]

example : pdagToIcpdag (SetIter.incr 3) (![![0, 1, 0], ![0, 0, 1], ![0, 1, 0]] : Adj 3) [0] =
    .ok ![![0, 1, 0], ![0, 0, 1], ![0, 0, 0]] := eq_of_okEq (by decide +kernel)

end Verif
