import Verif.Props.SoundCpdag

/-!
# C157: a second step repairs what negative weights break, and the PDAG functions are sound for weights of any sign
-/

namespace Verif
open Spec
variable {p : Nat}

theorem noLoops_of_extension {G P : Adj p} (h : IsExtension G P) : NoLoops P := by
  intro i
  by_contra hc
  rcases (h.2.1 i i).2 (.inl hc) with h' | h' <;> exact h' (h.1.noLoops i)

theorem support_extension {G P : Adj p} (h : IsExtension G P) : IsExtension (support G) P := by
  have hm := markovEquiv_support G
  exact ⟨support_acyclic h.1, fun i j => (hm.1 i j).symm.trans (h.2.1 i j), fun i c j => (hm.2 i c j).symm.trans (h.2.2.1 i c j),
    fun i j hij => edge_support.2 (h.2.2.2 i j hij)⟩

/-- C157: if `dag_to_cpdag` returns for a DAG with weights of any sign, then `pdag_to_cpdag` of the result is the essential graph, that is, what
`dag_to_cpdag` returns for the 0-1 matrix of the DAG.  The first result is right exactly if `pdag_to_cpdag` does not change it. -/
theorem C157_cpdag (it it' it'' : SetIter p) (G C : Adj p) (h : dagToCpdag it G = .ok C) :
    pdagToCpdag it' C = dagToCpdag it'' (support G) ∧
    (∃ E, pdagToCpdag it' C = .ok E ∧ ZeroOne E ∧ ∀ i j, Edge E i j ↔ ∃ H, Acyclic H ∧ MarkovEquiv G H ∧ Edge H i j) ∧
    ((∀ i j, Edge C i j ↔ ∃ H, Acyclic H ∧ MarkovEquiv G H ∧ Edge H i j) ↔ pdagToCpdag it' C = .ok C) := by
  obtain ⟨hz, hG, -⟩ := C156_cpdag it G C h
  have h1 := (C19_pdag_to_cpdag it' C hz.nonneg (noLoops_of_extension hG)).2 _ (support_nonneg G) (support_extension hG) it''
  obtain ⟨E, h2, h3, h4⟩ := dagToCpdag_spec it'' (support_nonneg G) (support_acyclic hG.1)
  have hm := markovEquiv_support G
  have h5 : ∀ i j, Edge E i j ↔ ∃ H, Acyclic H ∧ MarkovEquiv G H ∧ Edge H i j := by
    intro i j
    rw [h4]
    exact exists_congr fun H => and_congr_right fun _ => and_congr_left fun _ =>
      ⟨fun k => ⟨fun a b => (hm.1 a b).trans (k.1 a b), fun a c b => (hm.2 a c b).trans (k.2 a c b)⟩,
        fun k => ⟨fun a b => (hm.1 a b).symm.trans (k.1 a b), fun a c b => (hm.2 a c b).symm.trans (k.2 a c b)⟩⟩
  refine ⟨h1, ⟨E, h1.trans h2, h3, h5⟩, fun hC => ?_, fun hC => ?_⟩
  · rw [h1, h2]
    congr 1
    exact zeroOne_ext h3 hz fun i j => (h5 i j).trans (hC i j).symm
  · rw [h1, h2] at hC
    injection hC with hC
    rw [← hC]
    exact h5

/-- C157: the same for `dag_to_icpdag` and `pdag_to_icpdag`. -/
theorem C157_icpdag (it it' it'' : SetIter p) (G P : Adj p) (I : List (Fin p)) (h : dagToIcpdag it G I = .ok P) :
    pdagToIcpdag it' P I = dagToIcpdag it'' (support G) I ∧
    (∃ E, pdagToIcpdag it' P I = .ok E ∧ ZeroOne E ∧ ∀ i j, Edge E i j ↔ ∃ H, Acyclic H ∧ IEquiv I.toFinset G H ∧ Edge H i j) ∧
    ((∀ i j, Edge P i j ↔ ∃ H, Acyclic H ∧ IEquiv I.toFinset G H ∧ Edge H i j) ↔ pdagToIcpdag it' P I = .ok P) := by
  obtain ⟨hz, hG, hund, hm⟩ := C155_sound it G I P h
  have hl := noLoops_of_extension hG
  obtain ⟨D, hD⟩ := (C14_pdag_to_dag_complete P hl).2.2 ⟨G, hG⟩
  have hDe := C13_pdag_to_dag_sound P D hl hD
  have h1 : pdagToIcpdag it' P I = dagToIcpdag it'' (support G) I := by
    unfold pdagToIcpdag
    rw [if_neg, hD]
    · refine (C21_icpdag_eq_iff it' it'' D (support G) (pdagToDag_nonneg hz.nonneg hl hD) hDe.1 (support_nonneg G) (support_acyclic hG.1) I).2 ?_
      exact ⟨markov_of_extensions hDe (support_extension hG),
        fun i hi k => parents_of_extensions hDe (support_extension hG) (hund i (List.mem_toFinset.1 hi)) k⟩
    · rintro ⟨i, hi, hc⟩
      obtain ⟨j, hj⟩ := Finset.card_pos.1 hc
      exact hund i hi j (mem_neighbors.1 hj)
  obtain ⟨E, h2, h3, -⟩ := dagToIcpdag_spec it'' (support_nonneg G) (support_acyclic hG.1) I
  have h4 := dagToIcpdag_edge (support_nonneg G) (support_acyclic hG.1) h2
  have hs := markovEquiv_support G
  have h5 : ∀ i j, Edge E i j ↔ ∃ H, Acyclic H ∧ IEquiv I.toFinset G H ∧ Edge H i j := by
    intro i j
    rw [h4]
    exact exists_congr fun H => and_congr_right fun _ => and_congr_left fun _ =>
      ⟨fun k => ⟨⟨fun a b => (hs.1 a b).trans (k.1.1 a b), fun a c b => (hs.2 a c b).trans (k.1.2 a c b)⟩, fun i hi a => edge_support.symm.trans (k.2 i hi a)⟩,
        fun k => ⟨⟨fun a b => (hs.1 a b).symm.trans (k.1.1 a b), fun a c b => (hs.2 a c b).symm.trans (k.1.2 a c b)⟩,
          fun i hi a => edge_support.trans (k.2 i hi a)⟩⟩
  refine ⟨h1, ⟨E, h1.trans h2, h3, h5⟩, fun hC => ?_, fun hC => ?_⟩
  · rw [h1, h2]
    congr 1
    exact zeroOne_ext h3 hz fun i j => (h5 i j).trans (hC i j).symm
  · rw [h1, h2] at hC
    injection hC with hC
    rw [← hC]
    exact h5

/-- C157: so what `equivalence_class` returns can be repaired: `pdag_to_icpdag` of the returned graph and targets is the interventional essential graph
of the graph of the returned model, whatever the candidates, the data and the fitting procedure. -/
theorem C157_equivalence_class {e : Nat} (E : FitEnv p e) (data : Fin e → Sample p) (solverKnown prune : Bool) (numsLatent : Option (List Nat))
    (folds : List Rat) (rs : Int) (P : Adj p) (I : Finset (Fin p)) (m : AnyModel p e)
    (h : (∃ candidates, equivalenceClass E candidates data solverKnown prune numsLatent folds rs = .ok (P, I, m)) ∨
      equivalenceClassGes E data solverKnown numsLatent folds rs = .ok (P, I, m)) (it' : SetIter p) :
    (∃ Q, pdagToIcpdag it' P (it'.toList I) = .ok Q ∧ ZeroOne Q ∧ ∀ i j, Edge Q i j ↔ ∃ H, Acyclic H ∧ IEquiv I m.A H ∧ Edge H i j) ∧
    ((∀ i j, Edge P i j ↔ ∃ H, Acyclic H ∧ IEquiv I m.A H ∧ Edge H i j) ↔ pdagToIcpdag it' P (it'.toList I) = .ok P) := by
  obtain ⟨hz, hG, hund, -⟩ := C155_equivalence_class E data solverKnown prune numsLatent folds rs P I m h
  have hl := noLoops_of_extension hG
  obtain ⟨D, hD⟩ := (C14_pdag_to_dag_complete P hl).2.2 ⟨_, hG⟩
  have hDe := C13_pdag_to_dag_sound P D hl hD
  obtain ⟨Q, h2, h3, -⟩ := dagToIcpdag_spec it' (pdagToDag_nonneg hz.nonneg hl hD) hDe.1 (it'.toList I)
  have h4 := dagToIcpdag_edge (pdagToDag_nonneg hz.nonneg hl hD) hDe.1 h2
  have h1 : pdagToIcpdag it' P (it'.toList I) = .ok Q := by
    unfold pdagToIcpdag
    rw [if_neg, hD]
    · exact h2
    · rintro ⟨i, hi, hc⟩
      obtain ⟨j, hj⟩ := Finset.card_pos.1 hc
      exact hund i ((it'.mem _ _).1 hi) j (mem_neighbors.1 hj)
  have hs := markov_of_extensions hG hDe
  have hp : ∀ i ∈ I, ∀ k, Edge m.A k i ↔ Edge D k i := fun i hi k => parents_of_extensions hG hDe (hund i hi) k
  have h5 : ∀ i j, Edge Q i j ↔ ∃ H, Acyclic H ∧ IEquiv I m.A H ∧ Edge H i j := by
    intro i j
    rw [h4, toList_toFinset]
    exact exists_congr fun H => and_congr_right fun _ => and_congr_left fun _ =>
      ⟨fun k => ⟨⟨fun a b => (hs.1 a b).trans (k.1.1 a b), fun a c b => (hs.2 a c b).trans (k.1.2 a c b)⟩, fun i hi a => (hp i hi a).trans (k.2 i hi a)⟩,
        fun k => ⟨⟨fun a b => (hs.1 a b).symm.trans (k.1.1 a b), fun a c b => (hs.2 a c b).symm.trans (k.1.2 a c b)⟩,
          fun i hi a => (hp i hi a).symm.trans (k.2 i hi a)⟩⟩
  refine ⟨⟨Q, h1, h3, h5⟩, fun hC => ?_, fun hC => ?_⟩
  · rw [h1]
    congr 1
    exact zeroOne_ext h3 hz fun i j => (h5 i j).trans (hC i j).symm
  · rw [h1] at hC
    injection hC with hC
    rw [← hC]
    exact h5

/-- C157: if `pdag_to_cpdag` returns for a PDAG of doubles with weights of any sign, the PDAG has a consistent extension that is also one of the result,
and all consistent extensions of both are Markov equivalent. -/
theorem C157_pdag_cpdag (S : Summer) (it : SetIter p) (P : FAdj p) (hl : NoLoopsF P) (C : Adj p) (h : fpdagToCpdag S it P = .ok C) :
    ZeroOne C ∧ (∃ D, IsExtension D (graphOf P) ∧ IsExtension D C) ∧ ∀ D H, IsExtension D (graphOf P) → IsExtension H C → MarkovEquiv D H := by
  unfold fpdagToCpdag at h
  rcases C144_pdag_to_dag P hl with ⟨h1, -⟩ | ⟨G, hG, hE, -⟩
  · rw [h1] at h
    cases h
  · rw [hG] at h
    obtain ⟨hz, hC, -⟩ := C156_cpdag_float S it G C h
    refine ⟨hz, ⟨_, hE, hC⟩, fun D H hD hH => ?_⟩
    have k1 := markov_of_extensions hD hE
    have k2 := markov_of_extensions hC hH
    exact ⟨fun a b => (k1.1 a b).trans (k2.1 a b), fun a c b => (k1.2 a c b).trans (k2.2 a c b)⟩

/-- C157: `pdag_to_icpdag` returns exactly if no target has an undirected edge and `pdag_to_cpdag` returns.  Then the PDAG has a consistent extension
that is also one of the result, and all consistent extensions of both are interventionally equivalent. -/
theorem C157_pdag_icpdag (S : Summer) (it : SetIter p) (P : FAdj p) (hP : AllDoubles P) (hl : NoLoopsF P) (I : List (Fin p)) :
    ((∃ Q, fpdagToIcpdag S it P I = .ok Q) ↔ (∀ i ∈ I, ∀ j, ¬ UndEdge (graphOf P) i j) ∧ ∃ C, fpdagToCpdag S it P = .ok C) ∧
    ∀ Q, fpdagToIcpdag S it P I = .ok Q → ZeroOne Q ∧ (∃ D, IsExtension D (graphOf P) ∧ IsExtension D Q) ∧
      ∀ D H, IsExtension D (graphOf P) → IsExtension H Q → IEquiv I.toFinset D H := by
  have hn : (∃ i ∈ I, (fneighbors i P).card > 0) ↔ ¬ ∀ i ∈ I, ∀ j, ¬ UndEdge (graphOf P) i j := by
    push Not
    refine exists_congr fun i => and_congr_right fun _ => ?_
    rw [fneighbors_eq, gt_iff_lt, Finset.card_pos]
    exact exists_congr fun j => mem_neighbors
  unfold fpdagToIcpdag fpdagToCpdag
  by_cases hu : ∀ i ∈ I, ∀ j, ¬ UndEdge (graphOf P) i j
  · rw [if_neg (fun h => hn.1 h hu)]
    rcases C144_pdag_to_dag P hl with ⟨h1, -⟩ | ⟨G, hG, hE, -⟩
    · rw [h1]
      refine ⟨⟨?_, ?_⟩, ?_⟩
      · rintro ⟨Q, hQ⟩
        cases hQ
      · rintro ⟨-, Q, hQ⟩
        cases hQ
      · intro Q hQ
        cases hQ
    · rw [hG]
      obtain ⟨hGd, -⟩ := fpdagToDag_doubles hP hl hG
      dsimp only
      refine ⟨⟨?_, ?_⟩, fun Q hQ => ?_⟩
      · rintro ⟨Q, hQ⟩
        refine ⟨hu, ?_⟩
        rcases hC : fdagToCpdag S it G with err | C
        · rw [(C156_no_assertion_float S it G hGd I err).2 hC] at hQ
          cases hQ
        · exact ⟨C, rfl⟩
      · rintro ⟨-, C, hC⟩
        obtain ⟨Q, hQ, -⟩ := C156_icpdag_float S it G hGd C I hC
        exact ⟨Q, hQ⟩
      · obtain ⟨hz, hQe, -, hm⟩ := C155_sound_float S it G hGd I Q hQ
        refine ⟨hz, ⟨_, hE, hQe⟩, fun D H hD hH => ?_⟩
        have k1 := markov_of_extensions hD hE
        have k2 := hm H hH
        exact ⟨⟨fun a b => (k1.1 a b).trans (k2.1.1 a b), fun a c b => (k1.2 a c b).trans (k2.1.2 a c b)⟩,
          fun i hi k => (parents_of_extensions hD hE (hu i (List.mem_toFinset.1 hi)) k).trans (k2.2 i hi k)⟩
  · rw [if_pos (hn.2 hu)]
    refine ⟨⟨?_, fun h => absurd h.1 hu⟩, ?_⟩
    · rintro ⟨Q, hQ⟩
      cases hQ
    · intro Q hQ
      cases hQ

/-- An example for `C157_cpdag`: the wrong result for the graph with one weight -1 is changed by `pdag_to_cpdag`. -/
example (it it' : SetIter 5) : ∃ E, pdagToCpdag it' twoTrianglesOut = .ok E ∧ UndEdge E 0 4 ∧ ¬ UndEdge twoTrianglesOut 0 4 := by
  obtain ⟨-, h, hd, -, ⟨h1, h2, h3, -⟩, -⟩ := C149_wrong_graph it false
  obtain ⟨-, ⟨E, hE, -, hiff⟩, -⟩ := C157_cpdag it it' it _ _ h
  refine ⟨E, hE, ⟨(hiff 0 4).2 ⟨_, (C156_cpdag it _ _ h).2.1.1, MarkovEquiv.refl _, by unfold Edge; decide +kernel⟩, (hiff 4 0).2 ⟨_, h1, h2, h3⟩⟩,
    fun hu => hu.2 hd.2⟩

/-- An example for `C157_icpdag`: the same graph with target 0. -/
example (it : SetIter 5) : ∃ P, dagToIcpdag it twoTriangles [0] = .ok P ∧ ∃ Q, pdagToIcpdag it P [0] = .ok Q := by
  obtain ⟨P, hP, -⟩ := C156_icpdag it _ _ [0] (C149_wrong_graph it false).2.1
  obtain ⟨-, ⟨Q, hQ, -⟩, -⟩ := C157_icpdag it it it _ _ _ hP
  exact ⟨P, hP, Q, hQ⟩

/-- An example for `C157_equivalence_class`: `equivalence_class` returns the wrong graph of C150. -/
example (l : Sample 5) (hl : l.length = 8) : ∃ P I m, equivalenceClass (targetEnv 5) [twoTriangles] (fun _ => l) true false (some [0, 1])
    [1 / 2, 1 / 4, 1 / 4] 42 = .ok (P, I, m) := by
  obtain ⟨m, h, -⟩ := C150_wrong_graph_occurs l hl
  exact ⟨_, _, m, h⟩

/-- An example for `C157_pdag_cpdag` and `C157_pdag_icpdag`: a directed edge with weight -1 and an undirected one. -/
example (S : Summer) (it : SetIter 4) : ∃ A : Adj 4, A 0 1 = -1 ∧ UndEdge A 2 3 ∧ AllDoubles (asDoubles A) ∧ NoLoopsF (asDoubles A) ∧
    ∃ C, fpdagToCpdag S it (asDoubles A) = .ok C := by
  refine ⟨![![0, -1, 0, 0], ![0, 0, 0, 0], ![0, 0, 0, 1], ![0, 0, 1, 0]], rfl, by decide +kernel, asDoubles_allDoubles (by decide +kernel),
    fun i => by fin_cases i <;> rfl, ?_⟩
  have hG : fpdagToDag (asDoubles (![![0, -1, 0, 0], ![0, 0, 0, 0], ![0, 0, 0, 1], ![0, 0, 1, 0]] : Adj 4)) =
      .ok (asDoubles (![![0, -1, 0, 0], ![0, 0, 0, 0], ![0, 0, 0, 0], ![0, 0, 1, 0]] : Adj 4)) := eq_of_okAdj (by decide +kernel)
  unfold fpdagToCpdag
  rw [hG]
  dsimp only
  rw [(C151_integers S it _ (by decide +kernel)).2.2.2]
  obtain ⟨C, hC, -⟩ := (C146_essential it (![![0, -1, 0, 0], ![0, 0, 0, 0], ![0, 0, 0, 0], ![0, 0, 1, 0]] : Adj 4)
    (acyclic_of_rank (![0, 1, 3, 2] : Fin 4 → Nat) (by unfold Edge; decide +kernel)) (by unfold NoZeroSums; decide +kernel)).2.1
  exact ⟨C, hC⟩

end Verif
