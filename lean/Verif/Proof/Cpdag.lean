import Verif.Proof.LabelEdges
import Verif.Proof.GraphBasic

namespace Verif
open Spec
variable {p : Nat}

/-! ### Markov equivalence -/

theorem Spec.MarkovEquiv.refl (G : Adj p) : MarkovEquiv G G := ⟨fun _ _ => Iff.rfl, fun _ _ _ => Iff.rfl⟩

theorem Spec.MarkovEquiv.symm {G H : Adj p} (h : MarkovEquiv G H) : MarkovEquiv H G :=
  ⟨fun i j => (h.1 i j).symm, fun i c j => (h.2 i c j).symm⟩

theorem Spec.MarkovEquiv.trans {G H K : Adj p} (h : MarkovEquiv G H) (h' : MarkovEquiv H K) : MarkovEquiv G K :=
  ⟨fun i j => (h.1 i j).trans (h'.1 i j), fun i c j => (h.2 i c j).trans (h'.2 i c j)⟩

theorem Spec.ZeroOne.nonneg {G : Adj p} (h : ZeroOne G) : Nonneg G := by
  intro i j
  rcases h i j with h | h <;> omega

/-- the 0/1 adjacency matrix of a graph -/
def Spec.support (G : Adj p) : Adj p := fun i j => if G i j ≠ 0 then 1 else 0

theorem Spec.support_ne {G : Adj p} {i j : Fin p} : support G i j ≠ 0 ↔ G i j ≠ 0 := by
  unfold support; split <;> simp_all

theorem Spec.support_zeroOne (G : Adj p) : ZeroOne (support G) := by
  intro i j; unfold support; split <;> simp

theorem Spec.edge_support {G : Adj p} {i j : Fin p} : Edge (support G) i j ↔ Edge G i j := support_ne

theorem Spec.acyclic_congr {G H : Adj p} (h : ∀ i j, Edge G i j ↔ Edge H i j) (hG : Acyclic G) : Acyclic H :=
  hG.mono (fun i j e => (h i j).2 e)

theorem Spec.markovEquiv_of_edges {G H : Adj p} (h : ∀ i j, Edge G i j ↔ Edge H i j) : MarkovEquiv G H := by
  have h' : ∀ i j, G i j = 0 ↔ H i j = 0 := fun i j => not_iff_not.1 (h i j)
  refine ⟨fun i j => ?_, fun i c j => ?_⟩
  · unfold Adjacent; simp only [ne_eq, h']
  · unfold VStructure DirEdge Adjacent; simp only [ne_eq, h']

theorem Spec.markovEquiv_support (G : Adj p) : MarkovEquiv G (support G) :=
  markovEquiv_of_edges (fun _ _ => edge_support.symm)

/-- entry of a CPDAG in terms of the labelling -/
def cpdagOf (L : Adj p) : Adj p := fun a b => if L a b = -1 ∨ L b a = -1 then 1 else if L a b = 1 then L a b else 0

theorem cpdagOf_zeroOne (L : Adj p) : ZeroOne (cpdagOf L) := by
  intro i j
  unfold cpdagOf
  split
  · simp
  · split
    · rename_i h; simp [h]
    · simp

theorem cpdagOf_ne {L : Adj p} {i j : Fin p} : Edge (cpdagOf L) i j ↔ L i j = 1 ∨ L i j = -1 ∨ L j i = -1 := by
  unfold Edge cpdagOf
  by_cases h1 : L i j = -1 ∨ L j i = -1
  · simp [h1]
  · rw [if_neg h1]
    by_cases h2 : L i j = 1 <;> simp [h2, h1]

theorem dagToCpdag_labelling (it : SetIter p) {G : Adj p} (hG : Nonneg G) (hac : Acyclic G) :
    ∃ L pos, dagToCpdag it G = .ok (cpdagOf L) ∧ Labelling G pos L := by
  obtain ⟨O, pos, h1, h2, h3⟩ := orderEdges_spec it hG hac
  obtain ⟨L, h4, h5⟩ := labelEdges_spec it h2.sorted h3
  refine ⟨L, pos, ?_, h5⟩
  unfold dagToCpdag
  rw [h1]
  dsimp only
  rw [h4]
  rfl

theorem orderEdges_error (it : SetIter p) {G : Adj p} (hG : Nonneg G) :
    orderEdges it G = .error .valueError ↔ ¬ Acyclic G := by
  constructor
  · intro h hac
    obtain ⟨O, pos, h1, _⟩ := orderEdges_spec it hG hac
    rw [h] at h1
    exact absurd h1 (by simp)
  · intro h
    rw [← isDag_iff it hG] at h
    unfold orderEdges
    simp [h]

theorem dagToCpdag_error (it : SetIter p) {G : Adj p} (hG : Nonneg G) :
    dagToCpdag it G = .error .valueError ↔ ¬ Acyclic G := by
  constructor
  · intro h hac
    obtain ⟨L, pos, h1, _⟩ := dagToCpdag_labelling it hG hac
    rw [h] at h1
    exact absurd h1 (by simp)
  · intro h
    unfold dagToCpdag
    rw [(orderEdges_error it hG).2 h]

/-- an edge of the CPDAG occurs in some member of the class -/
theorem Labelling.edge_cpdag_iff {G : Adj p} {pos : Fin p → Nat} {L : Adj p} (h : Labelling G pos L) (i j : Fin p) :
    Edge (cpdagOf L) i j ↔ ∃ H, Acyclic H ∧ MarkovEquiv G H ∧ Edge H i j := by
  rw [cpdagOf_ne]
  constructor
  · rintro (h1 | h1 | h1)
    · exact ⟨G, h.acyclic, MarkovEquiv.refl G, h.edge_of_com h1⟩
    · exact ⟨G, h.acyclic, MarkovEquiv.refl G, h.edge_of_rev h1⟩
    · obtain ⟨H, _, h3, h4, _, h6⟩ := h.chainSplit.reorient i
      exact ⟨H, h3, h4, h6 j (Or.inl h1)⟩
  · rintro ⟨H, h1, h2, h3⟩
    rcases (h2.1 i j).2 (Or.inl h3) with e | e
    · rcases h.vals i j e with h4 | h4
      · exact Or.inl h4
      · exact Or.inr (Or.inl h4)
    · rcases h.vals j i e with h4 | h4
      · have := h.compelled h1 h2.1 h2.2 _ i rfl j h4
        exact absurd (h1.no_two h3) this
      · exact Or.inr (Or.inr h4)

/-- the CPDAG: existence and characterisation -/
theorem dagToCpdag_spec (it : SetIter p) {G : Adj p} (hG : Nonneg G) (hac : Acyclic G) :
    ∃ C, dagToCpdag it G = .ok C ∧ ZeroOne C ∧
      ∀ i j, Edge C i j ↔ ∃ H, Acyclic H ∧ MarkovEquiv G H ∧ Edge H i j := by
  obtain ⟨L, pos, h1, h2⟩ := dagToCpdag_labelling it hG hac
  exact ⟨_, h1, cpdagOf_zeroOne L, h2.edge_cpdag_iff⟩

theorem zeroOne_ext {A B : Adj p} (hA : ZeroOne A) (hB : ZeroOne B) (h : ∀ i j, Edge A i j ↔ Edge B i j) : A = B := by
  funext i j
  have := h i j
  unfold Edge at this
  rcases hA i j with h1 | h1 <;> rcases hB i j with h2 | h2 <;> simp_all

/-- v-structures and skeleton of the CPDAG are those of the DAG -/
theorem Labelling.markovEquiv_cpdag {G : Adj p} {pos : Fin p → Nat} {L : Adj p} (h : Labelling G pos L) :
    MarkovEquiv G (cpdagOf L) := by
  have hsk : SameSkeleton G (cpdagOf L) := by
    intro i j
    show Edge G i j ∨ Edge G j i ↔ Edge (cpdagOf L) i j ∨ Edge (cpdagOf L) j i
    rw [cpdagOf_ne, cpdagOf_ne]
    constructor
    · rintro (e | e)
      · rcases h.vals _ _ e with h1 | h1 <;> simp [h1]
      · rcases h.vals _ _ e with h1 | h1 <;> simp [h1]
    · rintro ((h1 | h1 | h1) | (h1 | h1 | h1))
      · exact Or.inl (h.edge_of_com h1)
      · exact Or.inl (h.edge_of_rev h1)
      · exact Or.inr (h.edge_of_rev h1)
      · exact Or.inr (h.edge_of_com h1)
      · exact Or.inr (h.edge_of_rev h1)
      · exact Or.inl (h.edge_of_rev h1)
  have hdir : ∀ a b, DirEdge (cpdagOf L) a b ↔ L a b = 1 := by
    intro a b
    have h1 : DirEdge (cpdagOf L) a b ↔ Edge (cpdagOf L) a b ∧ ¬ Edge (cpdagOf L) b a := by
      unfold DirEdge Edge; simp
    rw [h1, cpdagOf_ne, cpdagOf_ne]
    constructor
    · rintro ⟨h2, h3⟩
      rcases h2 with h2 | h2 | h2
      · exact h2
      · exact absurd (Or.inr (Or.inr h2)) h3
      · exact absurd (Or.inr (Or.inl h2)) h3
    · intro h2
      have hba : L b a = 0 := h.zero _ _ (fun hc => hc (h.acyclic.no_two (h.edge_of_com h2)))
      refine ⟨Or.inl h2, ?_⟩
      rw [hba, h2]; decide
  refine ⟨hsk, fun i c j => ?_⟩
  constructor
  · intro hv
    exact ⟨(hdir _ _).2 (h.com_of_vstructure _ _ _ _ rfl hv), (hdir _ _).2 (h.com_of_vstructure _ _ _ _ rfl hv.symm),
      hv.2.2.1, fun hc => hv.2.2.2 ((hsk _ _).2 hc)⟩
  · rintro ⟨h1, h2, h3, h4⟩
    have e1 := h.edge_of_com ((hdir _ _).1 h1)
    have e2 := h.edge_of_com ((hdir _ _).1 h2)
    exact ⟨⟨e1, h.acyclic.no_two e1⟩, ⟨e2, h.acyclic.no_two e2⟩, h3, fun hc => h4 ((hsk _ _).1 hc)⟩

theorem Labelling.dirEdge_cpdag {G : Adj p} {pos : Fin p → Nat} {L : Adj p} (h : Labelling G pos L) (a b : Fin p) :
    DirEdge (cpdagOf L) a b ↔ L a b = 1 := by
  have h1 : DirEdge (cpdagOf L) a b ↔ Edge (cpdagOf L) a b ∧ ¬ Edge (cpdagOf L) b a := by
    unfold DirEdge Edge; simp
  rw [h1, cpdagOf_ne, cpdagOf_ne]
  constructor
  · rintro ⟨h2, h3⟩
    rcases h2 with h2 | h2 | h2
    · exact h2
    · exact absurd (Or.inr (Or.inr h2)) h3
    · exact absurd (Or.inr (Or.inl h2)) h3
  · intro h2
    have hba : L b a = 0 := h.zero _ _ (fun hc => hc (h.acyclic.no_two (h.edge_of_com h2)))
    refine ⟨Or.inl h2, ?_⟩
    rw [hba, h2]; decide

theorem Labelling.undEdge_cpdag {G : Adj p} {pos : Fin p → Nat} {L : Adj p} (h : Labelling G pos L) (a b : Fin p) :
    UndEdge (cpdagOf L) a b ↔ L a b = -1 ∨ L b a = -1 := by
  have h1 : UndEdge (cpdagOf L) a b ↔ Edge (cpdagOf L) a b ∧ Edge (cpdagOf L) b a := Iff.rfl
  rw [h1, cpdagOf_ne, cpdagOf_ne]
  constructor
  · rintro ⟨h2, h3⟩
    rcases h2 with h2 | h2 | h2
    · rcases h3 with h3 | h3 | h3
      · exact absurd (h.acyclic.no_two (h.edge_of_com h2)) (h.edge_of_com h3)
      · exact Or.inr h3
      · exact Or.inl h3
    · exact Or.inl h2
    · exact Or.inr h2
  · rintro (h2 | h2)
    · exact ⟨Or.inr (Or.inl h2), Or.inr (Or.inr h2)⟩
    · exact ⟨Or.inr (Or.inr h2), Or.inr (Or.inl h2)⟩

/-- the consistent extensions of the CPDAG are the Markov equivalent DAGs -/
theorem Labelling.isExtension_cpdag {G : Adj p} {pos : Fin p → Nat} {L : Adj p} (h : Labelling G pos L) (H : Adj p) :
    IsExtension H (cpdagOf L) ↔ Acyclic H ∧ MarkovEquiv G H := by
  constructor
  · rintro ⟨h1, h2, h3, _⟩
    exact ⟨h1, h.markovEquiv_cpdag.trans (MarkovEquiv.symm ⟨h2, h3⟩)⟩
  · rintro ⟨h1, h2⟩
    have h3 := h2.symm.trans h.markovEquiv_cpdag
    refine ⟨h1, h3.1, h3.2, fun i j hij => ?_⟩
    exact h.compelled h1 h2.1 h2.2 _ j rfl i ((h.dirEdge_cpdag i j).1 hij)

end Verif
