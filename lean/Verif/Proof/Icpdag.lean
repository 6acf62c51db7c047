import Verif.Proof.Meek
import Verif.Props.Graph

namespace Verif
open Spec
variable {p : Nat}

theorem setEntry_self {A : Adj p} {i j : Fin p} (h : A i j = 0) : setEntry A i j 0 = A := by
  funext a b
  unfold setEntry
  split
  · rename_i hc; rw [hc.1, hc.2, h]
  · rfl

/-- orienting an edge along an extension `G` -/
theorem setEntry_ext {P G H : Adj p} {x y : Fin p} (hG : IsExtension G P) (hxy : Edge G x y) :
    (IsExtension H (setEntry P y x 0) ↔ IsExtension H P ∧ Edge H x y) ∧ Refines (setEntry P y x 0) P := by
  have hadj := (hG.2.1 x y).1 (Or.inl hxy)
  rcases hadj.cases with h | h | h
  · rw [setEntry_self h.2]
    exact ⟨⟨fun hH => ⟨hH, hH.2.2.2 x y h⟩, fun hH => hH.1⟩, Refines.refl P⟩
  · exact absurd (hG.1.no_two (hG.2.2.2 y x h)) hxy
  · have hne := hG.und_ne h
    have href := refines_orient h hne
    refine ⟨⟨fun hH => ?_, fun hH => orient_ext h hH.1 hH.2⟩, href⟩
    refine ⟨href.ext_back hG (orient_ext h hG hxy) hH, ?_⟩
    apply hH.2.2.2
    unfold DirEdge setEntry
    rw [if_neg (fun hc => hne hc.1), if_pos ⟨rfl, rfl⟩]
    exact ⟨h.1, rfl⟩

theorem icpdagLoop_spec {G : Adj p} (es : List (Fin p × Fin p)) : ∀ P : Adj p, IsExtension G P → MeekClosed P →
    (∀ e ∈ es, Edge G e.1 e.2) →
    ∃ P', icpdagLoop es P = .ok P' ∧ Refines P' P ∧ MeekClosed P' ∧
      ∀ H, IsExtension H P' ↔ IsExtension H P ∧ ∀ e ∈ es, Edge H e.1 e.2 := by
  induction es with
  | nil =>
    intro P _ hcl _
    exact ⟨P, rfl, Refines.refl P, hcl, fun H => by simp⟩
  | cons e es ih =>
    obtain ⟨x, y⟩ := e
    intro P hG hcl hes
    have hxy : Edge G x y := hes (x, y) (by simp)
    have hse := fun H : Adj p => setEntry_ext (H := H) hG hxy
    have hG1 : IsExtension G (setEntry P y x 0) := ((hse G).1).2 ⟨hG, hxy⟩
    obtain ⟨P1, h1, h2, h3, h4⟩ := maximallyOrient_spec ⟨G, hG1⟩
    obtain ⟨P', g1, g2, g3, g4⟩ := ih P1 ((h4 G).2 hG1) h3 (fun e he => hes e (by simp [he]))
    refine ⟨P', ?_, g2.trans (h2.trans (hse G).2), g3, fun H => ?_⟩
    · rw [icpdagLoop, h1]; exact g1
    · rw [g4, h4, (hse H).1, List.forall_mem_cons, and_assoc]

theorem mem_targetEdges (it : SetIter p) (G : Adj p) (hac : Acyclic G) (I : List (Fin p)) (e : Fin p × Fin p) :
    e ∈ targetEdges it G I ↔ Edge G e.1 e.2 ∧ (e.1 ∈ I ∨ e.2 ∈ I) := by
  obtain ⟨a, b⟩ := e
  simp only [targetEdges, List.mem_flatMap, List.mem_append, List.mem_map, it.mem, mem_ch, mem_pa, Prod.mk.injEq]
  constructor
  · rintro ⟨i, hi, ⟨j, h1, rfl, rfl⟩ | ⟨j, h1, rfl, rfl⟩⟩
    · exact ⟨h1.1, Or.inl hi⟩
    · exact ⟨h1.1, Or.inr hi⟩
  · rintro ⟨h1, h2 | h2⟩
    · exact ⟨a, h2, Or.inl ⟨b, ⟨h1, hac.no_two h1⟩, rfl, rfl⟩⟩
    · exact ⟨b, h2, Or.inr ⟨a, ⟨h1, hac.no_two h1⟩, rfl, rfl⟩⟩

/-- for Markov equivalent graphs, sharing all edges at the targets is sharing the parents at the targets -/
theorem targets_iff {G H : Adj p} (hG : Acyclic G) (hH : Acyclic H) (hsk : SameSkeleton G H) (I : List (Fin p)) :
    (∀ a b, Edge G a b → (a ∈ I ∨ b ∈ I) → Edge H a b) ↔ SameParentsAt I.toFinset G H := by
  constructor
  · intro h i hi k
    rw [List.mem_toFinset] at hi
    constructor
    · intro hk; exact h k i hk (Or.inr hi)
    · intro hk
      rcases (hsk k i).2 (Or.inl hk) with h1 | h1
      · exact h1
      · exact absurd (hH.no_two (h i k h1 (Or.inl hi))) hk
  · intro h a b hab hI
    rcases hI with hI | hI
    · rcases (hsk a b).1 (Or.inl hab) with h1 | h1
      · exact h1
      · exact absurd (hG.no_two ((h a (List.mem_toFinset.2 hI) b).2 h1)) hab
    · exact (h b (List.mem_toFinset.2 hI) a).1 hab

theorem Labelling.cpdag_closed {G L : Adj p} {pos : Fin p → Nat} (h : Labelling G pos L) : MeekClosed (cpdagOf L) := by
  intro i j hU hF
  obtain ⟨H, h1, h2, h3⟩ := (h.edge_cpdag_iff j i).1 hU.2
  have hext := (h.isExtension_cpdag H).2 ⟨h1, h2⟩
  exact (hext.forces hU hF) (h1.no_two h3)

theorem Refines.zeroOne {P' P : Adj p} (h : Refines P' P) (hP : ZeroOne P) : ZeroOne P' := by
  intro i j
  rcases h.entry i j with h1 | h1
  · exact Or.inl h1
  · rw [h1]; exact hP i j

/-- an entry of a rule-closed extendable PDAG is non-zero iff the edge occurs in an extension -/
theorem edge_iff_ext {G P : Adj p} (hG : IsExtension G P) (hcl : MeekClosed P) (i j : Fin p) :
    Edge P i j ↔ ∃ H, IsExtension H P ∧ Edge H i j := by
  constructor
  · intro h
    by_cases hji : P j i = 0
    · exact ⟨G, hG, hG.2.2.2 i j ⟨h, hji⟩⟩
    · obtain ⟨H, _, h1, h2⟩ := meek_complete hG hcl ⟨h, hji⟩
      exact ⟨H, h1, h2⟩
  · rintro ⟨H, h1, h2⟩
    rcases ((h1.2.1 i j).1 (Or.inl h2)).cases with h3 | h3 | h3
    · exact h3.1
    · exact absurd (h1.1.no_two (h1.2.2.2 j i h3)) h2
    · exact h3.1

theorem dagToIcpdag_spec (it : SetIter p) {G : Adj p} (hG : Nonneg G) (hac : Acyclic G) (I : List (Fin p)) :
    ∃ P, dagToIcpdag it G I = .ok P ∧ ZeroOne P ∧ MeekClosed P ∧
      (∀ H, IsExtension H P ↔ Acyclic H ∧ IEquiv I.toFinset G H) := by
  obtain ⟨L, pos, h1, hL⟩ := dagToCpdag_labelling it hG hac
  have hGC : IsExtension G (cpdagOf L) := (hL.isExtension_cpdag G).2 ⟨hac, MarkovEquiv.refl G⟩
  obtain ⟨P, h2, h3, h4, h5⟩ := icpdagLoop_spec (G := G) (targetEdges it G I).reverse (cpdagOf L) hGC hL.cpdag_closed (by
    intro e he
    rw [List.mem_reverse, mem_targetEdges it G hac] at he
    exact he.1)
  have hext : ∀ H, IsExtension H P ↔ Acyclic H ∧ IEquiv I.toFinset G H := by
    intro H
    rw [h5, hL.isExtension_cpdag]
    unfold IEquiv
    constructor
    · rintro ⟨⟨g1, g2⟩, g3⟩
      refine ⟨g1, g2, (targets_iff hac g1 g2.1 I).1 (fun a b hab hI => ?_)⟩
      exact g3 (a, b) (by rw [List.mem_reverse, mem_targetEdges it G hac]; exact ⟨hab, hI⟩)
    · rintro ⟨g1, g2, g3⟩
      refine ⟨⟨g1, g2⟩, fun e he => ?_⟩
      rw [List.mem_reverse, mem_targetEdges it G hac] at he
      exact (targets_iff hac g1 g2.1 I).2 g3 e.1 e.2 he.1 he.2
  have h01 := h3.zeroOne (cpdagOf_zeroOne L)
  have hGP : IsExtension G P := (hext G).2 ⟨hac, MarkovEquiv.refl G, fun _ _ _ => Iff.rfl⟩
  refine ⟨P, ?_, h01, h4, hext⟩
  obtain ⟨b, g1, g2⟩ := C12_exact it G P hG h01.nonneg hac
  have hb := g2.2 hGP
  subst hb
  unfold dagToIcpdag
  rw [h1]
  dsimp only
  rw [h2]
  dsimp only
  rw [g1]

theorem dagToIcpdag_edge {it : SetIter p} {G P : Adj p} (hG : Nonneg G) (hac : Acyclic G) {I : List (Fin p)}
    (h : dagToIcpdag it G I = .ok P) (i j : Fin p) :
    Edge P i j ↔ ∃ H, Acyclic H ∧ IEquiv I.toFinset G H ∧ Edge H i j := by
  obtain ⟨P', h1, _, h3, h4⟩ := dagToIcpdag_spec it hG hac I
  rw [h] at h1
  cases h1
  rw [edge_iff_ext ((h4 G).2 ⟨hac, MarkovEquiv.refl G, fun _ _ _ => Iff.rfl⟩) h3]
  simp only [h4, and_assoc]

theorem dagToIcpdag_error (it : SetIter p) {G : Adj p} (hG : Nonneg G) (I : List (Fin p)) :
    dagToIcpdag it G I = .error .valueError ↔ ¬ Acyclic G := by
  constructor
  · intro h hac
    obtain ⟨P, h1, _⟩ := dagToIcpdag_spec it hG hac I
    rw [h] at h1
    exact absurd h1 (by simp)
  · intro h
    unfold dagToIcpdag
    rw [(dagToCpdag_error it hG).2 h]

end Verif
