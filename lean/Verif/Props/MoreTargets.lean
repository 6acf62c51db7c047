import Verif.Props.Population
import Verif.Props.SoundCpdag

/-!
# C158: more targets never enlarge the class, and enough of them make the result right, for weights of any sign
-/

namespace Verif
open Spec
variable {p : Nat}

/-- C158: without targets `dag_to_icpdag` is `dag_to_cpdag` and `imec` is `mec`, for every matrix: the same result or the same error. -/
theorem C158_no_targets (it : SetIter p) (G : Adj p) (c : Bool) : dagToIcpdag it G [] = dagToCpdag it G ∧ imec it G ∅ c = mec it G c := by
  have h1 : dagToIcpdag it G [] = dagToCpdag it G := by
    rcases hC : dagToCpdag it G with err | C
    · exact (C156_no_assertion it G [] err).2 hC
    · obtain ⟨P, hP, -⟩ := C156_icpdag it G C [] hC
      rw [hP]
      unfold dagToIcpdag at hP
      rw [hC] at hP
      have hl : icpdagLoop (targetEdges it G []).reverse C = .ok C := rfl
      dsimp only at hP
      rw [hl] at hP
      dsimp only at hP
      split at hP
      · cases hP
      · exact hP.symm
      · cases hP
  refine ⟨h1, ?_⟩
  unfold imec mec
  rw [show (Finset.univ.filter (fun i : Fin p => (i.val : Int) ∈ (∅ : Finset Int))) = ∅ by simp, toList_empty]
  dsimp only
  rw [h1]
  split
  · rfl
  · rw [if_neg (by simp)]
    split
    · rename_i hc
      unfold chainGraphIMEC
      rw [Bool.and_eq_true] at hc
      rw [hc.2]
      simp
    · cases dagToCpdag it G <;> rfl

/-- an edge of a consistent extension is an edge of the PDAG -/
theorem edge_of_extension {H P : Adj p} (h : IsExtension H P) {i j : Fin p} (hij : Edge H i j) : Edge P i j := by
  rcases ((h.2.1 i j).1 (.inl hij)).cases with h1 | h1 | h1
  · exact h1.1
  · exact absurd (h.1.no_two (h.2.2.2 j i h1)) hij
  · exact h1.1

/-- C158: for a matrix of any sign, with more targets `dag_to_icpdag` returns if it does with fewer and conversely.  The skeleton is the same, directed
edges stay directed, and every consistent extension of the result with more targets is one of the result with fewer. -/
theorem C158_monotone (it : SetIter p) (G : Adj p) (I I' : List (Fin p)) (hI : ∀ i ∈ I, i ∈ I') :
    ((∃ P, dagToIcpdag it G I = .ok P) ↔ ∃ P', dagToIcpdag it G I' = .ok P') ∧
    ∀ P P', dagToIcpdag it G I = .ok P → dagToIcpdag it G I' = .ok P' →
      SameSkeleton P P' ∧ (∀ i j, Edge P' i j → Edge P i j) ∧ (∀ i j, DirEdge P i j → DirEdge P' i j) ∧ ∀ H, IsExtension H P' → IsExtension H P := by
  rcases hC : dagToCpdag it G with err | C
  · have h1 := (C156_no_assertion it G I err).2 hC
    have h2 := (C156_no_assertion it G I' err).2 hC
    rw [h1, h2]
    refine ⟨⟨?_, ?_⟩, ?_⟩
    · rintro ⟨P, hP⟩
      cases hP
    · rintro ⟨P, hP⟩
      cases hP
    · intro P P' hP
      cases hP
  · obtain ⟨P, hP, hx, -⟩ := C156_icpdag it G C I hC
    obtain ⟨P', hP', hx', hcl⟩ := C156_icpdag it G C I' hC
    refine ⟨⟨fun _ => ⟨P', hP'⟩, fun _ => ⟨P, hP⟩⟩, ?_⟩
    intro Q Q' hQ hQ'
    rw [hP] at hQ
    rw [hP'] at hQ'
    injection hQ with hQ
    injection hQ' with hQ'
    subst hQ
    subst hQ'
    have hsub : ∀ H, IsExtension H P' → IsExtension H P := by
      intro H hH
      obtain ⟨k1, k2⟩ := (hx' H).1 hH
      exact (hx H).2 ⟨k1, fun i hi => k2 i (List.mem_toFinset.2 (hI i (List.mem_toFinset.1 hi)))⟩
    have hG := (C155_sound it G I P hP).2.1
    have hG' := (C155_sound it G I' P' hP').2.1
    have hsk : SameSkeleton P P' := fun i j => (hG.2.1 i j).symm.trans (hG'.2.1 i j)
    have hedge : ∀ i j, Edge P' i j → Edge P i j := by
      intro i j hij
      by_cases hn : ∃ i ∈ I', ∃ j, Adjacent G i j
      · obtain ⟨H, hH, hHe⟩ := (hcl hn i j).1 hij
        exact edge_of_extension (hsub H hH) hHe
      · -- no edge at a target: both are the graph of `dag_to_cpdag`
        have hnil : ∀ J : List (Fin p), (∀ i ∈ J, i ∈ I') → targetEdges it G J = [] := by
          intro J hJ
          rw [List.eq_nil_iff_forall_not_mem]
          rintro ⟨a, b⟩ hab
          obtain ⟨h1, h2 | h2⟩ := (mem_targetEdges it G hG.1 J (a, b)).1 hab
          · exact hn ⟨a, hJ a h2, b, .inl h1⟩
          · exact hn ⟨b, hJ b h2, a, .inr h1⟩
        have hEq : ∀ J : List (Fin p), (∀ i ∈ J, i ∈ I') → dagToIcpdag it G J = dagToIcpdag it G [] := by
          intro J hJ
          unfold dagToIcpdag
          rw [hnil J hJ]
          rfl
        rw [hEq I hI] at hP
        rw [hEq I' fun _ h => h, hP] at hP'
        injection hP' with hP'
        rw [hP']
        exact hij
    refine ⟨hsk, hedge, fun i j hij => ?_, hsub⟩
    have h0 : P' j i = 0 := by
      by_contra hc
      exact hedge j i hc hij.2
    rcases (hsk i j).1 (.inl hij.1) with h | h
    · exact ⟨h, h0⟩
    · exact absurd h0 h

/-- C158: if every edge of the DAG has an end among the targets, what `dag_to_icpdag` returns is right for weights of any sign: it is the DAG itself,
with entries 0 and 1. -/
theorem C158_all_edges (it : SetIter p) (G P : Adj p) (I : List (Fin p)) (hI : ∀ a b, Edge G a b → a ∈ I ∨ b ∈ I) (h : dagToIcpdag it G I = .ok P) :
    P = support G := by
  obtain ⟨hz, hG, hund, -⟩ := C155_sound it G I P h
  refine zeroOne_ext hz (support_zeroOne G) fun i j => ?_
  rw [edge_support]
  refine ⟨fun hij => ?_, edge_of_extension hG⟩
  by_cases h0 : P j i = 0
  · exact hG.2.2.2 i j ⟨hij, h0⟩
  · rcases (hG.2.1 i j).2 (.inl hij) with h1 | h1
    · exact h1
    · rcases hI j i h1 with h2 | h2
      · exact absurd ⟨h0, hij⟩ (hund j h2 i)
      · exact absurd ⟨hij, h0⟩ (hund i h2 j)

/-- C158: the same for `equivalence_class` and `equivalence_class_w_ges`. -/
theorem C158_equivalence_class {e : Nat} (E : FitEnv p e) (data : Fin e → Sample p) (solverKnown prune : Bool) (numsLatent : Option (List Nat))
    (folds : List Rat) (rs : Int) (P : Adj p) (I : Finset (Fin p)) (m : AnyModel p e) (hI : ∀ a b, Edge m.A a b → a ∈ I ∨ b ∈ I)
    (h : (∃ candidates, equivalenceClass E candidates data solverKnown prune numsLatent folds rs = .ok (P, I, m)) ∨
      equivalenceClassGes E data solverKnown numsLatent folds rs = .ok (P, I, m)) : P = support m.A := by
  obtain ⟨hz, hG, hund, -⟩ := C155_equivalence_class E data solverKnown prune numsLatent folds rs P I m h
  refine zeroOne_ext hz (support_zeroOne m.A) fun i j => ?_
  rw [edge_support]
  refine ⟨fun hij => ?_, edge_of_extension hG⟩
  by_cases h0 : P j i = 0
  · exact hG.2.2.2 i j ⟨hij, h0⟩
  · rcases (hG.2.1 i j).2 (.inl hij) with h1 | h1
    · exact h1
    · rcases hI j i h1 with h2 | h2
      · exact absurd ⟨h0, hij⟩ (hund j h2 i)
      · exact absurd ⟨hij, h0⟩ (hund i h2 j)

/-- C158: with more targets `imec` returns a part of what it returns with fewer, for a matrix of any sign. -/
theorem C158_imec (it : SetIter p) (A : Adj p) (I I' : Finset (Fin p)) (hI : I ⊆ I') (c : Bool) (hp : 0 < p ∨ c = false) (l l' : List (Adj p))
    (h : imec it A (I.image fun i : Fin p => (i.val : Int)) c = .ok l) (h' : imec it A (I'.image fun i : Fin p => (i.val : Int)) c = .ok l') :
    ∀ H ∈ l', H ∈ l := by
  have hac : Acyclic A := by
    by_contra hc
    rcases (C153_cyclic it A hc).2.2.2 (I.image (fun i : Fin p => (i.val : Int))) c with h' | h' <;> rw [h'] at h <;> cases h
  by_cases hch : isChainGraph A = true
  · obtain ⟨k, h1, -, h3⟩ := C26_imec it A (chain_nonneg hch) hac I c hp
    obtain ⟨k', h1', -, h3'⟩ := C26_imec it A (chain_nonneg hch) hac I' c hp
    rw [h] at h1
    cases h1
    rw [h'] at h1'
    cases h1'
    intro H hH
    obtain ⟨g1, g2, g3⟩ := (h3' H).1 hH
    exact (h3 H).2 ⟨g1, g2, g3.1, fun i hi => g3.2 i (hI hi)⟩
  · have key : ∀ (J : Finset (Fin p)) (k : List (Adj p)), imec it A (J.image fun i : Fin p => (i.val : Int)) c = .ok k →
        ∃ P, dagToIcpdag it A (it.toList J) = .ok P ∧ ∀ H, H ∈ k ↔ ZeroOne H ∧ IsExtension H P := by
      intro J k hk
      have hJ : (Finset.univ.filter (fun i : Fin p => (i.val : Int) ∈ J.image (fun i : Fin p => (i.val : Int)))) = J := by
        ext i
        simp only [Finset.mem_filter, Finset.mem_univ, true_and, Finset.mem_image, Nat.cast_inj]
        constructor
        · rintro ⟨j, hj, h⟩
          rwa [← Fin.ext h]
        · intro h
          exact ⟨i, h, rfl⟩
      unfold imec at hk
      split at hk
      · cases hk
      · split at hk
        · cases hk
        · rw [Bool.not_eq_true] at hch
          simp only [hJ, hch, Bool.and_false, Bool.false_eq_true, if_false] at hk
          split at hk
          · cases hk
          · rename_i P hP
            obtain ⟨k1, k2, -, -⟩ := C155_sound it A _ P hP
            obtain ⟨l', h1, -, h3⟩ := allDags_ext it k1 ⟨A, k2⟩
            rw [hk] at h1
            cases h1
            exact ⟨P, hP, h3⟩
    obtain ⟨P, hP, hm⟩ := key I l h
    obtain ⟨P', hP', hm'⟩ := key I' l' h'
    intro H hH
    obtain ⟨g1, g2⟩ := (hm' H).1 hH
    refine (hm H).2 ⟨g1, ((C158_monotone it A (it.toList I) (it.toList I') fun i hi => ?_).2 P P' hP hP').2.2.2 H g2⟩
    exact (it.mem _ _).2 (hI ((it.mem _ _).1 hi))

/-- An example for `C158_monotone`, `C158_all_edges` and `C158_no_targets`: the graph with one weight -1 for which the result without targets is wrong.
With all nodes as targets it is right. -/
example (it : SetIter 5) : dagToIcpdag it twoTriangles [] = .ok twoTrianglesOut ∧ (∀ i ∈ ([] : List (Fin 5)), i ∈ ([0, 1, 2, 3, 4] : List (Fin 5))) ∧
    (∀ a b, Edge twoTriangles a b → a ∈ ([0, 1, 2, 3, 4] : List (Fin 5)) ∨ b ∈ ([0, 1, 2, 3, 4] : List (Fin 5))) ∧
    dagToIcpdag it twoTriangles [0, 1, 2, 3, 4] = .ok (support twoTriangles) := by
  have h := (C149_wrong_graph it false).2.1
  have hI : ∀ a b, Edge twoTriangles a b → a ∈ ([0, 1, 2, 3, 4] : List (Fin 5)) ∨ b ∈ ([0, 1, 2, 3, 4] : List (Fin 5)) := by
    intro a b _
    left
    fin_cases a <;> simp
  obtain ⟨P, hP, -⟩ := C156_icpdag it _ _ [0, 1, 2, 3, 4] h
  rw [hP, C158_all_edges it _ P _ hI hP]
  exact ⟨(C158_no_targets it _ false).1.trans h, by simp, hI, rfl⟩

/-- An example for `C158_imec`: the same graph without targets and with target 0. -/
example (it : SetIter 5) : ∃ l l', imec it twoTriangles ((∅ : Finset (Fin 5)).image fun i : Fin 5 => (i.val : Int)) false = .ok l ∧
    imec it twoTriangles (({0} : Finset (Fin 5)).image fun i : Fin 5 => (i.val : Int)) false = .ok l' := by
  obtain ⟨l, hl, -⟩ := C155_incomplete it
  have hJ : (Finset.univ.filter (fun i : Fin 5 => (i.val : Int) ∈ ({0} : Finset (Fin 5)).image (fun i : Fin 5 => (i.val : Int)))) = {0} := by
    decide +kernel
  obtain ⟨P, hP, -⟩ := C156_icpdag it _ _ (it.toList {0}) (C149_wrong_graph it false).2.1
  obtain ⟨k1, k2, -, -⟩ := C155_sound it _ _ P hP
  obtain ⟨l', h1, -, -⟩ := allDags_ext it k1 ⟨_, k2⟩
  refine ⟨l, l', by simpa using hl, ?_⟩
  unfold imec
  rw [(C146_dag_accepted it twoTriangles twoTriangles_acyclic).1, hJ, if_neg (by simp), if_neg (by simp)]
  simp [hP, h1]

/-- An example for `C158_equivalence_class`: all variables are returned as targets. -/
example (S : Matrix (Fin 2) (Fin 2) ℝ) (hS : S.PosDef) (l : Sample 2) (hl : l.length = 8) : ∃ P I m,
    equivalenceClass (popEnv S) [![![0, 1], ![0, 0]], ![![0, 0], ![1, 0]]] (fun _ => l) true false (some [0]) [1 / 2, 1 / 4, 1 / 4] 42 = .ok (P, I, m) ∧
    ∀ a b, Edge m.A a b → a ∈ I ∨ b ∈ I := by
  obtain ⟨-, -, -, -, -, m, hm⟩ := C95_violated S hS l hl 42
  exact ⟨_, _, m, hm, fun a _ _ => .inl (Finset.mem_univ a)⟩

end Verif
