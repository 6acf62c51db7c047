import Verif.Props.CyclicClass

/-!
# C155: whatever `dag_to_icpdag` returns represents members of the class only

For weights of any sign the graph that `dag_to_icpdag` returns may be wrong (C149).  It errs in one direction only.
-/

namespace Verif
open Spec
variable {p e : Nat}

theorem orientPass_entries (es : List (Fin p × Fin p)) (P : Adj p) (f : Bool) (a b : Fin p) :
    (orientPass es P f).1 a b = 0 ∨ (orientPass es P f).1 a b = P a b := by
  induction es generalizing P f with
  | nil => exact .inr rfl
  | cons x es ih =>
    obtain ⟨i, j⟩ := x
    have hset : ∀ (i j : Fin p) (f : Bool), (orientPass es (setEntry P i j 0) f).1 a b = 0 ∨ (orientPass es (setEntry P i j 0) f).1 a b = P a b := by
      intro i j f
      rcases ih (setEntry P i j 0) f with h | h
      · exact .inl h
      · rw [h]
        unfold setEntry
        split
        · exact .inl rfl
        · exact .inr rfl
    unfold orientPass
    split
    · exact hset _ _ _
    · split
      · exact hset _ _ _
      · exact ih _ _

theorem orientLoop_entries {n : Nat} {P P' : Adj p} (h : orientLoop n P = .ok P') (a b : Fin p) : P' a b = 0 ∨ P' a b = P a b := by
  induction n generalizing P with
  | zero => cases h
  | succ n ih =>
    unfold orientLoop at h
    have hp := orientPass_entries (undirectedEdges P) P false a b
    split at h
    · rename_i Q hQ
      rw [hQ] at hp
      rcases ih h with h1 | h1
      · exact .inl h1
      · rcases hp with h2 | h2
        · exact .inl (h1.trans h2)
        · exact .inr (h1.trans h2)
    · rename_i Q hQ
      rw [hQ] at hp
      injection h with h
      rw [← h]
      exact hp

theorem maximallyOrient_entries {P P' : Adj p} (h : maximallyOrient P = .ok P') (a b : Fin p) : P' a b = 0 ∨ P' a b = P a b := by
  unfold maximallyOrient at h
  split at h
  · cases h
  · exact orientLoop_entries h a b

theorem icpdagLoop_entries {es : List (Fin p × Fin p)} {P P' : Adj p} (h : icpdagLoop es P = .ok P') :
    (∀ a b, P' a b = 0 ∨ P' a b = P a b) ∧ ∀ x ∈ es, P' x.2 x.1 = 0 := by
  induction es generalizing P with
  | nil =>
    cases h
    exact ⟨fun _ _ => .inr rfl, fun x hx => by cases hx⟩
  | cons x es ih =>
    obtain ⟨i, j⟩ := x
    unfold icpdagLoop at h
    split at h
    · cases h
    · rename_i Q hQ
      obtain ⟨h1, h2⟩ := ih h
      have h3 := maximallyOrient_entries hQ
      have h4 : ∀ a b, P' a b = 0 ∨ P' a b = setEntry P j i 0 a b := fun a b => by
        rcases h1 a b with h | h
        · exact .inl h
        · rw [h]
          exact h3 a b
      refine ⟨fun a b => ?_, fun x hx => ?_⟩
      · rcases h4 a b with h | h
        · exact .inl h
        · rw [h]
          unfold setEntry
          split
          · exact .inl rfl
          · exact .inr rfl
      · rcases List.mem_cons.1 hx with rfl | hx
        · rcases h4 j i with h | h
          · exact h
          · rw [h]
            unfold setEntry
            rw [if_pos ⟨rfl, rfl⟩]
        · exact h2 x hx

theorem icpdag_core (it : SetIter p) {G C P : Adj p} {I : List (Fin p)} (hac : Acyclic G) (hC : ZeroOne C)
    (hQ : icpdagLoop (targetEdges it G I).reverse C = .ok P) (hx : isConsistentExtension it G P = .ok true) :
    ZeroOne P ∧ IsExtension G P ∧ (∀ i ∈ I, ∀ j, ¬ UndEdge P i j) ∧ ∀ H, IsExtension H P → IEquiv I.toFinset G H := by
  obtain ⟨h1, h2⟩ := icpdagLoop_entries hQ
  have hz : ZeroOne P := fun a b => by
    rcases h1 a b with h | h
    · exact .inl h
    · rw [h]
      exact hC a b
  have hext : IsExtension G P := by
    rw [isConsistentExtension_dag it hac] at hx
    obtain ⟨b, hb, hiff⟩ := C12_exact it (support G) P (support_nonneg G) hz.nonneg (support_acyclic hac)
    rw [hb] at hx
    injection hx with hx
    obtain ⟨k1, k2, k3, k4⟩ := hiff.1 hx
    have hm := markovEquiv_support G
    exact ⟨hac, fun i j => (hm.1 i j).trans (k2 i j), fun i c j => (hm.2 i c j).trans (k3 i c j), fun i j hij => edge_support.1 (k4 i j hij)⟩
  have hund : ∀ i ∈ I, ∀ j, ¬ UndEdge P i j := by
    intro i hi j hij
    have hadj : Adjacent G i j := (hext.2.1 i j).2 (.inl hij.1)
    rcases hadj with hg | hg
    · have := h2 (i, j) (by
        rw [List.mem_reverse]
        unfold targetEdges
        rw [List.mem_flatMap]
        refine ⟨i, hi, List.mem_append.2 (.inl (List.mem_map.2 ⟨j, ?_, rfl⟩))⟩
        rw [it.mem, mem_ch]
        exact hac.dir_iff.2 hg)
      exact hij.2 this
    · have := h2 (j, i) (by
        rw [List.mem_reverse]
        unfold targetEdges
        rw [List.mem_flatMap]
        refine ⟨i, hi, List.mem_append.2 (.inr (List.mem_map.2 ⟨j, ?_, rfl⟩))⟩
        rw [it.mem, mem_pa]
        exact hac.dir_iff.2 hg)
      exact hij.1 this
  refine ⟨hz, hext, hund, fun H hH => ⟨markov_of_extensions hext hH, fun i hi k => ?_⟩⟩
  exact parents_of_extensions hext hH (hund i (List.mem_toFinset.1 hi)) k

theorem cpdag_entries (L : Adj p) : ZeroOne (fun a b => if L a b = -1 ∨ L b a = -1 then 1 else if L a b = 1 then L a b else 0) := by
  intro a b
  dsimp only
  split
  · exact .inr rfl
  · split
    · rename_i h1
      exact .inr h1
    · exact .inl rfl

/-- C155: if `dag_to_icpdag` returns for a matrix of any sign, then the matrix is a DAG, the result has entries 0 and 1, the DAG is a consistent
extension of it, no edge at a target is undirected, and every consistent extension of it is interventionally equivalent to the DAG. -/
theorem C155_sound (it : SetIter p) (G : Adj p) (I : List (Fin p)) (P : Adj p) (h : dagToIcpdag it G I = .ok P) :
    ZeroOne P ∧ IsExtension G P ∧ (∀ i ∈ I, ∀ j, ¬ UndEdge P i j) ∧ ∀ H, IsExtension H P → IEquiv I.toFinset G H := by
  have hac : Acyclic G := by
    by_contra hc
    rcases (C153_cyclic it G hc).2.1 I with h' | h' <;> rw [h'] at h <;> cases h
  unfold dagToIcpdag at h
  split at h
  · cases h
  · rename_i C hC
    split at h
    · cases h
    · rename_i Q hQ
      have hCz : ZeroOne C := by
        unfold dagToCpdag at hC
        split at hC
        · cases hC
        · split at hC
          · cases hC
          · injection hC with hC
            rw [← hC]
            exact cpdag_entries _
      split at h
      · cases h
      · rename_i hx
        injection h with h
        subst h
        exact icpdag_core it hac hCz hQ hx
      · cases h

theorem ftargetEdges_eq (it : SetIter p) (G : FAdj p) (I : List (Fin p)) : ftargetEdges it G I = targetEdges it (graphOf G) I := by
  unfold ftargetEdges targetEdges
  simp only [fch_eq, fpa_eq]

theorem fisConsistentExtension_dag (S : Summer) (it : SetIter p) {G : FAdj p} (hG : AllDoubles G) (hac : Acyclic (graphOf G)) (P : Adj p) :
    fisConsistentExtension S it G P = isConsistentExtension it (graphOf G) P := by
  have hsk : fskeleton G = skeleton (graphOf G) := by
    funext i j
    have hnc : ¬ Cancelling G i j := by
      rintro ⟨q, hq, h1, h2⟩
      have e1 : Edge (graphOf G) i j := graphOf_ne.2 (by rw [h1]; simpa using hq)
      have e2 : Edge (graphOf G) j i := graphOf_ne.2 (by rw [h2]; simpa using hq)
      exact e2 (hac.dir_iff.2 e1).2
    obtain ⟨h1, h01⟩ := fskeleton_one hG i j
    have h2 : skeleton (graphOf G) i j = if Adjacent (graphOf G) i j then 1 else 0 := by
      unfold skeleton Adjacent
      rcases graphOf_zeroOne G i j with h | h <;> rcases graphOf_zeroOne G j i with h' | h' <;> simp [h, h']
    rw [h2]
    split
    · rename_i hadj; exact h1.2 ⟨hadj, hnc⟩
    · rename_i hadj; exact h01.resolve_right fun h => hadj (h1.1 h).1
  unfold fisConsistentExtension isConsistentExtension
  rw [(C146_float_dag S it G hac).1, (C146_dag_accepted it (graphOf G) hac).1, fvstructures_eq, hsk]
  simp only [isZero_graphOf, decide_eq_false_iff_not, ne_eq]

/-- C155: the same for doubles, infinities and NaN included, and for any order of the additions. -/
theorem C155_sound_float (S : Summer) (it : SetIter p) (G : FAdj p) (hG : AllDoubles G) (I : List (Fin p)) (P : Adj p) (h : fdagToIcpdag S it G I = .ok P) :
    ZeroOne P ∧ IsExtension (graphOf G) P ∧ (∀ i ∈ I, ∀ j, ¬ UndEdge P i j) ∧ ∀ H, IsExtension H P → IEquiv I.toFinset (graphOf G) H := by
  have hac : Acyclic (graphOf G) := by
    by_contra hc
    rcases (C153_cyclic_float S it G hc).2.1 I with h' | h' <;> rw [h'] at h <;> cases h
  unfold fdagToIcpdag at h
  split at h
  · cases h
  · rename_i C hC
    rw [ftargetEdges_eq] at h
    split at h
    · cases h
    · rename_i Q hQ
      have hCz : ZeroOne C := by
        unfold fdagToCpdag at hC
        split at hC
        · cases hC
        · split at hC
          · cases hC
          · injection hC with hC
            rw [← hC]
            exact cpdag_entries _
      rw [fisConsistentExtension_dag S it hG hac] at h
      split at h
      · cases h
      · rename_i hx
        injection h with h
        subst h
        exact icpdag_core it hac hCz hQ hx
      · cases h

/-- C155: if `imec` returns for a matrix of any sign, the list contains the graph itself (with entries 0 and 1), members of its interventional
equivalence class only, and none of them twice. -/
theorem C155_imec (it : SetIter p) (A : Adj p) (I : Finset (Fin p)) (c : Bool) (hp : 0 < p ∨ c = false) (l : List (Adj p))
    (h : imec it A (I.image (fun i : Fin p => (i.val : Int))) c = .ok l) :
    l.Nodup ∧ support A ∈ l ∧ ∀ H ∈ l, ZeroOne H ∧ Acyclic H ∧ IEquiv I A H := by
  have hac : Acyclic A := by
    by_contra hc
    rcases (C153_cyclic it A hc).2.2.2 (I.image (fun i : Fin p => (i.val : Int))) c with h' | h' <;> rw [h'] at h <;> cases h
  have hm := markovEquiv_support A
  by_cases hch : isChainGraph A = true
  · obtain ⟨l', h1, h2, h3⟩ := C26_imec it A (chain_nonneg hch) hac I c hp
    rw [h] at h1
    cases h1
    exact ⟨h2, (h3 _).2 ⟨support_zeroOne A, support_acyclic hac, hm, fun _ _ _ => edge_support.symm⟩, fun H hH => (h3 H).1 hH⟩
  · have hI : (Finset.univ.filter (fun i : Fin p => (i.val : Int) ∈ I.image (fun i : Fin p => (i.val : Int)))) = I := by
      ext i
      simp only [Finset.mem_filter, Finset.mem_univ, true_and, Finset.mem_image, Nat.cast_inj]
      constructor
      · rintro ⟨j, hj, h⟩
        rwa [← Fin.ext h]
      · intro h; exact ⟨i, h, rfl⟩
    unfold imec at h
    split at h
    · cases h
    · split at h
      · cases h
      · rw [Bool.not_eq_true] at hch
        simp only [hI, hch, Bool.and_false, Bool.false_eq_true, if_false] at h
        split at h
        · cases h
        · rename_i P hP
          obtain ⟨k1, k2, -, k4⟩ := C155_sound it A _ P hP
          rw [toList_toFinset] at k4
          obtain ⟨l', h1, h2, h3⟩ := allDags_ext it k1 ⟨A, k2⟩
          rw [h] at h1
          cases h1
          refine ⟨h2, (h3 _).2 ⟨support_zeroOne A, support_acyclic hac, fun i j => (hm.1 i j).symm.trans (k2.2.1 i j),
            fun i c j => (hm.2 i c j).symm.trans (k2.2.2.1 i c j), fun i j hij => edge_support.2 (k2.2.2.2 i j hij)⟩, fun H hH => ?_⟩
          obtain ⟨z1, z2⟩ := (h3 H).1 hH
          exact ⟨z1, z2.1, k4 H z2⟩

/-- C155: members may be missing: `imec` without targets returns a list without a member of the class for a graph of five nodes with one weight -1. -/
theorem C155_incomplete (it : SetIter 5) : ∃ l, imec it twoTriangles ∅ false = .ok l ∧ twoTrianglesH ∉ l ∧ ZeroOne twoTrianglesH ∧
    Acyclic twoTrianglesH ∧ MarkovEquiv twoTriangles twoTrianglesH := by
  obtain ⟨h1, h2, h3⟩ := twoTriangles_equiv
  have hz : ZeroOne twoTrianglesOut := by unfold ZeroOne; decide +kernel
  have hd := (C146_dag_accepted it twoTriangles twoTriangles_acyclic).1
  have hext : IsExtension (support twoTriangles) twoTrianglesOut := by
    refine ⟨support_acyclic twoTriangles_acyclic, ?_, ?_, ?_⟩
    · unfold SameSkeleton; decide +kernel
    · unfold SameVStructures VStructure Adjacent; decide +kernel
    · decide +kernel
  have hi : dagToIcpdag it twoTriangles [] = .ok twoTrianglesOut := by
    unfold dagToIcpdag
    rw [twoTriangles_cpdag it]
    have hl : icpdagLoop (targetEdges it twoTriangles []).reverse twoTrianglesOut = .ok twoTrianglesOut := rfl
    dsimp only
    rw [hl]
    dsimp only
    rw [isConsistentExtension_dag it twoTriangles_acyclic]
    obtain ⟨b, hb, hiff⟩ := C12_exact it (support twoTriangles) twoTrianglesOut (support_nonneg _) hz.nonneg (support_acyclic twoTriangles_acyclic)
    rw [hb, hiff.2 hext]
  obtain ⟨l, hl, -, hm⟩ := allDags_ext it hz ⟨_, hext⟩
  refine ⟨l, ?_, fun hH => ?_, h2, h1, h3⟩
  · unfold imec
    rw [hd, show (Finset.univ.filter (fun i : Fin 5 => (i.val : Int) ∈ (∅ : Finset Int))) = ∅ by simp, toList_empty]
    simpa [hi] using hl
  · have := ((hm _).1 hH).2.2.2.2 0 4 (by decide +kernel)
    revert this
    unfold Edge
    decide +kernel

/-- C155: the same for what `equivalence_class` and `equivalence_class_w_ges` return, whatever the candidates, the data and the fitting procedure. -/
theorem C155_equivalence_class (E : FitEnv p e) (data : Fin e → Sample p) (solverKnown prune : Bool) (numsLatent : Option (List Nat)) (folds : List Rat)
    (rs : Int) (P : Adj p) (I : Finset (Fin p)) (m : AnyModel p e)
    (h : (∃ candidates, equivalenceClass E candidates data solverKnown prune numsLatent folds rs = .ok (P, I, m)) ∨
      equivalenceClassGes E data solverKnown numsLatent folds rs = .ok (P, I, m)) :
    ZeroOne P ∧ IsExtension m.A P ∧ (∀ i ∈ I, ∀ j, ¬ UndEdge P i j) ∧ ∀ H, IsExtension H P → IEquiv I m.A H := by
  have key : ∀ r : Except Err (AnyModel p e × Finset (Fin p) × Flt), withIcpdag E.it r = .ok (P, I, m) → dagToIcpdag E.it m.A (E.it.toList I) = .ok P := by
    intro r h
    unfold withIcpdag at h
    split at h
    · cases h
    · split at h
      · cases h
      · rename_i hQ
        cases h
        exact hQ
  have hd : dagToIcpdag E.it m.A (E.it.toList I) = .ok P := by
    rcases h with ⟨c, h⟩ | h
    · exact key _ h
    · exact key _ h
  obtain ⟨h1, h2, h3, h4⟩ := C155_sound E.it m.A _ P hd
  rw [toList_toFinset] at h4
  exact ⟨h1, h2, fun i hi => h3 i ((E.it.mem _ _).2 hi), h4⟩

/-- An example for `C155_equivalence_class`. -/
example (l : Sample 5) (hl : l.length = 8) : ∃ P I m, equivalenceClass (targetEnv 5) [twoTriangles] (fun _ => l) true false (some [0, 1])
    [1 / 2, 1 / 4, 1 / 4] 42 = .ok (P, I, m) := by
  obtain ⟨m, h, -⟩ := C150_wrong_graph_occurs l hl
  exact ⟨_, _, m, h⟩

/-- An example for `C155_sound_float`: an edge of weight NaN. -/
example (S : Summer) (it : SetIter 2) : ∃ A : FAdj 2, AllDoubles A ∧ Edge (graphOf A) 0 1 ∧ ∃ P, fdagToIcpdag S it A [0] = .ok P := by
  have h0 : IsBinary64 0 := ⟨0, 0, by norm_num, by norm_num, by norm_num, by norm_num⟩
  have hA : AllDoubles (fun i j : Fin 2 => if i = 0 ∧ j = 1 then Dbl.nan else .fin 0) := by
    intro i j q hq
    dsimp only at hq
    split at hq
    · cases hq
    · injection hq with hq
      rw [← hq]
      exact h0
  refine ⟨_, hA, ?_, ?_⟩
  · rw [Edge, ne_eq, graphOf_eq]
    simp
  · obtain ⟨P, hP, -⟩ := (C146_float_essential S it _ hA (by
      refine acyclic_of_rank (fun v : Fin 2 => v.val) ?_
      intro a b h
      rw [Edge, ne_eq, graphOf_eq] at h
      split at h
      · rename_i h'; rw [h'.1, h'.2]; decide
      · exact absurd rfl h) (by
      rintro v ⟨u, hu⟩ hs
      have h := (fcolSum_spec S (A := fun i j : Fin 2 => if i = 0 ∧ j = 1 then .nan else .fin 0) (by
        intro i j
        split
        · exact .inl rfl
        · exact .inr (.inr ⟨0, rfl, le_refl _, h0⟩)) v).1 (by rw [hs]; rfl)
      exact hu (h u))).2 [0]
    exact ⟨P, hP⟩

end Verif
