import Verif.Props.RobustRun
import Verif.Props.Asymptotic

/-!
# C113: consequences, boundaries and concrete runs
-/

namespace Verif

open Matrix Spec

variable {p l e : Nat}

/-! ## Without latents -/

/-- C113, without latents: small errors lead to a graph and targets that entail the true covariances. -/
theorem C113_no_latents (candidates : List (Adj p)) (hG : ∀ G ∈ candidates, Nonneg G) (C : Fin e → Matrix (Fin p) (Fin p) ℝ)
    (hC : ∀ k, (C k).PosDef) (he : 0 < e) (nT nG nI : Fin e → Nat) (hnT : ∀ k, 0 < nT k) (hnG : ∀ k, 0 < nG k) (hnI : ∀ k, 0 < nI k) :
    ∃ δ > 0, ∀ (E : FitEnv p e) (data : Fin e → Sample p) (solverKnown pruneEdges : Bool) (folds : List Rat) (rs : Int)
      (training testG testI : List (Sample p)) (G : Adj p) (P : Adj p) (I : Finset (Fin p)) (m : AnyModel p e),
      (∀ d h, GoodFit (E.fit d h)) → (∀ d h n A I m s, E.fit d h n A I = .ok (m, s) → m.1 = h) → (∀ f, IsArgsort f (E.argsort f)) →
      splitData (E.rng 42) (List.ofFn data) folds = .ok [training, testG, testI] →
      (∀ k : Fin e, (training.getD k []).length = nT k ∧ (testG.getD k []).length = nG k ∧ (testI.getD k []).length = nI k) →
      (∀ f ∈ [training, testG, testI], (∀ k : Fin e, (E.cov (f.getD k [])).PosDef) ∧ Within δ C fun k => E.cov (f.getD k [])) →
      AlmostOptimal δ E.it 0 (foldData E.cov training e) (E.fit (foldData E.cov training e) 0) →
      G ∈ candidates → Acyclic G → EntailedBy Finset.univ G C →
      equivalenceClass E candidates data solverKnown pruneEdges (some [0]) folds rs = .ok (P, I, m) →
      Acyclic m.A ∧ EntailedBy I m.A C ∧ m.1 = 0 ∧ Nonneg m.A ∧ (∃ G' ∈ candidates, Subgraph m.A G') ∧
        dagToIcpdag E.it m.A (E.it.toList I) = .ok P := by
  obtain ⟨δ, hδ, h1⟩ := C113_returned candidates hG [0] C hC he nT nG nI hnT hnG hnI
  refine ⟨δ, hδ, ?_⟩
  intro E data solverKnown pruneEdges folds rs training testG testI G P I m hfit hlat harg hsplit hsize hcov hopt hGm hac hent h
  have h2 := h1 E data solverKnown pruneEdges folds rs training testG testI G 0 P I m hfit hlat harg hsplit hsize hcov
    (fun h hh => by obtain rfl := List.mem_singleton.1 hh; exact hopt) hGm (by simp) (entailedWith_zero.2 ⟨hac, hent⟩).approximates h
  obtain ⟨s, hmain, hP⟩ : ∃ s, fitMain E data solverKnown (some [0]) pruneEdges folds none none (some candidates) 42 = .ok (m, I, s) ∧
      dagToIcpdag E.it m.A (E.it.toList I) = .ok P := by
    unfold equivalenceClass withIcpdag at h
    split at h
    · simp at h
    · rename_i m' I' s' hm'
      split at h
      · simp at h
      · rename_i P' hP'
        cases h
        exact ⟨_, hm', hP'⟩
  obtain ⟨t1, t2, t3, graphs, ns', z1, z2, z3, z4⟩ := fitMain_spec hfit hlat harg hmain
  cases z2
  cases z3
  obtain ⟨q1, ⟨G', g1, g2, -⟩, -⟩ := z4 hG
  have hm1 : m.1 = 0 := List.mem_singleton.1 q1
  rw [hm1] at h2
  obtain ⟨a1, a2⟩ := entailedWith_zero.1 ((C113_closed hC).1 h2)
  refine ⟨a1, a2, hm1, fun a b => ?_, ⟨G', g1, g2⟩, hP⟩
  rcases g2 a b with hc | hc
  · rw [hc]; exact hG G' g1 a b
  · rw [hc]

/-- C113 with C112: if the truth has no latents and the noise variances of all variables change, no two proportionally, then small errors
cannot lead to the loss of an edge: all variables are returned as targets, and the returned class is a single graph that contains every edge
of the truth. -/
theorem C113_edges (candidates : List (Adj p)) (hG : ∀ G ∈ candidates, Nonneg G ∧ Acyclic G) (it₀ : SetIter p) (A : Adj p) (hA : Nonneg A)
    (B : Matrix (Fin p) (Fin p) ℝ) (omegas : Matrix (Fin e) (Fin p) ℝ) (m₀ : LModel p 0 e) (h₀ : mkModel it₀ A B 0 omegas 0 = .ok m₀)
    (ho : ∀ k i, 0 < omegas k i) (hap : ChangeApart omegas) (hall : ∀ i, Varies omegas i) (C : Fin e → Matrix (Fin p) (Fin p) ℝ)
    (hC : m₀.covariances = .ok C) (he : 0 < e) (nT nG nI : Fin e → Nat) (hnT : ∀ k, 0 < nT k) (hnG : ∀ k, 0 < nG k) (hnI : ∀ k, 0 < nI k)
    (G : Adj p) (hGm : G ∈ candidates) (hsub : ∀ i j, B i j ≠ 0 → Edge G i j) :
    ∃ δ > 0, ∀ (E : FitEnv p e) (data : Fin e → Sample p) (solverKnown pruneEdges : Bool) (folds : List Rat) (rs : Int)
      (training testG testI : List (Sample p)) (P : Adj p) (I : Finset (Fin p)) (m : AnyModel p e),
      (∀ d h, GoodFit (E.fit d h)) → (∀ d h n A I m s, E.fit d h n A I = .ok (m, s) → m.1 = h) → (∀ f, IsArgsort f (E.argsort f)) →
      splitData (E.rng 42) (List.ofFn data) folds = .ok [training, testG, testI] →
      (∀ k : Fin e, (training.getD k []).length = nT k ∧ (testG.getD k []).length = nG k ∧ (testI.getD k []).length = nI k) →
      (∀ f ∈ [training, testG, testI], (∀ k : Fin e, (E.cov (f.getD k [])).PosDef) ∧ Within δ C fun k => E.cov (f.getD k [])) →
      AlmostOptimal δ E.it 0 (foldData E.cov training e) (E.fit (foldData E.cov training e) 0) →
      equivalenceClass E candidates data solverKnown pruneEdges (some [0]) folds rs = .ok (P, I, m) →
      I = Finset.univ ∧ (∀ i j, P i j = if m.A i j ≠ 0 then 1 else 0) ∧ ∀ i j, B i j ≠ 0 → P i j = 1 := by
  obtain ⟨-, C', hC', hent⟩ := C35_covariances it₀ A hA B 0 omegas 0 m₀ h₀
  obtain ⟨hacA, hBA, -⟩ := mkModel_ok hA h₀
  rw [hC] at hC'
  cases hC'
  have hent' : ∀ k, Entails B (Matrix.diagonal (omegas k)) (C k) := fun k => by
    have := (hent k).1
    rwa [noiseCov_zero] at this
  have hpd : ∀ k, (C k).PosDef := fun k => entails_pd (det_one_sub_transpose hacA hBA) (Matrix.PosDef.diagonal (ho k)) (hent' k)
  have hGC : EntailedBy Finset.univ G C := by
    refine ⟨B, omegas, fun i j hij => ?_, ho, fun _ _ i hi => absurd (Finset.mem_univ i) hi, hent'⟩
    by_contra hne
    exact hsub i j hne hij
  obtain ⟨δ, hδ, h1⟩ := C113_no_latents candidates (fun G h => (hG G h).1) C hpd he nT nG nI hnT hnG hnI
  refine ⟨δ, hδ, ?_⟩
  intro E data solverKnown pruneEdges folds rs training testG testI P I m hfit hlat harg hsplit hsize hcov hopt h
  obtain ⟨k1, ⟨B', w', k2, k3, k4, k5⟩, -, k6, -, k7⟩ := h1 E data solverKnown pruneEdges folds rs training testG testI G P I m hfit hlat harg hsplit
    hsize hcov hopt hGm (hG G hGm).2 hGC h
  have hmk := mkModel_eq_ok (it := it₀) (l := 0) (e := e) k6 0 w' 0 k1 k2
  have hmC := covariances_of_entails k6 hmk (C := C) (fun k => by rw [noiseCov_zero]; exact k5 k)
  obtain ⟨r1, r2, r3, -⟩ := C112_all_targets it₀ A m.A hA k6 B B' 0 0 omegas w' 0 0 m₀ _ h₀ hmk C hC hmC (fun _ _ => rfl) (fun _ _ => rfl) hap hall
  have hI : I = Finset.univ := by
    refine Finset.eq_univ_of_forall fun i => ?_
    by_contra hi
    obtain ⟨k, k', hkk⟩ := r2 i
    exact hkk (k4 k k' i hi)
  have hP : ∀ i j, P i j = if m.A i j ≠ 0 then 1 else 0 :=
    C22_all_targets E.it m.A P k6 k1 _ (fun i => (E.it.mem I i).2 (by rw [hI]; exact Finset.mem_univ _)) k7
  refine ⟨hI, hP, fun i j hij => ?_⟩
  rw [hP, if_pos]
  intro hc
  rw [r1] at k2
  exact hij (k2 i j hc)

/-! ## The sample sizes -/

/-- C113: with the documented weights the margin does not depend on the sample sizes, as long as every environment has at least the share `ρ`
of the observations. -/
theorem C113_documented {I : Finset (Fin p)} {A : Adj p} {C : Fin e → Matrix (Fin p) (Fin p) ℝ} (hC : ∀ k, (C k).PosDef) (he : 0 < e)
    (h : ¬ Approximates l I A C) {ρ : ℝ} (hρ : 0 < ρ) :
    ∃ δ > 0, ∀ n : Fin e → Nat, (∀ k, 0 < n k) → (∀ k, ρ * ∑ k, (n k : ℝ) ≤ n k) → ∀ S : Fin e → Matrix (Fin p) (Fin p) ℝ, (∀ k, (S k).PosDef) →
      Within δ C S → ∀ D D₀, EntailedWith l I A D → Within δ C D₀ → weightedNLL n D₀ S < weightedNLL n D S := by
  obtain ⟨η, hη, δ, hδ, h1⟩ := C113_margin h
  obtain ⟨δ₂, hδ₂, h2⟩ := excess_of_near hC (η := ρ * η) (by positivity)
  refine ⟨min δ δ₂, lt_min hδ hδ₂, fun n hn hs S hS hw D D₀ hD hw₀ => ?_⟩
  have hN : (0 : ℝ) < ∑ k, (n k : ℝ) := Finset.sum_pos (fun k _ => by exact_mod_cast hn k) ⟨⟨0, he⟩, Finset.mem_univ _⟩
  obtain ⟨k0, hk0⟩ := h1 S hS (hw.mono (min_le_left _ _)) D hD
  have h3 := h2 S D₀ (hw.mono (min_le_right _ _)) (hw₀.mono (min_le_right _ _))
  unfold weightedNLL
  refine div_lt_div_of_pos_right ?_ hN
  refine nll_sum_lt (a := fun k => (n k : ℝ)) (fun k => by exact_mod_cast hn k) hη (fun k => hD.posDef k) hS hk0 (α := ρ * ∑ k, (n k : ℝ)) hs (fun k => ?_)
  rw [show ρ * (∑ k, (n k : ℝ)) * η / ∑ k, (n k : ℝ) = ρ * η by field_simp]
  exact h3 k

theorem varModel_nll (a b c d : ℝ) (ha : 0 < a) (hb : 0 < b) (n₀ n₁ : Nat) (hn : n₀ + n₁ ≠ 0) :
    (varModel a b).score (List.ofFn fun k => !![![c, d] k]) (List.ofFn ![n₀, n₁]) =
      .ok (some (n₀ * (Real.log a + c / a) / ((n₀ : ℝ) + n₁) ^ 2 + n₁ * (Real.log b + d / b) / ((n₀ : ℝ) + n₁))) := by
  have hmk : mkModel (SetIter.incr 1) (fun _ _ => 0) 0 (Matrix.of ![]) !![a; b] (Matrix.of fun _ => Fin.elim0) = .ok (varModel a b) :=
    mkModel_eq_ok (fun _ _ => le_refl _) _ _ _ (acyclic_of_rank (fun _ => 0) (by simp [Edge])) (fun _ _ _ => rfl)
  rw [C37_actual_score (SetIter.incr 1) _ (fun _ _ => le_refl _) 0 _ _ _ _ hmk
    (by intro k i; fin_cases k <;> fin_cases i <;> simpa) (fun _ i => i.elim0) ![n₀, n₁] (by simpa [Fin.sum_univ_two] using hn) _ _ (varModel_cov a b)]
  congr 2
  simp [Fin.sum_univ_two, gaussNLL, Matrix.trace, Ring.inverse_eq_inv', div_eq_inv_mul, Matrix.mul_apply]

/-- C113 (violated for growing samples): with the weights that the code uses no bound on the errors works for all sample sizes.  One variable,
variance 1 in the first and 2 in the second environment: for every `δ` there are sample sizes for which a model without changes of the
variance has a better score than a model that differs from the truth by less than `δ`, although no such model approximates the truth. -/
theorem C113_sizes_matter (δ : ℝ) (hδ : 0 < δ) : ¬ Approximates 0 ∅ (0 : Adj 1) (fun k : Fin 2 => (!![![1, 2] k] : Matrix (Fin 1) (Fin 1) ℝ)) ∧
    ∃ t : ℕ, 0 < t ∧ ∃ b : ℝ, Within δ (fun k : Fin 2 => (!![![1, 2] k] : Matrix (Fin 1) (Fin 1) ℝ)) (fun k => !![![1, b] k]) ∧
      ∃ s s₀ : ℝ, (varModel 1 b).covariances = .ok (fun k => !![![1, b] k]) ∧
        (varModel 1 b).score (List.ofFn fun k : Fin 2 => !![![1, 2] k]) (List.ofFn ![t, t]) = .ok (some s₀) ∧
        (varModel 2 2).score (List.ofFn fun k : Fin 2 => !![![1, 2] k]) (List.ofFn ![t, t]) = .ok (some s) ∧ s < s₀ := by
  constructor
  · intro h
    obtain ⟨D, ⟨-, B, gamma, w, psis, h1, -, -, h4, h5⟩, hw⟩ := h (1 / 2) (by norm_num)
    have hB : B = 0 := by
      ext i j
      exact h1 i j rfl
    have hD : ∀ k, D k 0 0 = w k 0 := by
      intro k
      have := h5 k
      rw [noiseCov_zero, hB] at this
      unfold Entails at this
      simpa using congrFun (congrFun this 0) 0
    have h6 := hw 0 0 0
    have h7 := hw 1 0 0
    rw [hD] at h6 h7
    rw [h4 0 1 0 (by simp)] at h6
    simp only [of_apply, cons_val', cons_val_zero, cons_val_one, cons_val_fin_one] at h6 h7
    rw [abs_lt] at h6 h7
    linarith [h6.2, h7.1]
  · obtain ⟨x, hx0, hx1, hxδ⟩ : ∃ x : ℝ, 0 < x ∧ x ≤ 1 ∧ 2 * x < δ :=
      ⟨min 1 (δ / 4), lt_min one_pos (by linarith), min_le_left _ _, by linarith [min_le_right 1 (δ / 4)]⟩
    obtain ⟨t, ht⟩ := exists_nat_gt (1 / x ^ 2)
    have ht0 : (0 : ℝ) < t := lt_trans (by positivity) ht
    have htn : 0 < t := by exact_mod_cast ht0
    refine ⟨t, htn, 2 * (1 + x), ?_, _, _, varModel_cov _ _, varModel_nll 1 (2 * (1 + x)) 1 2 one_pos (by positivity) t t (by omega),
      varModel_nll 2 2 1 2 two_pos two_pos t t (by omega), ?_⟩
    · intro k i j
      fin_cases k <;> fin_cases i <;> fin_cases j
      · simpa using hδ
      · simp only [Fin.mk_one, of_apply, cons_val', cons_val_one, cons_val_fin_one, Fin.zero_eta]
        rw [show 2 * (1 + x) - 2 = 2 * x by ring, abs_of_pos (by positivity)]
        exact hxδ
    · have hlog : Real.log (2 * (1 + x)) = Real.log 2 + Real.log (1 + x) := Real.log_mul (by norm_num) (by positivity)
      have h2 : (1 : ℝ) / 2 < Real.log 2 := by linarith [Real.log_two_gt_d9]
      have hl : 2 * x / (2 + x) ≤ Real.log (1 + x) := by
        have := Real.le_log_one_add_of_nonneg hx0.le
        rw [add_comm 2 x]
        exact this
      have hlow : x ^ 2 / 6 ≤ Real.log (1 + x) + 1 / (1 + x) - 1 := by
        have : x ^ 2 / 6 ≤ 2 * x / (2 + x) + 1 / (1 + x) - 1 := by
          rw [show 2 * x / (2 + x) + 1 / (1 + x) - 1 = x ^ 2 / ((2 + x) * (1 + x)) by field_simp; ring]
          refine div_le_div_of_nonneg_left (by positivity) (by positivity) (by nlinarith)
        linarith
      have hxt : 1 < x ^ 2 * t := by
        rw [div_lt_iff₀ (by positivity)] at ht
        linarith
      have e1 : ∀ y z : ℝ, (t : ℝ) * y / ((t : ℝ) + t) ^ 2 + t * z / ((t : ℝ) + t) = (y / t + 2 * z) / 4 := by
        intro y z
        field_simp
        ring
      rw [e1, e1, hlog, Real.log_one]
      have e2 : (2 : ℝ) / (2 * (1 + x)) = 1 / (1 + x) := by field_simp
      rw [e2]
      have e3 : (Real.log 2 + 1 / 2) / t - (0 + 1 / 1) / t < x ^ 2 / 3 := by
        rw [← sub_div, div_lt_iff₀ ht0]
        have := Real.log_two_lt_d9
        nlinarith
      have e4 : (2 : ℝ) / 2 = 1 := by norm_num
      rw [e4]
      linarith

/-! ## Latents -/

/-- Three variables with correlations of one factor that explains the first variable completely. -/
noncomputable def factorC : Matrix (Fin 3) (Fin 3) ℝ := !![1 / 2, 1 / 2, 1 / 2; 1 / 2, 1, 1 / 2; 1 / 2, 1 / 2, 1]

theorem factorC_posDef : factorC.PosDef := by
  rw [Matrix.posDef_iff_dotProduct_mulVec]
  refine ⟨by ext i j; fin_cases i <;> fin_cases j <;> simp [factorC], fun x hx => ?_⟩
  have h : star x ⬝ᵥ factorC *ᵥ x = (x 0 + x 1 + x 2) ^ 2 / 2 + x 1 ^ 2 / 2 + x 2 ^ 2 / 2 := by
    simp [factorC, dotProduct, Matrix.mulVec, Fin.sum_univ_three]
    ring
  rw [h]
  by_cases h1 : x 1 = 0
  · by_cases h2 : x 2 = 0
    · have h0 : x 0 ≠ 0 := fun h0 => hx (by ext i; fin_cases i; exacts [h0, h1, h2])
      rw [h1, h2, add_zero, add_zero]
      positivity
    · positivity
  · positivity

/-- C113, boundary: with latents a class of models can approximate covariances that it does not entail.  The empty graph with one latent does not
entail `factorC`, even if all variables are targets, but for every `η` it has models, without any targets, whose score is within `η` of the best
possible one. -/
theorem C113_latents (he : 0 < e) : (∀ I, ¬ EntailedWith 1 I (0 : Adj 3) (fun _ : Fin e => factorC)) ∧
    Approximates 1 ∅ (0 : Adj 3) (fun _ : Fin e => factorC) ∧
    ∀ η > 0, ∃ D : Fin e → Matrix (Fin 3) (Fin 3) ℝ, EntailedWith 1 ∅ (0 : Adj 3) D ∧
      ∀ k, gaussNLL (D k) factorC < Real.log factorC.det + (3 : ℕ) + η := by
  have happ : Approximates 1 ∅ (0 : Adj 3) (fun _ : Fin e => factorC) := by
    intro ε hε
    refine ⟨fun _ => noiseCov (l := 1) (fun _ _ => 1) (fun _ => 1 / 2) ![ε / 2, 1 / 2, 1 / 2], ⟨acyclic_of_rank (fun _ => 0) (by simp [Edge]), 0, fun _ _ => 1,
      fun _ => ![ε / 2, 1 / 2, 1 / 2], fun _ _ => 1 / 2, fun _ _ _ => rfl, fun _ i => ?_, fun _ _ => by norm_num, fun _ _ _ _ => rfl, fun k => ?_⟩,
      fun k i j => ?_⟩
    · fin_cases i <;> simp [hε]
    · simp [Entails]
    · fin_cases i <;> fin_cases j <;> simp [noiseCov, factorC] <;> norm_num <;> first | exact hε | (rw [abs_of_pos] <;> linarith)
  refine ⟨fun I h => ?_, happ, fun η hη => ?_⟩
  · obtain ⟨-, B, gamma, w, psis, h1, h2, -, -, h5⟩ := h
    have hB : B = 0 := by
      ext i j
      exact h1 i j rfl
    have h6 := h5 ⟨0, he⟩
    rw [hB] at h6
    unfold Entails at h6
    simp only [transpose_zero, sub_zero, one_mul, transpose_one, mul_one] at h6
    have a00 := congrFun (congrFun h6 0) 0
    have a01 := congrFun (congrFun h6 0) 1
    have a02 := congrFun (congrFun h6 0) 2
    have a12 := congrFun (congrFun h6 1) 2
    simp [factorC, noiseCov] at a00 a01 a02 a12
    have hw := h2 ⟨0, he⟩ 0
    set g0 := gamma 0 0
    set g1 := gamma 0 1
    set g2 := gamma 0 2
    set s := psis ⟨0, he⟩ 0
    have h7 : (g0 * s * g1) * (g0 * s * g2) = (g0 * s * g0) * (g1 * s * g2) := by ring
    rw [← a01, ← a02, ← a12] at h7
    linarith
  · obtain ⟨D, h1, δ, hδ, h2⟩ := C113_attained (fun _ => factorC_posDef) happ hη
    exact ⟨D, h1, fun k => h2 (fun _ => factorC) (fun k i j => by simpa using hδ) k⟩

/-! ## A concrete run -/

theorem weightedNLL_ge {n : Fin e → Nat} {D S : Fin e → Matrix (Fin p) (Fin p) ℝ} (hD : ∀ k, (D k).PosDef) (hS : ∀ k, (S k).PosDef) :
    (∑ k, (n k : ℝ) * (Real.log (S k).det + p)) / ∑ k, (n k : ℝ) ≤ weightedNLL n D S := by
  unfold weightedNLL
  refine div_le_div_of_nonneg_right (Finset.sum_le_sum fun k _ => ?_) (Finset.sum_nonneg fun k _ => Nat.cast_nonneg _)
  exact mul_le_mul_of_nonneg_left (gaussNLL_ge (hD k) (hS k)).1 (Nat.cast_nonneg _)

/-- Almost optimal models exist for every DAG. -/
theorem exists_almostOptimal (it : SetIter p) {A : Adj p} (hA : Nonneg A) (hac : Acyclic A) (I : Finset (Fin p)) (l : Nat) (d : Data p e)
    (hd : ∀ k, (d.covs k).PosDef) {δ : ℝ} (hδ : 0 < δ) :
    ∃ (m : LModel p l e), Proper it m ∧ m.A = A ∧ (∀ k k' i, i ∉ I → m.omegas k i = m.omegas k' i) ∧
      ∃ D, m.covariances = .ok D ∧ ∀ D', EntailedWith l I A D' → weightedNLL d.nObs D d.covs ≤ weightedNLL d.nObs D' d.covs + δ := by
  obtain ⟨X, hX⟩ : ∃ X : Set ℝ, X = {x | ∃ D, EntailedWith l I A D ∧ weightedNLL d.nObs D d.covs = x} := ⟨_, rfl⟩
  have hbd : BddBelow X := by
    refine ⟨(∑ k, (d.nObs k : ℝ) * (Real.log (d.covs k).det + p)) / ∑ k, (d.nObs k : ℝ), fun x hx => ?_⟩
    rw [hX] at hx
    obtain ⟨D, h1, rfl⟩ := hx
    exact weightedNLL_ge (fun k => h1.posDef k) hd
  have hne : X.Nonempty := by
    have hent : EntailedWith l I A (fun _ : Fin e => (1 : Matrix (Fin p) (Fin p) ℝ)) := by
      refine ⟨hac, 0, 0, fun _ _ => 1, fun _ _ => 0, fun _ _ _ => rfl, fun _ _ => one_pos, fun _ _ => le_rfl, fun _ _ _ _ => rfl, fun k => ?_⟩
      unfold Entails
      ext i j
      simp [noiseCov, Matrix.one_apply]
    exact ⟨_, by rw [hX]; exact ⟨_, hent, rfl⟩⟩
  obtain ⟨x, hx, hlt⟩ := Real.lt_sInf_add_pos hne hδ
  rw [hX] at hx
  obtain ⟨D, ⟨-, B, gamma, w, psis, h1, h2, h3, h4, h5⟩, rfl⟩ := hx
  have hmk := mkModel_eq_ok (it := it) hA gamma w psis hac h1
  refine ⟨_, ⟨A, B, gamma, w, psis, hA, hmk, h2, h3⟩, rfl, h4, D, covariances_of_entails hA hmk h5, fun D' hD' => ?_⟩
  have := csInf_le hbd (show weightedNLL d.nObs D' d.covs ∈ X by rw [hX]; exact ⟨D', hD', rfl⟩)
  linarith

open Classical in
/-- A fitting procedure that returns almost optimal models. -/
noncomputable def nearFit (δ : ℝ) (it : SetIter p) (d : Data p e) (l : Nat) : Fitter p e := fun _ A I =>
  if h : (Nonneg A ∧ Acyclic A) ∧ (∀ k, (d.covs k).PosDef) ∧ 0 < δ then
    .ok (⟨l, (exists_almostOptimal it h.1.1 h.1.2 I l d h.2.1 h.2.2).choose⟩, some 0) else .error .valueError

theorem nearFit_ok {δ : ℝ} {it : SetIter p} {d : Data p e} {l n : Nat} {A : Adj p} {I : Finset (Fin p)} {m : AnyModel p e} {s : Flt}
    (h : nearFit δ it d l n A I = .ok (m, s)) : Nonneg A ∧ Acyclic A ∧ ∃ m' : LModel p l e, m = ⟨l, m'⟩ ∧ Proper it m' ∧ m'.A = A ∧
      (∀ k k' i, i ∉ I → m'.omegas k i = m'.omegas k' i) ∧
      ∃ D, m'.covariances = .ok D ∧ ∀ D', EntailedWith l I A D' → weightedNLL d.nObs D d.covs ≤ weightedNLL d.nObs D' d.covs + δ := by
  unfold nearFit at h
  split_ifs at h with h1
  cases h
  exact ⟨h1.1.1, h1.1.2, _, rfl, (exists_almostOptimal it h1.1.1 h1.1.2 I l d h1.2.1 h1.2.2).choose_spec⟩

theorem nearFit_good (δ : ℝ) (it : SetIter p) (d : Data p e) (l : Nat) : GoodFit (nearFit δ it d l) := by
  intro n A I m s h
  obtain ⟨h1, h2, m', rfl, ⟨A', B, gamma, w, psis, h3, h4, -, -⟩, rfl, -⟩ := nearFit_ok h
  obtain ⟨-, h5, rfl⟩ := mkModel_ok h3 h4
  exact ⟨rfl, fun _ => h2, h5⟩

theorem nearFit_almostOptimal (δ : ℝ) (it : SetIter p) (d : Data p e) (l : Nat) : AlmostOptimal δ it l d (nearFit δ it d l) := by
  intro A I m s hA h
  obtain ⟨n, m0, h1, h2⟩ := h
  obtain ⟨-, -, m', rfl, k1, k2, k3, D, k4, k5⟩ := nearFit_ok h1
  have hm : m = ⟨l, m'⟩ := by
    rcases h2 with rfl | h2
    · rfl
    · unfold AnyModel.copy at h2
      rw [proper_copy k1] at h2
      cases h2
      rfl
  subst hm
  exact ⟨k3, m'.B, D, k1, k4, k5⟩

/-- As `popEnv`, with almost optimal fits and the covariance `S` for all samples. -/
noncomputable def nearEnv (δ : ℝ) (S : Matrix (Fin p) (Fin p) ℝ) : FitEnv p 2 where
  it := SetIter.incr p
  rng := fun _ _ => Rng.front
  cov := fun _ => S
  argsort := insArgsort
  svals := fun _ => []
  gesFit := fun _ => fun i j => if i = j then 0 else 1
  fit := fun d h => nearFit δ (SetIter.incr p) d h

theorem nearEnv_returns {δ : ℝ} (hδ : 0 < δ) (S : Matrix (Fin p) (Fin p) ℝ) (hS : S.PosDef) (candidates : List (Adj p)) (hne : candidates ≠ [])
    (hG : ∀ G ∈ candidates, Nonneg G ∧ Acyclic G) (l : Sample p) (hl : l.length = 8) (ns : List Nat) (hns : ns ≠ []) (rs : Int) :
    ∃ r, equivalenceClass (nearEnv δ S) candidates (fun _ => l) true false (some ns) [1 / 2, 1 / 4, 1 / 4] rs = .ok r := by
  obtain ⟨training, testG, testI, h1, h2, h3⟩ := popSplit ((nearEnv δ S).rng 42) l hl
  refine C72_returns (nearEnv δ S) candidates hne (fun G h => (hG G h).1) _ true false ns hns _ rs training testG testI h1
    (scoreCtor_ok (fun s hs => by rw [h2 s hs]; norm_num)) (fun d h => nearFit_good _ _ d h)
    (fun d h n A I m s hm => by
      obtain ⟨-, -, m', rfl, -⟩ := nearFit_ok (n := n) hm
      rfl) insArgsort_spec ?_ (fun hc => by simp at hc)
  intro n _ G hGm k H I hH hs
  obtain ⟨m, s, hm⟩ : ∃ m s, nearFit δ (SetIter.incr p) (foldData (nearEnv δ S).cov training 2) n k H I = .ok (m, s) := by
    unfold nearFit
    rw [dif_pos ⟨⟨hH, subgraph_acyclic hs (hG G hGm).2⟩, fun _ => hS, hδ⟩]
    exact ⟨_, _, rfl⟩
  have hx : Proper (nearEnv δ S).it m.2 := by
    obtain ⟨h1, h2, m', rfl, h3, -⟩ := nearFit_ok hm
    exact h3
  have hc : m.copy (nearEnv δ S).it = .ok m := by
    unfold AnyModel.copy
    rw [show m.2.copy (nearEnv δ S).it = .ok m.2 from proper_copy hx]
  refine ⟨m, s, m, hm, hc, fun t ht => ?_⟩
  have : ∃ r, m.scoreOn t = .ok r := by
    have hg : GoodData t := by
      simp only [List.mem_cons, List.not_mem_nil, or_false] at ht
      rcases ht with rfl | rfl
      · exact ⟨fun _ => hS, fun k => List.length_pos_of_ne_nil (h3 testG (by simp) k), by norm_num⟩
      · exact ⟨fun _ => hS, fun k => List.length_pos_of_ne_nil (h3 testI (by simp) k), by norm_num⟩
    obtain ⟨x, hx, -⟩ := proper_score hx t.nObs hg.pos hg.some t.covs hg.posDef
    exact ⟨_, hx⟩
  exact ⟨this, this⟩

theorem popSplit_lengths {α : Type} (rng : Nat → Rng) (l : List α) (hl : l.length = 8) : ∃ training testG testI,
    splitData rng (List.ofFn (fun _ : Fin 2 => l)) [1 / 2, 1 / 4, 1 / 4] = .ok [training, testG, testI] ∧
      ∀ k : Fin 2, (training.getD k []).length = 4 ∧ (testG.getD k []).length = 2 ∧ (testI.getD k []).length = 2 := by
  have hs : ∀ i, ((rng i).shuffle l).length = 8 := fun i => by rw [((rng i).shuffle_perm l).length_eq, hl]
  have r1 : pyRound (4 : Rat) = 4 := pyRound_int 4
  have r2 : pyRound (2 : Rat) = 2 := pyRound_int 2
  have b0 : sliceBound 8 0 = 0 := by decide
  have b1 : sliceBound 8 4 = 4 := by decide
  have b2 : sliceBound 8 6 = 6 := by decide
  have b3 : sliceBound 8 8 = 8 := by decide
  have hr : List.range 3 = [0, 1, 2] := by decide
  refine ⟨[((rng 0).shuffle l).take 4, ((rng 1).shuffle l).take 4], [(((rng 0).shuffle l).drop 4).take 2, (((rng 1).shuffle l).drop 4).take 2],
    [(((rng 0).shuffle l).drop 6).take 2, (((rng 1).shuffle l).drop 6).take 2], ?_, ?_⟩
  · unfold splitData
    rw [if_neg (by norm_num)]
    simp [splitSample, hs, pySlice, List.zipIdx]
    norm_num [r1, r2, b0, b1, b2, b3, hr, List.drop_take]
  · intro k
    fin_cases k <;> simp [hs]

/-- Concrete case for `C113_returned` and `C113_no_latents`: the truth is `X₁ = X₀ + N₁` with unit variances, the candidates are the empty graph
and `0 → 1`.  For all covariances of the samples close to the true one, and almost optimal fits, the run returns and the empty graph is not
chosen. -/
theorem C113_example (l : Sample 2) (hl : l.length = 8) (rs : Int) : ∃ δ > 0, ∀ S : Matrix (Fin 2) (Fin 2) ℝ, S.PosDef →
    (∀ i j, |S i j - (!![1, 1; 1, 2] : Matrix (Fin 2) (Fin 2) ℝ) i j| < δ) →
    ∃ P I m, equivalenceClass (nearEnv δ S) [0, ![![0, 1], ![0, 0]]] (fun _ => l) true false (some [0]) [1 / 2, 1 / 4, 1 / 4] rs = .ok (P, I, m) ∧
      m.A 0 1 ≠ 0 := by
  obtain ⟨C₀, hC₀⟩ : ∃ C₀ : Matrix (Fin 2) (Fin 2) ℝ, C₀ = !![1, 1; 1, 2] := ⟨_, rfl⟩
  have hent : Entails !![0, 1; 0, 0] (Matrix.diagonal fun _ => (1 : ℝ)) C₀ := by
    rw [hC₀]
    unfold Entails
    ext i j
    fin_cases i <;> fin_cases j <;> simp [Matrix.mul_apply, Fin.sum_univ_two] <;> norm_num
  have hG : ∀ G ∈ [(0 : Adj 2), ![![0, 1], ![0, 0]]], Nonneg G ∧ Acyclic G := by
    intro G hG
    have hnn : Nonneg G := by
      simp only [List.mem_cons, List.not_mem_nil, or_false] at hG
      rcases hG with rfl | rfl <;> (unfold Nonneg; decide)
    refine ⟨hnn, (isDag_iff (SetIter.incr 2) hnn).1 ?_⟩
    simp only [List.mem_cons, List.not_mem_nil, or_false] at hG
    rcases hG with rfl | rfl <;> decide
  have hresp : Respects (![![0, 1], ![0, 0]] : Adj 2) (!![0, 1; 0, 0] : Matrix (Fin 2) (Fin 2) ℝ) := by
    intro i j
    fin_cases i <;> fin_cases j <;> simp
  have hpd : C₀.PosDef := entails_pd (det_one_sub_transpose (hG _ (by simp)).2 hresp) (Matrix.PosDef.diagonal fun _ => one_pos) hent
  have hby : EntailedBy Finset.univ (![![0, 1], ![0, 0]] : Adj 2) (fun _ : Fin 2 => C₀) :=
    ⟨_, fun _ _ => 1, hresp, fun _ _ => one_pos, fun _ _ _ _ => rfl, fun _ => hent⟩
  obtain ⟨δ, hδ, h1⟩ := C113_no_latents [(0 : Adj 2), ![![0, 1], ![0, 0]]] (fun G h => (hG G h).1) (fun _ : Fin 2 => C₀) (fun _ => hpd) (by norm_num)
    (fun _ => 4) (fun _ => 2) (fun _ => 2) (fun _ => by norm_num) (fun _ => by norm_num) (fun _ => by norm_num)
  refine ⟨δ, hδ, fun S hS hw => ?_⟩
  rw [← hC₀] at hw
  obtain ⟨⟨P, I, m⟩, hr⟩ := nearEnv_returns hδ S hS [(0 : Adj 2), ![![0, 1], ![0, 0]]] (by simp) hG l hl [0] (by simp) rs
  obtain ⟨training, testG, testI, s1, s2⟩ := popSplit_lengths ((nearEnv δ S).rng 42) l hl
  obtain ⟨-, ⟨B, w, k2, -, -, k5⟩, -, -, ⟨G', g1, g2⟩, -⟩ := h1 (nearEnv δ S) (fun _ => l) true false _ rs training testG testI _ P I m
    (fun d h => nearFit_good _ _ d h) (fun d h n A I m s hm => by
      obtain ⟨-, -, m', rfl, -⟩ := nearFit_ok (n := n) hm
      rfl) insArgsort_spec s1 s2 (fun f _ => ⟨fun _ => hS, fun k i j => hw i j⟩) (nearFit_almostOptimal _ _ _ _) (by simp) (hG _ (by simp)).2 hby hr
  refine ⟨P, I, m, hr, fun h01 => ?_⟩
  have h10 : m.A 1 0 = 0 := by
    rcases g2 1 0 with hc | hc
    · rw [hc]
      simp only [List.mem_cons, List.not_mem_nil, or_false] at g1
      rcases g1 with rfl | rfl <;> rfl
    · exact hc
  have hB : B = 0 := by
    ext i j
    have hii : ∀ i, m.A i i = 0 := by
      intro i
      rcases g2 i i with hc | hc
      · rw [hc]
        simp only [List.mem_cons, List.not_mem_nil, or_false] at g1
        rcases g1 with rfl | rfl <;> fin_cases i <;> rfl
      · exact hc
    refine k2 i j ?_
    fin_cases i <;> fin_cases j
    exacts [hii 0, h01, h10, hii 1]
  have h5 := congrFun (congrFun (k5 0) 0) 1
  rw [hB, hC₀] at h5
  simp at h5

end Verif
