import Mathlib.Algebra.Order.Chebyshev
import Verif.Props.Changes
import Verif.Props.Descent
import Verif.Props.ScoreInit

/-!
# C103: on exact covariances the truth is a fixed point of `score_dag`, and without latents also its initial model
-/

namespace Verif

open Spec Matrix

variable {p l e : Nat}

/-- Weights of edges and effects against the edges do not meet. -/
theorem trace_effects {A : Adj p} {B D : Matrix (Fin p) (Fin p) ℝ} (hac : Acyclic A) (hB : Respects A B) (hD : Respects A D) :
    trace (Dᵀ * (1 - Bᵀ)⁻¹) = 0 := by
  have hu : IsUnit (1 - Bᵀ).det := by rw [det_one_sub_transpose hac hB]; exact isUnit_one
  choose t h1 _ _ h4 using fun i => C102_effects_unique hac hB i
  have hTi : (1 - Bᵀ)⁻¹ = (Matrix.of t)ᵀ := by
    refine Matrix.inv_eq_right_inv ?_
    ext x y
    have := congrFun (totalEffects_iff.1 (h1 y)) x
    rw [Matrix.mul_apply, Matrix.one_apply]
    simpa [Matrix.mulVec, dotProduct, Pi.single_apply] using this
  rw [hTi]
  unfold trace
  refine Finset.sum_eq_zero fun i _ => ?_
  rw [Matrix.diag_apply, Matrix.mul_apply]
  refine Finset.sum_eq_zero fun k _ => ?_
  rw [Matrix.transpose_apply, Matrix.transpose_apply, Matrix.of_apply]
  by_cases hk : A k i = 0
  · rw [hD k i hk, zero_mul]
  · rw [h4 i k (acyclic_not_reach hac hk), mul_zero]

/-- The trace term of the score on the covariances of the model: it grows quadratically around the weights of the model. -/
theorem trace_growth {A : Adj p} {B B' V C : Matrix (Fin p) (Fin p) ℝ} (hac : Acyclic A) (hB : Respects A B) (hB' : Respects A B')
    (hV : V.PosDef) (hC : Entails B V C) :
    trace (V⁻¹ * ((1 - B'ᵀ) * C * (1 - B'ᵀ)ᵀ)) = p + trace (V⁻¹ * ((B' - B)ᵀ * C * (B' - B))) := by
  have hdet := det_one_sub_transpose hac hB
  have hu : IsUnit (1 - Bᵀ).det := by rw [hdet]; exact isUnit_one
  have hut : IsUnit ((1 - Bᵀ)ᵀ).det := by rw [Matrix.det_transpose]; exact hu
  have hVu : IsUnit V.det := isUnit_iff_ne_zero.2 hV.det_pos.ne'
  have hVs : Vᵀ = V := posSemidef_symm hV.posSemidef
  have hCs : Cᵀ = C := entails_symm hdet hVs hC
  have hWs : (V⁻¹)ᵀ = V⁻¹ := by rw [Matrix.transpose_nonsing_inv, hVs]
  set D := B' - B with hD
  have hDr : Respects A D := by
    intro i j hij
    rw [hD, Matrix.sub_apply, hB' i j hij, hB i j hij, sub_zero]
  have e1 : 1 - B'ᵀ = (1 - Bᵀ) - Dᵀ := by
    rw [hD, Matrix.transpose_sub]
    abel
  have h1 : C * (1 - Bᵀ)ᵀ = (1 - Bᵀ)⁻¹ * V := by
    rw [← hC, Matrix.mul_assoc, ← Matrix.mul_assoc _ (1 - Bᵀ), Matrix.nonsing_inv_mul _ hu, Matrix.one_mul]
  have hcross : trace (V⁻¹ * (Dᵀ * C * (1 - Bᵀ)ᵀ)) = 0 := by
    rw [Matrix.mul_assoc Dᵀ, h1, ← Matrix.mul_assoc Dᵀ, Matrix.trace_mul_comm, Matrix.mul_assoc, Matrix.mul_nonsing_inv _ hVu, Matrix.mul_one]
    exact trace_effects hac hB hDr
  have hcross' : trace (V⁻¹ * ((1 - Bᵀ) * C * D)) = 0 := by
    rw [← Matrix.trace_transpose]
    rw [show (V⁻¹ * ((1 - Bᵀ) * C * D))ᵀ = (Dᵀ * C * (1 - Bᵀ)ᵀ) * V⁻¹ by
      simp only [Matrix.transpose_mul, hCs, hWs, Matrix.mul_assoc], Matrix.trace_mul_comm]
    exact hcross
  have hmain : trace (V⁻¹ * ((1 - Bᵀ) * C * (1 - Bᵀ)ᵀ)) = (p : ℝ) := by
    rw [hC, Matrix.nonsing_inv_mul _ hVu, Matrix.trace_one, Fintype.card_fin]
  have e2 : (1 - B'ᵀ) * C * (1 - B'ᵀ)ᵀ =
      (1 - Bᵀ) * C * (1 - Bᵀ)ᵀ - (1 - Bᵀ) * C * D - Dᵀ * C * (1 - Bᵀ)ᵀ + Dᵀ * C * D := by
    have e3 : (1 - Bᵀ - Dᵀ)ᵀ = (1 - Bᵀ)ᵀ - D := by rw [Matrix.transpose_sub (1 - Bᵀ) Dᵀ, Matrix.transpose_transpose]
    have e4 : ∀ X Y E F : Matrix (Fin p) (Fin p) ℝ, (X - E) * C * (Y - F) = X * C * Y - X * C * F - E * C * Y + E * C * F := by
      intro X Y E F
      simp only [Matrix.sub_mul, Matrix.mul_sub]
      abel
    rw [e1, e3, e4]
  rw [e2, Matrix.mul_add, Matrix.mul_sub, Matrix.mul_sub, Matrix.trace_add, Matrix.trace_sub, Matrix.trace_sub, hmain, hcross, hcross']
  ring

theorem trace_quad_nonneg {W C D : Matrix (Fin p) (Fin p) ℝ} (hW : W.PosSemidef) (hC : C.PosSemidef) : 0 ≤ trace (W * (Dᵀ * C * D)) := by
  obtain ⟨f, hf⟩ := goodSqrt_exists (p := p)
  obtain ⟨a1, a2⟩ := hf W hW
  obtain ⟨b1, b2⟩ := hf C hC
  have := frobenius (Q := Dᵀ) (posSemidef_symm a1) (posSemidef_symm b1) a2 b2
  rw [Matrix.transpose_transpose] at this
  rw [← this]
  exact Finset.sum_nonneg fun i _ => Finset.sum_nonneg fun j _ => sq_nonneg _

theorem trace_quad_zero {W C D : Matrix (Fin p) (Fin p) ℝ} (hW : W.PosDef) (hC : C.PosDef) (h : trace (W * (Dᵀ * C * D)) = 0) : D = 0 := by
  obtain ⟨f, hf⟩ := goodSqrt_exists (p := p)
  obtain ⟨a1, a2⟩ := hf W hW.posSemidef
  obtain ⟨b1, b2⟩ := hf C hC.posSemidef
  have h1 := frobenius (Q := Dᵀ) (posSemidef_symm a1) (posSemidef_symm b1) a2 b2
  rw [Matrix.transpose_transpose, h] at h1
  have h2 : f W * Dᵀ * f C = 0 := by
    ext i j
    have h3 := (Finset.sum_eq_zero_iff_of_nonneg (fun i _ => Finset.sum_nonneg fun j _ => sq_nonneg _)).1 h1 i (Finset.mem_univ _)
    have h4 := (Finset.sum_eq_zero_iff_of_nonneg (fun j _ => sq_nonneg _)).1 h3 j (Finset.mem_univ _)
    rw [Matrix.zero_apply]
    exact pow_eq_zero_iff (by norm_num) |>.1 h4
  have hu1 : IsUnit (f W).det := by
    rw [isUnit_iff_ne_zero]
    intro hc
    have := hW.det_pos.ne'
    rw [← a2, Matrix.det_mul, hc, zero_mul] at this
    exact this rfl
  have hu2 : IsUnit (f C).det := by
    rw [isUnit_iff_ne_zero]
    intro hc
    have := hC.det_pos.ne'
    rw [← b2, Matrix.det_mul, hc, zero_mul] at this
    exact this rfl
  have h3 : Dᵀ = 0 := by
    have : (f W)⁻¹ * (f W * Dᵀ * f C) * (f C)⁻¹ = Dᵀ := by
      rw [Matrix.mul_assoc (f W), ← Matrix.mul_assoc, Matrix.nonsing_inv_mul _ hu1, Matrix.one_mul, Matrix.mul_assoc,
        Matrix.mul_nonsing_inv _ hu2, Matrix.mul_one]
    rw [← this, h2, Matrix.mul_zero, Matrix.zero_mul]
  rw [← Matrix.transpose_transpose D, h3, Matrix.transpose_zero]

/-- C103: given the graph and the covariances of the noise terms, one covariance matrix determines the weights. -/
theorem C103_weights_determined {A : Adj p} {B B' V C : Matrix (Fin p) (Fin p) ℝ} (hac : Acyclic A) (hB : Respects A B) (hB' : Respects A B')
    (hV : V.PosDef) (hC : Entails B V C) (hC' : Entails B' V C) : B = B' := by
  have h1 := trace_growth hac hB hB' hV hC
  have h2 := trace_growth hac hB' hB' hV hC'
  rw [h2] at h1
  simp only [sub_self, Matrix.transpose_zero, Matrix.zero_mul, Matrix.mul_zero, Matrix.trace_zero, add_zero] at h1
  have hdet := det_one_sub_transpose hac hB
  have hu : IsUnit (1 - Bᵀ).det := by rw [hdet]; exact isUnit_one
  have hCp : C.PosDef := by
    rw [entails_eq hdet hC]
    have := hV.mul_mul_conjTranspose_same (B := (1 - Bᵀ)⁻¹)
      (Matrix.vecMul_injective_iff_isUnit.2 ((Matrix.isUnit_iff_isUnit_det _).2 (by rw [Matrix.det_nonsing_inv]; exact hu.ringInverse)))
    rwa [Matrix.conjTranspose_eq_transpose_of_trivial] at this
  have h3 := trace_quad_zero hV.inv hCp (D := B' - B) (by linarith)
  exact (sub_eq_zero.1 h3).symm

/-! ## The fixed point -/

/-- A descent that starts at a minimum stays there. -/
theorem gd_fixed {ι : Type} {nArr : Nat} {blk : ι → Nat} {lossFun : (ι → ℝ) → Except Err Flt} {gradFun : (ι → ℝ) → Except Err (ι → ℝ)}
    {threshold learningRate : ℝ} {bounds : Option (List (EReal × EReal))} {kappaZero : ℝ} {Xinit : ι → ℝ} {r : (ι → ℝ) × Flt} {y : ℝ}
    (h : gradientDescent nArr blk lossFun gradFun Xinit threshold learningRate bounds kappaZero = .ok r) (hy : lossFun Xinit = .ok (some y))
    (hmin : ∀ X v, InBounds? nArr blk bounds X → lossFun X = .ok (some v) → y ≤ v) : r.1 = Xinit := by
  obtain ⟨h1, h2, L0, h3, h4⟩ := C50_returns Xinit r.1 r.2 h
  rw [hy] at h3
  cases h3
  rcases h4 with ⟨h4, -⟩ | ⟨x, y', h5, h6, h7⟩
  · exact h4
  · cases h6
    rw [h5] at h2
    exact absurd (hmin _ _ h1 h2) (not_le.2 h7)

/-- The model that `mkModel` builds from admissible parameters. -/
theorem proper_mk (it : SetIter p) {A : Adj p} (hA : Nonneg A) (hac : Acyclic A) {B : Matrix (Fin p) (Fin p) ℝ} (hB : Respects A B)
    (gamma : Matrix (Fin l) (Fin p) ℝ) {omegas : Matrix (Fin e) (Fin p) ℝ} {psis : Matrix (Fin e) (Fin l) ℝ} (ho : ∀ k i, 0 < omegas k i)
    (hp : ∀ k i, 0 ≤ psis k i) : Proper it (⟨A, B, gamma, omegas, psis, 1 - Bᵀ⟩ : LModel p l e) :=
  ⟨A, B, gamma, omegas, psis, hA, mkModel_eq_ok hA _ _ _ hac hB, ho, hp⟩

/-- C103: the sub-procedure for `gamma` does not move from a model that entails the sample covariances. -/
theorem C103_gamma_stays (it : SetIter p) (A : Adj p) (hA : Nonneg A) (d : Data p e) (hd : GoodData d) (thr lr : ℝ) (hthr : 0 < thr)
    (m : LModel p l e) (psiMax : Option ℝ) (hm : GoodModel it A psiMax m) (hac : Acyclic A) (hcov : m.covariances = .ok d.covs) :
    solveForGamma it d thr lr m = .ok m.gamma := by
  obtain ⟨g, hg⟩ := solveForGamma_returns (lr := lr) hA hac d hd hthr hm
  rw [hg]
  unfold solveForGamma at hg
  split at hg
  · simp at hg
  · rename_i X L hX
    cases hg
    have hmk : ∀ X : Fin l × Fin p → ℝ, mkModel it m.A m.B (toGamma X) m.omegas m.psis =
        .ok ⟨m.A, m.B, toGamma X, m.omegas, m.psis, 1 - m.Bᵀ⟩ := fun X =>
      mkModel_eq_ok (by rw [hm.graph]; exact hA) _ _ _ (by rw [hm.graph]; exact hac) (by rw [hm.graph]; exact hm.respects)
    have hpr : ∀ g : Matrix (Fin l) (Fin p) ℝ, Proper it (⟨m.A, m.B, g, m.omegas, m.psis, 1 - m.Bᵀ⟩ : LModel p l e) := fun g =>
      proper_mk it (by rw [hm.graph]; exact hA) (by rw [hm.graph]; exact hac) (by rw [hm.graph]; exact hm.respects) g hm.omegas
        (fun k i => (hm.psis k i).le)
    obtain ⟨s₀, -, a1, -⟩ := C88_truth_minimises it _ (hpr m.gamma) _ (hpr m.gamma) d.nObs hd.pos hd.some d.covs hcov
    have h1 := gd_fixed hX (y := s₀) (by
      unfold gammaLoss
      rw [hmk]
      exact a1) (fun X v _ hv => by
      unfold gammaLoss at hv
      rw [hmk] at hv
      obtain ⟨s₀', s, b1, b2, b3, -⟩ := C88_truth_minimises it _ (hpr m.gamma) _ (hpr (toGamma X)) d.nObs hd.pos hd.some d.covs hcov
      rw [a1] at b1
      cases b1
      simp only at hv
      rw [b2] at hv
      cases hv
      exact b3)
    simp only at h1
    rw [h1]
    rfl

/-- C103: the sub-procedure for the variances does not move from a model that entails the sample covariances, whatever the targets. -/
theorem C103_rest_stays (it : SetIter p) (A : Adj p) (hA : Nonneg A) (d : Data p e) (hd : GoodData d) (I : Finset (Fin p)) (psiFixed : Bool)
    (thr lr : ℝ) (hthr : 0 < thr) (m : LModel p l e) (psiMax : Option ℝ) (hpsi : ∀ x, psiMax = some x → 0 ≤ x)
    (hm : GoodModel it A psiMax m) (hac : Acyclic A) (hcov : m.covariances = .ok d.covs) :
    solveForRest it d I psiMax psiFixed thr lr m = .ok (m.omegas, m.psis) := by
  obtain ⟨r, hr⟩ := solveForRest_returns (lr := lr) hA hac hpsi d hd I psiFixed hthr hm
  rw [hr]
  unfold solveForRest at hr
  split at hr
  · simp at hr
  · rename_i X L hX
    cases hr
    have hmk : ∀ X : RestIx p l e → ℝ, mkModel it m.A m.B m.gamma (toOmegas X) (toPsis X) =
        .ok ⟨m.A, m.B, m.gamma, toOmegas X, toPsis X, 1 - m.Bᵀ⟩ := fun X =>
      mkModel_eq_ok (by rw [hm.graph]; exact hA) _ _ _ (by rw [hm.graph]; exact hac) (by rw [hm.graph]; exact hm.respects)
    have hpr : ∀ (w : Matrix (Fin e) (Fin p) ℝ) (s : Matrix (Fin e) (Fin l) ℝ), (∀ k i, 0 < w k i) → (∀ k i, 0 < s k i) →
        Proper it (⟨m.A, m.B, m.gamma, w, s, 1 - m.Bᵀ⟩ : LModel p l e) := fun w s hw hs =>
      proper_mk it (by rw [hm.graph]; exact hA) (by rw [hm.graph]; exact hac) (by rw [hm.graph]; exact hm.respects) _ hw
        (fun k i => (hs k i).le)
    have h0 := hpr _ _ hm.omegas hm.psis
    obtain ⟨s₀, -, a1, -⟩ := C88_truth_minimises it _ h0 _ h0 d.nObs hd.pos hd.some d.covs hcov
    have h1 := gd_fixed hX (y := s₀) (by
      unfold restLoss
      rw [hmk]
      exact a1) (fun X v hb hv => by
      obtain ⟨c1, c2, -⟩ := (restBounds_iff psiMax X).1 hb
      unfold restLoss at hv
      rw [hmk] at hv
      obtain ⟨s₀', s, b1, b2, b3, -⟩ := C88_truth_minimises it _ h0 _ (hpr (toOmegas X) (toPsis X) c1 c2) d.nObs hd.pos hd.some d.covs hcov
      rw [a1] at b1
      cases b1
      simp only at hv
      rw [b2] at hv
      cases hv
      exact b3)
    simp only at h1
    rw [h1]
    rfl

/-- The covariances of a model built by `mkModel`. -/
theorem model_entails {A : Adj p} {m : LModel p l e} (hac : Acyclic A) (hB : Respects A m.B) {C : Fin e → Matrix (Fin p) (Fin p) ℝ}
    (hC : m.covariances = .ok C) (k : Fin e) : Entails m.B (noiseCov m.gamma (m.psis k) (m.omegas k)) (C k) := by
  have hdet := det_one_sub_transpose hac hB
  have hu : IsUnit (1 - m.Bᵀ).det := by rw [hdet]; exact isUnit_one
  have hut : IsUnit ((1 - m.Bᵀ)ᵀ).det := by rw [Matrix.det_transpose]; exact hu
  rw [covariances_ok m hdet] at hC
  cases hC
  unfold Entails
  simp only
  rw [← noise_eq, ← Matrix.mul_assoc, ← Matrix.mul_assoc, Matrix.mul_nonsing_inv _ hu, Matrix.one_mul, Matrix.mul_assoc,
    Matrix.transpose_nonsing_inv, Matrix.nonsing_inv_mul _ hut, Matrix.mul_one]

/-- The objective of the solvers for `B` on the covariances of the model: quadratic around the weights of the model. -/
theorem traceLoss_growth {A : Adj p} (hac : Acyclic A) (d : Data p e) {m : LModel p l e} (hB : Respects A m.B)
    (ho : ∀ k i, 0 < m.omegas k i) (hp : ∀ k i, 0 ≤ m.psis k i) (hcov : m.covariances = .ok d.covs) (w : Fin e → ℝ)
    {B' : Matrix (Fin p) (Fin p) ℝ} (hB' : Respects A B') :
    traceLoss w (fun k => (noiseCov m.gamma (m.psis k) (m.omegas k))⁻¹) d.covs B' =
      traceLoss w (fun k => (noiseCov m.gamma (m.psis k) (m.omegas k))⁻¹) d.covs m.B +
        ∑ k, w k * trace ((noiseCov m.gamma (m.psis k) (m.omegas k))⁻¹ * ((B' - m.B)ᵀ * d.covs k * (B' - m.B))) := by
  unfold traceLoss
  rw [← Finset.sum_add_distrib]
  refine Finset.sum_congr rfl fun k _ => ?_
  have hV : (noiseCov m.gamma (m.psis k) (m.omegas k)).PosDef := by
    rw [← noise_eq]
    exact noise_posDef m k (ho k) (hp k)
  rw [trace_growth hac hB hB' hV (model_entails hac hB hcov k), trace_growth hac hB hB hV (model_entails hac hB hcov k)]
  simp only [sub_self, Matrix.transpose_zero, Matrix.zero_mul, Matrix.mul_zero, Matrix.trace_zero, add_zero]
  ring

/-- C103: the convex solver does not move from a model that entails the sample covariances: its problem has no other solution. -/
theorem C103_cvx_stays (num : NumLib p e) (hs : GoodSqrt num.sqrtm) (A : Adj p) (hac : Acyclic A) (d : Data p e) (hd : GoodData d)
    (m : LModel p l e) (hmA : m.A = A) (hB : Respects A m.B) (ho : ∀ k i, 0 < m.omegas k i) (hp : ∀ k i, 0 ≤ m.psis k i)
    (hcov : m.covariances = .ok d.covs)
    (hopt : CvxOptimal num A (fun k => (noiseCov m.gamma (m.psis k) (m.omegas k))⁻¹) d 0) : solveForBCvx num d m = .ok m.B := by
  subst hmA
  have hVp : ∀ k, (noiseCov m.gamma (m.psis k) (m.omegas k)).PosDef := fun k => by
    rw [← noise_eq]
    exact noise_posDef m k (ho k) (hp k)
  obtain ⟨B, h1, h2, h3⟩ := hopt
  have h4 := h3 m.B hB
  rw [cvxObjective_eq hs (fun k => (hd.posDef k).posSemidef) (fun k => (hVp k).inv.posSemidef),
    cvxObjective_eq hs (fun k => (hd.posDef k).posSemidef) (fun k => (hVp k).inv.posSemidef),
    traceLoss_growth hac d hB ho hp hcov _ h2, add_zero] at h4
  have hN : (0 : ℝ) < ∑ k, (d.nObs k : ℝ) :=
    Finset.sum_pos (fun k _ => by exact_mod_cast hd.pos k) ⟨⟨0, hd.some⟩, Finset.mem_univ _⟩
  have hterm : ∀ k ∈ Finset.univ, 0 ≤ (d.nObs k : ℝ) / (∑ k, (d.nObs k : ℝ)) *
      trace ((noiseCov m.gamma (m.psis k) (m.omegas k))⁻¹ * ((B - m.B)ᵀ * d.covs k * (B - m.B))) := fun k _ =>
    mul_nonneg (div_nonneg (Nat.cast_nonneg _) hN.le) (trace_quad_nonneg (hVp k).inv.posSemidef (hd.posDef k).posSemidef)
  have h5 := (Finset.sum_eq_zero_iff_of_nonneg hterm).1 (le_antisymm (by linarith) (Finset.sum_nonneg hterm)) ⟨0, hd.some⟩ (Finset.mem_univ _)
  have hw : (d.nObs ⟨0, hd.some⟩ : ℝ) / (∑ k, (d.nObs k : ℝ)) ≠ 0 :=
    (div_pos (by exact_mod_cast hd.pos _) hN).ne'
  have h6 := trace_quad_zero (hVp _).inv (hd.posDef _) ((mul_eq_zero.1 h5).resolve_left hw)
  have hBe : B = m.B := sub_eq_zero.1 h6
  subst hBe
  unfold solveForBCvx
  rw [invNoise_ok_of_pos m ho hp]
  simp only [noise_eq]
  rw [h1]
  simp only
  rw [if_neg]
  · congr 1
    ext i j
    rw [Matrix.of_apply]
    split_ifs with hij
    · exact (hB i j hij).symm
    · rfl
  · push Not
    intro i j hij
    rw [hB i j hij, abs_zero]
    positivity

/-- A model that entails the sample covariances of every environment is a fixed point of `score_dag` if the solver for `B` does not move
from it. -/
theorem fixed_point_of_solver (it : SetIter p) (num : NumLib p e) (cfg : ScoreCfg)
    (hthr : 0 < cfg.thresholdScore) (hpsi : ∀ x, cfg.psiMax = some x → 0 ≤ x) (hit : 0 < cfg.stop.maxIter)
    (hfl : 0 < cfg.stop.maxFluctuations) (hdist : 0 ≤ cfg.stop.thresholdDistB) (hp0 : p ≠ 0) (d : Data p e) (hd : GoodData d)
    (u v : Nat → Fin (p * p) → ℝ) (I : Finset (Fin p)) (A : Adj p) (hA : Nonneg A) (B : Matrix (Fin p) (Fin p) ℝ)
    (gamma : Matrix (Fin l) (Fin p) ℝ) (omegas : Matrix (Fin e) (Fin p) ℝ) (psis : Matrix (Fin e) (Fin l) ℝ) (m : LModel p l e)
    (hmk : mkModel it A B gamma omegas psis = .ok m) (ho : ∀ k i, 0 < omegas k i) (hp : ∀ k i, 0 < psis k i)
    (hpm : ∀ x, cfg.psiMax = some x → ∀ k i, psis k i < x) (hcov : m.covariances = .ok d.covs)
    (hb : ∀ i, (codeSolvers it num cfg d u v I).solveB i m = .ok B) :
    ∃ s, m.score (List.ofFn d.covs) (List.ofFn d.nObs) = .ok (some s) ∧
      alternate it (codeSolvers it num cfg d u v I) cfg.stop d m = .ok (m, some s) := by
  obtain ⟨hac, hB, rfl⟩ := mkModel_ok hA hmk
  have hm : GoodModel it A cfg.psiMax (⟨A, B, gamma, omegas, psis, 1 - Bᵀ⟩ : LModel p l e) := ⟨rfl, hB, ho, hp, hpm⟩
  have hpr := proper_mk it hA hac hB gamma ho (fun k i => (hp k i).le)
  obtain ⟨s, -, hsc, -⟩ := C88_truth_minimises it _ hpr _ hpr d.nObs hd.pos hd.some d.covs hcov
  refine ⟨s, hsc, ?_⟩
  have hcopy : (⟨A, B, gamma, omegas, psis, 1 - Bᵀ⟩ : LModel p l e).copy it = .ok ⟨A, B, gamma, omegas, psis, 1 - Bᵀ⟩ := hmk
  have hbody : ∀ i, altBody it (codeSolvers it num cfg d u v I) i (⟨A, B, gamma, omegas, psis, 1 - Bᵀ⟩ : LModel p l e) =
      .ok ⟨A, B, gamma, omegas, psis, 1 - Bᵀ⟩ := by
    intro i
    have hg : (codeSolvers it num cfg d u v I).gamma (⟨A, B, gamma, omegas, psis, 1 - Bᵀ⟩ : LModel p l e) = .ok gamma :=
      C103_gamma_stays it A hA d hd _ _ hthr _ cfg.psiMax hm hac hcov
    have hr : (codeSolvers it num cfg d u v I).rest (⟨A, B, gamma, omegas, psis, 1 - Bᵀ⟩ : LModel p l e) = .ok (omegas, psis) :=
      C103_rest_stays it A hA d hd I _ _ _ hthr _ cfg.psiMax hpsi hm hac hcov
    unfold altBody
    rw [hcopy]
    simp only [hb, hg, hr]
  unfold alternate
  rw [hsc]
  simp only
  have hgo : distGt (none : Option (Matrix (Fin p) (Fin p) ℝ)) cfg.stop.thresholdDistB ∧ ((0 : Nat) : Int) < cfg.stop.maxIter ∧
      ((0 : Nat) : Int) < cfg.stop.maxFluctuations := ⟨trivial, by simpa using hit, by simpa using hfl⟩
  rw [runLoop_unfold]
  unfold altStep
  rw [if_neg (not_not.2 hgo)]
  simp only [hbody, if_neg hp0, hsc]
  rw [runLoop_unfold]
  rw [if_pos]
  rintro ⟨⟨i, j, hc⟩, -⟩
  simp only [sub_self, Matrix.zero_apply, abs_zero] at hc
  exact absurd hc (not_lt.2 hdist)

/-- C103: a model that entails the sample covariances of every environment is a fixed point of `score_dag` with the convex solver:
started from it, the alternating optimisation returns it after one iteration, unchanged and with its score. -/
theorem C103_fixed_point (it : SetIter p) (num : NumLib p e) (hs : GoodSqrt num.sqrtm) (cfg : ScoreCfg) (hcvx : cfg.solver = .cvx)
    (hthr : 0 < cfg.thresholdScore) (hpsi : ∀ x, cfg.psiMax = some x → 0 ≤ x) (hit : 0 < cfg.stop.maxIter)
    (hfl : 0 < cfg.stop.maxFluctuations) (hdist : 0 ≤ cfg.stop.thresholdDistB) (hp0 : p ≠ 0) (d : Data p e) (hd : GoodData d)
    (u v : Nat → Fin (p * p) → ℝ) (I : Finset (Fin p)) (A : Adj p) (hA : Nonneg A) (B : Matrix (Fin p) (Fin p) ℝ)
    (gamma : Matrix (Fin l) (Fin p) ℝ) (omegas : Matrix (Fin e) (Fin p) ℝ) (psis : Matrix (Fin e) (Fin l) ℝ) (m : LModel p l e)
    (hmk : mkModel it A B gamma omegas psis = .ok m) (ho : ∀ k i, 0 < omegas k i) (hp : ∀ k i, 0 < psis k i)
    (hpm : ∀ x, cfg.psiMax = some x → ∀ k i, psis k i < x) (hcov : m.covariances = .ok d.covs)
    (hopt : CvxOptimal num A (fun k => (noiseCov gamma (psis k) (omegas k))⁻¹) d 0) :
    ∃ s, m.score (List.ofFn d.covs) (List.ofFn d.nObs) = .ok (some s) ∧
      alternate it (codeSolvers it num cfg d u v I) cfg.stop d m = .ok (m, some s) := by
  obtain ⟨hac, hB, rfl⟩ := mkModel_ok hA hmk
  refine fixed_point_of_solver it num cfg hthr hpsi hit hfl hdist hp0 d hd u v I A hA B gamma omegas psis _ hmk ho hp hpm hcov fun i => ?_
  simp only [codeSolvers, hcvx]
  exact C103_cvx_stays num hs A hac d hd _ rfl hB ho (fun k i => (hp k i).le) hcov hopt

/-- C103: the gradient solver, from any random draws, returns weights close to those of a model that entails the sample covariances,
although it ignores the sample sizes (C78): the distance is proportional to its tolerance. -/
theorem C103_grad_close (it : SetIter p) (num : NumLib p e) (hs : GoodSqrt num.sqrtm) (hfin : ∀ x, num.finite x = true) (d : Data p e)
    (hd : GoodData d) (m : LModel p l e) (hac : Acyclic m.A) (hB : Respects m.A m.B) (ho : ∀ k i, 0 < m.omegas k i)
    (hp : ∀ k i, 0 ≤ m.psis k i) (hcov : m.covariances = .ok d.covs) (Binit Badapt : Fin (p * p) → ℝ)
    (hu : ∃ k, (1 : ℝ) / 10 ^ 10 < |Binit k|) (hu1 : ∃ i : Fin p, (1 : ℝ) / 10 ^ 10 < |Binit (finProdFinEquiv (i, i)) - 1|)
    (B : Matrix (Fin p) (Fin p) ℝ) (h : solveForBGrad it num d Binit Badapt m = .ok B) (c : ℝ) (hc : 0 < c)
    (hcurv : ∀ X : Matrix (Fin p) (Fin p) ℝ,
      c * ∑ i, ∑ j, X i j ^ 2 ≤ ∑ k, trace ((noiseCov m.gamma (m.psis k) (m.omegas k))⁻¹ * (Xᵀ * d.covs k * X))) (i j : Fin p) :
    |B i j - m.B i j| ≤ 4 * p ^ 2 / (10 ^ 8 * c) + 1 / 10 ^ 10 := by
  obtain ⟨B₀, h1, h2, h3⟩ := C78_grad_solution it num hs hfin d (fun k => (hd.posDef k).posSemidef) m hac ho hp Binit Badapt hu hu1 B h
  have h4 := h3 m.B hB
  rw [traceLoss_growth hac d hB ho hp hcov _ h1] at h4
  simp only [one_mul] at h4
  have h5 := hcurv (B₀ - m.B)
  set S := ∑ i, ∑ j, |m.B i j - B₀ i j| with hS
  have hsq : ∑ i, ∑ j, (B₀ - m.B) i j ^ 2 = ∑ x : Fin p × Fin p, |m.B x.1 x.2 - B₀ x.1 x.2| ^ 2 := by
    rw [Fintype.sum_prod_type]
    refine Finset.sum_congr rfl fun i _ => Finset.sum_congr rfl fun j _ => ?_
    rw [sq_abs, Matrix.sub_apply]
    ring
  have hS' : S = ∑ x : Fin p × Fin p, |m.B x.1 x.2 - B₀ x.1 x.2| := by rw [hS, Fintype.sum_prod_type]
  have h6 : S ^ 2 ≤ p ^ 2 * ∑ i, ∑ j, (B₀ - m.B) i j ^ 2 := by
    rw [hsq, hS']
    have := sq_sum_le_card_mul_sum_sq (s := (Finset.univ : Finset (Fin p × Fin p))) (f := fun x => |m.B x.1 x.2 - B₀ x.1 x.2|)
    simpa [Fintype.card_prod, sq] using this
  have hS0 : 0 ≤ S := Finset.sum_nonneg fun i _ => Finset.sum_nonneg fun j _ => abs_nonneg _
  have h7 : c * S ^ 2 ≤ p ^ 2 * (4 / 10 ^ 8 * S) := by
    have a1 : c * S ^ 2 ≤ p ^ 2 * (c * ∑ i, ∑ j, (B₀ - m.B) i j ^ 2) := by nlinarith
    have a2 : c * ∑ i, ∑ j, (B₀ - m.B) i j ^ 2 ≤ 4 / 10 ^ 8 * S := by linarith
    exact a1.trans (mul_le_mul_of_nonneg_left a2 (by positivity))
  have h8 : S ≤ 4 * p ^ 2 / (10 ^ 8 * c) := by
    rcases hS0.eq_or_lt with h0 | h0
    · rw [← h0]; positivity
    · rw [le_div_iff₀ (by positivity)]
      have : S * (c * S) ≤ S * (p ^ 2 * (4 / 10 ^ 8)) := by nlinarith
      have := le_of_mul_le_mul_left this h0
      nlinarith
  have h9 : |m.B i j - B₀ i j| ≤ S := by
    rw [hS']
    exact Finset.single_le_sum (f := fun x : Fin p × Fin p => |m.B x.1 x.2 - B₀ x.1 x.2|) (fun _ _ => abs_nonneg _) (Finset.mem_univ (i, j))
  have h10 := h2 i j
  rw [abs_le] at *
  constructor <;> linarith [h9.1, h9.2, h10.1, h10.2]

/-- The curvature in `C103_grad_close` is positive for all data and models. -/
theorem curvature_exists (d : Data p e) (hd : GoodData d) (m : LModel p l e) (ho : ∀ k i, 0 < m.omegas k i) (hp : ∀ k i, 0 ≤ m.psis k i) :
    ∃ c > 0, ∀ X : Matrix (Fin p) (Fin p) ℝ,
      c * ∑ i, ∑ j, X i j ^ 2 ≤ ∑ k, trace ((noiseCov m.gamma (m.psis k) (m.omegas k))⁻¹ * (Xᵀ * d.covs k * X)) := by
  have hVp : ∀ k, (noiseCov m.gamma (m.psis k) (m.omegas k)).PosDef := fun k => by
    rw [← noise_eq]
    exact noise_posDef m k (ho k) (hp k)
  set f : Matrix (Fin p) (Fin p) ℝ → ℝ := fun X => ∑ k, trace ((noiseCov m.gamma (m.psis k) (m.omegas k))⁻¹ * (Xᵀ * d.covs k * X)) with hf
  have hf0 : ∀ X, 0 ≤ f X := fun X => Finset.sum_nonneg fun k _ => trace_quad_nonneg (hVp k).inv.posSemidef (hd.posDef k).posSemidef
  have hfz : ∀ X, f X = 0 → X = 0 := by
    intro X hX
    have := (Finset.sum_eq_zero_iff_of_nonneg (fun k _ => trace_quad_nonneg (hVp k).inv.posSemidef (hd.posDef k).posSemidef)).1 hX
      ⟨0, hd.some⟩ (Finset.mem_univ _)
    exact trace_quad_zero (hVp _).inv (hd.posDef _) this
  have hfs : ∀ (a : ℝ) X, f (a • X) = a ^ 2 * f X := by
    intro a X
    simp only [hf, Matrix.transpose_smul, Matrix.smul_mul, Matrix.mul_smul, Matrix.trace_smul, smul_eq_mul, Finset.mul_sum]
    exact Finset.sum_congr rfl fun k _ => by ring
  have hfc : Continuous f := by
    simp only [hf]
    fun_prop
  have hqs : ∀ (a : ℝ) (X : Matrix (Fin p) (Fin p) ℝ), ∑ i, ∑ j, (a • X) i j ^ 2 = a ^ 2 * ∑ i, ∑ j, X i j ^ 2 := by
    intro a X
    simp only [Matrix.smul_apply, smul_eq_mul, mul_pow, Finset.mul_sum]
  have hqc : Continuous fun X : Matrix (Fin p) (Fin p) ℝ => ∑ i, ∑ j, X i j ^ 2 := by fun_prop
  set S : Set (Matrix (Fin p) (Fin p) ℝ) := { X | ∑ i, ∑ j, X i j ^ 2 = 1 } with hS
  have hent : ∀ X : Matrix (Fin p) (Fin p) ℝ, ∀ i j, X i j ^ 2 ≤ ∑ i, ∑ j, X i j ^ 2 := by
    intro X i j
    refine (Finset.single_le_sum (f := fun j => X i j ^ 2) (fun _ _ => sq_nonneg _) (Finset.mem_univ j)).trans ?_
    exact Finset.single_le_sum (f := fun i => ∑ j, X i j ^ 2) (fun _ _ => Finset.sum_nonneg fun _ _ => sq_nonneg _) (Finset.mem_univ i)
  have hcomp : IsCompact S := by
    have hbox : IsCompact (Set.univ.pi fun _ : Fin p => Set.univ.pi fun _ : Fin p => Set.Icc (-1 : ℝ) 1) :=
      isCompact_univ_pi fun _ => isCompact_univ_pi fun _ => isCompact_Icc
    refine IsCompact.of_isClosed_subset hbox (isClosed_eq hqc continuous_const) ?_
    intro X hX i _ j _
    have := hent X i j
    rw [hX] at this
    exact ⟨by nlinarith, by nlinarith⟩
  rcases S.eq_empty_or_nonempty with h0 | hne
  · refine ⟨1, one_pos, fun X => ?_⟩
    have hz : ∑ i, ∑ j, X i j ^ 2 = 0 := by
      by_contra hc
      have hpos : 0 < ∑ i, ∑ j, X i j ^ 2 := lt_of_le_of_ne (Finset.sum_nonneg fun _ _ => Finset.sum_nonneg fun _ _ => sq_nonneg _) (Ne.symm hc)
      have : (1 / Real.sqrt (∑ i, ∑ j, X i j ^ 2)) • X ∈ S := by
        show ∑ i, ∑ j, ((1 / Real.sqrt (∑ i, ∑ j, X i j ^ 2)) • X) i j ^ 2 = 1
        rw [hqs, div_pow, Real.sq_sqrt hpos.le, one_pow, one_div, inv_mul_cancel₀ hc]
      rw [h0] at this
      exact this
    rw [hz, mul_zero]
    exact hf0 X
  · obtain ⟨X₀, hX₀, hmin⟩ := hcomp.exists_isMinOn hne hfc.continuousOn
    have hpos : 0 < f X₀ := by
      refine lt_of_le_of_ne (hf0 _) fun hc => ?_
      have := hfz _ hc.symm
      subst this
      simp [hS] at hX₀
    refine ⟨f X₀, hpos, fun X => ?_⟩
    by_cases hz : ∑ i, ∑ j, X i j ^ 2 = 0
    · rw [hz, mul_zero]
      exact hf0 X
    · have hpos' : 0 < ∑ i, ∑ j, X i j ^ 2 := lt_of_le_of_ne (Finset.sum_nonneg fun _ _ => Finset.sum_nonneg fun _ _ => sq_nonneg _) (Ne.symm hz)
      have hin : (1 / Real.sqrt (∑ i, ∑ j, X i j ^ 2)) • X ∈ S := by
        show ∑ i, ∑ j, ((1 / Real.sqrt (∑ i, ∑ j, X i j ^ 2)) • X) i j ^ 2 = 1
        rw [hqs, div_pow, Real.sq_sqrt hpos'.le, one_pow, one_div, inv_mul_cancel₀ hz]
      have := hmin hin
      simp only [Set.mem_setOf_eq] at this
      rw [hfs, div_pow, Real.sq_sqrt hpos'.le, one_pow, one_div, inv_mul_eq_div, le_div_iff₀ hpos'] at this
      exact this

/-! ## The initial model -/

/-- Weights that satisfy the normal equations of the regressions on the parents are unique. -/
theorem normal_unique {A : Adj p} {C B B' : Matrix (Fin p) (Fin p) ℝ} (hC : C.PosDef) (hB : Respects A B) (hB' : Respects A B')
    (h : ∀ i j, A i j ≠ 0 → ∑ k, C i k * B k j = C j i) (h' : ∀ i j, A i j ≠ 0 → ∑ k, C i k * B' k j = C j i) : B = B' := by
  rw [← sub_eq_zero]
  ext i j
  set x : Fin p → ℝ := fun k => B k j - B' k j with hx
  have h1 : ∀ i, A i j ≠ 0 → ∑ k, C i k * x k = 0 := by
    intro i hij
    simp only [hx, mul_sub, Finset.sum_sub_distrib]
    rw [h i j hij, h' i j hij, sub_self]
  have h2 : x ⬝ᵥ (C *ᵥ x) = 0 := by
    unfold dotProduct
    refine Finset.sum_eq_zero fun i _ => ?_
    by_cases hij : A i j = 0
    · simp only [hx, hB i j hij, hB' i j hij, sub_self, zero_mul]
    · have : (C *ᵥ x) i = ∑ k, C i k * x k := rfl
      rw [this, h1 i hij, mul_zero]
  have h3 : x = 0 := by
    by_contra hne
    have := hC.dotProduct_mulVec_pos hne
    simp only [star_trivial] at this
    linarith
  have := congrFun h3 i
  simpa [hx] using this

/-- C103: without latents the weights of the model are, in every environment, the coefficients of the regression on the parents. -/
theorem C103_regression {A : Adj p} (hac : Acyclic A) {B C : Matrix (Fin p) (Fin p) ℝ} (hB : Respects A B) {w : Fin p → ℝ}
    (hC : Entails B (Matrix.diagonal w) C) (i j : Fin p) (hij : A i j ≠ 0) : ∑ k, C i k * B k j = C j i := by
  have hs : Cᵀ = C := entails_symm (det_one_sub_transpose hac hB) (by simp) hC
  have hs' : ∀ a b, C a b = C b a := fun a b => congrFun (congrFun hs b) a
  rw [entails_row hac hB hC j i (acyclic_not_reach hac hij)]
  refine Finset.sum_congr rfl fun k _ => ?_
  rw [hs' i k, mul_comm]

/-- C103: hence on the covariances of a model without latents `_initialize_B` returns the weights of the model, for both choices of the
covariance. -/
theorem C103_initial_B (A : Adj p) (hac : Acyclic A) (d : Data p e) (hd : GoodData d) (B : Matrix (Fin p) (Fin p) ℝ) (hB : Respects A B)
    (w : Fin e → Fin p → ℝ) (hC : ∀ k, Entails B (Matrix.diagonal (w k)) (d.covs k)) (init : InitKind) (hinit : init ≠ .other) :
    initializeB A d init = .ok B := by
  have key : ∃ C, initCovariance d init = .ok C ∧ C.PosDef ∧ ∀ i j, A i j ≠ 0 → ∑ k, C i k * B k j = C j i := by
    cases init with
    | other => exact absurd rfl hinit
    | obs =>
      refine ⟨d.covs ⟨0, hd.some⟩, by unfold initCovariance; rw [dif_pos hd.some], hd.posDef _, fun i j hij => ?_⟩
      exact C103_regression hac hB (hC _) i j hij
    | avg =>
      refine ⟨avgCov d, rfl, avgCov_posDef d hd, fun i j hij => ?_⟩
      unfold avgCov
      simp only [Matrix.smul_apply, Matrix.sum_apply, smul_eq_mul, mul_assoc]
      rw [← Finset.mul_sum]
      congr 1
      simp only [Finset.sum_mul]
      rw [Finset.sum_comm]
      refine Finset.sum_congr rfl fun h _ => ?_
      rw [← C103_regression hac hB (hC h) i j hij, Finset.mul_sum]
      exact Finset.sum_congr rfl fun k _ => by ring
  obtain ⟨C, h1, h2, h3⟩ := key
  unfold initializeB
  rw [h1]
  simp only
  have hdet : ¬ ∃ j, (covPa C (paOf A j)).det = 0 := by
    push Not
    intro j
    exact (covPa_posDef h2 _).det_pos.ne'
  cases hr : regressAll A C with
  | error err =>
    unfold regressAll at hr
    rw [if_neg hdet] at hr
    simp at hr
  | ok B' =>
    obtain ⟨h4, h5⟩ := regressAll_ok hr
    rw [normal_unique h2 h4 hB (fun i j hij => h5 j i hij) h3]

/-- C103: on the covariances of a model without latents whose noise variances are constant outside the targets, the initial model of
`score_dag` for a DAG that has all the edges of the model is this model. -/
theorem C103_initial_model (it : SetIter p) (svd : Matrix (Fin p) (Fin p) ℝ → Matrix (Fin p) (Fin p) ℝ × (Fin p → ℝ)) (A : Adj p)
    (hac : Acyclic A) (I : Finset (Fin p)) (d : Data p e) (hd : GoodData d) (B : Matrix (Fin p) (Fin p) ℝ)
    (hB : Respects A B) (w : Matrix (Fin e) (Fin p) ℝ) (hC : ∀ k, Entails B (Matrix.diagonal (w k)) (d.covs k))
    (hw : ∀ i ∉ I, ∀ k k', w k i = w k' i) :
    initialModel it svd d A I = (mkModel it A B 0 w 0 : Except Err (LModel p 0 e)) := by
  have hfree : ∀ k j, omegasFree B d k j = w k j := by
    intro k j
    unfold omegasFree nCov
    rw [hC k, Matrix.diagonal_apply_eq]
  have hom : initializeOmegas B I d .avg = .ok w := by
    unfold initializeOmegas initCovariance
    simp only [hfree]
    congr 1
    ext k j
    rw [Matrix.of_apply]
    split_ifs with hj
    · rfl
    · have : ∀ h, w h j * (d.nObs h : ℝ) = w k j * (d.nObs h : ℝ) := fun h => by rw [hw j hj h k]
      rw [Finset.sum_congr rfl fun h _ => this h, ← Finset.mul_sum, total_cast, mul_div_assoc, div_self, mul_one]
      have : (0 : ℝ) < ∑ k, (d.nObs k : ℝ) :=
        Finset.sum_pos (fun k _ => by exact_mod_cast hd.pos k) ⟨⟨0, hd.some⟩, Finset.mem_univ _⟩
      exact this.ne'
  unfold initialModel
  rw [C103_initial_B A hac d hd B hB w hC .avg (by simp)]
  simp only
  unfold initializeGamma initCovariance
  simp only [hom]
  rw [dif_pos (Nat.zero_min p)]
  congr 1
  · ext i; exact i.elim0
  · ext i j; exact j.elim0

/-- C103: on the covariances of a model without latents, `score_dag` with the convex solver, no latents, a DAG that has all the edges of
the model and targets that include all variables whose noise variance changes returns exactly the parameters of this model. -/
theorem C103_recovers (it : SetIter p) (svd : Matrix (Fin p) (Fin p) ℝ → Matrix (Fin p) (Fin p) ℝ × (Fin p → ℝ)) (num : NumLib p e)
    (hs : GoodSqrt num.sqrtm) (cfg : ScoreCfg) (hcvx : cfg.solver = .cvx)
    (hthr : 0 < cfg.thresholdScore) (hpsi : ∀ x, cfg.psiMax = some x → 0 ≤ x) (hit : 0 < cfg.stop.maxIter)
    (hfl : 0 < cfg.stop.maxFluctuations) (hdist : 0 ≤ cfg.stop.thresholdDistB) (hp0 : p ≠ 0) (he : 0 < e) (n : Fin e → Nat) (hn : ∀ k, 0 < n k)
    (u v : Nat → Fin (p * p) → ℝ) (I : Finset (Fin p)) (G : Adj p) (hG : Nonneg G) (B : Matrix (Fin p) (Fin p) ℝ)
    (w : Matrix (Fin e) (Fin p) ℝ) (m : LModel p 0 e) (hmk : mkModel it G B 0 w 0 = .ok m) (ho : ∀ k i, 0 < w k i)
    (hw : ∀ i ∉ I, ∀ k k', w k i = w k' i) (C : Fin e → Matrix (Fin p) (Fin p) ℝ) (hC : m.covariances = .ok C)
    (A : Adj p) (hA : Nonneg A) (hac : Acyclic A) (hGA : ∀ i j, G i j ≠ 0 → A i j ≠ 0)
    (hopt : CvxOptimal num A (fun k => (Matrix.diagonal (w k))⁻¹) ⟨C, n⟩ 0) :
    ∃ (m' : LModel p 0 e) (s : ℝ), fitCode it svd num cfg ⟨C, n⟩ u v A I none = .ok (m', some s) ∧ m'.A = A ∧ m'.B = B ∧ m'.omegas = w ∧
      m'.covariances = .ok C ∧ mkModel it A B 0 w 0 = .ok m' := by
  obtain ⟨hacG, hBG, rfl⟩ := mkModel_ok hG hmk
  obtain ⟨-, ⟨C', hC', hpd⟩, -⟩ := C36_posDef it G hG B 0 w 0 _ hmk ho (fun _ i => i.elim0)
  rw [hC] at hC'
  cases hC'
  have hd : GoodData (⟨C, n⟩ : Data p e) := ⟨fun k => (hpd k).1, hn, he⟩
  have hB : Respects A B := fun i j hij => hBG i j (by by_contra hc; exact hGA i j hc hij)
  have hent : ∀ k, Entails B (Matrix.diagonal (w k)) (C k) := fun k => by
    have := model_entails hacG hBG hC k
    rwa [noiseCov_zero] at this
  have hmkA := mkModel_eq_ok (it := it) (l := 0) hA (0 : Matrix (Fin 0) (Fin p) ℝ) w 0 hac hB
  have hcovA : (⟨A, B, 0, w, 0, 1 - Bᵀ⟩ : LModel p 0 e).covariances = .ok C := hC
  obtain ⟨s, h1, h2⟩ := C103_fixed_point it num hs cfg hcvx hthr hpsi hit hfl hdist hp0 ⟨C, n⟩ hd u v I A hA B 0 w 0 _ hmkA ho
    (fun _ i => i.elim0) (fun _ _ _ i => i.elim0) hcovA (by simpa only [noiseCov_zero] using hopt)
  refine ⟨⟨A, B, 0, w, 0, 1 - Bᵀ⟩, s, ?_, rfl, rfl, rfl, hcovA, hmkA⟩
  unfold fitCode fitDag
  rw [if_neg (by simpa using (isDag_iff it hA).2 hac)]
  simp only [C103_initial_model it svd A hac I ⟨C, n⟩ hd B hB w hent hw, hmkA]
  exact h2

/-- C103, boundary: with latents the initial weights are not those of the model.  Two variables without effect on each other, noise
variances one, and one latent that affects both: for the graph `0 → 1` the initial weight is `1 / 2`. -/
theorem C103_latents_bias (it : SetIter 2) (svd : Matrix (Fin 2) (Fin 2) ℝ → Matrix (Fin 2) (Fin 2) ℝ × (Fin 2 → ℝ)) :
    ∃ (m : LModel 2 1 1) (C : Fin 1 → Matrix (Fin 2) (Fin 2) ℝ),
      mkModel it ![![0, 1], ![0, 0]] 0 !![1, 1] !![1, 1] !![1] = .ok m ∧ m.covariances = .ok C ∧
      ∃ m0 : LModel 2 1 1, initialModel it svd ⟨C, fun _ => 1⟩ ![![0, 1], ![0, 0]] ∅ = .ok m0 ∧ m0.B 0 1 = 1 / 2 := by
  have hG : Nonneg (![![0, 1], ![0, 0]] : Adj 2) := by unfold Nonneg; decide
  have hac : Acyclic (![![0, 1], ![0, 0]] : Adj 2) := (isDag_iff (SetIter.incr 2) hG).1 (by decide)
  have hmk := mkModel_eq_ok (it := it) hG (!![1, 1] : Matrix (Fin 1) (Fin 2) ℝ) (!![1, 1] : Matrix (Fin 1) (Fin 2) ℝ)
    (!![1] : Matrix (Fin 1) (Fin 1) ℝ) hac (B := 0) (fun _ _ _ => rfl)
  obtain ⟨-, ⟨C, hC, hpd⟩, -⟩ := C36_posDef it _ hG _ _ _ _ _ hmk (by intro k i; fin_cases k; fin_cases i <;> norm_num)
    (by intro k i; fin_cases k; fin_cases i; norm_num)
  have hent := model_entails hac (m := ⟨![![0, 1], ![0, 0]], 0, !![1, 1], !![1, 1], !![1], 1 - (0 : Matrix (Fin 2) (Fin 2) ℝ)ᵀ⟩)
    (fun _ _ _ => rfl) hC 0
  have hCv : C 0 = noiseCov (!![1, 1] : Matrix (Fin 1) (Fin 2) ℝ) ((!![1] : Matrix (Fin 1) (Fin 1) ℝ) 0) ((!![1, 1] : Matrix (Fin 1) (Fin 2) ℝ) 0) := by
    unfold Entails at hent
    simpa using hent
  have hd : GoodData (⟨C, fun _ => 1⟩ : Data 2 1) := ⟨fun k => (hpd k).1, fun _ => one_pos, one_pos⟩
  obtain ⟨m0, h1, -⟩ := initialModel_returns (it := it) (l := 1) hG hac svd ⟨C, fun _ => 1⟩ hd ∅ (by norm_num) (psiMax := none) (by simp)
  refine ⟨_, C, hmk, hC, m0, h1, ?_⟩
  obtain ⟨-, -, h2, h3, -⟩ := C53_initial_model it svd _ hG ∅ ⟨C, fun _ => 1⟩ (fun k => (hpd k).2) m0 h1
  have h4 := h3 0 1 (by decide)
  have h5 := h2 1 1 (by decide)
  have hp : pooledCov (⟨C, fun _ => 1⟩ : Data 2 1) = C 0 := by
    ext i j
    simp [pooledCov]
  rw [hp, hCv, Fin.sum_univ_two, h5] at h4
  norm_num [noiseCov] at h4
  linarith

/-- The hypothesis about `cvxpy` in C103 can be met: for every model a solver that returns its weights is optimal on its covariances. -/
theorem cvxOptimal_truth {A : Adj p} (hac : Acyclic A) (d : Data p e) (hd : GoodData d) {m : LModel p l e} (hB : Respects A m.B)
    (ho : ∀ k i, 0 < m.omegas k i) (hp : ∀ k i, 0 ≤ m.psis k i) (hcov : m.covariances = .ok d.covs) :
    ∃ num : NumLib p e, GoodSqrt num.sqrtm ∧ CvxOptimal num A (fun k => (noiseCov m.gamma (m.psis k) (m.omegas k))⁻¹) d 0 := by
  obtain ⟨f, hf⟩ := goodSqrt_exists (p := p)
  refine ⟨⟨f, fun _ => true, fun x => x / 2, fun _ _ _ => some m.B⟩, hf, m.B, rfl, hB, fun B' hB' => ?_⟩
  have hVp : ∀ k, (noiseCov m.gamma (m.psis k) (m.omegas k)).PosDef := fun k => by
    rw [← noise_eq]
    exact noise_posDef m k (ho k) (hp k)
  rw [cvxObjective_eq hf (fun k => (hd.posDef k).posSemidef) (fun k => (hVp k).inv.posSemidef),
    cvxObjective_eq hf (fun k => (hd.posDef k).posSemidef) (fun k => (hVp k).inv.posSemidef),
    traceLoss_growth hac d hB ho hp hcov _ hB', add_zero]
  refine le_add_of_nonneg_right (Finset.sum_nonneg fun k _ => mul_nonneg (by positivity) ?_)
  exact trace_quad_nonneg (hVp k).inv.posSemidef (hd.posDef k).posSemidef

/-- An example for C103: `0 → 1` with weight two and a target; a graph with an additional edge gets weight zero on it. -/
example (it : SetIter 3) (svd : Matrix (Fin 3) (Fin 3) ℝ → Matrix (Fin 3) (Fin 3) ℝ × (Fin 3 → ℝ)) :
    ∃ (num : NumLib 3 2) (C : Fin 2 → Matrix (Fin 3) (Fin 3) ℝ) (m' : LModel 3 0 2) (s : ℝ),
      fitCode it svd num ⟨.cvx, none, false, ⟨100, 1 / 100, 1 / 100, 5⟩, 1 / 100, 1⟩ ⟨C, ![10, 20]⟩ (fun _ _ => 0) (fun _ _ => 0)
        ![![0, 1, 1], ![0, 0, 0], ![0, 0, 0]] {0} none = .ok (m', some s) ∧ m'.B 0 1 = 2 ∧ m'.B 0 2 = 0 ∧ m'.omegas 1 0 = 3 := by
  have hG : Nonneg (![![0, 1, 0], ![0, 0, 0], ![0, 0, 0]] : Adj 3) := by unfold Nonneg; decide
  have hacG : Acyclic (![![0, 1, 0], ![0, 0, 0], ![0, 0, 0]] : Adj 3) := (isDag_iff (SetIter.incr 3) hG).1 (by decide +kernel)
  have hA : Nonneg (![![0, 1, 1], ![0, 0, 0], ![0, 0, 0]] : Adj 3) := by unfold Nonneg; decide
  have hacA : Acyclic (![![0, 1, 1], ![0, 0, 0], ![0, 0, 0]] : Adj 3) := (isDag_iff (SetIter.incr 3) hA).1 (by decide +kernel)
  have hB : Respects (![![0, 1, 0], ![0, 0, 0], ![0, 0, 0]] : Adj 3) (!![0, 2, 0; 0, 0, 0; 0, 0, 0] : Matrix (Fin 3) (Fin 3) ℝ) := by
    intro i j h
    fin_cases i <;> fin_cases j <;> simp at h ⊢
  have hmk := mkModel_eq_ok (it := it) (l := 0) hG 0 (!![1, 1, 1; 3, 1, 1] : Matrix (Fin 2) (Fin 3) ℝ) 0 hacG hB
  have ho : ∀ k i, 0 < (!![1, 1, 1; 3, 1, 1] : Matrix (Fin 2) (Fin 3) ℝ) k i := by intro k i; fin_cases k <;> fin_cases i <;> norm_num
  obtain ⟨-, ⟨C, hC, hpd⟩, -⟩ := C36_posDef it _ hG _ _ _ _ _ hmk ho (fun _ i => i.elim0)
  have hBA : Respects (![![0, 1, 1], ![0, 0, 0], ![0, 0, 0]] : Adj 3) (!![0, 2, 0; 0, 0, 0; 0, 0, 0] : Matrix (Fin 3) (Fin 3) ℝ) := by
    intro i j h
    fin_cases i <;> fin_cases j <;> simp at h ⊢
  obtain ⟨num, hs, hopt⟩ := cvxOptimal_truth hacA ⟨C, ![10, 20]⟩ ⟨fun k => (hpd k).1, by intro k; fin_cases k <;> norm_num, by norm_num⟩
    hBA ho (fun _ i => i.elim0) hC
  simp only [noiseCov_zero] at hopt
  obtain ⟨m', s, h1, -, h2, h3, -⟩ := C103_recovers it svd num hs ⟨.cvx, none, false, ⟨100, 1 / 100, 1 / 100, 5⟩, 1 / 100, 1⟩ rfl (by norm_num)
    (by simp) (by norm_num) (by norm_num) (by norm_num) (by norm_num) (by norm_num) ![10, 20] (by intro k; fin_cases k <;> norm_num)
    (fun _ _ => 0) (fun _ _ => 0) {0} _ hG _ _ _ hmk ho
    (by intro i hi k k'; fin_cases i <;> fin_cases k <;> fin_cases k' <;> simp at hi ⊢) C hC _ hA hacA
    (by decide) hopt
  exact ⟨num, C, m', s, h1, by rw [h2]; simp, by rw [h2]; simp, by rw [h3]; simp⟩

end Verif
