import Verif.Proof.MatrixDeriv
import Verif.Model.Solve
import Verif.Props.LModel

/-!
# C76: the gradients used by the solvers are those of the documented score
-/

namespace Verif

open Spec Matrix

variable {p l e : Nat}

/-- The derivative of the noise-term covariance when all parameters move. -/
theorem noiseCov_deriv (g g' : Matrix (Fin l) (Fin p) ℝ) (ps ps' : Fin l → ℝ) (om om' : Fin p → ℝ) :
    MatDeriv (fun t => noiseCov (Matrix.of (fun b i => g b i + t * g' b i)) (fun b => ps b + t * ps' b) (fun i => om i + t * om' i))
      (Matrix.of (fun i j => (∑ b, (g' b i * ps b * g b j + g b i * ps' b * g b j + g b i * ps b * g' b j)) + if i = j then om' i else 0)) 0 := by
  intro i j
  unfold noiseCov
  simp only [Matrix.of_apply]
  have hl : ∀ x y : ℝ, HasDerivAt (fun t => x + t * y) y 0 := fun x y => by
    simpa using ((hasDerivAt_id (0 : ℝ)).mul_const y).const_add x
  refine HasDerivAt.fun_add ?_ ?_
  · refine HasDerivAt.fun_sum (fun b _ => ?_)
    have h := ((hl (g b i) (g' b i)).fun_mul (hl (ps b) (ps' b))).fun_mul (hl (g b j) (g' b j))
    have e1 : g' b i * ps b * g b j + g b i * ps' b * g b j + g b i * ps b * g' b j =
        (g' b i * (ps b + 0 * ps' b) + (g b i + 0 * g' b i) * ps' b) * (g b j + 0 * g' b j) +
          (g b i + 0 * g' b i) * (ps b + 0 * ps' b) * g' b j := by ring
    rw [e1]
    exact h
  · by_cases hij : i = j
    · simp only [if_pos hij]
      exact hl _ _
    · simp only [if_neg hij]
      exact hasDerivAt_const _ _

theorem entails_eq {B V C : Matrix (Fin p) (Fin p) ℝ} (hdet : (1 - Bᵀ).det = 1) (h : Entails B V C) :
    C = (1 - Bᵀ)⁻¹ * V * ((1 - Bᵀ)⁻¹)ᵀ := by
  have hu : IsUnit (1 - Bᵀ).det := by rw [hdet]; exact isUnit_one
  have hut : IsUnit ((1 - Bᵀ)ᵀ).det := by rw [Matrix.det_transpose]; exact hu
  rw [← h, Matrix.transpose_nonsing_inv, Matrix.mul_assoc, Matrix.mul_assoc, Matrix.mul_assoc, Matrix.mul_nonsing_inv _ hut, Matrix.mul_one, ← Matrix.mul_assoc,
    Matrix.nonsing_inv_mul _ hu, Matrix.one_mul]

/-- The derivative of a weighted sum of negative log-likelihoods. -/
theorem nll_sum_deriv {B : Matrix (Fin p) (Fin p) ℝ} (hdet : (1 - Bᵀ).det = 1) (w : Fin e → ℝ) (S : Fin e → Matrix (Fin p) (Fin p) ℝ)
    (V : ℝ → Fin e → Matrix (Fin p) (Fin p) ℝ) (V' : Fin e → Matrix (Fin p) (Fin p) ℝ) (t : ℝ)
    (hV : ∀ h, MatDeriv (fun s => V s h) (V' h) t) (hne : ∀ h, (V t h).det ≠ 0)
    (C : ℝ → Fin e → Matrix (Fin p) (Fin p) ℝ) (hC : ∀ s h, Entails B (V s h) (C s h)) :
    HasDerivAt (fun s => ∑ h, w h * gaussNLL (C s h) (S h))
      (∑ h, w h * (trace ((V t h)⁻¹ * V' h) - trace ((V t h)⁻¹ * ((1 - Bᵀ) * S h * (1 - Bᵀ)ᵀ) * (V t h)⁻¹ * V' h))) t := by
  refine HasDerivAt.fun_sum (fun h _ => ?_)
  have h1 : (fun s => w h * gaussNLL (C s h) (S h)) =
      fun s => w h * (Real.log (V s h).det + trace ((V s h)⁻¹ * ((1 - Bᵀ) * S h * (1 - Bᵀ)ᵀ))) := by
    ext s
    rw [term_eq_gaussNLL hdet, ← entails_eq hdet (hC s h)]
  rw [h1]
  exact ((hV h).nll (hne h) _).const_mul _

theorem trace_mul_single (M : Matrix (Fin p) (Fin p) ℝ) (T : Matrix (Fin p) (Fin p) ℝ) (j : Fin p)
    (hT : ∀ a b, T a b = if a = j ∧ b = j then 1 else 0) : trace (M * T) = M j j := by
  unfold trace
  simp only [Matrix.diag_apply, Matrix.mul_apply, hT]
  rw [Finset.sum_eq_single j]
  · rw [Finset.sum_eq_single j]
    · simp
    · intro b _ hb; simp [hb]
    · simp
  · intro b _ hb
    refine Finset.sum_eq_zero (fun c _ => ?_)
    simp [hb]
  · simp

theorem noiseCov_posDef {g : Matrix (Fin l) (Fin p) ℝ} {ps : Fin l → ℝ} {om : Fin p → ℝ} (ho : ∀ i, 0 < om i) (hp : ∀ i, 0 ≤ ps i) :
    (noiseCov g ps om).PosDef := by
  have h := noise_posDef (⟨0, 0, g, Matrix.of (fun _ => om), Matrix.of (fun _ => ps), 1⟩ : LModel p l 1) 0 ho hp
  rw [noise_eq] at h
  exact h

theorem entails_noise {B C : Matrix (Fin p) (Fin p) ℝ} {g g' : Matrix (Fin l) (Fin p) ℝ} {ps ps' : Fin l → ℝ} {om om' : Fin p → ℝ}
    (h : Entails B (noiseCov g ps om) C) (hg : ∀ b i, g' b i = g b i) (hp : ∀ b, ps' b = ps b) (ho : ∀ i, om' i = om i) :
    Entails B (noiseCov g' ps' om') C := by
  obtain rfl : g' = g := by ext b i; exact hg b i
  obtain rfl : ps' = ps := funext hp
  obtain rfl : om' = om := funext ho
  exact h

/-- The derivative of a weighted sum of negative log-likelihoods when the parameters move. -/
theorem param_deriv {B : Matrix (Fin p) (Fin p) ℝ} (hdet : (1 - Bᵀ).det = 1) (w : Fin e → ℝ) (S : Fin e → Matrix (Fin p) (Fin p) ℝ)
    (g g' : Matrix (Fin l) (Fin p) ℝ) (ps ps' : Fin e → Fin l → ℝ) (om om' : Fin e → Fin p → ℝ) (ho : ∀ k i, 0 < om k i)
    (hp : ∀ k i, 0 ≤ ps k i) (C : ℝ → Fin e → Matrix (Fin p) (Fin p) ℝ)
    (hC : ∀ t h, Entails B (noiseCov (Matrix.of (fun b i => g b i + t * g' b i)) (fun b => ps h b + t * ps' h b)
      (fun i => om h i + t * om' h i)) (C t h))
    (M V' : Fin e → Matrix (Fin p) (Fin p) ℝ) (hM : ∀ h, M h = (noiseCov g (ps h) (om h))⁻¹)
    (hV' : ∀ h i j, V' h i j = (∑ b, (g' b i * ps h b * g b j + g b i * ps' h b * g b j + g b i * ps h b * g' b j)) +
      if i = j then om' h i else 0) :
    HasDerivAt (fun s => ∑ h, w h * gaussNLL (C s h) (S h))
      (∑ h, w h * (trace (M h * V' h) - trace (M h * ((1 - Bᵀ) * S h * (1 - Bᵀ)ᵀ) * M h * V' h))) 0 := by
  have h0 : ∀ h, noiseCov (Matrix.of (fun b i => g b i + 0 * g' b i)) (fun b => ps h b + 0 * ps' h b)
      (fun i => om h i + 0 * om' h i) = noiseCov g (ps h) (om h) := by
    intro h
    congr 1
    · ext b i; simp
    · ext b; simp
    · ext b; simp
  have h1 := nll_sum_deriv hdet w S _ V' 0 (fun h => by
    have h2 := noiseCov_deriv g g' (ps h) (ps' h) (om h) (om' h)
    have h3 : (Matrix.of (fun i j => (∑ b, (g' b i * ps h b * g b j + g b i * ps' h b * g b j + g b i * ps h b * g' b j)) +
      if i = j then om' h i else 0)) = V' h := by
      ext i j
      rw [hV' h i j]
      rfl
    rw [h3] at h2
    exact h2) (fun h => by
      simp only [h0]
      exact (noiseCov_posDef (ho h) (hp h)).det_pos.ne') C hC
  simp only [h0, ← hM] at h1
  exact h1

theorem weightedNLL_eq (n : Fin e → Nat) (C S : Fin e → Matrix (Fin p) (Fin p) ℝ) :
    weightedNLL n C S = ∑ k, (n k : ℝ) / (∑ k, (n k : ℝ)) * gaussNLL (C k) (S k) := by
  unfold weightedNLL
  rw [Finset.sum_div]
  refine Finset.sum_congr rfl (fun k _ => ?_)
  ring

theorem total_cast (d : Data p e) : (d.total : ℝ) = ∑ k, (d.nObs k : ℝ) := by
  unfold Data.total
  push_cast
  rfl

/-- C76: the gradient with respect to `gamma` consists of the partial derivatives of the documented score (the negative
log-likelihoods of the entailed covariances `C`, weighted by sample size). -/
theorem C76_gamma (it : SetIter p) (d : Data p e) (m : LModel p l e) (hA : Nonneg m.A) (hac : Acyclic m.A) (hB : Respects m.A m.B)
    (ho : ∀ k i, 0 < m.omegas k i) (hp : ∀ k i, 0 ≤ m.psis k i) (X : Fin l × Fin p → ℝ) :
    ∃ g, gammaGrad it d m X = .ok g ∧ ∀ (a : Fin l) (k : Fin p) (C : ℝ → Fin e → Matrix (Fin p) (Fin p) ℝ),
      (∀ t h, Entails m.B (noiseCov (fun b i => X (b, i) + if b = a ∧ i = k then t else 0) (m.psis h) (m.omegas h)) (C t h)) →
      HasDerivAt (fun t => weightedNLL d.nObs (C t) d.covs) (g (a, k)) 0 := by
  have hdet := det_one_sub_transpose hac hB
  have hmk : mkModel it m.A m.B (toGamma X) m.omegas m.psis = .ok ⟨m.A, m.B, toGamma X, m.omegas, m.psis, 1 - m.Bᵀ⟩ :=
    mkModel_eq_ok hA _ _ _ hac hB
  have hinv := invNoise_ok_of_pos (⟨m.A, m.B, toGamma X, m.omegas, m.psis, 1 - m.Bᵀ⟩ : LModel p l e) ho hp
  refine ⟨_, by unfold gammaGrad; rw [hmk]; simp only [hinv]; rfl, ?_⟩
  intro a k C hC
  simp only [weightedNLL_eq]
  have h1 := param_deriv hdet (fun h => (d.nObs h : ℝ) / ∑ k, (d.nObs k : ℝ)) d.covs (toGamma X)
    (Matrix.of (fun b i => if b = a ∧ i = k then 1 else 0)) (fun h => m.psis h) (fun _ _ => 0) (fun h => m.omegas h) (fun _ _ => 0)
    ho hp C (fun t h => entails_noise (hC t h) (fun b i => by
        simp only [toGamma, Matrix.of_apply]
        split_ifs <;> simp) (fun b => by simp) (fun b => by simp)) (fun h => ((⟨m.A, m.B, toGamma X, m.omegas, m.psis, 1 - m.Bᵀ⟩ : LModel p l e).noise h)⁻¹)
    (fun h => gammaT (toGamma X) m.psis h a k) (fun h => by rw [noise_eq]) (fun h i j => by
      simp only [gammaT, Matrix.add_apply, Matrix.of_apply, Matrix.transpose_apply, mul_zero, zero_mul, add_zero, ite_self]
      rw [Finset.sum_add_distrib, Finset.sum_eq_single a, Finset.sum_eq_single a]
      · by_cases h1 : i = k <;> by_cases h2 : j = k <;> simp [h1, h2] <;> ring
      · intro b _ hb; simp [hb]
      · simp
      · intro b _ hb; simp [hb]
      · simp)
  have e1 : ∀ h, (1 - m.Bᵀ) * d.covs h * (1 - m.Bᵀ)ᵀ = nCov d m.B h := fun _ => rfl
  simp only [e1] at h1
  rw [total_cast, Finset.sum_div]
  have e2 : ∀ (x y z : ℝ), x * y / z = x / z * y := fun x y z => by ring
  simp only [e2]
  exact h1

theorem trace_rankOne_sub (M N T : Matrix (Fin p) (Fin p) ℝ) (j : Fin p) (hT : ∀ a b, T a b = if a = j ∧ b = j then 1 else 0) :
    trace (M * T) - trace (M * N * M * T) = (M - M * N * M) j j := by
  rw [trace_mul_single M T j hT, trace_mul_single (M * N * M) T j hT, Matrix.sub_apply]

/-- The gradients of `_solve_for_rest` as weighted derivatives: moving entry `j` of the noise variances with speed `c h` in environment
`h`. -/
theorem omega_deriv {B : Matrix (Fin p) (Fin p) ℝ} (hdet : (1 - Bᵀ).det = 1) (w : Fin e → ℝ) (S : Fin e → Matrix (Fin p) (Fin p) ℝ)
    (g : Matrix (Fin l) (Fin p) ℝ) (ps : Fin e → Fin l → ℝ) (om : Fin e → Fin p → ℝ) (ho : ∀ k i, 0 < om k i)
    (hp : ∀ k i, 0 ≤ ps k i) (c : Fin e → ℝ) (j : Fin p) (C : ℝ → Fin e → Matrix (Fin p) (Fin p) ℝ)
    (hC : ∀ t h, Entails B (noiseCov g (ps h) (fun i => om h i + t * (if i = j then c h else 0))) (C t h))
    (M : Fin e → Matrix (Fin p) (Fin p) ℝ) (hM : ∀ h, M h = (noiseCov g (ps h) (om h))⁻¹) :
    HasDerivAt (fun s => ∑ h, w h * gaussNLL (C s h) (S h))
      (∑ h, w h * c h * ((M h - M h * ((1 - Bᵀ) * S h * (1 - Bᵀ)ᵀ) * M h : Matrix (Fin p) (Fin p) ℝ) j j)) 0 := by
  have h1 := param_deriv hdet w S g 0 ps (fun _ _ => 0) om (fun h i => if i = j then c h else 0) ho hp C (fun t h => entails_noise (hC t h) (fun b i => by simp)
      (fun b => by simp) (fun b => by simp)) M (fun h => c h • Matrix.of (fun a b => if a = j ∧ b = j then (1 : ℝ) else 0)) hM (fun h a b => by
      simp only [Matrix.smul_apply, Matrix.of_apply, smul_eq_mul, Matrix.zero_apply, zero_mul, mul_zero, add_zero, Finset.sum_const_zero,
        zero_add]
      by_cases h1 : a = j <;> by_cases h2 : b = j <;> simp [h1, h2, eq_comm]
      intro h3; exact absurd h3.symm h2)
  convert h1 using 1
  refine Finset.sum_congr rfl (fun h _ => ?_)
  rw [Matrix.mul_smul, Matrix.mul_smul, Matrix.trace_smul, Matrix.trace_smul, ← smul_sub,
    trace_rankOne_sub _ _ (Matrix.of (fun a b => if a = j ∧ b = j then (1 : ℝ) else 0)) j (fun a b => rfl), smul_eq_mul, mul_assoc]

theorem psi_deriv {B : Matrix (Fin p) (Fin p) ℝ} (hdet : (1 - Bᵀ).det = 1) (w : Fin e → ℝ) (S : Fin e → Matrix (Fin p) (Fin p) ℝ)
    (g : Matrix (Fin l) (Fin p) ℝ) (ps : Fin e → Fin l → ℝ) (om : Fin e → Fin p → ℝ) (ho : ∀ k i, 0 < om k i)
    (hp : ∀ k i, 0 ≤ ps k i) (c : Fin e → ℝ) (j : Fin l) (C : ℝ → Fin e → Matrix (Fin p) (Fin p) ℝ)
    (hC : ∀ t h, Entails B (noiseCov g (fun i => ps h i + t * (if i = j then c h else 0)) (om h)) (C t h))
    (M : Fin e → Matrix (Fin p) (Fin p) ℝ) (hM : ∀ h, M h = (noiseCov g (ps h) (om h))⁻¹) :
    HasDerivAt (fun s => ∑ h, w h * gaussNLL (C s h) (S h))
      (∑ h, w h * c h * (trace (M h * Matrix.of (fun a b => g j a * g j b)) -
        trace (M h * ((1 - Bᵀ) * S h * (1 - Bᵀ)ᵀ) * M h * Matrix.of (fun a b => g j a * g j b)))) 0 := by
  have h1 := param_deriv hdet w S g 0 ps (fun h i => if i = j then c h else 0) om (fun _ _ => 0) ho hp C (fun t h => entails_noise (hC t h) (fun b i => by simp)
      (fun b => by simp) (fun b => by simp)) M (fun h => c h • Matrix.of (fun a b => g j a * g j b)) hM (fun h a b => by
      simp only [Matrix.smul_apply, Matrix.of_apply, smul_eq_mul, Matrix.zero_apply, zero_mul, mul_zero, add_zero, zero_add, ite_self]
      rw [Finset.sum_eq_single j]
      · simp; ring
      · intro b _ hb; simp [hb]
      · simp)
  convert h1 using 1
  refine Finset.sum_congr rfl (fun h _ => ?_)
  rw [Matrix.mul_smul, Matrix.mul_smul, Matrix.trace_smul, Matrix.trace_smul, ← smul_sub, smul_eq_mul, mul_assoc]

theorem restGrad_ok (it : SetIter p) (d : Data p e) (I : Finset (Fin p)) (psiFixed : Bool) (m : LModel p l e) (hA : Nonneg m.A)
    (hac : Acyclic m.A) (hB : Respects m.A m.B) (X : RestIx p l e → ℝ) (ho : ∀ k i, 0 < X (.inl (k, i))) (hp : ∀ k i, 0 ≤ X (.inr (k, i))) :
    ∃ M : Fin e → Matrix (Fin p) (Fin p) ℝ, (∀ h, M h = (noiseCov m.gamma (toPsis X h) (toOmegas X h))⁻¹) ∧
      restGrad it d I psiFixed m X = .ok (Sum.elim
        (fun hj => if hj.2 ∈ I then omegaGrad d m.B M hj.1 hj.2 else meanEnv (fun h => omegaGrad d m.B M h hj.2))
        (fun hk => if psiFixed then meanEnv (fun h => psiGrad d m.B m.gamma M h hk.2) else psiGrad d m.B m.gamma M hk.1 hk.2)) := by
  have hmk : mkModel it m.A m.B m.gamma (toOmegas X) (toPsis X) = .ok ⟨m.A, m.B, m.gamma, toOmegas X, toPsis X, 1 - m.Bᵀ⟩ :=
    mkModel_eq_ok hA _ _ _ hac hB
  have hinv := invNoise_ok_of_pos (⟨m.A, m.B, m.gamma, toOmegas X, toPsis X, 1 - m.Bᵀ⟩ : LModel p l e) ho hp
  refine ⟨_, fun h => ?_, by unfold restGrad; rw [hmk]; simp only [hinv]; rfl⟩
  rw [noise_eq]

/-- C76: the gradient with respect to the noise variances: for targets the partial derivatives of the documented score; for
non-targets, whose variance is common to all environments, the derivative with respect to the common value divided by `e`. -/
theorem C76_omegas (it : SetIter p) (d : Data p e) (I : Finset (Fin p)) (psiFixed : Bool) (m : LModel p l e) (hA : Nonneg m.A)
    (hac : Acyclic m.A) (hB : Respects m.A m.B) (X : RestIx p l e → ℝ) (ho : ∀ k i, 0 < X (.inl (k, i))) (hp : ∀ k i, 0 ≤ X (.inr (k, i))) :
    ∃ g, restGrad it d I psiFixed m X = .ok g ∧
      (∀ (h : Fin e) (j : Fin p), j ∈ I → ∀ C : ℝ → Fin e → Matrix (Fin p) (Fin p) ℝ,
        (∀ t k, Entails m.B (noiseCov m.gamma (fun i => X (.inr (k, i)))
          (fun i => X (.inl (k, i)) + if k = h ∧ i = j then t else 0)) (C t k)) →
        HasDerivAt (fun t => weightedNLL d.nObs (C t) d.covs) (g (.inl (h, j))) 0) ∧
      (∀ (h : Fin e) (j : Fin p), j ∉ I → ∀ C : ℝ → Fin e → Matrix (Fin p) (Fin p) ℝ,
        (∀ t k, Entails m.B (noiseCov m.gamma (fun i => X (.inr (k, i)))
          (fun i => X (.inl (k, i)) + if i = j then t else 0)) (C t k)) →
        HasDerivAt (fun t => weightedNLL d.nObs (C t) d.covs) (e * g (.inl (h, j))) 0) := by
  have hdet := det_one_sub_transpose hac hB
  obtain ⟨M, hM, hg⟩ := restGrad_ok it d I psiFixed m hA hac hB X ho hp
  refine ⟨_, hg, ?_, ?_⟩
  · intro h j hj C hC
    simp only [weightedNLL_eq]
    have h1 := omega_deriv hdet (fun h => (d.nObs h : ℝ) / ∑ k, (d.nObs k : ℝ)) d.covs m.gamma (toPsis X) (toOmegas X) ho hp
      (fun k => if k = h then 1 else 0) j C (fun t k => entails_noise (hC t k) (fun b i => rfl)
        (fun b => rfl) (fun i => by
          simp only [toOmegas, Matrix.of_apply]
          by_cases h1 : k = h <;> by_cases h2 : i = j <;> simp [h1, h2])) M hM
    convert h1 using 1
    rw [Finset.sum_eq_single h]
    · simp only [Sum.elim_inl, if_pos hj, omegaGrad, if_true, mul_one, total_cast]
      rfl
    · intro b _ hb; simp [hb]
    · simp
  · intro h j hj C hC
    simp only [weightedNLL_eq]
    have h1 := omega_deriv hdet (fun h => (d.nObs h : ℝ) / ∑ k, (d.nObs k : ℝ)) d.covs m.gamma (toPsis X) (toOmegas X) ho hp
      (fun k => 1) j C (fun t k => entails_noise (hC t k) (fun b i => rfl)
        (fun b => rfl) (fun i => by
          simp only [toOmegas, Matrix.of_apply]
          by_cases h2 : i = j <;> simp [h2])) M hM
    convert h1 using 1
    have he : (e : ℝ) ≠ 0 := Nat.cast_ne_zero.2 (by have := h.isLt; omega)
    simp only [Sum.elim_inl, if_neg hj, meanEnv]
    rw [mul_div_cancel₀ _ he]
    refine Finset.sum_congr rfl (fun k _ => ?_)
    simp only [omegaGrad, mul_one, total_cast]
    rfl

/-- C76: the gradient with respect to the latent variances, likewise: partial derivatives, or with `psi_fixed` the derivative with
respect to the common value divided by `e`. -/
theorem C76_psis (it : SetIter p) (d : Data p e) (I : Finset (Fin p)) (psiFixed : Bool) (m : LModel p l e) (hA : Nonneg m.A)
    (hac : Acyclic m.A) (hB : Respects m.A m.B) (X : RestIx p l e → ℝ) (ho : ∀ k i, 0 < X (.inl (k, i))) (hp : ∀ k i, 0 ≤ X (.inr (k, i))) :
    ∃ g, restGrad it d I psiFixed m X = .ok g ∧
      (psiFixed = false → ∀ (h : Fin e) (j : Fin l), ∀ C : ℝ → Fin e → Matrix (Fin p) (Fin p) ℝ,
        (∀ t k, Entails m.B (noiseCov m.gamma (fun i => X (.inr (k, i)) + if k = h ∧ i = j then t else 0)
          (fun i => X (.inl (k, i)))) (C t k)) →
        HasDerivAt (fun t => weightedNLL d.nObs (C t) d.covs) (g (.inr (h, j))) 0) ∧
      (psiFixed = true → ∀ (h : Fin e) (j : Fin l), ∀ C : ℝ → Fin e → Matrix (Fin p) (Fin p) ℝ,
        (∀ t k, Entails m.B (noiseCov m.gamma (fun i => X (.inr (k, i)) + if i = j then t else 0)
          (fun i => X (.inl (k, i)))) (C t k)) →
        HasDerivAt (fun t => weightedNLL d.nObs (C t) d.covs) (e * g (.inr (h, j))) 0) := by
  have hdet := det_one_sub_transpose hac hB
  obtain ⟨M, hM, hg⟩ := restGrad_ok it d I psiFixed m hA hac hB X ho hp
  refine ⟨_, hg, ?_, ?_⟩
  · intro hf h j C hC
    simp only [weightedNLL_eq]
    have h1 := psi_deriv hdet (fun h => (d.nObs h : ℝ) / ∑ k, (d.nObs k : ℝ)) d.covs m.gamma (toPsis X) (toOmegas X) ho hp
      (fun k => if k = h then 1 else 0) j C (fun t k => entails_noise (hC t k) (fun b i => rfl)
        (fun i => by
          simp only [toPsis, Matrix.of_apply]
          by_cases h1 : k = h <;> by_cases h2 : i = j <;> simp [h1, h2]) (fun b => rfl)) M hM
    convert h1 using 1
    rw [Finset.sum_eq_single h]
    · simp only [Sum.elim_inr, hf, psiGrad, if_true, mul_one, total_cast]
      rfl
    · intro b _ hb; simp [hb]
    · simp
  · intro hf h j C hC
    simp only [weightedNLL_eq]
    have h1 := psi_deriv hdet (fun h => (d.nObs h : ℝ) / ∑ k, (d.nObs k : ℝ)) d.covs m.gamma (toPsis X) (toOmegas X) ho hp
      (fun k => 1) j C (fun t k => entails_noise (hC t k) (fun b i => rfl)
        (fun i => by
          simp only [toPsis, Matrix.of_apply]
          by_cases h2 : i = j <;> simp [h2]) (fun b => rfl)) M hM
    convert h1 using 1
    have he : (e : ℝ) ≠ 0 := Nat.cast_ne_zero.2 (by have := h.isLt; omega)
    simp only [Sum.elim_inr, hf, if_true, meanEnv]
    rw [mul_div_cancel₀ _ he]
    refine Finset.sum_congr rfl (fun k _ => ?_)
    simp only [psiGrad, mul_one, total_cast]
    rfl

/-- The loss computed by the code at the entries `X` for `gamma`, as a weighted sum. -/
theorem gammaLoss_eq (it : SetIter p) (d : Data p e) (m : LModel p l e) (hA : Nonneg m.A) (hac : Acyclic m.A) (hB : Respects m.A m.B)
    (ho : ∀ k i, 0 < m.omegas k i) (hp : ∀ k i, 0 ≤ m.psis k i) (hn : d.total ≠ 0) (X : Fin l × Fin p → ℝ)
    (C : Fin e → Matrix (Fin p) (Fin p) ℝ) (hC : ∀ h, Entails m.B (noiseCov (fun b i => X (b, i)) (m.psis h) (m.omegas h)) (C h)) :
    gammaLoss it d m X = .ok (some (∑ k, (d.nObs k : ℝ) * gaussNLL (C k) (d.covs k) / (∑ k, (d.nObs k : ℝ)) ^ (e - k.val))) := by
  have hdet := det_one_sub_transpose hac hB
  have hmk : mkModel it m.A m.B (toGamma X) m.omegas m.psis = .ok ⟨m.A, m.B, toGamma X, m.omegas, m.psis, 1 - m.Bᵀ⟩ :=
    mkModel_eq_ok hA _ _ _ hac hB
  unfold gammaLoss
  simp only [hmk]
  refine C37_actual_score it m.A hA m.B _ _ _ _ hmk ho hp d.nObs hn d.covs C ?_
  rw [covariances_ok (⟨m.A, m.B, toGamma X, m.omegas, m.psis, 1 - m.Bᵀ⟩ : LModel p l e) hdet]
  congr 1
  ext1 k
  rw [entails_eq hdet (hC k), noise_eq]
  rfl

/-- The loss computed by the code at the entries `X` for the variances. -/
theorem restLoss_eq (it : SetIter p) (d : Data p e) (m : LModel p l e) (hA : Nonneg m.A) (hac : Acyclic m.A) (hB : Respects m.A m.B)
    (hn : d.total ≠ 0) (X : RestIx p l e → ℝ) (ho : ∀ k i, 0 < X (.inl (k, i))) (hp : ∀ k i, 0 ≤ X (.inr (k, i)))
    (C : Fin e → Matrix (Fin p) (Fin p) ℝ)
    (hC : ∀ h, Entails m.B (noiseCov m.gamma (fun i => X (.inr (h, i))) (fun i => X (.inl (h, i)))) (C h)) :
    restLoss it d m X = .ok (some (∑ k, (d.nObs k : ℝ) * gaussNLL (C k) (d.covs k) / (∑ k, (d.nObs k : ℝ)) ^ (e - k.val))) := by
  have hdet := det_one_sub_transpose hac hB
  have hmk : mkModel it m.A m.B m.gamma (toOmegas X) (toPsis X) = .ok ⟨m.A, m.B, m.gamma, toOmegas X, toPsis X, 1 - m.Bᵀ⟩ :=
    mkModel_eq_ok hA _ _ _ hac hB
  unfold restLoss
  simp only [hmk]
  refine C37_actual_score it m.A hA m.B _ _ _ _ hmk ho hp d.nObs hn d.covs C ?_
  rw [covariances_ok (⟨m.A, m.B, m.gamma, toOmegas X, toPsis X, 1 - m.Bᵀ⟩ : LModel p l e) hdet]
  congr 1
  ext1 k
  rw [entails_eq hdet (hC k), noise_eq]
  rfl

theorem entails_exists {B : Matrix (Fin p) (Fin p) ℝ} (hdet : (1 - Bᵀ).det = 1) (V : Matrix (Fin p) (Fin p) ℝ) :
    ∃ C, Entails B V C := by
  have hu : IsUnit (1 - Bᵀ).det := by rw [hdet]; exact isUnit_one
  have hut : IsUnit ((1 - Bᵀ)ᵀ).det := by rw [Matrix.det_transpose]; exact hu
  refine ⟨(1 - Bᵀ)⁻¹ * (V * ((1 - Bᵀ)ᵀ)⁻¹), ?_⟩
  unfold Entails
  rw [← Matrix.mul_assoc, Matrix.mul_nonsing_inv _ hu, Matrix.one_mul, Matrix.mul_assoc, Matrix.nonsing_inv_mul _ hut, Matrix.mul_one]

/-- C76: with one environment the gradient used for `gamma` is the gradient of the loss that the descent compares. -/
theorem C76_gamma_single_environment (it : SetIter p) (d : Data p 1) (m : LModel p l 1) (hA : Nonneg m.A) (hac : Acyclic m.A)
    (hB : Respects m.A m.B) (ho : ∀ k i, 0 < m.omegas k i) (hp : ∀ k i, 0 ≤ m.psis k i) (hn : d.total ≠ 0) (X : Fin l × Fin p → ℝ) :
    ∃ g, gammaGrad it d m X = .ok g ∧ ∀ (a : Fin l) (k : Fin p), ∃ L : ℝ → ℝ,
      (∀ t, gammaLoss it d m (fun q => X q + if q = (a, k) then t else 0) = .ok (some (L t))) ∧ HasDerivAt L (g (a, k)) 0 := by
  have hdet := det_one_sub_transpose hac hB
  obtain ⟨g, h1, h2⟩ := C76_gamma it d m hA hac hB ho hp X
  refine ⟨g, h1, fun a k => ?_⟩
  choose C hC using fun (t : ℝ) (h : Fin 1) =>
    entails_exists hdet (noiseCov (fun b i => X (b, i) + if b = a ∧ i = k then t else 0) (m.psis h) (m.omegas h))
  refine ⟨_, fun t => ?_, h2 a k C hC⟩
  rw [gammaLoss_eq it d m hA hac hB ho hp hn _ (C t) (fun h => entails_noise (hC t h) (fun b i => by simp) (fun _ => rfl) (fun _ => rfl))]
  congr 2
  simp [weightedNLL]

theorem eventually_pos {x : ℝ} (hx : 0 < x) : ∀ᶠ t : ℝ in nhds 0, 0 < x + t := by
  have hc : ContinuousAt (fun t : ℝ => x + t) 0 := (continuous_const.add continuous_id).continuousAt
  exact hc.eventually (lt_mem_nhds (by simpa using hx))

/-- C76: what the loss in fact does.  The partial derivative of the loss computed by the code with respect to the variance of target
`j` in environment `h` is the entry of the gradient divided by `N^(e-1-h)`, with `N` the total sample size: the gradient is not that of
the loss (it is for the last environment only). -/
theorem C76_loss_derivative (it : SetIter p) (d : Data p e) (I : Finset (Fin p)) (psiFixed : Bool) (m : LModel p l e) (hA : Nonneg m.A)
    (hac : Acyclic m.A) (hB : Respects m.A m.B) (hn : d.total ≠ 0) (X : RestIx p l e → ℝ) (ho : ∀ k i, 0 < X (.inl (k, i)))
    (hp : ∀ k i, 0 ≤ X (.inr (k, i))) :
    ∃ g, restGrad it d I psiFixed m X = .ok g ∧ ∀ (h : Fin e) (j : Fin p), j ∈ I → ∃ L : ℝ → ℝ,
      (∀ᶠ t in nhds 0, restLoss it d m (fun q => X q + if q = .inl (h, j) then t else 0) = .ok (some (L t))) ∧
      HasDerivAt L (g (.inl (h, j)) / (d.total : ℝ) ^ (e - 1 - h.val)) 0 := by
  have hdet := det_one_sub_transpose hac hB
  obtain ⟨M, hM, hg⟩ := restGrad_ok it d I psiFixed m hA hac hB X ho hp
  refine ⟨_, hg, fun h j hj => ?_⟩
  choose C hC using fun (t : ℝ) (k : Fin e) => entails_exists hdet (noiseCov m.gamma (toPsis X k)
    (fun i => toOmegas X k i + t * (if i = j then (if k = h then 1 else 0) else 0)))
  have h1 := omega_deriv hdet (fun h => (d.nObs h : ℝ) / (∑ k, (d.nObs k : ℝ)) ^ (e - h.val)) d.covs m.gamma (toPsis X) (toOmegas X) ho hp
    (fun k => if k = h then 1 else 0) j C hC M hM
  refine ⟨fun s => ∑ h, (d.nObs h : ℝ) / (∑ k, (d.nObs k : ℝ)) ^ (e - h.val) * gaussNLL (C s h) (d.covs h), ?_, ?_⟩
  · filter_upwards [eventually_pos (ho h j)] with t ht
    rw [restLoss_eq it d m hA hac hB hn _ ?_ ?_ (C t) (fun k => entails_noise (hC t k) (fun _ _ => rfl) (fun b => by simp [toPsis])
      (fun i => by
        simp only [toOmegas, Matrix.of_apply, Sum.inl.injEq, Prod.mk.injEq]
        by_cases h1 : k = h <;> by_cases h2 : i = j <;> simp [h1, h2]))]
    · congr 2
      refine Finset.sum_congr rfl (fun k _ => ?_)
      ring
    · intro k i
      by_cases hc : (Sum.inl (k, i) : RestIx p l e) = .inl (h, j)
      · rw [hc]
        simpa using ht
      · simpa [hc] using ho k i
    · intro k i
      simpa using hp k i
  · convert h1 using 1
    rw [Finset.sum_eq_single h]
    · have he : e - h.val = (e - 1 - h.val) + 1 := by have := h.isLt; omega
      simp only [Sum.elim_inl, if_pos hj, omegaGrad, if_true, mul_one, total_cast]
      rw [he, pow_succ]
      have e1 : nCov d m.B h = (1 - m.Bᵀ) * d.covs h * (1 - m.Bᵀ)ᵀ := rfl
      rw [e1]
      field_simp
    · intro b _ hb; simp [hb]
    · simp

/-- C76, violation: the gradient that the descent follows is not the gradient of the loss it compares: one variable, two environments
with one observation each; the entry of the gradient is `-1/2`, the derivative of the loss is `-1/4`. -/
theorem C76_violated : ∃ (d : Data 1 2) (m : LModel 1 0 2) (X : RestIx 1 0 2 → ℝ) (g : RestIx 1 0 2 → ℝ) (L : ℝ → ℝ),
    restGrad (SetIter.incr 1) d Finset.univ false m X = .ok g ∧
    (∀ᶠ t in nhds 0, restLoss (SetIter.incr 1) d m (fun q => X q + if q = .inl (0, 0) then t else 0) = .ok (some (L t))) ∧
    g (.inl (0, 0)) = -1 / 2 ∧ HasDerivAt L (-1 / 4) 0 := by
  have hA : Nonneg (fun _ _ => 0 : Adj 1) := fun _ _ => le_refl _
  have hac : Acyclic (fun _ _ => 0 : Adj 1) := (isDag_iff (SetIter.incr 1) hA).1 (by decide +kernel)
  let d : Data 1 2 := ⟨fun _ => !![2], fun _ => 1⟩
  let m : LModel 1 0 2 := ⟨fun _ _ => 0, 0, 0, fun _ _ => 1, 0, 1⟩
  let X : RestIx 1 0 2 → ℝ := fun _ => 1
  obtain ⟨g, h1, h2⟩ := C76_loss_derivative (SetIter.incr 1) d Finset.univ false m hA hac (fun _ _ _ => rfl) (by decide) X
    (fun _ _ => one_pos) (fun _ _ => zero_le_one)
  obtain ⟨M, hM, hg⟩ := restGrad_ok (SetIter.incr 1) d Finset.univ false m hA hac (fun _ _ _ => rfl) X (fun _ _ => one_pos)
    (fun _ _ => zero_le_one)
  have hM1 : M 0 = 1 := by
    rw [hM, ← inv_one]
    congr 1
    ext i j
    have hi : i = 0 := Subsingleton.elim _ _
    have hj : j = 0 := Subsingleton.elim _ _
    subst hi hj
    simp [noiseCov, toOmegas, X]
  have hval : g (.inl (0, 0)) = -1 / 2 := by
    rw [h1] at hg
    injection hg with hg
    rw [hg]
    simp only [Sum.elim_inl, Finset.mem_univ, if_true, omegaGrad, hM1, nCov]
    have ht : (d.total : ℝ) = 2 := by
      rw [total_cast]
      simp [d]
    rw [ht]
    simp [d, m]
    norm_num
  obtain ⟨L, h3, h4⟩ := h2 0 0 (Finset.mem_univ _)
  refine ⟨d, m, X, g, L, h1, h3, hval, ?_⟩
  rw [hval] at h4
  have ht : (d.total : ℝ) = 2 := by
    rw [total_cast]
    simp [d]
  rw [ht] at h4
  convert h4 using 1
  norm_num

theorem gaussNLL_one (v s : ℝ) : gaussNLL (!![v] : Matrix (Fin 1) (Fin 1) ℝ) !![s] = Real.log v + v⁻¹ * s := by
  unfold gaussNLL
  simp [Matrix.trace, Ring.inverse_eq_inv']

/-- C76, violation: the step can even go in the wrong direction.  One variable and one latent, two environments with one observation
each and sample variances `1` and `13/5`: the gradient for `gamma` is `1/10`, the derivative of the loss is `-1/40`. -/
theorem C76_wrong_direction : ∃ (d : Data 1 2) (m : LModel 1 1 2) (g : Fin 1 × Fin 1 → ℝ) (L : ℝ → ℝ),
    gammaGrad (SetIter.incr 1) d m (fun _ => 1) = .ok g ∧ (∀ t, gammaLoss (SetIter.incr 1) d m (fun _ => 1 + t) = .ok (some (L t))) ∧
    g (0, 0) = 1 / 10 ∧ HasDerivAt L (-1 / 40) 0 := by
  have hA : Nonneg (fun _ _ => 0 : Adj 1) := fun _ _ => le_refl _
  have hac : Acyclic (fun _ _ => 0 : Adj 1) := (isDag_iff (SetIter.incr 1) hA).1 (by decide +kernel)
  let d : Data 1 2 := ⟨![!![1], !![13 / 5]], fun _ => 1⟩
  let m : LModel 1 1 2 := ⟨fun _ _ => 0, 0, 1, fun _ _ => 1, fun _ _ => 1, 1⟩
  have hent : ∀ t : ℝ, ∀ h : Fin 2, Entails m.B (noiseCov (fun _ _ => 1 + t) (m.psis h) (m.omegas h)) !![(1 + t) * (1 + t) + 1] := by
    intro t h
    unfold Entails
    ext i j
    have hi : i = 0 := Subsingleton.elim _ _
    have hj : j = 0 := Subsingleton.elim _ _
    subst hi hj
    simp [noiseCov, m, Matrix.mul_apply]
  have hv : HasDerivAt (fun t : ℝ => (1 + t) * (1 + t) + 1) 2 0 := by
    have h1 : HasDerivAt (fun t : ℝ => 1 + t) 1 0 := (hasDerivAt_id (0 : ℝ)).const_add 1
    have h2 := (h1.fun_mul h1).add_const 1
    have e1 : (2 : ℝ) = 1 * (1 + 0) + (1 + 0) * 1 := by norm_num
    rw [e1]
    exact h2
  have hterm : ∀ s : ℝ, HasDerivAt (fun t : ℝ => gaussNLL (!![(1 + t) * (1 + t) + 1] : Matrix (Fin 1) (Fin 1) ℝ) !![s]) (1 - s / 2) 0 := by
    intro s
    simp only [gaussNLL_one]
    have h1 := (hv.log (by norm_num)).fun_add ((hv.fun_inv (by norm_num)).mul_const s)
    have e1 : 1 - s / 2 = 2 / ((1 + 0) * (1 + 0) + 1) + -2 / ((1 + 0) * (1 + 0) + 1) ^ 2 * s := by ring
    rw [e1]
    exact h1
  obtain ⟨g, h1, h2⟩ := C76_gamma (SetIter.incr 1) d m hA hac (fun _ _ _ => rfl) (fun _ _ => one_pos) (fun _ _ => zero_le_one) (fun _ => 1)
  have h3 := h2 0 0 (fun t _ => !![(1 + t) * (1 + t) + 1]) (fun t h => entails_noise (hent t h) (fun b i => by
    have hb : b = 0 := Subsingleton.elim _ _
    have hi : i = 0 := Subsingleton.elim _ _
    simp [hb, hi]) (fun _ => rfl) (fun _ => rfl))
  refine ⟨d, m, g, _, h1, fun t => gammaLoss_eq (SetIter.incr 1) d m hA hac (fun _ _ _ => rfl) (fun _ _ => one_pos) (fun _ _ => zero_le_one)
    (by decide) (fun _ => 1 + t) (fun _ => !![(1 + t) * (1 + t) + 1]) (fun h => hent t h), ?_, ?_⟩
  · refine h3.unique ?_
    have h4 := (((hterm 1).const_mul 1).fun_add ((hterm (13 / 5)).const_mul 1)).div_const 2
    have e1 : (1 / 10 : ℝ) = (1 * (1 - 1 / 2) + 1 * (1 - 13 / 5 / 2)) / 2 := by norm_num
    rw [e1]
    refine h4.congr_of_eventuallyEq (Filter.Eventually.of_forall fun t => ?_)
    simp [weightedNLL, d, Fin.sum_univ_two]
  · have h4 := (((hterm 1).const_mul 1).div_const (2 ^ 2)).fun_add (((hterm (13 / 5)).const_mul 1).div_const 2)
    have e1 : (-1 / 40 : ℝ) = 1 * (1 - 1 / 2) / 2 ^ 2 + 1 * (1 - 13 / 5 / 2) / 2 := by norm_num
    rw [e1]
    refine h4.congr_of_eventuallyEq (Filter.Eventually.of_forall fun t => ?_)
    simp [d, Fin.sum_univ_two]

end Verif
