import Verif.Props.Gradients
import Verif.Props.GradDescent
import Verif.Props.ScoreTotal

/-!
# C80: the gradient descent makes progress
-/

namespace Verif

open Spec Matrix

section generic

variable {ι : Type} {nArr : Nat} {blk : ι → Nat} {lossFun : (ι → ℝ) → Except Err Flt}
  {gradFun : (ι → ℝ) → Except Err (ι → ℝ)} {threshold learningRate : ℝ} {bounds : Option (List (EReal × EReal))}
  {kappaZero : ℝ}

/-- C80: if all steps of length up to `δ` against the gradient at the initial point improve the loss within the bounds, then
`_gradient_descent` returns a strictly smaller loss, for every positive learning rate and every smallest step length up to `δ`. -/
theorem C80_strict_progress (hlr : 0 < learningRate) (Xinit X g : ι → ℝ) (L : Flt) (y δ : ℝ) (hy : lossFun Xinit = .ok (some y))
    (hg : gradFun Xinit = .ok g) (hδ : kappaZero ≤ δ)
    (hdesc : ∀ s, 0 < s → s ≤ δ → InBounds? nArr blk bounds (fun i => Xinit i - s * g i) ∧
      ∃ z, lossFun (fun i => Xinit i - s * g i) = .ok (some z) ∧ z < y)
    (h : gradientDescent nArr blk lossFun gradFun Xinit threshold learningRate bounds kappaZero = .ok (X, L)) :
    ∃ x, L = some x ∧ x < y := by
  unfold gradientDescent at h
  cases hb : checkBounds nArr blk Xinit bounds with
  | error err => rw [hb] at h; simp at h
  | ok b =>
    rw [hb] at h
    cases b with
    | false => simp at h
    | true =>
      have hord := ((checkBounds_true _ _ _ _).1 hb).1
      simp only [hy] at h
      refine runLoop_ok (step := gdStep nArr blk lossFun gradFun threshold learningRate bounds kappaZero)
        (fun s : GDState ι => 0 < s.kappa ∧ ((s.X = Xinit ∧ s.loss = some y ∧ (s.grad = none ∨ s.grad = some g)) ∨ ∃ x, s.loss = some x ∧ x < y))
        (fun r => ∃ x, r.2 = some x ∧ x < y) ?_ ?_ ⟨one_pos, Or.inl ⟨rfl, rfl, Or.inl rfl⟩⟩ h
      · rintro s s' ⟨hk, hs⟩ hstep
        obtain ⟨g', hg', h1⟩ := gdStep_inl hstep
        rcases h1 with ⟨h1, -⟩ | ⟨newLoss, h1, h2, h3, h4, h5⟩
        · subst h1
          refine ⟨half_pos hk, ?_⟩
          rcases hs with ⟨a1, a2, a3⟩ | hs
          · refine Or.inl ⟨a1, a2, Or.inr ?_⟩
            rcases a3 with a3 | a3
            · unfold GDState.gradients at hg'
              rw [a3] at hg'
              simp only [a1, hg, Except.ok.injEq] at hg'
              rw [hg']
            · unfold GDState.gradients at hg'
              rw [a3] at hg'
              simp only [Except.ok.injEq] at hg'
              rw [hg']
          · exact Or.inr hs
        · subst h5
          refine ⟨hk, Or.inr ?_⟩
          have h6 : ∃ z, s.loss = some z ∧ z ≤ y := by
            rcases hs with ⟨-, a2, -⟩ | ⟨x, a1, a2⟩
            · exact ⟨y, a2, le_refl _⟩
            · exact ⟨x, a1, a2.le⟩
          obtain ⟨z, h7, h8⟩ := h6
          rw [h7] at h3
          cases newLoss with
          | none => simp [Flt.lt] at h3
          | some w =>
            simp only [Flt.lt] at h3
            exact ⟨w, rfl, lt_of_lt_of_le h3 h8⟩
      · rintro s r ⟨hk, hs⟩ hstep
        have hs' := hs
        rcases hs with ⟨a1, a2, a3⟩ | hs
        · have hgr : s.gradients gradFun = .ok g := by
            unfold GDState.gradients
            rcases a3 with a3 | a3
            · rw [a3, a1]; exact hg
            · rw [a3]
          unfold gdStep at hstep
          rw [hgr] at hstep
          simp only [a1, a2] at hstep
          by_cases hsmall : s.kappa * learningRate ≤ kappaZero
          · obtain ⟨b1, z, b2, b3⟩ := hdesc (s.kappa * learningRate) (mul_pos hk hlr) (le_trans hsmall hδ)
            rw [(checkBounds_true _ _ _ _).2 ⟨hord, b1⟩] at hstep
            simp only [b2] at hstep
            have hlt : Flt.lt (some z) s.loss := by rw [a2]; exact b3
            split_ifs at hstep with c1
            · simp only [Except.ok.injEq, Sum.inr.injEq] at hstep
              rw [← hstep]
              exact ⟨z, rfl, b3⟩
            · simp at hstep
          · cases hcb : checkBounds nArr blk (fun i => Xinit i - s.kappa * learningRate * g i) bounds with
            | error err => rw [hcb] at hstep; simp at hstep
            | ok b =>
              rw [hcb] at hstep
              cases b with
              | false => simp at hstep
              | true =>
                simp only at hstep
                cases hl : lossFun (fun i => Xinit i - s.kappa * learningRate * g i) with
                | error err => rw [hl] at hstep; simp at hstep
                | ok newLoss =>
                  rw [hl] at hstep
                  simp only at hstep
                  split_ifs at hstep with c1 c2
                  · simp only [Except.ok.injEq, Sum.inr.injEq] at hstep
                    rw [← hstep]
                    cases newLoss with
                    | none => simp [Flt.lt] at c1
                    | some w =>
                      rw [a2] at c1
                      exact ⟨w, rfl, c1.1⟩
                  · simp at hstep
                  · simp at hstep
        · rcases gdStep_inr hstep with h1 | ⟨h1, h2, h3, -⟩
          · rw [h1]; exact hs
          · obtain ⟨x, b1, b2⟩ := hs
            rw [b1] at h3
            cases hr : r.2 with
            | none => rw [hr] at h3; simp [Flt.lt] at h3
            | some w =>
              rw [hr] at h3
              exact ⟨w, rfl, lt_trans h3 b2⟩

/-- C80: if no step of length up to the learning rate against the gradient at the initial point improves the loss, then
`_gradient_descent` returns the initial point. -/
theorem C80_no_progress (hlr : 0 < learningRate) (Xinit X g : ι → ℝ) (L : Flt) (y : ℝ) (hy : lossFun Xinit = .ok (some y))
    (hg : gradFun Xinit = .ok g)
    (hasc : ∀ s, 0 < s → s ≤ learningRate → ∀ L', lossFun (fun i => Xinit i - s * g i) = .ok L' → ¬ L'.lt (some y))
    (h : gradientDescent nArr blk lossFun gradFun Xinit threshold learningRate bounds kappaZero = .ok (X, L)) :
    X = Xinit ∧ L = some y := by
  unfold gradientDescent at h
  cases hb : checkBounds nArr blk Xinit bounds with
  | error err => rw [hb] at h; simp at h
  | ok b =>
    rw [hb] at h
    cases b with
    | false => simp at h
    | true =>
      simp only [hy] at h
      have hgrad : ∀ s : GDState ι, s.X = Xinit → (s.grad = none ∨ s.grad = some g) → s.gradients gradFun = .ok g := by
        intro s a1 a3
        unfold GDState.gradients
        rcases a3 with a3 | a3
        · rw [a3, a1]; exact hg
        · rw [a3]
      refine runLoop_ok (step := gdStep nArr blk lossFun gradFun threshold learningRate bounds kappaZero)
        (fun s : GDState ι => (0 < s.kappa ∧ s.kappa ≤ 1) ∧ s.X = Xinit ∧ s.loss = some y ∧ (s.grad = none ∨ s.grad = some g))
        (fun r => r.1 = Xinit ∧ r.2 = some y) ?_ ?_ ⟨⟨one_pos, le_refl _⟩, rfl, rfl, Or.inl rfl⟩ h
      · rintro s s' ⟨⟨hk, hk1⟩, a1, a2, a3⟩ hstep
        obtain ⟨g', hg', h1⟩ := gdStep_inl hstep
        rw [hgrad s a1 a3] at hg'
        simp only [Except.ok.injEq] at hg'
        subst hg'
        rcases h1 with ⟨h1, -⟩ | ⟨newLoss, h1, h2, h3, h4, h5⟩
        · subst h1
          exact ⟨⟨half_pos hk, by simp only; linarith⟩, a1, a2, Or.inr rfl⟩
        · rw [a1] at h2
          rw [a2] at h3
          exact absurd h3 (hasc _ (mul_pos hk hlr) (by nlinarith) _ h2)
      · rintro s r ⟨⟨hk, hk1⟩, a1, a2, a3⟩ hstep
        unfold gdStep at hstep
        rw [hgrad s a1 a3] at hstep
        simp only [a1, a2] at hstep
        cases hcb : checkBounds nArr blk (fun i => Xinit i - s.kappa * learningRate * g i) bounds with
        | error err => rw [hcb] at hstep; simp at hstep
        | ok b =>
          rw [hcb] at hstep
          cases b with
          | false => simp at hstep
          | true =>
            simp only at hstep
            cases hl : lossFun (fun i => Xinit i - s.kappa * learningRate * g i) with
            | error err => rw [hl] at hstep; simp at hstep
            | ok newLoss =>
              rw [hl] at hstep
              have hno : ¬ newLoss.lt s.loss := by rw [a2]; exact hasc _ (mul_pos hk hlr) (by nlinarith) _ hl
              simp only at hstep
              split_ifs at hstep with c1 c2
              · exact absurd c1.1 hno
              · simp only [Except.ok.injEq, Sum.inr.injEq] at hstep
                rw [← hstep]
                exact ⟨rfl, rfl⟩
              · simp at hstep

/-- A function with a negative derivative decreases. -/
theorem decreases_of_deriv {L : ℝ → ℝ} {c : ℝ} (h : HasDerivAt L c 0) (hc : c < 0) : ∃ δ > 0, ∀ s, 0 < s → s ≤ δ → L s < L 0 := by
  have h1 := h.tendsto_slope_zero_right
  have h2 : ∀ᶠ t in nhdsWithin (0 : ℝ) (Set.Ioi 0), t⁻¹ • (L (0 + t) - L 0) < 0 := h1.eventually (gt_mem_nhds hc)
  rw [eventually_nhdsWithin_iff, Metric.eventually_nhds_iff] at h2
  obtain ⟨ε, hε, h3⟩ := h2
  refine ⟨ε / 2, half_pos hε, fun s hs1 hs2 => ?_⟩
  have h4 := h3 (y := s) (by rw [Real.dist_eq, sub_zero, abs_of_pos hs1]; linarith) hs1
  rw [zero_add, smul_eq_mul] at h4
  have h5 : 0 < s⁻¹ := inv_pos.2 hs1
  by_contra hcon
  push Not at hcon
  have := mul_nonneg h5.le (sub_nonneg.2 hcon)
  linarith

end generic

variable {p l e : Nat}

/-- C80: the gradient for `gamma` as a whole: the derivative of the documented score when `gamma` moves in any direction `u` is the inner
product of `u` and the gradient. -/
theorem C80_gamma_direction (it : SetIter p) (d : Data p e) (m : LModel p l e) (hA : Nonneg m.A) (hac : Acyclic m.A)
    (hB : Respects m.A m.B) (ho : ∀ k i, 0 < m.omegas k i) (hp : ∀ k i, 0 ≤ m.psis k i) (X : Fin l × Fin p → ℝ) :
    ∃ g, gammaGrad it d m X = .ok g ∧ ∀ (u : Fin l × Fin p → ℝ) (C : ℝ → Fin e → Matrix (Fin p) (Fin p) ℝ),
      (∀ t h, Entails m.B (noiseCov (fun b i => X (b, i) + t * u (b, i)) (m.psis h) (m.omegas h)) (C t h)) →
      HasDerivAt (fun t => weightedNLL d.nObs (C t) d.covs) (∑ q, u q * g q) 0 := by
  have hdet := det_one_sub_transpose hac hB
  have hmk : mkModel it m.A m.B (toGamma X) m.omegas m.psis = .ok ⟨m.A, m.B, toGamma X, m.omegas, m.psis, 1 - m.Bᵀ⟩ :=
    mkModel_eq_ok hA _ _ _ hac hB
  have hinv := invNoise_ok_of_pos (⟨m.A, m.B, toGamma X, m.omegas, m.psis, 1 - m.Bᵀ⟩ : LModel p l e) ho hp
  refine ⟨_, by unfold gammaGrad; rw [hmk]; simp only [hinv]; rfl, ?_⟩
  intro u C hC
  simp only [weightedNLL_eq]
  have h1 := param_deriv hdet (fun h => (d.nObs h : ℝ) / ∑ k, (d.nObs k : ℝ)) d.covs (toGamma X)
    (Matrix.of (fun b i => u (b, i))) (fun h => m.psis h) (fun _ _ => 0) (fun h => m.omegas h) (fun _ _ => 0)
    ho hp C (fun t h => entails_noise (hC t h) (fun b i => rfl) (fun b => by simp) (fun b => by simp))
    (fun h => ((⟨m.A, m.B, toGamma X, m.omegas, m.psis, 1 - m.Bᵀ⟩ : LModel p l e).noise h)⁻¹)
    (fun h => ∑ q : Fin l × Fin p, u q • gammaT (toGamma X) m.psis h q.1 q.2) (fun h => by rw [noise_eq]) (fun h i j => by
      simp only [gammaT, Matrix.sum_apply, Matrix.smul_apply, Matrix.add_apply, Matrix.of_apply, Matrix.transpose_apply, mul_zero, zero_mul,
        add_zero, ite_self, Fintype.sum_prod_type, smul_eq_mul]
      refine Finset.sum_congr rfl (fun b _ => ?_)
      simp only [mul_add, Finset.sum_add_distrib, mul_ite, mul_zero, Finset.sum_ite_eq, Finset.mem_univ, if_true]
      ring)
  refine h1.congr_deriv ?_
  have e1 : ∀ h, (1 - m.Bᵀ) * d.covs h * (1 - m.Bᵀ)ᵀ = nCov d m.B h := fun _ => rfl
  simp only [e1, Matrix.trace_sum, Matrix.mul_smul, Matrix.trace_smul, smul_eq_mul, ← Finset.sum_sub_distrib, Finset.mul_sum]
  rw [Finset.sum_comm]
  refine Finset.sum_congr rfl (fun q _ => ?_)
  rw [total_cast, Finset.sum_div, Finset.mul_sum]
  refine Finset.sum_congr rfl (fun h _ => ?_)
  ring

/-- Directions that keep the constraints of `_solve_for_rest`: equal in all environments for non-targets, and for all latents with
`psi_fixed`. -/
def Admissible (I : Finset (Fin p)) (psiFixed : Bool) (u : RestIx p l e → ℝ) : Prop :=
  (∀ j, j ∉ I → ∀ h h', u (.inl (h, j)) = u (.inl (h', j))) ∧ (psiFixed = true → ∀ j h h', u (.inr (h, j)) = u (.inr (h', j)))

/-- C80: the gradient for the variances as a whole: it satisfies the constraints, and the derivative of the documented score when the
variances move in any direction `u` that satisfies the constraints is the inner product of `u` and the gradient. -/
theorem C80_rest_direction (it : SetIter p) (d : Data p e) (I : Finset (Fin p)) (psiFixed : Bool) (m : LModel p l e) (hA : Nonneg m.A)
    (hac : Acyclic m.A) (hB : Respects m.A m.B) (X : RestIx p l e → ℝ) (ho : ∀ k i, 0 < X (.inl (k, i))) (hp : ∀ k i, 0 ≤ X (.inr (k, i))) :
    ∃ g, restGrad it d I psiFixed m X = .ok g ∧ Admissible I psiFixed g ∧ ∀ u, Admissible I psiFixed u →
      ∀ C : ℝ → Fin e → Matrix (Fin p) (Fin p) ℝ,
      (∀ t h, Entails m.B (noiseCov m.gamma (fun i => X (.inr (h, i)) + t * u (.inr (h, i)))
        (fun i => X (.inl (h, i)) + t * u (.inl (h, i)))) (C t h)) →
      HasDerivAt (fun t => weightedNLL d.nObs (C t) d.covs) (∑ q, u q * g q) 0 := by
  have hdet := det_one_sub_transpose hac hB
  obtain ⟨M, hM, hg⟩ := restGrad_ok it d I psiFixed m hA hac hB X ho hp
  refine ⟨_, hg, ⟨fun j hj h h' => ?_, fun hf j h h' => ?_⟩, fun u hu C hC => ?_⟩
  · simp [hj]
  · simp [hf]
  simp only [weightedNLL_eq]
  have h1 := param_deriv hdet (fun h => (d.nObs h : ℝ) / ∑ k, (d.nObs k : ℝ)) d.covs m.gamma 0 (toPsis X) (fun h i => u (.inr (h, i)))
    (toOmegas X) (fun h i => u (.inl (h, i))) ho hp C (fun t h => entails_noise (hC t h) (fun b i => by simp) (fun b => rfl) (fun b => rfl))
    M (fun h => (∑ b, u (.inr (h, b)) • Matrix.of (fun i j => m.gamma b i * m.gamma b j)) +
      ∑ b, u (.inl (h, b)) • Matrix.of (fun i j => if i = b ∧ j = b then (1 : ℝ) else 0)) hM (fun h i j => by
      simp only [Matrix.add_apply, Matrix.sum_apply, Matrix.smul_apply, Matrix.of_apply, smul_eq_mul, Matrix.zero_apply, zero_mul, mul_zero,
        zero_add, add_zero]
      congr 1
      · refine Finset.sum_congr rfl (fun b _ => ?_)
        ring
      · by_cases hij : i = j
        · subst hij
          simp
        · rw [if_neg hij]
          refine Finset.sum_eq_zero (fun b _ => ?_)
          rw [if_neg (fun hc => hij (hc.1.trans hc.2.symm)), mul_zero])
  refine h1.congr_deriv ?_
  have e1 : ∀ h, (1 - m.Bᵀ) * d.covs h * (1 - m.Bᵀ)ᵀ = nCov d m.B h := fun _ => rfl
  have e2 : ∀ h, (d.nObs h : ℝ) / (∑ k, (d.nObs k : ℝ)) * (trace (M h * ((∑ b, u (.inr (h, b)) • Matrix.of (fun i j => m.gamma b i * m.gamma b j)) +
      ∑ b, u (.inl (h, b)) • Matrix.of (fun i j => if i = b ∧ j = b then (1 : ℝ) else 0))) -
      trace (M h * nCov d m.B h * M h * ((∑ b, u (.inr (h, b)) • Matrix.of (fun i j => m.gamma b i * m.gamma b j)) +
      ∑ b, u (.inl (h, b)) • Matrix.of (fun i j => if i = b ∧ j = b then (1 : ℝ) else 0)))) =
      ∑ b, u (.inl (h, b)) * omegaGrad d m.B M h b + ∑ b, u (.inr (h, b)) * psiGrad d m.B m.gamma M h b := by
    intro h
    simp only [Matrix.mul_add, Matrix.mul_sum, Matrix.trace_add, Matrix.trace_sum, Matrix.mul_smul, Matrix.trace_smul, smul_eq_mul]
    rw [add_sub_add_comm, ← Finset.sum_sub_distrib, ← Finset.sum_sub_distrib, mul_add, Finset.mul_sum, Finset.mul_sum, add_comm]
    congr 1
    · refine Finset.sum_congr rfl (fun b _ => ?_)
      unfold omegaGrad
      rw [← trace_rankOne_sub (M h) (nCov d m.B h) (Matrix.of (fun i j => if i = b ∧ j = b then (1 : ℝ) else 0)) b (fun _ _ => rfl), total_cast]
      ring
    · refine Finset.sum_congr rfl (fun b _ => ?_)
      unfold psiGrad
      rw [total_cast]
      ring
  simp only [e1, e2]
  rw [Finset.sum_add_distrib, Fintype.sum_sum_type, Fintype.sum_prod_type, Fintype.sum_prod_type]
  have hmean : ∀ (c : ℝ) (v x : Fin e → ℝ), (∀ h, v h = c) → ∑ h, v h * x h = ∑ h, v h * meanEnv x := by
    intro c v x hv
    simp only [hv, ← Finset.mul_sum, Finset.sum_const, Finset.card_univ, Fintype.card_fin, nsmul_eq_mul, meanEnv]
    rcases Nat.eq_zero_or_pos e with he | he
    · subst he
      simp
    · have : (e : ℝ) ≠ 0 := by exact_mod_cast he.ne'
      field_simp
  congr 1
  · rw [Finset.sum_comm]
    conv_rhs => rw [Finset.sum_comm]
    refine Finset.sum_congr rfl (fun j _ => ?_)
    by_cases hj : j ∈ I
    · simp [hj]
    · simp only [Sum.elim_inl, if_neg hj]
      rcases isEmpty_or_nonempty (Fin e) with he | ⟨⟨h0⟩⟩
      · simp
      · exact hmean (u (.inl (h0, j))) _ _ (fun h => hu.1 j hj h h0)
  · rw [Finset.sum_comm]
    conv_rhs => rw [Finset.sum_comm]
    refine Finset.sum_congr rfl (fun j _ => ?_)
    cases hf : psiFixed with
    | false => simp
    | true =>
      simp only [Sum.elim_inr, if_true]
      rcases isEmpty_or_nonempty (Fin e) with he | ⟨⟨h0⟩⟩
      · simp
      · exact hmean (u (.inr (h0, j))) _ _ (fun h => hu.2 hf j h h0)

/-- C80: with one environment and a nonzero gradient, the update of `gamma` strictly improves the loss: this holds for every positive
learning rate and every sufficiently small smallest step length (`1e-50` in the code). -/
theorem C80_gamma_progress (it : SetIter p) (d : Data p 1) (m : LModel p l 1) (hA : Nonneg m.A) (hac : Acyclic m.A) (hB : Respects m.A m.B)
    (ho : ∀ k i, 0 < m.omegas k i) (hp : ∀ k i, 0 ≤ m.psis k i) (hn : d.total ≠ 0) (Xinit g : Fin l × Fin p → ℝ)
    (hg : gammaGrad it d m Xinit = .ok g) (hg0 : g ≠ 0) :
    ∃ y δ : ℝ, gammaLoss it d m Xinit = .ok (some y) ∧ 0 < δ ∧ ∀ thr lr kappaZero, 0 < lr → kappaZero ≤ δ → ∀ X L,
      gradientDescent 1 (fun _ => 0) (gammaLoss it d m) (gammaGrad it d m) Xinit thr lr none kappaZero = .ok (X, L) →
      ∃ x, L = some x ∧ x < y := by
  have hdet := det_one_sub_transpose hac hB
  obtain ⟨g', h1, h2⟩ := C80_gamma_direction it d m hA hac hB ho hp Xinit
  rw [hg] at h1
  simp only [Except.ok.injEq] at h1
  subst h1
  choose C hC using fun (t : ℝ) (h : Fin 1) =>
    entails_exists hdet (noiseCov (fun b i => Xinit (b, i) + t * (-g (b, i))) (m.psis h) (m.omegas h))
  have h3 := h2 (fun q => -g q) C hC
  have hloss : ∀ t, gammaLoss it d m (fun q => Xinit q - t * g q) = .ok (some (weightedNLL d.nObs (C t) d.covs)) := by
    intro t
    rw [gammaLoss_eq it d m hA hac hB ho hp hn _ (C t) (fun h => entails_noise (hC t h) (fun b i => by ring) (fun _ => rfl) (fun _ => rfl))]
    congr 2
    simp [weightedNLL]
  have hneg : ∑ q, -g q * g q < 0 := by
    obtain ⟨q, hq⟩ := Function.ne_iff.1 hg0
    have h4 : 0 < ∑ q, g q * g q := Finset.sum_pos' (fun q _ => mul_self_nonneg _) ⟨q, Finset.mem_univ _, mul_self_pos.2 hq⟩
    simp only [neg_mul, Finset.sum_neg_distrib]
    linarith
  obtain ⟨δ, hδ, h5⟩ := decreases_of_deriv h3 hneg
  have h0 := hloss 0
  simp only [zero_mul, sub_zero] at h0
  refine ⟨_, δ, h0, hδ, fun thr lr kz hlr hkz X L h => ?_⟩
  exact C80_strict_progress hlr Xinit X g L _ δ h0 hg hkz (fun s hs1 hs2 => ⟨by simp [InBounds?], _, hloss s, h5 s hs1 hs2⟩) h

/-- C80: with one environment and a nonzero gradient, the update of the variances strictly improves the loss, within the bounds. -/
theorem C80_rest_progress (it : SetIter p) (d : Data p 1) (I : Finset (Fin p)) (psiFixed : Bool) (psiMax : Option ℝ) (m : LModel p l 1)
    (hA : Nonneg m.A) (hac : Acyclic m.A) (hB : Respects m.A m.B) (hn : d.total ≠ 0) (Xinit g : RestIx p l 1 → ℝ)
    (hin : InBounds? 2 (Sum.elim (fun _ => 0) (fun _ => 1)) (some (restBounds psiMax)) Xinit)
    (hg : restGrad it d I psiFixed m Xinit = .ok g) (hg0 : g ≠ 0) :
    ∃ y δ : ℝ, restLoss it d m Xinit = .ok (some y) ∧ 0 < δ ∧ ∀ thr lr kappaZero, 0 < lr → kappaZero ≤ δ → ∀ X L,
      gradientDescent 2 (Sum.elim (fun _ => 0) (fun _ => 1)) (restLoss it d m) (restGrad it d I psiFixed m) Xinit thr lr
        (some (restBounds psiMax)) kappaZero = .ok (X, L) →
      ∃ x, L = some x ∧ x < y := by
  have hdet := det_one_sub_transpose hac hB
  obtain ⟨b1, b2, -⟩ := (restBounds_iff psiMax Xinit).1 hin
  obtain ⟨g', h1, hadm, h2⟩ := C80_rest_direction it d I psiFixed m hA hac hB Xinit b1 (fun k i => (b2 k i).le)
  rw [hg] at h1
  simp only [Except.ok.injEq] at h1
  subst h1
  choose C hC using fun (t : ℝ) (h : Fin 1) =>
    entails_exists hdet (noiseCov m.gamma (fun i => Xinit (.inr (h, i)) + t * (-g (.inr (h, i))))
      (fun i => Xinit (.inl (h, i)) + t * (-g (.inl (h, i)))))
  have h3 := h2 (fun q => -g q) ⟨fun j hj h h' => congrArg Neg.neg (hadm.1 j hj h h'), fun hf j h h' => congrArg Neg.neg (hadm.2 hf j h h')⟩ C hC
  have hneg : ∑ q, -g q * g q < 0 := by
    obtain ⟨q, hq⟩ := Function.ne_iff.1 hg0
    have h4 : 0 < ∑ q, g q * g q := Finset.sum_pos' (fun q _ => mul_self_nonneg _) ⟨q, Finset.mem_univ _, mul_self_pos.2 hq⟩
    simp only [neg_mul, Finset.sum_neg_distrib]
    linarith
  obtain ⟨δ, hδ, h5⟩ := decreases_of_deriv h3 hneg
  obtain ⟨K, hK, h6⟩ := exists_small (kappaZero := 1) Xinit g 1 hin one_pos
  have hloss : ∀ t, InBounds? 2 (Sum.elim (fun _ => 0) (fun _ => 1)) (some (restBounds psiMax)) (fun q => Xinit q - t * g q) →
      restLoss it d m (fun q => Xinit q - t * g q) = .ok (some (weightedNLL d.nObs (C t) d.covs)) := by
    intro t ht
    obtain ⟨c1, c2, -⟩ := (restBounds_iff psiMax _).1 ht
    rw [restLoss_eq it d m hA hac hB hn _ c1 (fun k i => (c2 k i).le) (C t)
      (fun h => entails_noise (hC t h) (fun b i => rfl) (fun _ => by ring) (fun _ => by ring))]
    congr 2
    simp [weightedNLL]
  have h0 := hloss 0 (by simpa using hin)
  simp only [zero_mul, sub_zero] at h0
  refine ⟨_, min δ K, h0, lt_min hδ hK, fun thr lr kz hlr hkz X L h => ?_⟩
  refine C80_strict_progress hlr Xinit X g L _ (min δ K) h0 hg hkz (fun s hs1 hs2 => ?_) h
  have h7 := (h6 s hs1 (le_trans hs2 (min_le_right _ _))).1
  simp only [mul_one] at h7
  exact ⟨h7, _, hloss s h7, h5 s hs1 (le_trans hs2 (min_le_left _ _))⟩

/-- C80, violation: with two environments the update of `gamma` can be stuck.  One variable and one latent, one observation per environment,
sample variances `1` and `13/5`: for every threshold and every learning rate up to `1`, `_solve_for_gamma` returns the `gamma` it was given,
although the gradient is not zero there and the loss is smaller for all slightly larger `gamma`. -/
theorem C80_stuck : ∃ (d : Data 1 2) (m : LModel 1 1 2) (g : Fin 1 × Fin 1 → ℝ),
    gammaGrad (SetIter.incr 1) d m (fun q => m.gamma q.1 q.2) = .ok g ∧ g ≠ 0 ∧
    (∀ thr lr, 0 < thr → 0 < lr → lr ≤ 1 → solveForGamma (SetIter.incr 1) d thr lr m = .ok m.gamma) ∧
    ∃ y δ : ℝ, gammaLoss (SetIter.incr 1) d m (fun q => m.gamma q.1 q.2) = .ok (some y) ∧ 0 < δ ∧ ∀ t, 0 < t → t ≤ δ →
      ∃ z, gammaLoss (SetIter.incr 1) d m (fun q => m.gamma q.1 q.2 + t) = .ok (some z) ∧ z < y := by
  have hA : Nonneg (fun _ _ => 0 : Adj 1) := fun _ _ => le_refl _
  have hac : Acyclic (fun _ _ => 0 : Adj 1) := (isDag_iff (SetIter.incr 1) hA).1 (by decide +kernel)
  let d : Data 1 2 := ⟨![!![1], !![13 / 5]], fun _ => 1⟩
  let m : LModel 1 1 2 := ⟨fun _ _ => 0, 0, fun _ _ => 1, fun _ _ => 1, fun _ _ => 1, 1⟩
  let f : ℝ → ℝ := fun V => 3 / 4 * Real.log V + 31 / 20 * V⁻¹
  have hloss : ∀ X : Fin 1 × Fin 1 → ℝ, gammaLoss (SetIter.incr 1) d m X = .ok (some (f (X (0, 0) * X (0, 0) + 1))) := by
    intro X
    rw [gammaLoss_eq (SetIter.incr 1) d m hA hac (fun _ _ _ => rfl) (fun _ _ => one_pos) (fun _ _ => zero_le_one) (by decide) X
      (fun _ => !![X (0, 0) * X (0, 0) + 1]) (fun h => by
        unfold Entails
        ext i j
        have hi : i = 0 := Subsingleton.elim _ _
        have hj : j = 0 := Subsingleton.elim _ _
        subst hi hj
        simp [noiseCov, m, Matrix.mul_apply])]
    congr 2
    simp only [Fin.sum_univ_two, d, Matrix.cons_val_zero, Matrix.cons_val_one, gaussNLL_one, f]
    simp
    ring
  have hlog : ∀ V W : ℝ, 0 < V → 0 < W → 1 - W * V⁻¹ ≤ Real.log V - Real.log W := by
    intro V W hV hW
    have h1 := Real.one_sub_inv_le_log_of_pos (div_pos hV hW)
    rw [Real.log_div hV.ne' hW.ne', inv_div] at h1
    rw [← div_eq_mul_inv]
    exact h1
  have hinv : ∀ V : ℝ, 0 < V → V⁻¹ * V = 1 := fun V hV => inv_mul_cancel₀ hV.ne'
  have hup : ∀ V : ℝ, 0 < V → V ≤ 2 → f 2 ≤ f V := by
    intro V hV hV2
    have h1 := hlog V 2 hV two_pos
    have h2 : (2 : ℝ)⁻¹ ≤ V⁻¹ := by gcongr
    simp only [f]
    norm_num at h2 ⊢
    nlinarith
  have hdown : ∀ V : ℝ, 2 < V → V ≤ 41 / 20 → f V < f 2 := by
    intro V hV hV2
    have h1 := hlog 2 V two_pos (by linarith)
    have h3 := hinv V (by linarith)
    have h4 : (0 : ℝ) < V⁻¹ := inv_pos.2 (by linarith)
    simp only [f]
    norm_num at h1 ⊢
    have h5 : V⁻¹ * (V - 2) * (31 / 40) > 3 / 8 * (V - 2) := by
      have h6 : 20 / 41 ≤ V⁻¹ := by
        rw [show (20 / 41 : ℝ) = (41 / 20)⁻¹ by norm_num]
        gcongr
      nlinarith
    nlinarith
  have hnn : ∀ V : ℝ, 1 ≤ V → 0 ≤ f V := fun V hV =>
    add_nonneg (mul_nonneg (by norm_num) (Real.log_nonneg hV)) (mul_nonneg (by norm_num) (inv_nonneg.2 (by linarith)))
  obtain ⟨g, h1, hdir⟩ := C80_gamma_direction (SetIter.incr 1) d m hA hac (fun _ _ _ => rfl) (fun _ _ => one_pos) (fun _ _ => zero_le_one)
    (fun q => m.gamma q.1 q.2)
  have hgv : g (0, 0) = 1 / 10 := by
    have h2 := hdir (fun _ => 1) (fun t _ => !![(1 + t) * (1 + t) + 1]) (fun t h => by
      unfold Entails
      ext i j
      have hi : i = 0 := Subsingleton.elim _ _
      have hj : j = 0 := Subsingleton.elim _ _
      subst hi hj
      simp [noiseCov, m, Matrix.mul_apply])
    have hv : HasDerivAt (fun t : ℝ => (1 + t) * (1 + t) + 1) (1 * (1 + 0) + (1 + 0) * 1) 0 := by
      have h3 : HasDerivAt (fun t : ℝ => 1 + t) 1 0 := (hasDerivAt_id (0 : ℝ)).const_add 1
      exact (h3.fun_mul h3).add_const 1
    have h4 := (hv.log (by norm_num)).fun_add ((hv.fun_inv (by norm_num)).mul_const (9 / 5))
    have h5 := h4.unique (h2.congr_of_eventuallyEq (Filter.Eventually.of_forall fun t => by
      simp only [weightedNLL, Fin.sum_univ_two, d, Matrix.cons_val_zero, Matrix.cons_val_one, gaussNLL_one]
      simp
      ring))
    norm_num [Fintype.sum_prod_type] at h5
    linarith
  refine ⟨d, m, g, h1, fun h0 => ?_, fun thr lr hthr hlr hlr1 => ?_, f 2, 1 / 100, ?_, by norm_num, fun t ht1 ht2 => ?_⟩
  · rw [h0] at hgv
    norm_num at hgv
  · have hret := C51_returns (nArr := 1) (blk := fun _ : Fin 1 × Fin 1 => 0) (lossFun := gammaLoss (SetIter.incr 1) d m)
      (gradFun := gammaGrad (SetIter.incr 1) d m) (threshold := thr) (learningRate := lr) (bounds := none) (kappaZero := 1 / 10 ^ 50) hthr
      (by positivity) 0 (fun X v _ hv => by
        rw [hloss X] at hv
        simp only [Except.ok.injEq, Option.some.injEq] at hv
        rw [← hv]
        exact hnn _ (by nlinarith [mul_self_nonneg (X (0, 0))])) (fun X => ⟨_, hloss X⟩) (fun X => by
        obtain ⟨g, h, -⟩ := C80_gamma_direction (SetIter.incr 1) d m hA hac (fun _ _ _ => rfl) (fun _ _ => one_pos) (fun _ _ => zero_le_one) X
        exact ⟨g, h⟩) (fun q => m.gamma q.1 q.2) (by simp [BoundsOrdered?]) (by simp [InBounds?])
    obtain ⟨⟨X, L⟩, hr⟩ := hret
    have h2 := C80_no_progress hlr (fun q => m.gamma q.1 q.2) X g L (f 2) (by rw [hloss]; simp [m]; norm_num) h1 (fun s hs1 hs2 L' hL' => by
      rw [hloss] at hL'
      simp only [Except.ok.injEq] at hL'
      rw [← hL', hgv]
      simp only [Flt.lt, not_lt, m]
      refine hup _ ?_ ?_
      · nlinarith [mul_self_nonneg (1 - s * (1 / 10))]
      · nlinarith) hr
    unfold solveForGamma
    rw [hr, h2.1]
    rfl
  · rw [hloss]
    simp [m]
    norm_num
  · refine ⟨_, hloss _, hdown _ ?_ ?_⟩
    · simp only [m]; nlinarith
    · simp only [m]; nlinarith

namespace ProgressExample

/-- One variable, one latent, one environment: the gradient for `gamma` is `1/2`, so `C80_gamma_progress` applies. -/
example : ∃ (d : Data 1 1) (m : LModel 1 1 1) (g : Fin 1 × Fin 1 → ℝ), Nonneg m.A ∧ Acyclic m.A ∧ Respects m.A m.B ∧
    (∀ k i, 0 < m.omegas k i) ∧ (∀ k i, 0 ≤ m.psis k i) ∧ d.total ≠ 0 ∧
    gammaGrad (SetIter.incr 1) d m (fun q => m.gamma q.1 q.2) = .ok g ∧ g (0, 0) = 1 / 2 := by
  have hA : Nonneg (fun _ _ => 0 : Adj 1) := fun _ _ => le_refl _
  have hac : Acyclic (fun _ _ => 0 : Adj 1) := (isDag_iff (SetIter.incr 1) hA).1 (by decide +kernel)
  let d : Data 1 1 := ⟨fun _ => !![1], fun _ => 1⟩
  let m : LModel 1 1 1 := ⟨fun _ _ => 0, 0, fun _ _ => 1, fun _ _ => 1, fun _ _ => 1, 1⟩
  obtain ⟨g, h1, hdir⟩ := C80_gamma_direction (SetIter.incr 1) d m hA hac (fun _ _ _ => rfl) (fun _ _ => one_pos) (fun _ _ => zero_le_one)
    (fun q => m.gamma q.1 q.2)
  refine ⟨d, m, g, hA, hac, fun _ _ _ => rfl, fun _ _ => one_pos, fun _ _ => zero_le_one, by decide, h1, ?_⟩
  have h2 := hdir (fun _ => 1) (fun t _ => !![(1 + t) * (1 + t) + 1]) (fun t h => by
    unfold Entails
    ext i j
    have hi : i = 0 := Subsingleton.elim _ _
    have hj : j = 0 := Subsingleton.elim _ _
    subst hi hj
    simp [noiseCov, m, Matrix.mul_apply])
  have hv : HasDerivAt (fun t : ℝ => (1 + t) * (1 + t) + 1) (1 * (1 + 0) + (1 + 0) * 1) 0 := by
    have h3 : HasDerivAt (fun t : ℝ => 1 + t) 1 0 := (hasDerivAt_id (0 : ℝ)).const_add 1
    exact (h3.fun_mul h3).add_const 1
  have h4 := (hv.log (by norm_num)).fun_add ((hv.fun_inv (by norm_num)).mul_const 1)
  have h5 := h4.unique (h2.congr_of_eventuallyEq (Filter.Eventually.of_forall fun t => by
    simp [weightedNLL, d, gaussNLL_one]))
  norm_num [Fintype.sum_prod_type] at h5
  linarith

/-- The same model: the gradient for its noise variance is `1/4`, so `C80_rest_progress` applies, with `psi_max = 2`. -/
example : ∃ (d : Data 1 1) (m : LModel 1 1 1) (X g : RestIx 1 1 1 → ℝ), Nonneg m.A ∧ Acyclic m.A ∧ Respects m.A m.B ∧ d.total ≠ 0 ∧
    InBounds? 2 (Sum.elim (fun _ => 0) (fun _ => 1)) (some (restBounds (some 2))) X ∧
    restGrad (SetIter.incr 1) d ∅ true m X = .ok g ∧ g (.inl (0, 0)) = 1 / 4 := by
  have hA : Nonneg (fun _ _ => 0 : Adj 1) := fun _ _ => le_refl _
  have hac : Acyclic (fun _ _ => 0 : Adj 1) := (isDag_iff (SetIter.incr 1) hA).1 (by decide +kernel)
  let d : Data 1 1 := ⟨fun _ => !![1], fun _ => 1⟩
  let m : LModel 1 1 1 := ⟨fun _ _ => 0, 0, fun _ _ => 1, fun _ _ => 1, fun _ _ => 1, 1⟩
  let X : RestIx 1 1 1 → ℝ := fun _ => 1
  obtain ⟨g, h1, -, hdir⟩ := C80_rest_direction (SetIter.incr 1) d ∅ true m hA hac (fun _ _ _ => rfl) X (fun _ _ => one_pos)
    (fun _ _ => zero_le_one)
  refine ⟨d, m, X, g, hA, hac, fun _ _ _ => rfl, by decide, (restBounds_iff _ _).2 ⟨fun _ _ => one_pos, fun _ _ => one_pos, fun x hx _ _ => by
    simp only [Option.some.injEq] at hx
    simp only [X, ← hx]
    norm_num⟩, h1, ?_⟩
  have h2 := hdir (Sum.elim (fun _ => 1) (fun _ => 0)) ⟨fun _ _ _ _ => rfl, fun _ _ _ _ => rfl⟩ (fun t _ => !![2 + t]) (fun t h => by
    unfold Entails
    ext i j
    have hi : i = 0 := Subsingleton.elim _ _
    have hj : j = 0 := Subsingleton.elim _ _
    subst hi hj
    simp [noiseCov, m, X, Matrix.mul_apply]
    ring)
  have hv : HasDerivAt (fun t : ℝ => 2 + t) 1 0 := (hasDerivAt_id (0 : ℝ)).const_add 2
  have h4 := (hv.log (by norm_num)).fun_add ((hv.fun_inv (by norm_num)).mul_const 1)
  have h5 := h4.unique (h2.congr_of_eventuallyEq (Filter.Eventually.of_forall fun t => by
    simp [weightedNLL, d, gaussNLL_one]))
  norm_num [Fintype.sum_prod_type] at h5
  linarith

end ProgressExample

end Verif
