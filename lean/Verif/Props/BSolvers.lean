import Verif.Proof.BObjective
import Verif.Props.Gradients
import Verif.Props.Score

/-!
# C77, C78, C79: what the solvers for `B` optimise
-/

namespace Verif

open Spec Matrix

variable {p l e : Nat}

/-! ## C77: the convex solver -/

/-- What `cvxpy` is expected to do for the problem set up by `_solve_for_B_cvx`: it returns weights supported by the graph whose
objective is at most `ε` above the objective of any other such weights. -/
def CvxOptimal (num : NumLib p e) (A : Adj p) (Ms : Fin e → Matrix (Fin p) (Fin p) ℝ) (d : Data p e) (ε : ℝ) : Prop :=
  ∃ B, num.cvx A Ms d = some B ∧ Respects A B ∧ ∀ B', Respects A B' → cvxObjective num d Ms B ≤ cvxObjective num d Ms B' + ε

theorem cvxObjective_eq {num : NumLib p e} (hs : GoodSqrt num.sqrtm) {d : Data p e} (hd : ∀ k, (d.covs k).PosSemidef)
    {Ms : Fin e → Matrix (Fin p) (Fin p) ℝ} (hM : ∀ k, (Ms k).PosSemidef) (B : Matrix (Fin p) (Fin p) ℝ) :
    cvxObjective num d Ms B = traceLoss (fun k => (d.nObs k : ℝ) / ∑ k, (d.nObs k : ℝ)) Ms d.covs B := by
  unfold cvxObjective traceLoss
  rw [total_cast, Finset.sum_div]
  refine Finset.sum_congr rfl (fun k _ => ?_)
  obtain ⟨a1, a2⟩ := hs _ (hd k)
  obtain ⟨b1, b2⟩ := hs _ (hM k)
  rw [frobenius (posSemidef_symm b1) (posSemidef_symm a1) b2 a2]
  ring

/-- The documented score of the weights `B` when the noise terms have covariances `V`, up to a constant. -/
theorem weightedNLL_traceLoss {A : Adj p} (hac : Acyclic A) (n : Fin e → Nat) (V S : Fin e → Matrix (Fin p) (Fin p) ℝ)
    {B : Matrix (Fin p) (Fin p) ℝ} (hB : Respects A B) {C : Fin e → Matrix (Fin p) (Fin p) ℝ} (hC : ∀ k, Entails B (V k) (C k)) :
    weightedNLL n C S = (∑ k, (n k : ℝ) * Real.log (V k).det) / ∑ k, (n k : ℝ) +
      traceLoss (fun k => (n k : ℝ) / ∑ k, (n k : ℝ)) (fun k => (V k)⁻¹) S B := by
  have hdet := det_one_sub_transpose hac hB
  have h1 : ∀ k, gaussNLL (C k) (S k) = Real.log (V k).det + trace ((V k)⁻¹ * ((1 - Bᵀ) * S k * (1 - Bᵀ)ᵀ)) := by
    intro k
    rw [term_eq_gaussNLL hdet, ← entails_eq hdet (hC k)]
  unfold weightedNLL traceLoss
  simp only [h1, mul_add, Finset.sum_add_distrib, add_div]
  congr 1
  rw [Finset.sum_div]
  refine Finset.sum_congr rfl (fun k _ => ?_)
  ring

/-- C77: when `cvxpy` solves its problem up to `ε`, `_solve_for_B_cvx` returns weights that respect the graph and whose documented
score (sample-size weighted negative log-likelihood of the entailed covariances `C`) is at most `ε` above that of any other weights
`B'` that respect the graph, the other parameters of the model being kept. -/
theorem C77_cvx_optimal (num : NumLib p e) (hs : GoodSqrt num.sqrtm) (d : Data p e) (hd : ∀ k, (d.covs k).PosSemidef)
    (m : LModel p l e) (hac : Acyclic m.A) (ho : ∀ k i, 0 < m.omegas k i) (hp : ∀ k i, 0 ≤ m.psis k i) (ε : ℝ)
    (hopt : CvxOptimal num m.A (fun k => (noiseCov m.gamma (m.psis k) (m.omegas k))⁻¹) d ε) :
    ∃ B, solveForBCvx num d m = .ok B ∧ Respects m.A B ∧ ∀ B' C C', Respects m.A B' →
      (∀ k, Entails B (noiseCov m.gamma (m.psis k) (m.omegas k)) (C k)) →
      (∀ k, Entails B' (noiseCov m.gamma (m.psis k) (m.omegas k)) (C' k)) →
      weightedNLL d.nObs C d.covs ≤ weightedNLL d.nObs C' d.covs + ε := by
  simp only [← noise_eq] at hopt
  obtain ⟨B, h1, h2, h3⟩ := hopt
  have hpd : ∀ k, (m.noise k).PosDef := fun k => noise_posDef m k (ho k) (hp k)
  refine ⟨B, ?_, h2, ?_⟩
  · unfold solveForBCvx
    rw [invNoise_ok_of_pos m ho hp]
    simp only [h1]
    rw [if_neg]
    · congr 1
      ext i j
      rw [Matrix.of_apply]
      split_ifs with hij
      · exact (h2 i j hij).symm
      · rfl
    · push Not
      intro i j hij
      rw [h2 i j hij, abs_zero]
      positivity
  · intro B' C C' hB' hC hC'
    rw [weightedNLL_traceLoss hac d.nObs _ d.covs h2 hC, weightedNLL_traceLoss hac d.nObs _ d.covs hB' hC']
    have h4 := h3 B' hB'
    rw [cvxObjective_eq hs hd (fun k => (hpd k).inv.posSemidef), cvxObjective_eq hs hd (fun k => (hpd k).inv.posSemidef)] at h4
    simp only [noise_eq] at h4
    linarith

/-! ## C78: gradient descent for `B` -/

/-- The derivative of the objective along a direction. -/
theorem quad_deriv {n : Type} [Fintype n] {N : Matrix n n ℝ} (hN : Nᵀ = N) (v u : n → ℝ) :
    HasDerivAt (fun t : ℝ => (v + t • u) ⬝ᵥ (N *ᵥ (v + t • u))) (2 * (u ⬝ᵥ (N *ᵥ v))) 0 := by
  have h1 : (fun t : ℝ => (v + t • u) ⬝ᵥ (N *ᵥ (v + t • u))) =
      fun t => v ⬝ᵥ (N *ᵥ v) + t * (2 * (u ⬝ᵥ (N *ᵥ v))) + t * t * (u ⬝ᵥ (N *ᵥ u)) := by
    funext t
    rw [quad_expand hN v (v + t • u), add_sub_cancel_left, smul_dotProduct, Matrix.mulVec_smul, smul_dotProduct, dotProduct_smul]
    simp only [smul_eq_mul]
    ring
  rw [h1]
  have hid := hasDerivAt_id (0 : ℝ)
  have h2 := ((hid.mul_const (2 * (u ⬝ᵥ (N *ᵥ v)))).const_add (v ⬝ᵥ (N *ᵥ v))).fun_add ((hid.fun_mul hid).mul_const (u ⬝ᵥ (N *ᵥ u)))
  refine h2.congr_deriv ?_
  simp

theorem unflattenB_add_single (v : Fin (p * p) → ℝ) (i j : Fin p) (t : ℝ) :
    unflattenB (v + t • (-Pi.single (finProdFinEquiv (i, j)) 1 : Fin (p * p) → ℝ)) = unflattenB v + t • Matrix.single i j (1 : ℝ) := by
  ext a b
  rw [unflattenB_apply, Matrix.add_apply, unflattenB_apply, Matrix.smul_apply, Pi.add_apply, Pi.smul_apply, Pi.neg_apply, Pi.single_apply,
    Matrix.single_apply]
  have h : (finProdFinEquiv (a, b) = finProdFinEquiv (i, j)) ↔ (i = a ∧ j = b) := by
    rw [finProdFinEquiv.apply_eq_iff_eq, Prod.mk.injEq]
    constructor <;> rintro ⟨rfl, rfl⟩ <;> exact ⟨rfl, rfl⟩
  by_cases hab : i = a ∧ j = b
  · rw [if_pos (h.2 hab), if_pos hab]
    simp only [smul_eq_mul]
    ring
  · rw [if_neg (fun hc => hab (h.1 hc)), if_neg hab]
    simp

/-- C78: a step of the gradient descent for `B`, seen on the matrices: the weights of the edges of the graph move against the partial
derivatives of the sum of the trace terms of all environments (not weighted by sample size), the other entries become 0.  In
particular the flattening is right. -/
theorem C78_step (num : NumLib p e) (hs : GoodSqrt num.sqrtm) (d : Data p e) (hd : ∀ k, (d.covs k).PosSemidef)
    (A : Adj p) (Ms : Fin e → Matrix (Fin p) (Fin p) ℝ) (hM : ∀ k, (Ms k).PosSemidef) (v : Fin (p * p) → ℝ) (lr : ℝ) (i j : Fin p) :
    ∃ g : ℝ, HasDerivAt (fun t : ℝ => traceLoss (fun _ => 1) Ms d.covs (unflattenB v + t • Matrix.single i j (1 : ℝ))) g 0 ∧
      unflattenB (maskVec A (v - lr • (nMatrix num d Ms *ᵥ v))) i j =
        if i ≠ j ∧ A i j ≠ 0 then unflattenB v i j - lr / 2 * g else 0 := by
  refine ⟨-2 * (nMatrix num d Ms *ᵥ v) (finProdFinEquiv (i, j)), ?_, ?_⟩
  · have h1 := quad_deriv (nMatrix_symm num d Ms) v (-Pi.single (finProdFinEquiv (i, j)) 1)
    simp only [nMatrix_quad hs hd hM, unflattenB_add_single] at h1
    rw [neg_dotProduct, single_one_dotProduct] at h1
    have e1 : -2 * (nMatrix num d Ms *ᵥ v) (finProdFinEquiv (i, j)) = 2 * -(nMatrix num d Ms *ᵥ v) (finProdFinEquiv (i, j)) := by ring
    rw [e1]
    exact h1
  · rw [unflattenB_apply, unflattenB_apply, maskVec_pair]
    by_cases hij : i = j
    · simp [hij]
    · by_cases hA : A i j = 0
      · simp [hij, hA]
      · rw [if_neg hij, if_neg hij, if_neg hA, if_pos ⟨hij, hA⟩, Pi.sub_apply, Pi.smul_apply, smul_eq_mul]
        ring

theorem gradStep_finite {num : NumLib p e} {A : Adj p} {N : Matrix (Fin (p * p)) (Fin (p * p)) ℝ} {Binit : Fin (p * p) → ℝ}
    (hfin : ∀ x, num.finite x = true) (hp : p ≠ 0) (s : GradState p) :
    ((∀ k, |s.B k - s.Bnew k| ≤ 1 / 10 ^ 10) → gradStep num A N Binit s = .ok (.inr s)) ∧
    ((∃ k, (1 : ℝ) / 10 ^ 10 < |s.B k - s.Bnew k|) → s.lr ≠ 0 → gradStep num A N Binit s =
      .ok (.inl { B := s.Bnew, Bnew := maskVec A (s.Bnew - s.lr • (N *ᵥ s.Bnew)), lr := s.lr })) := by
  unfold gradStep
  rw [if_neg hp]
  constructor
  · intro h
    rw [if_pos]
    push Not
    exact h
  · intro h h1
    rw [if_neg (not_not.2 h)]
    simp only
    rw [if_neg h1, if_neg]
    rw [hfin]
    simp

/-- The state in which the loop of `_solve_for_B_grad` ends. -/
theorem gradLoop_exit {num : NumLib p e} {A : Adj p} {N : Matrix (Fin (p * p)) (Fin (p * p)) ℝ} {Binit : Fin (p * p) → ℝ}
    (hu : ∃ k, (1 : ℝ) / 10 ^ 10 < |Binit k|) (hu1 : ∃ i : Fin p, (1 : ℝ) / 10 ^ 10 < |Binit (finProdFinEquiv (i, i)) - 1|)
    (hfin : ∀ x, num.finite x = true) {s : GradState p}
    (h : runLoop (gradStep num A N Binit) { B := 0, Bnew := Binit, lr := 5 / 1000 } = .ok s) :
    s.lr = 5 / 1000 ∧ (∃ w, s.B = maskVec A w) ∧ s.Bnew = maskVec A (s.B - s.lr • (N *ᵥ s.B)) ∧
      ∀ k, |s.B k - s.Bnew k| ≤ 1 / 10 ^ 10 := by
  have hp : p ≠ 0 := by
    rintro rfl
    exact hu1.choose.elim0
  refine runLoop_ok (fun s : GradState p => s.lr = 5 / 1000 ∧ ((s.B = 0 ∧ s.Bnew = Binit) ∨ (s.B = Binit ∧ ∃ w, s.Bnew = maskVec A w) ∨
    ((∃ w, s.B = maskVec A w) ∧ s.Bnew = maskVec A (s.B - s.lr • (N *ᵥ s.B)))))
    (fun s => s.lr = 5 / 1000 ∧ (∃ w, s.B = maskVec A w) ∧ s.Bnew = maskVec A (s.B - s.lr • (N *ᵥ s.B)) ∧
      ∀ k, |s.B k - s.Bnew k| ≤ 1 / 10 ^ 10) ?_ ?_ ⟨rfl, Or.inl ⟨rfl, rfl⟩⟩ h
  · rintro s s' ⟨h1, h2⟩ hstep
    have hlr : s.lr ≠ 0 := by rw [h1]; norm_num
    by_cases c : ∃ k, (1 : ℝ) / 10 ^ 10 < |s.B k - s.Bnew k|
    · rw [(gradStep_finite hfin hp s).2 c hlr] at hstep
      simp only [Except.ok.injEq, Sum.inl.injEq] at hstep
      subst hstep
      refine ⟨h1, ?_⟩
      rcases h2 with ⟨-, h2⟩ | ⟨-, h2⟩ | ⟨-, h2⟩
      · exact Or.inr (Or.inl ⟨h2, _, rfl⟩)
      · exact Or.inr (Or.inr ⟨h2, rfl⟩)
      · exact Or.inr (Or.inr ⟨⟨_, h2⟩, rfl⟩)
    · push Not at c
      rw [(gradStep_finite hfin hp s).1 c] at hstep
      simp at hstep
  · rintro s r ⟨h1, h2⟩ hstep
    have hlr : s.lr ≠ 0 := by rw [h1]; norm_num
    by_cases c : ∃ k, (1 : ℝ) / 10 ^ 10 < |s.B k - s.Bnew k|
    · rw [(gradStep_finite hfin hp s).2 c hlr] at hstep
      simp at hstep
    · push Not at c
      rw [(gradStep_finite hfin hp s).1 c] at hstep
      simp only [Except.ok.injEq, Sum.inr.injEq] at hstep
      subst hstep
      refine ⟨h1, ?_⟩
      rcases h2 with ⟨h2, h3⟩ | ⟨h2, w, h3⟩ | ⟨h2, h3⟩
      · exfalso
        obtain ⟨k, hk⟩ := hu
        have := c k
        rw [h2, h3, Pi.zero_apply, zero_sub, abs_neg] at this
        exact absurd hk (not_lt.2 this)
      · exfalso
        obtain ⟨i, hi⟩ := hu1
        have := c (finProdFinEquiv (i, i))
        rw [h2, h3, maskVec_pair, if_pos rfl] at this
        exact absurd hi (not_lt.2 this)
      · exact ⟨h2, h3, c⟩

/-- A vector with ones on the diagonal and zeros outside of the graph. -/
theorem masked_vecM {A : Adj p} (hac : Acyclic A) {B : Matrix (Fin p) (Fin p) ℝ} (hB : Respects A B) :
    maskVec A (vecM (1 - Bᵀ)) = vecM (1 - Bᵀ) := by
  funext k
  rw [← pair_div_mod k, maskVec_pair, vecM_pair, Matrix.sub_apply, Matrix.transpose_apply, Matrix.one_apply]
  have hloop : ∀ i, A i i = 0 := hac.noLoops
  by_cases hij : k.divNat = k.modNat
  · rw [if_pos hij, if_pos hij.symm, hij, hB _ _ (hloop _), sub_zero]
  · rw [if_neg hij, if_neg (Ne.symm hij)]
    split_ifs with hA
    · rw [hB _ _ hA, sub_zero]
    · rfl

/-- C78: when no overflow occurs, what `_solve_for_B_grad` returns is within `1e-10` (entrywise) of weights `B₀` that minimise the sum of the
trace terms over the weights that respect the graph, up to `4e-8` times the distance to the weights compared with. -/
theorem C78_grad_solution (it : SetIter p) (num : NumLib p e) (hs : GoodSqrt num.sqrtm) (hfin : ∀ x, num.finite x = true) (d : Data p e)
    (hd : ∀ k, (d.covs k).PosSemidef) (m : LModel p l e) (hac : Acyclic m.A) (ho : ∀ k i, 0 < m.omegas k i)
    (hp : ∀ k i, 0 ≤ m.psis k i) (Binit Badapt : Fin (p * p) → ℝ) (hu : ∃ k, (1 : ℝ) / 10 ^ 10 < |Binit k|)
    (hu1 : ∃ i : Fin p, (1 : ℝ) / 10 ^ 10 < |Binit (finProdFinEquiv (i, i)) - 1|) (B : Matrix (Fin p) (Fin p) ℝ)
    (h : solveForBGrad it num d Binit Badapt m = .ok B) :
    ∃ B₀, Respects m.A B₀ ∧ (∀ i j, |B i j - B₀ i j| ≤ 1 / 10 ^ 10) ∧ ∀ B', Respects m.A B' →
      traceLoss (fun _ => 1) (fun k => (noiseCov m.gamma (m.psis k) (m.omegas k))⁻¹) d.covs B₀ ≤
        traceLoss (fun _ => 1) (fun k => (noiseCov m.gamma (m.psis k) (m.omegas k))⁻¹) d.covs B' +
          4 / 10 ^ 8 * ∑ i, ∑ j, |B' i j - B₀ i j| := by
  have hpd : ∀ k, (m.noise k).PosDef := fun k => noise_posDef m k (ho k) (hp k)
  have hM : ∀ k, ((m.noise k)⁻¹).PosSemidef := fun k => (hpd k).inv.posSemidef
  unfold solveForBGrad at h
  rw [invNoise_ok_of_pos m ho hp] at h
  simp only at h
  generalize hN : nMatrix num d (fun k => (m.noise k)⁻¹) = N at h
  cases hr : runLoop (gradStep num m.A N Binit) { B := 0, Bnew := Binit, lr := 5 / 1000 } with
  | error err => rw [hr] at h; cases h
  | ok s =>
    rw [hr] at h
    simp only at h
    obtain ⟨hlr, ⟨w, hw⟩, hnew, hdiff⟩ := gradLoop_exit hu hu1 hfin hr
    rw [if_pos ⟨hfin _, by rw [hlr]; norm_num⟩] at h
    cases h
    refine ⟨unflattenB s.B, ?_, ?_, ?_⟩
    · rw [hw]; exact unflattenB_maskVec _ _
    · intro i j
      rw [unflattenB_apply, unflattenB_apply, sub_sub_sub_cancel_left]
      exact hdiff _
    · intro B' hB'
      simp only [← noise_eq]
      have hq : ∀ v, v ⬝ᵥ (N *ᵥ v) = traceLoss (fun _ => 1) (fun k => (m.noise k)⁻¹) d.covs (unflattenB v) := by
        rw [← hN]
        exact nMatrix_quad hs hd hM
      have hsymm : Nᵀ = N := by rw [← hN]; exact nMatrix_symm _ _ _
      have hpos : ∀ v, 0 ≤ v ⬝ᵥ (N *ᵥ v) := by rw [← hN]; exact nMatrix_nonneg _ _ _
      have hB2 := hq (vecM (1 - B'ᵀ))
      rw [unflattenB_vecM] at hB2
      rw [← hB2, ← hq, quad_expand hsymm s.B (vecM (1 - B'ᵀ))]
      have h3 := hpos (vecM (1 - B'ᵀ) - s.B)
      have h4 : -(2 / 10 ^ 8 * ∑ i, ∑ j, |B' i j - unflattenB s.B i j|) ≤ (vecM (1 - B'ᵀ) - s.B) ⬝ᵥ (N *ᵥ s.B) := by
        rw [neg_le, ← sub_nonneg, sub_neg_eq_add]
        rw [dot_pairs, Finset.mul_sum, ← Finset.sum_add_distrib]
        refine Finset.sum_nonneg (fun i _ => ?_)
        rw [Finset.mul_sum, ← Finset.sum_add_distrib]
        refine Finset.sum_nonneg (fun j _ => ?_)
        have hk : vecM (1 - B'ᵀ) (finProdFinEquiv (i, j)) = (if i = j then 1 else 0) - B' i j := by
          rw [vecM_pair, Matrix.sub_apply, Matrix.transpose_apply, Matrix.one_apply]
          simp only [eq_comm]
        rw [Pi.sub_apply, hk, unflattenB_apply, hw, maskVec_pair]
        have hloop : m.A i i = 0 := hac.noLoops i
        by_cases hij : i = j
        · subst hij
          simp [hB' i i hloop]
        · by_cases hA : m.A i j = 0
          · simp [hij, hA, hB' i j hA]
          · have h5 := hdiff (finProdFinEquiv (i, j))
            rw [hnew, maskVec_pair, if_neg hij, if_neg hA, Pi.sub_apply, sub_sub_cancel, Pi.smul_apply, smul_eq_mul, hlr, abs_mul,
              abs_of_pos (by norm_num : (0 : ℝ) < 5 / 1000)] at h5
            rw [hw] at h5
            rw [if_neg hij, if_neg hij, if_neg hA]
            generalize (N *ᵥ maskVec m.A w) (finProdFinEquiv (i, j)) = x at h5 ⊢
            generalize w (finProdFinEquiv (i, j)) = y
            have h6 : |x| ≤ 2 / 10 ^ 8 := by
              have : (1 : ℝ) / 10 ^ 10 = 5 / 1000 * (2 / 10 ^ 8) := by norm_num
              rw [this] at h5
              exact le_of_mul_le_mul_left h5 (by norm_num)
            have h7 : |(0 - B' i j - y) * x| ≤ |B' i j - (0 - y)| * (2 / 10 ^ 8) := by
              rw [abs_mul]
              have : |0 - B' i j - y| = |B' i j - (0 - y)| := by
                rw [← abs_neg]
                congr 1
                ring
              rw [this]
              exact mul_le_mul_of_nonneg_left h6 (abs_nonneg _)
            have h8 := neg_abs_le ((0 - B' i j - y) * x)
            linarith
      linarith

/-- A step of the gradient descent from a masked vector to another one decreases the objective. -/
theorem grad_decrease {A : Adj p} {N : Matrix (Fin (p * p)) (Fin (p * p)) ℝ} (hN : Nᵀ = N) {c : ℝ} (hc : c < 400)
    (hq : ∀ v : Fin (p * p) → ℝ, v ⬝ᵥ (N *ᵥ v) ≤ c * (v ⬝ᵥ v)) (w : Fin (p * p) → ℝ) {v v' : Fin (p * p) → ℝ} (hv : v = maskVec A w)
    (hv' : v' = maskVec A (v - (5 / 1000 : ℝ) • (N *ᵥ v))) (k : Fin (p * p)) (hk : (1 : ℝ) / 10 ^ 10 < |v k - v' k|) :
    v' ⬝ᵥ (N *ᵥ v') + (400 - c) / 10 ^ 20 ≤ v ⬝ᵥ (N *ᵥ v) := by
  rw [quad_expand hN v v']
  have h1 : (v' - v) ⬝ᵥ (N *ᵥ v) = -(200 * ((v' - v) ⬝ᵥ (v' - v))) := by
    unfold dotProduct
    rw [Finset.mul_sum, ← Finset.sum_neg_distrib]
    refine Finset.sum_congr rfl (fun r _ => ?_)
    rw [← pair_div_mod r, Pi.sub_apply]
    by_cases hij : r.divNat = r.modNat
    · rw [hv', hv, maskVec_pair, maskVec_pair, if_pos hij, if_pos hij]
      simp
    · by_cases hA : A r.divNat r.modNat = 0
      · rw [hv', hv, maskVec_pair, maskVec_pair, if_neg hij, if_neg hij, if_pos hA, if_pos hA]
        simp
      · have e1 : v' (finProdFinEquiv (r.divNat, r.modNat)) =
            v (finProdFinEquiv (r.divNat, r.modNat)) - 5 / 1000 * (N *ᵥ v) (finProdFinEquiv (r.divNat, r.modNat)) := by
          rw [hv', maskVec_pair, if_neg hij, if_neg hA]
          simp
        rw [e1]
        ring
  have h2 := hq (v' - v)
  have h3 : 1 / 10 ^ 20 ≤ (v' - v) ⬝ᵥ (v' - v) := by
    unfold dotProduct
    have h4 : (v' - v) k * (v' - v) k ≤ ∑ i, (v' - v) i * (v' - v) i :=
      Finset.single_le_sum (f := fun i => (v' - v) i * (v' - v) i) (fun i _ => mul_self_nonneg _) (Finset.mem_univ k)
    refine le_trans ?_ h4
    rw [Pi.sub_apply, ← abs_mul_abs_self, abs_sub_comm]
    have h5 : (1 : ℝ) / 10 ^ 20 = 1 / 10 ^ 10 * (1 / 10 ^ 10) := by norm_num
    rw [h5]
    exact mul_le_mul hk.le hk.le (by positivity) (abs_nonneg _)
  have h6 : (400 - c) * (1 / 10 ^ 20) ≤ (400 - c) * ((v' - v) ⬝ᵥ (v' - v)) := mul_le_mul_of_nonneg_left h3 (by linarith)
  rw [h1]
  have h7 : (400 - c) / 10 ^ 20 = (400 - c) * (1 / 10 ^ 20) := by ring
  rw [h7]
  linarith

/-- C78: `_solve_for_B_grad` returns (in exact arithmetic) when the curvature of the objective is below 400, i.e. when
`Σ tr(M_k X S_k Xᵀ) ≤ c ‖X‖²` for some `c < 400`. -/
theorem C78_grad_returns (it : SetIter p) (num : NumLib p e) (hs : GoodSqrt num.sqrtm) (hfin : ∀ x, num.finite x = true) (d : Data p e)
    (hd : ∀ k, (d.covs k).PosSemidef) (hp0 : p ≠ 0) (m : LModel p l e) (ho : ∀ k i, 0 < m.omegas k i)
    (hp : ∀ k i, 0 ≤ m.psis k i) (Binit Badapt : Fin (p * p) → ℝ) (c : ℝ) (hc : c < 400)
    (hX : ∀ X : Matrix (Fin p) (Fin p) ℝ, ∑ k, trace ((noiseCov m.gamma (m.psis k) (m.omegas k))⁻¹ * (X * d.covs k * Xᵀ)) ≤
      c * ∑ i, ∑ j, X i j ^ 2) :
    ∃ B, solveForBGrad it num d Binit Badapt m = .ok B := by
  have hpd : ∀ k, (m.noise k).PosDef := fun k => noise_posDef m k (ho k) (hp k)
  have hM : ∀ k, ((m.noise k)⁻¹).PosSemidef := fun k => (hpd k).inv.posSemidef
  unfold solveForBGrad
  rw [invNoise_ok_of_pos m ho hp]
  simp only
  have hq : ∀ v : Fin (p * p) → ℝ, v ⬝ᵥ (nMatrix num d (fun k => (m.noise k)⁻¹) *ᵥ v) ≤ c * (v ⬝ᵥ v) := by
    intro v
    have h1 := hX (1 - (unflattenB v)ᵀ)
    have h2 := nMatrix_quad hs hd hM v
    rw [h2]
    have h3 : v ⬝ᵥ v = ∑ i, ∑ j, (1 - (unflattenB v)ᵀ) i j ^ 2 := by
      conv_lhs => rw [← vecM_unflattenB v, dot_vecM]
      simp only [sq]
    rw [h3]
    unfold traceLoss
    simp only [one_mul, noise_eq]
    exact h1
  have hsymm := nMatrix_symm num d (fun k => (m.noise k)⁻¹)
  have hpos := nMatrix_nonneg num d (fun k => (m.noise k)⁻¹)
  generalize nMatrix num d (fun k => (m.noise k)⁻¹) = N at hq hsymm hpos
  let P : GradState p → Prop := fun s => s.lr = 5 / 1000
  let good : GradState p → Prop := fun s => (∃ w, s.B = maskVec m.A w) ∧ s.Bnew = maskVec m.A (s.B - s.lr • (N *ᵥ s.B))
  let half : GradState p → Prop := fun s => ∃ w, s.Bnew = maskVec m.A w
  classical
  let meas : GradState p → ℕ × ℕ := fun s =>
    if good s then (0, ⌊(s.B ⬝ᵥ (N *ᵥ s.B)) / ((400 - c) / 10 ^ 20)⌋₊) else if half s then (1, 0) else (2, 0)
  have hdpos : 0 < (400 - c) / 10 ^ 20 := div_pos (by linarith) (by norm_num)
  have hstep : ∀ s s', P s → gradStep num m.A N Binit s = .ok (.inl s') →
      P s' ∧ Prod.Lex (· < ·) (· < ·) (meas s') (meas s) := by
    intro s s' h1 h2
    have hlr : s.lr ≠ 0 := by rw [show s.lr = 5 / 1000 from h1]; norm_num
    by_cases hcont : ∃ k, (1 : ℝ) / 10 ^ 10 < |s.B k - s.Bnew k|
    · rw [(gradStep_finite hfin hp0 s).2 hcont hlr] at h2
      simp only [Except.ok.injEq, Sum.inl.injEq] at h2
      refine ⟨by rw [← h2]; exact h1, ?_⟩
      by_cases hg : good s
      · have hg' : good s' := by
          rw [← h2]
          exact ⟨⟨_, hg.2⟩, rfl⟩
        simp only [meas]
        rw [if_pos hg', if_pos hg]
        refine Prod.Lex.right _ ?_
        obtain ⟨⟨w, hw⟩, h4⟩ := hg
        rw [show s.lr = 5 / 1000 from h1] at h4
        obtain ⟨k, hk⟩ := hcont
        have h5 := grad_decrease hsymm hc hq w hw h4 k hk
        rw [← h2]
        simp only
        have h6 : (s.Bnew ⬝ᵥ (N *ᵥ s.Bnew)) / ((400 - c) / 10 ^ 20) + 1 ≤ (s.B ⬝ᵥ (N *ᵥ s.B)) / ((400 - c) / 10 ^ 20) := by
          rw [div_add_one hdpos.ne']
          exact div_le_div_of_nonneg_right h5 hdpos.le
        have h7 := Nat.floor_le_floor h6
        rw [Nat.floor_add_one (div_nonneg (hpos _) hdpos.le)] at h7
        omega
      · by_cases hh : half s
        · have hg' : good s' := by
            rw [← h2]
            exact ⟨hh, rfl⟩
          simp only [meas]
          rw [if_pos hg', if_neg hg, if_pos hh]
          exact Prod.Lex.left _ _ (by norm_num)
        · have hh' : half s' := by
            rw [← h2]
            exact ⟨_, rfl⟩
          simp only [meas]
          rw [if_neg hg, if_neg hh]
          split_ifs
          · exact Prod.Lex.left _ _ (by norm_num)
          · exact Prod.Lex.left _ _ (by norm_num)
    · push Not at hcont
      rw [(gradStep_finite hfin hp0 s).1 hcont] at h2
      simp at h2
  have hwf : WellFounded (Prod.Lex (α := ℕ) (β := ℕ) (· < ·) (· < ·)) := (Prod.lex ⟨_, Nat.lt_wfRel.wf⟩ ⟨_, Nat.lt_wfRel.wf⟩).wf
  have hstop := stops_of_wf hwf P meas hstep (s := { B := 0, Bnew := Binit, lr := 5 / 1000 }) rfl
  obtain ⟨n, r, hn⟩ := hstop
  have hr := runLoop_of_iter hn
  rw [hr]
  cases r with
  | error err =>
    exfalso
    refine runLoop_error (step := gradStep num m.A N Binit) P (fun _ => False) (fun s s' h1 h2 => (hstep s s' h1 h2).1) ?_
      (s := { B := 0, Bnew := Binit, lr := 5 / 1000 }) rfl ⟨n, _, hn⟩ hr
    intro s err h1 h2
    have hlr : s.lr ≠ 0 := by rw [show s.lr = 5 / 1000 from h1]; norm_num
    by_cases hcont : ∃ k, (1 : ℝ) / 10 ^ 10 < |s.B k - s.Bnew k|
    · rw [(gradStep_finite hfin hp0 s).2 hcont hlr] at h2
      simp at h2
    · push Not at hcont
      rw [(gradStep_finite hfin hp0 s).1 hcont] at h2
      simp at h2
  | ok s =>
    simp only
    rw [if_pos]
    · exact ⟨_, rfl⟩
    · refine ⟨hfin _, ?_⟩
      have := runLoop_ok P (fun s => s.lr = 5 / 1000) (fun s s' h1 h2 => (hstep s s' h1 h2).1) ?_ rfl hr
      · rw [this]; norm_num
      · intro s r h1 h2
        have hlr : s.lr ≠ 0 := by rw [show s.lr = 5 / 1000 from h1]; norm_num
        by_cases hcont : ∃ k, (1 : ℝ) / 10 ^ 10 < |s.B k - s.Bnew k|
        · rw [(gradStep_finite hfin hp0 s).2 hcont hlr] at h2
          simp at h2
        · push Not at hcont
          rw [(gradStep_finite hfin hp0 s).1 hcont] at h2
          simp only [Except.ok.injEq, Sum.inr.injEq] at h2
          rw [← h2]
          exact h1

/-- C78, equal sample sizes: then the weights `B₀` near the result also minimise the documented score, up to the same kind of error. -/
theorem C78_equal_sizes (it : SetIter p) (num : NumLib p e) (hs : GoodSqrt num.sqrtm) (hfin : ∀ x, num.finite x = true) (d : Data p e)
    (hd : ∀ k, (d.covs k).PosSemidef) (n : ℕ) (hn : 0 < n) (he : 0 < e) (hsize : ∀ k, d.nObs k = n) (m : LModel p l e)
    (hac : Acyclic m.A) (ho : ∀ k i, 0 < m.omegas k i)
    (hp : ∀ k i, 0 ≤ m.psis k i) (Binit Badapt : Fin (p * p) → ℝ) (hu : ∃ k, (1 : ℝ) / 10 ^ 10 < |Binit k|)
    (hu1 : ∃ i : Fin p, (1 : ℝ) / 10 ^ 10 < |Binit (finProdFinEquiv (i, i)) - 1|) (B : Matrix (Fin p) (Fin p) ℝ)
    (h : solveForBGrad it num d Binit Badapt m = .ok B) :
    ∃ B₀, Respects m.A B₀ ∧ (∀ i j, |B i j - B₀ i j| ≤ 1 / 10 ^ 10) ∧ ∀ B' C₀ C', Respects m.A B' →
      (∀ k, Entails B₀ (noiseCov m.gamma (m.psis k) (m.omegas k)) (C₀ k)) →
      (∀ k, Entails B' (noiseCov m.gamma (m.psis k) (m.omegas k)) (C' k)) →
      weightedNLL d.nObs C₀ d.covs ≤ weightedNLL d.nObs C' d.covs + 4 / 10 ^ 8 * ∑ i, ∑ j, |B' i j - B₀ i j| := by
  obtain ⟨B₀, h1, h2, h3⟩ := C78_grad_solution it num hs hfin d hd m hac ho hp Binit Badapt hu hu1 B h
  refine ⟨B₀, h1, h2, fun B' C₀ C' hB' hC₀ hC' => ?_⟩
  rw [weightedNLL_traceLoss hac d.nObs _ d.covs h1 hC₀, weightedNLL_traceLoss hac d.nObs _ d.covs hB' hC']
  have h4 := h3 B' hB'
  have hw : ∀ M B, traceLoss (fun k => (d.nObs k : ℝ) / ∑ k, (d.nObs k : ℝ)) M d.covs B =
      1 / e * traceLoss (fun _ => 1) M d.covs B := by
    intro M B
    unfold traceLoss
    rw [Finset.mul_sum]
    refine Finset.sum_congr rfl (fun k _ => ?_)
    simp only [hsize, Finset.sum_const, Finset.card_univ, Fintype.card_fin, nsmul_eq_mul]
    have : (n : ℝ) / ((e : ℝ) * n) = 1 / e := by
      have : (n : ℝ) ≠ 0 := by exact_mod_cast hn.ne'
      have : (e : ℝ) ≠ 0 := by exact_mod_cast he.ne'
      field_simp
    rw [this]
    ring
  rw [hw, hw]
  have he1 : (1 : ℝ) / e ≤ 1 := by
    rw [div_le_one (by exact_mod_cast he)]
    exact_mod_cast he
  have he0 : (0 : ℝ) ≤ 1 / e := by positivity
  have hsum : 0 ≤ ∑ i, ∑ j, |B' i j - B₀ i j| := Finset.sum_nonneg (fun i _ => Finset.sum_nonneg (fun j _ => abs_nonneg _))
  have h5 := mul_le_mul_of_nonneg_left h4 he0
  have h6 : 1 / (e : ℝ) * (4 / 10 ^ 8 * ∑ i, ∑ j, |B' i j - B₀ i j|) ≤ 4 / 10 ^ 8 * ∑ i, ∑ j, |B' i j - B₀ i j| := by
    have : 0 ≤ 4 / 10 ^ 8 * ∑ i, ∑ j, |B' i j - B₀ i j| := by positivity
    nlinarith
  rw [mul_add] at h5
  linarith

/-! ### Two variables, two environments -/

namespace BSolversExample

/-- `0 → 1`. -/
def graph : Adj 2 := ![![0, 1], ![0, 0]]

/-- Uncorrelated variables in the first environment, correlation 1/2 in the second one. -/
noncomputable def covs : Fin 2 → Matrix (Fin 2) (Fin 2) ℝ := ![1, !![1, 1 / 2; 1 / 2, 1]]

/-- A model without latents and with unit variances. -/
noncomputable def model (b : ℝ) : LModel 2 0 2 := ⟨graph, !![0, b; 0, 0], 0, fun _ _ => 1, 0, 1 - !![0, b; 0, 0]ᵀ⟩

theorem nonneg : Nonneg graph := by
  intro i j
  fin_cases i <;> fin_cases j <;> decide

theorem acyclic : Acyclic graph := (isDag_iff (SetIter.incr 2) nonneg).1 (by decide +kernel)

theorem respects_iff (B : Matrix (Fin 2) (Fin 2) ℝ) : Respects graph B ↔ ∃ b, B = !![0, b; 0, 0] := by
  constructor
  · intro h
    refine ⟨B 0 1, ?_⟩
    ext i j
    fin_cases i <;> fin_cases j
    · exact h 0 0 rfl
    · rfl
    · exact h 1 0 rfl
    · exact h 1 1 rfl
  · rintro ⟨b, rfl⟩ i j hij
    fin_cases i <;> fin_cases j
    · rfl
    · exact absurd hij (by decide)
    · rfl
    · rfl

theorem covs_posSemidef (k : Fin 2) : (covs k).PosSemidef := by
  refine Matrix.PosSemidef.of_dotProduct_mulVec_nonneg ?_ ?_
  · rw [Matrix.IsHermitian, Matrix.conjTranspose_eq_transpose_of_trivial]
    ext i j
    fin_cases k <;> fin_cases i <;> fin_cases j <;> simp [covs]
  · intro x
    fin_cases k
    · simp [covs, dotProduct, Fin.sum_univ_two]
      nlinarith [mul_self_nonneg (x 0), mul_self_nonneg (x 1)]
    · simp [covs, Matrix.mulVec, dotProduct, Fin.sum_univ_two]
      nlinarith [mul_self_nonneg (x 0 + x 1), mul_self_nonneg (x 0), mul_self_nonneg (x 1)]

theorem noise_one (b : ℝ) (k : Fin 2) : noiseCov (model b).gamma ((model b).psis k) ((model b).omegas k) = 1 := by
  ext i j
  simp [noiseCov, model, Matrix.one_apply]

theorem traceLoss_eq (w : Fin 2 → ℝ) (b : ℝ) :
    traceLoss w (fun _ => (1 : Matrix (Fin 2) (Fin 2) ℝ)⁻¹) covs !![0, b; 0, 0] = w 0 * (2 + b ^ 2) + w 1 * (2 + b ^ 2 - b) := by
  unfold traceLoss
  rw [Fin.sum_univ_two]
  simp [covs, Matrix.trace, Matrix.mul_apply, Fin.sum_univ_two]
  ring

theorem weighted_eq (n : Fin 2 → ℕ) (b : ℝ) (C : Fin 2 → Matrix (Fin 2) (Fin 2) ℝ) (hC : ∀ k, Entails !![0, b; 0, 0] 1 (C k)) :
    weightedNLL n C covs = (n 0 : ℝ) / (n 0 + n 1) * (2 + b ^ 2) + (n 1 : ℝ) / (n 0 + n 1) * (2 + b ^ 2 - b) := by
  rw [weightedNLL_traceLoss acyclic n (fun _ => 1) covs ((respects_iff _).2 ⟨b, rfl⟩) hC, traceLoss_eq, Fin.sum_univ_two, Fin.sum_univ_two]
  simp

theorem objective_eq {num : NumLib 2 2} (hs : GoodSqrt num.sqrtm) (n : Fin 2 → ℕ) (b : ℝ) :
    cvxObjective num ⟨covs, n⟩ (fun _ => 1⁻¹) !![0, b; 0, 0] =
      (n 0 : ℝ) / (n 0 + n 1) * (2 + b ^ 2) + (n 1 : ℝ) / (n 0 + n 1) * (2 + b ^ 2 - b) := by
  rw [cvxObjective_eq hs covs_posSemidef (fun _ => by rw [inv_one]; exact Matrix.PosSemidef.one), traceLoss_eq, Fin.sum_univ_two]

/-- A concrete case for `C77_cvx_optimal`: sample sizes 1 and 3, and a solver that finds the minimiser 3/8. -/
example : ∃ num : NumLib 2 2, GoodSqrt num.sqrtm ∧ CvxOptimal num (model 0).A
      (fun k => (noiseCov (model 0).gamma ((model 0).psis k) ((model 0).omegas k))⁻¹) ⟨covs, ![1, 3]⟩ 0 ∧
    solveForBCvx num ⟨covs, ![1, 3]⟩ (model 0) = .ok !![0, 3 / 8; 0, 0] := by
  obtain ⟨f, hf⟩ := goodSqrt_exists (p := 2)
  let num : NumLib 2 2 := ⟨f, fun _ => true, fun x => x / 2, fun _ _ _ => some !![0, 3 / 8; 0, 0]⟩
  have hopt : CvxOptimal num (model 0).A (fun k => (noiseCov (model 0).gamma ((model 0).psis k) ((model 0).omegas k))⁻¹) ⟨covs, ![1, 3]⟩ 0 := by
    simp only [noise_one]
    refine ⟨_, rfl, (respects_iff _).2 ⟨_, rfl⟩, ?_⟩
    intro B' hB'
    obtain ⟨b, rfl⟩ := (respects_iff _).1 hB'
    rw [objective_eq hf, objective_eq hf]
    simp only [Matrix.cons_val_zero, Matrix.cons_val_one]
    norm_num
    nlinarith [mul_self_nonneg (b - 3 / 8)]
  refine ⟨num, hf, hopt, ?_⟩
  obtain ⟨B, h1, h2, -⟩ := C77_cvx_optimal num hf ⟨covs, ![1, 3]⟩ covs_posSemidef (model 0) acyclic (fun _ _ => one_pos) (fun _ i => i.elim0) 0 hopt
  rw [h1]
  unfold solveForBCvx at h1
  rw [invNoise_ok_of_pos _ (fun _ _ => one_pos) (fun _ i => i.elim0)] at h1
  simp only [num] at h1
  split_ifs at h1
  cases h1
  congr 1
  ext i j
  fin_cases i <;> fin_cases j <;> simp [model, graph]

end BSolversExample

open BSolversExample in
/-- C77, boundary: the documented score is what is minimised, not the score that the code computes.  Two environments with one
observation each: whatever the solver, if it is exact, other weights have a smaller computed score than those returned. -/
theorem C77_not_computed_score (it : SetIter 2) (num : NumLib 2 2) (hs : GoodSqrt num.sqrtm)
    (hopt : CvxOptimal num graph (fun _ => 1⁻¹) ⟨covs, ![1, 1]⟩ 0) :
    ∃ B B' m₁ m₂ s₁ s₂, solveForBCvx num ⟨covs, ![1, 1]⟩ (model 0) = .ok B ∧
      mkModel it graph B (model 0).gamma (model 0).omegas (model 0).psis = .ok m₁ ∧
      mkModel it graph B' (model 0).gamma (model 0).omegas (model 0).psis = .ok m₂ ∧
      m₁.score (List.ofFn covs) (List.ofFn ![1, 1]) = .ok (some s₁) ∧
      m₂.score (List.ofFn covs) (List.ofFn ![1, 1]) = .ok (some s₂) ∧ s₂ < s₁ := by
  have hopt' : CvxOptimal num (model 0).A (fun k => (noiseCov (model 0).gamma ((model 0).psis k) ((model 0).omegas k))⁻¹) ⟨covs, ![1, 1]⟩ 0 := by
    simp only [noise_one]
    exact hopt
  obtain ⟨B, h1, h2, h3⟩ := C77_cvx_optimal num hs ⟨covs, ![1, 1]⟩ covs_posSemidef (model 0) acyclic (fun _ _ => one_pos) (fun _ i => i.elim0) 0
    hopt'
  obtain ⟨b, rfl⟩ := (respects_iff _).1 h2
  have hb : b = 1 / 4 := by
    have hd : ∀ b : ℝ, (1 - !![0, b; 0, 0]ᵀ : Matrix (Fin 2) (Fin 2) ℝ).det = 1 := fun b =>
      det_one_sub_transpose acyclic ((respects_iff _).2 ⟨b, rfl⟩)
    obtain ⟨C, hC⟩ := entails_exists (hd b) 1
    obtain ⟨C', hC'⟩ := entails_exists (hd (1 / 4)) 1
    have h4 := h3 _ (fun _ => C) (fun _ => C') ((respects_iff _).2 ⟨1 / 4, rfl⟩) (fun k => by rw [noise_one]; exact hC)
      (fun k => by rw [noise_one]; exact hC')
    rw [weighted_eq _ _ _ (fun _ => hC), weighted_eq _ _ _ (fun _ => hC')] at h4
    simp only [Matrix.cons_val_zero, Matrix.cons_val_one] at h4
    norm_num at h4
    have h5 : (b - 1 / 4) * (b - 1 / 4) = 0 := le_antisymm (by nlinarith) (mul_self_nonneg _)
    have h6 := mul_self_eq_zero.1 h5
    linarith
  subst hb
  have hmk : ∀ b : ℝ, mkModel it graph !![0, b; 0, 0] (model 0).gamma (model 0).omegas (model 0).psis =
      .ok (model b) := fun b => mkModel_eq_ok nonneg _ _ _ acyclic ((respects_iff _).2 ⟨b, rfl⟩)
  have hscore : ∀ b : ℝ, (model b).score (List.ofFn covs) (List.ofFn ![1, 1]) =
      .ok (some ((2 + b ^ 2) / 4 + (2 + b ^ 2 - b) / 2)) := by
    intro b
    have hdet : (1 - (model b).Bᵀ).det = 1 := det_one_sub_transpose acyclic ((respects_iff _).2 ⟨b, rfl⟩)
    have h4 := C37_actual_score it graph nonneg _ _ _ _ (model b) (hmk b) (fun _ _ => one_pos) (fun _ i => i.elim0) ![1, 1] (by simp) covs _
      (covariances_ok (model b) hdet)
    rw [h4]
    congr 2
    have h5 : ∀ k S, gaussNLL ((1 - (model b).Bᵀ)⁻¹ * (model b).noise k * ((1 - (model b).Bᵀ)⁻¹)ᵀ) S =
        trace ((1 - (model b).Bᵀ) * S * (1 - (model b).Bᵀ)ᵀ) := by
      intro k S
      rw [← term_eq_gaussNLL hdet, noise_eq, noise_one]
      simp
    simp only [h5, Fin.sum_univ_two]
    simp [model, covs, Matrix.trace, Matrix.mul_apply, Fin.sum_univ_two]
    ring
  refine ⟨_, !![0, 1 / 3; 0, 0], _, _, _, _, h1, hmk _, hmk _, hscore _, hscore _, ?_⟩
  norm_num

open BSolversExample in
/-- C78, violation: the sample sizes are not taken into account by the gradient solver.  With sample sizes 1 and 3, whatever the random
start, other weights that respect the graph have a smaller documented score than those returned. -/
theorem C78_unweighted_violated (it : SetIter 2) (num : NumLib 2 2) (hs : GoodSqrt num.sqrtm) (hfin : ∀ x, num.finite x = true)
    (Binit Badapt : Fin (2 * 2) → ℝ) (hu : ∃ k, (1 : ℝ) / 10 ^ 10 < |Binit k|)
    (hu1 : ∃ i : Fin 2, (1 : ℝ) / 10 ^ 10 < |Binit (finProdFinEquiv (i, i)) - 1|) :
    ∃ B B', solveForBGrad it num ⟨covs, ![1, 3]⟩ Binit Badapt (model 0) = .ok B ∧ Respects graph B ∧ Respects graph B' ∧
      ∀ C C', (∀ k : Fin 2, Entails B 1 (C k)) → (∀ k : Fin 2, Entails B' 1 (C' k)) → weightedNLL ![1, 3] C' covs < weightedNLL ![1, 3] C covs := by
  obtain ⟨B, hB⟩ := C78_grad_returns it num hs hfin ⟨covs, ![1, 3]⟩ covs_posSemidef (by norm_num) (model 0) (fun _ _ => one_pos)
    (fun _ i => i.elim0) Binit Badapt 4 (by norm_num) (by
      intro X
      simp only [noise_one, Fin.sum_univ_two]
      simp [covs, Matrix.trace, Matrix.mul_apply, Fin.sum_univ_two]
      nlinarith [mul_self_nonneg (X 0 0 - X 0 1), mul_self_nonneg (X 1 0 - X 1 1), mul_self_nonneg (X 0 0), mul_self_nonneg (X 0 1),
        mul_self_nonneg (X 1 0), mul_self_nonneg (X 1 1)])
  have hresp : Respects graph B := solveForBGrad_respects hu hB
  obtain ⟨B₀, h1, h2, h3⟩ := C78_grad_solution it num hs hfin ⟨covs, ![1, 3]⟩ covs_posSemidef (model 0) acyclic (fun _ _ => one_pos)
    (fun _ i => i.elim0) Binit Badapt hu hu1 B hB
  obtain ⟨b, rfl⟩ := (respects_iff _).1 hresp
  obtain ⟨b₀, rfl⟩ := (respects_iff _).1 h1
  have h4 := h3 !![0, 1 / 4; 0, 0] ((respects_iff _).2 ⟨_, rfl⟩)
  simp only [noise_one, traceLoss_eq] at h4
  simp [Fin.sum_univ_two] at h4
  have h5 := h2 0 1
  simp at h5
  have hb : b < 3 / 8 := by
    by_contra hc
    push Not at hc
    have h6 := (abs_le.1 h5).2
    have h7 : (1 : ℝ) / 3 < b₀ := by
      norm_num at h6
      linarith
    rw [abs_of_neg (by norm_num; linarith)] at h4
    norm_num at h4
    nlinarith
  refine ⟨_, !![0, 3 / 8; 0, 0], hB, hresp, (respects_iff _).2 ⟨_, rfl⟩, fun C C' hC hC' => ?_⟩
  rw [weighted_eq _ _ _ hC, weighted_eq _ _ _ hC']
  simp only [Matrix.cons_val_zero, Matrix.cons_val_one]
  norm_num
  nlinarith [mul_pos (sub_pos.2 hb) (sub_pos.2 hb)]

/-! ## C79: adaptive gradient descent for `B` -/

/-- The computed score as a function of `B`. -/
theorem score_traceLoss (it : SetIter p) (d : Data p e) (m : LModel p l e) (hA : Nonneg m.A) (hac : Acyclic m.A)
    (ho : ∀ k i, 0 < m.omegas k i) (hp : ∀ k i, 0 ≤ m.psis k i) (hn : ∑ k, d.nObs k ≠ 0) (B : Matrix (Fin p) (Fin p) ℝ)
    (hB : Respects m.A B) :
    ∃ m', mkModel it m.A B m.gamma m.omegas m.psis = .ok m' ∧ m'.score (List.ofFn d.covs) (List.ofFn d.nObs) =
      .ok (some ((∑ k, (d.nObs k : ℝ) * Real.log (m.noise k).det / (∑ k, (d.nObs k : ℝ)) ^ (e - k.val)) +
        traceLoss (fun k => (d.nObs k : ℝ) / (∑ k, (d.nObs k : ℝ)) ^ (e - k.val)) (fun k => (m.noise k)⁻¹) d.covs B)) := by
  have hmk := mkModel_eq_ok (it := it) hA m.gamma m.omegas m.psis hac hB
  have hdet := det_one_sub_transpose hac hB
  refine ⟨_, hmk, ?_⟩
  have h1 := C37_actual_score it m.A hA B m.gamma m.omegas m.psis _ hmk ho hp d.nObs hn d.covs _ (covariances_ok _ hdet)
  rw [h1]
  congr 2
  unfold traceLoss
  rw [← Finset.sum_add_distrib]
  refine Finset.sum_congr rfl (fun k _ => ?_)
  rw [← term_eq_gaussNLL hdet]
  simp only [LModel.noise]
  ring

theorem likelihood_traceLoss (it : SetIter p) (d : Data p e) (m : LModel p l e) (hA : Nonneg m.A) (hac : Acyclic m.A)
    (ho : ∀ k i, 0 < m.omegas k i) (hp : ∀ k i, 0 ≤ m.psis k i) (hn : ∑ k, d.nObs k ≠ 0) (v : Fin (p * p) → ℝ)
    (hB : Respects m.A (unflattenB v)) :
    likelihood it d m v = .ok (some ((∑ k, (d.nObs k : ℝ) * Real.log (m.noise k).det / (∑ k, (d.nObs k : ℝ)) ^ (e - k.val)) +
        traceLoss (fun k => (d.nObs k : ℝ) / (∑ k, (d.nObs k : ℝ)) ^ (e - k.val)) (fun k => (m.noise k)⁻¹) d.covs (unflattenB v))) := by
  obtain ⟨m', h1, h2⟩ := score_traceLoss it d m hA hac ho hp hn _ hB
  unfold likelihood
  rw [h1]
  exact h2

/-- C79: the weights returned by `_solve_for_B_adaptive` respect the graph, and the score computed for them is not worse than the score
computed for the random weights from which the search starts (the draw without the entries outside of the graph). -/
theorem C79_adaptive_not_worse (it : SetIter p) (num : NumLib p e) (d : Data p e) (m : LModel p l e) (hA : Nonneg m.A)
    (hac : Acyclic m.A) (ho : ∀ k i, 0 < m.omegas k i) (hp : ∀ k i, 0 ≤ m.psis k i) (hn : ∑ k, d.nObs k ≠ 0) (Binit : Fin (p * p) → ℝ)
    (B : Matrix (Fin p) (Fin p) ℝ) (h : solveForBAdaptive it num d Binit m = .ok B) :
    ∃ m₀ m₁ s₀ s₁, mkModel it m.A (Matrix.of fun i j => if m.A i j = 0 then 0 else -Binit (finProdFinEquiv (i, j)))
        m.gamma m.omegas m.psis = .ok m₀ ∧ mkModel it m.A B m.gamma m.omegas m.psis = .ok m₁ ∧
      m₀.score (List.ofFn d.covs) (List.ofFn d.nObs) = .ok (some s₀) ∧
      m₁.score (List.ofFn d.covs) (List.ofFn d.nObs) = .ok (some s₁) ∧ s₁ ≤ s₀ := by
  have hresp := solveForBAdaptive_respects h
  have hstart : unflattenB (maskVec m.A Binit) = Matrix.of fun i j => if m.A i j = 0 then 0 else -Binit (finProdFinEquiv (i, j)) := by
    ext i j
    rw [unflattenB_apply, maskVec_pair, Matrix.of_apply]
    by_cases hij : i = j
    · subst hij
      rw [if_pos rfl, if_pos rfl, if_pos (hac.noLoops i), sub_self]
    · rw [if_neg hij, if_neg hij]
      split_ifs <;> simp
  obtain ⟨F, hF⟩ : ∃ F : Matrix (Fin p) (Fin p) ℝ → ℝ, ∀ B, Respects m.A B → ∃ m', mkModel it m.A B m.gamma m.omegas m.psis = .ok m' ∧
      m'.score (List.ofFn d.covs) (List.ofFn d.nObs) = .ok (some (F B)) := ⟨_, score_traceLoss it d m hA hac ho hp hn⟩
  obtain ⟨m₀, a1, a2⟩ := hF _ (unflattenB_maskVec m.A Binit)
  obtain ⟨m₁, b1, b2⟩ := hF _ hresp
  rw [hstart] at a1
  refine ⟨m₀, m₁, _, _, a1, b1, a2, b2, ?_⟩
  have hlik : ∀ w, likelihood it d m (maskVec m.A w) = .ok (some (F (unflattenB (maskVec m.A w)))) := by
    intro w
    obtain ⟨m', c1, c2⟩ := hF _ (unflattenB_maskVec m.A w)
    unfold likelihood
    rw [c1]
    exact c2
  unfold solveForBAdaptive at h
  rw [invNoise_ok_of_pos m ho hp] at h
  simp only [hlik Binit] at h
  generalize nMatrix num d (fun k => (m.noise k)⁻¹) = N at h
  cases hr : runLoop (adaptStep it d m N) { B := maskVec m.A Binit, score := some (F (unflattenB (maskVec m.A Binit))), lr := 1 } with
  | error err => rw [hr] at h; cases h
  | ok v =>
    rw [hr] at h
    simp only at h
    split_ifs at h
    cases h
    refine runLoop_ok (fun s : AdaptState p => ∃ w, s.B = maskVec m.A w ∧ s.score = some (F (unflattenB (maskVec m.A w))) ∧
      F (unflattenB (maskVec m.A w)) ≤ F (unflattenB (maskVec m.A Binit)))
      (fun v => F (unflattenB v) ≤ F (unflattenB (maskVec m.A Binit))) ?_ ?_ ⟨Binit, rfl, rfl, le_refl _⟩ hr
    · rintro s s' ⟨w, h1, h2, h4⟩ hstep
      unfold adaptStep at hstep
      simp only [hlik] at hstep
      by_cases hlt : s.score.lt (some (F (unflattenB (maskVec m.A (s.B - s.lr • (N *ᵥ s.B))))))
      · rw [if_pos hlt] at hstep
        simp only [Except.ok.injEq, Sum.inl.injEq] at hstep
        rw [← hstep]
        exact ⟨w, h1, h2, h4⟩
      · rw [if_neg hlt] at hstep
        split_ifs at hstep <;> simp only [Except.ok.injEq, Sum.inl.injEq, reduceCtorEq] at hstep
        rw [← hstep]
        refine ⟨_, rfl, rfl, ?_⟩
        rw [h2] at hlt
        unfold Flt.lt at hlt
        simp only [not_lt] at hlt
        exact le_trans hlt h4
    · rintro s r ⟨w, h1, h2, h4⟩ hstep
      unfold adaptStep at hstep
      simp only [hlik] at hstep
      split_ifs at hstep <;> simp only [Except.ok.injEq, Sum.inr.injEq, reduceCtorEq] at hstep
      rw [← hstep, h1]
      exact h4

namespace BSolversExample

theorem noise_eq_one (k : Fin 2) : (model 0).noise k = 1 := by
  rw [noise_eq, noise_one]

theorem traceLoss_identity (w : Fin 2 → ℝ) (b : ℝ) :
    traceLoss w (fun _ => (1 : Matrix (Fin 2) (Fin 2) ℝ)⁻¹) (fun _ => 1) !![0, b; 0, 0] = w 0 * (2 + b ^ 2) + w 1 * (2 + b ^ 2) := by
  unfold traceLoss
  rw [Fin.sum_univ_two]
  simp [Matrix.trace, Matrix.mul_apply, Fin.sum_univ_two]
  ring

/-- A step with learning rate 1 changes the sign of the weight. -/
theorem step_sign {num : NumLib 2 2} (hs : GoodSqrt num.sqrtm) (n : Fin 2 → ℕ) (b : ℝ) :
    maskVec graph (vecM (1 - !![0, b; 0, 0]ᵀ) - (1 : ℝ) • (nMatrix num ⟨fun _ => 1, n⟩ (fun k => ((model 0).noise k)⁻¹) *ᵥ
      vecM (1 - !![0, b; 0, 0]ᵀ))) = vecM (1 - !![0, -b; 0, 0]ᵀ) := by
  rw [nMatrix_mulVec hs (fun _ => Matrix.PosSemidef.one) (fun k => by rw [noise_eq_one, inv_one]; exact Matrix.PosSemidef.one)]
  simp only [noise_eq_one, inv_one, Matrix.one_mul, Matrix.mul_one, one_smul, vecM_sub, Fin.sum_univ_two]
  funext k
  rw [← pair_div_mod k, maskVec_pair, vecM_pair, vecM_pair]
  generalize k.divNat = i
  generalize k.modNat = j
  fin_cases i <;> fin_cases j <;> simp [graph]

end BSolversExample

open BSolversExample in
/-- C79, violation: `_solve_for_B_adaptive` can run forever.  Two environments in which both sample covariances are the identity, unit
noise variances and the graph `0 → 1`: the first step reflects the weight at its optimum 0, which leaves the score as it is, so the
learning rate is never reduced and the weight changes its sign forever, for every random start that is not almost 0. -/
theorem C79_adaptive_diverges (it : SetIter 2) (num : NumLib 2 2) (hs : GoodSqrt num.sqrtm) (n : Fin 2 → ℕ) (hn : ∑ k, n k ≠ 0)
    (Binit : Fin (2 * 2) → ℝ) (hu : 1 / (2 * 10 ^ 5) ≤ |Binit (finProdFinEquiv (0, 1))|) :
    solveForBAdaptive it num ⟨fun _ => 1, n⟩ Binit (model 0) = .error .diverge := by
  obtain ⟨F, hF, hsym⟩ : ∃ F : ℝ → ℝ, (∀ b, likelihood it ⟨fun _ => 1, n⟩ (model 0) (vecM (1 - !![0, b; 0, 0]ᵀ)) = .ok (some (F b))) ∧
      ∀ b, F (-b) = F b := by
    let w : Fin 2 → ℝ := fun k => (n k : ℝ) / (∑ k, (n k : ℝ)) ^ (2 - k.val)
    let c : ℝ := ∑ k : Fin 2, (n k : ℝ) * Real.log ((model 0).noise k).det / (∑ k, (n k : ℝ)) ^ (2 - k.val)
    refine ⟨fun b => c + traceLoss w (fun k => ((model 0).noise k)⁻¹) (fun _ => 1) !![0, b; 0, 0], fun b => ?_, fun b => ?_⟩
    · have h1 := likelihood_traceLoss it ⟨fun _ => 1, n⟩ (model 0) nonneg acyclic (fun _ _ => one_pos) (fun _ i => i.elim0) hn
        (vecM (1 - !![0, b; 0, 0]ᵀ)) (by rw [unflattenB_vecM]; exact (respects_iff _).2 ⟨b, rfl⟩)
      rw [unflattenB_vecM] at h1
      exact h1
    · simp only [noise_eq_one, traceLoss_identity, neg_sq]
  have hstart : maskVec graph Binit = vecM (1 - !![0, -Binit (finProdFinEquiv (0, 1)); 0, 0]ᵀ) := by
    funext k
    rw [← pair_div_mod k, maskVec_pair, vecM_pair]
    generalize k.divNat = i
    generalize k.modNat = j
    fin_cases i <;> fin_cases j <;> simp [graph]
  unfold solveForBAdaptive
  rw [invNoise_ok_of_pos _ (fun _ _ => one_pos) (fun _ i => i.elim0)]
  simp only
  rw [show (model 0).A = graph from rfl, hstart, hF]
  simp only
  rw [runLoop_diverges (fun s : AdaptState 2 => s.lr = 1 ∧ ∃ b : ℝ, 1 / (2 * 10 ^ 5) ≤ |b| ∧ s.B = vecM (1 - !![0, b; 0, 0]ᵀ) ∧ s.score = some (F b))]
  · rintro ⟨B, sc, lr⟩ ⟨h1, b, h2, h3, h4⟩
    simp only at h1 h3 h4
    subst h1 h3 h4
    refine ⟨{ B := vecM (1 - !![0, -b; 0, 0]ᵀ), score := some (F (-b)), lr := 1 }, ?_, rfl, -b, by rwa [abs_neg], rfl, rfl⟩
    unfold adaptStep
    simp only
    rw [show (model 0).A = graph from rfl, step_sign hs, hF]
    simp only [hsym]
    rw [if_neg, if_neg (by norm_num), if_neg]
    · push Not
      refine ⟨finProdFinEquiv (0, 1), ?_⟩
      rw [vecM_pair, vecM_pair]
      have e1 : (1 - !![0, b; 0, 0]ᵀ : Matrix (Fin 2) (Fin 2) ℝ) 1 0 - (1 - !![0, -b; 0, 0]ᵀ : Matrix (Fin 2) (Fin 2) ℝ) 1 0 = -(2 * b) := by
        simp
        ring
      rw [e1, abs_neg, abs_mul, abs_two]
      norm_num at h2 ⊢
      linarith
    · simp [Flt.lt, hsym]
  · exact ⟨rfl, _, by rwa [abs_neg], rfl, rfl⟩

open BSolversExample in
/-- A concrete case for `C79_adaptive_not_worse`: with sample variances 1/2 the first step finds the optimum and the search ends. -/
example (it : SetIter 2) (num : NumLib 2 2) (hs : GoodSqrt num.sqrtm) (hfin : ∀ x, num.finite x = true) (Binit : Fin (2 * 2) → ℝ)
    (hu : 1 / 10 ^ 5 ≤ |Binit (finProdFinEquiv (0, 1))|) :
    solveForBAdaptive it num ⟨fun _ => !![1 / 2, 0; 0, 1 / 2], ![1, 1]⟩ Binit (model 0) = .ok 0 := by
  have hpsd : (!![1 / 2, 0; 0, 1 / 2] : Matrix (Fin 2) (Fin 2) ℝ).PosSemidef := by
    have : (!![1 / 2, 0; 0, 1 / 2] : Matrix (Fin 2) (Fin 2) ℝ) = Matrix.diagonal (fun _ => 1 / 2) := by
      ext i j
      fin_cases i <;> fin_cases j <;> simp
    rw [this]
    exact Matrix.PosSemidef.diagonal (fun _ => by norm_num)
  have hstep : ∀ b : ℝ, maskVec graph (vecM (1 - !![0, b; 0, 0]ᵀ) - (1 : ℝ) • (nMatrix num ⟨fun _ => !![1 / 2, 0; 0, 1 / 2], ![1, 1]⟩
      (fun k => ((model 0).noise k)⁻¹) *ᵥ vecM (1 - !![0, b; 0, 0]ᵀ))) = vecM (1 - !![0, 0; 0, 0]ᵀ) := by
    intro b
    rw [nMatrix_mulVec hs (fun _ => hpsd) (fun k => by rw [noise_eq_one, inv_one]; exact Matrix.PosSemidef.one)]
    simp only [noise_eq_one, inv_one, Matrix.one_mul, one_smul, vecM_sub, Fin.sum_univ_two]
    funext k
    rw [← pair_div_mod k, maskVec_pair, vecM_pair, vecM_pair]
    generalize k.divNat = i
    generalize k.modNat = j
    fin_cases i <;> fin_cases j <;> simp [graph, Matrix.mul_apply, Fin.sum_univ_two]
    ring
  obtain ⟨F, hF, hmin⟩ : ∃ F : ℝ → ℝ, (∀ b, likelihood it ⟨fun _ => !![1 / 2, 0; 0, 1 / 2], ![1, 1]⟩ (model 0) (vecM (1 - !![0, b; 0, 0]ᵀ)) =
      .ok (some (F b))) ∧ ∀ b, F 0 ≤ F b := by
    let w : Fin 2 → ℝ := fun k => ((![1, 1] : Fin 2 → ℕ) k : ℝ) / (∑ k, ((![1, 1] : Fin 2 → ℕ) k : ℝ)) ^ (2 - k.val)
    let c : ℝ := ∑ k : Fin 2, ((![1, 1] : Fin 2 → ℕ) k : ℝ) * Real.log ((model 0).noise k).det /
      (∑ k, ((![1, 1] : Fin 2 → ℕ) k : ℝ)) ^ (2 - k.val)
    refine ⟨fun b => c + traceLoss w (fun k => ((model 0).noise k)⁻¹) (fun _ => !![1 / 2, 0; 0, 1 / 2]) !![0, b; 0, 0], fun b => ?_, fun b => ?_⟩
    · have h1 := likelihood_traceLoss it ⟨fun _ => !![1 / 2, 0; 0, 1 / 2], ![1, 1]⟩ (model 0) nonneg acyclic (fun _ _ => one_pos)
        (fun _ i => i.elim0) (by simp) (vecM (1 - !![0, b; 0, 0]ᵀ)) (by rw [unflattenB_vecM]; exact (respects_iff _).2 ⟨b, rfl⟩)
      rw [unflattenB_vecM] at h1
      exact h1
    · have h1 : ∀ b : ℝ, traceLoss w (fun k => ((model 0).noise k)⁻¹) (fun _ => !![1 / 2, 0; 0, 1 / 2]) !![0, b; 0, 0] =
          (w 0 + w 1) * (1 + b ^ 2 / 2) := by
        intro b
        simp only [noise_eq_one]
        unfold traceLoss
        rw [Fin.sum_univ_two]
        simp [Matrix.trace, Matrix.mul_apply, Fin.sum_univ_two]
        ring
      simp only [h1]
      have h2 : 0 ≤ w 0 + w 1 := by positivity
      nlinarith [mul_nonneg h2 (sq_nonneg b)]
  have hstart : maskVec graph Binit = vecM (1 - !![0, -Binit (finProdFinEquiv (0, 1)); 0, 0]ᵀ) := by
    funext k
    rw [← pair_div_mod k, maskVec_pair, vecM_pair]
    generalize k.divNat = i
    generalize k.modNat = j
    fin_cases i <;> fin_cases j <;> simp [graph]
  unfold solveForBAdaptive
  rw [invNoise_ok_of_pos _ (fun _ _ => one_pos) (fun _ i => i.elim0)]
  simp only
  rw [show (model 0).A = graph from rfl, hstart, hF]
  simp only
  rw [runLoop_unfold]
  have h1 : ∀ b : ℝ, 1 / 10 ^ 5 ≤ |b| → adaptStep it ⟨fun _ => !![1 / 2, 0; 0, 1 / 2], ![1, 1]⟩ (model 0)
      (nMatrix num ⟨fun _ => !![1 / 2, 0; 0, 1 / 2], ![1, 1]⟩ (fun k => ((model 0).noise k)⁻¹))
      { B := vecM (1 - !![0, b; 0, 0]ᵀ), score := some (F b), lr := 1 } =
      .ok (.inl { B := vecM (1 - !![0, 0; 0, 0]ᵀ), score := some (F 0), lr := 1 }) := by
    intro b hb
    unfold adaptStep
    simp only
    rw [show (model 0).A = graph from rfl, hstep, hF]
    simp only
    rw [if_neg, if_neg (by norm_num), if_neg]
    · push Not
      refine ⟨finProdFinEquiv (0, 1), ?_⟩
      rw [vecM_pair, vecM_pair]
      simpa using hb
    · simp [Flt.lt, hmin]
  rw [h1 _ (by rwa [abs_neg])]
  simp only
  rw [runLoop_unfold]
  have h2 : adaptStep it ⟨fun _ => !![1 / 2, 0; 0, 1 / 2], ![1, 1]⟩ (model 0)
      (nMatrix num ⟨fun _ => !![1 / 2, 0; 0, 1 / 2], ![1, 1]⟩ (fun k => ((model 0).noise k)⁻¹))
      { B := vecM (1 - !![0, 0; 0, 0]ᵀ), score := some (F 0), lr := 1 } = .ok (.inr (vecM (1 - !![0, 0; 0, 0]ᵀ))) := by
    unfold adaptStep
    simp only
    rw [show (model 0).A = graph from rfl, hstep, hF]
    simp only
    rw [if_neg, if_neg (by norm_num), if_pos]
    · simp
    · simp [Flt.lt]
  rw [h2]
  simp only
  rw [hfin, unflattenB_vecM]
  simp only [Bool.not_true, Bool.false_eq_true, if_false]
  congr 1
  ext i j
  fin_cases i <;> fin_cases j <;> rfl

end Verif
