import Mathlib.Analysis.Matrix.Spectrum
import Mathlib.Analysis.Matrix.PosDef
import Mathlib.Analysis.SpecificLimits.Basic

/-!
# A gradient descent for a quadratic function that keeps every step that does not make it worse
-/

namespace Verif

open Matrix Filter Topology

variable {n : Type} [Fintype n] [DecidableEq n]

/-- If all steps of a fixed length are kept and no curvature is exactly in resonance with the step length, the gradient tends to zero. -/
theorem accepted_tendsto {H : Matrix n n ℝ} (hH : H.PosSemidef) {lr : ℝ} (hlr : 0 < lr) (hres : ∀ v : n → ℝ, lr • (H *ᵥ v) = (2 : ℝ) • v → v = 0)
    (g : ℕ → n → ℝ) (hker : ∀ v : n → ℝ, H *ᵥ v = 0 → v ⬝ᵥ g 0 = 0) (hstep : ∀ t, g (t + 1) = g t - lr • (H *ᵥ g t))
    (hacc : ∀ t, lr * (g t ⬝ᵥ (H *ᵥ g t)) ≤ 2 * (g t ⬝ᵥ g t)) (k : n) : Tendsto (fun t => g t k) atTop (𝓝 0) := by
  have hsym : Hᵀ = H := by
    have := hH.isHermitian
    rwa [Matrix.IsHermitian, Matrix.conjTranspose_eq_transpose_of_trivial] at this
  let b : n → n → ℝ := fun i => (hH.isHermitian.eigenvectorBasis i).ofLp
  let lam : n → ℝ := hH.isHermitian.eigenvalues
  have hb : ∀ i, H *ᵥ b i = lam i • b i := fun i => hH.isHermitian.mulVec_eigenvectorBasis i
  have hlam : ∀ i, 0 ≤ lam i := fun i => hH.eigenvalues_nonneg i
  have hinner : ∀ (x y : n → ℝ), x ⬝ᵥ y = inner ℝ (WithLp.toLp 2 x : EuclideanSpace ℝ n) (WithLp.toLp 2 y) := by
    intro x y
    simp [PiLp.inner_apply, dotProduct, mul_comm]
  have hexp : ∀ x y : n → ℝ, x ⬝ᵥ y = ∑ i, (b i ⬝ᵥ x) * (b i ⬝ᵥ y) := by
    intro x y
    have := OrthonormalBasis.sum_inner_mul_inner hH.isHermitian.eigenvectorBasis (WithLp.toLp 2 x) (WithLp.toLp 2 y)
    rw [hinner, ← this]
    refine Finset.sum_congr rfl (fun i _ => ?_)
    rw [hinner, hinner, real_inner_comm]
  have hbH : ∀ i x, b i ⬝ᵥ (H *ᵥ x) = lam i * (b i ⬝ᵥ x) := by
    intro i x
    rw [Matrix.dotProduct_mulVec, ← Matrix.mulVec_transpose, hsym, hb, smul_dotProduct, smul_eq_mul]
  let a : ℕ → n → ℝ := fun t i => b i ⬝ᵥ g t
  have ha : ∀ t i, a t i = (1 - lr * lam i) ^ t * a 0 i := by
    intro t i
    induction t with
    | zero => simp
    | succ t ih =>
      show b i ⬝ᵥ g (t + 1) = _
      rw [hstep, dotProduct_sub, dotProduct_smul, hbH, smul_eq_mul]
      have : b i ⬝ᵥ g t = (1 - lr * lam i) ^ t * a 0 i := ih
      rw [this]
      ring
  have hacc' : ∀ t, ∑ i, (lr * lam i - 2) * a t i ^ 2 ≤ 0 := by
    intro t
    have h1 := hacc t
    rw [hexp (g t) (H *ᵥ g t), hexp (g t) (g t)] at h1
    simp only [hbH] at h1
    rw [Finset.mul_sum, Finset.mul_sum, ← sub_nonpos, ← Finset.sum_sub_distrib] at h1
    refine le_trans (le_of_eq (Finset.sum_congr rfl (fun i _ => ?_))) h1
    show (lr * lam i - 2) * (b i ⬝ᵥ g t) ^ 2 = _
    ring
  have hcontr : ∀ i, a 0 i ≠ 0 → |1 - lr * lam i| < 1 := by
    intro i hi
    have h0 : lam i ≠ 0 := by
      intro h0
      exact hi (hker (b i) (by rw [hb, h0, zero_smul]))
    have h1 : 0 < lr * lam i := mul_pos hlr (lt_of_le_of_ne (hlam i) (Ne.symm h0))
    have h2 : lr * lam i ≠ 2 := by
      intro h2
      have h3 := hres (b i) (by rw [hb, smul_smul, h2])
      have h4 := hH.isHermitian.eigenvectorBasis.orthonormal.1 i
      have h5 : hH.isHermitian.eigenvectorBasis i = 0 := by
        ext k
        exact congrFun h3 k
      rw [h5] at h4
      simp at h4
    have h3 : lr * lam i < 2 := by
      by_contra h3
      have h3 : 2 < lr * lam i := lt_of_le_of_ne (not_lt.1 h3) (Ne.symm h2)
      have hgrow : Tendsto (fun t : ℕ => (lr * lam i - 2) * a 0 i ^ 2 * ((1 - lr * lam i) ^ 2) ^ t) atTop atTop := by
        refine Tendsto.const_mul_atTop (mul_pos (by linarith) (by positivity)) (tendsto_pow_atTop_atTop_of_one_lt ?_)
        nlinarith
      obtain ⟨t, ht⟩ := (hgrow.eventually_gt_atTop (∑ j, 2 * a 0 j ^ 2)).exists
      have h4 := hacc' t
      rw [← Finset.add_sum_erase _ _ (Finset.mem_univ i)] at h4
      have h5 : (lr * lam i - 2) * a t i ^ 2 = (lr * lam i - 2) * a 0 i ^ 2 * ((1 - lr * lam i) ^ 2) ^ t := by
        rw [ha, mul_pow, ← pow_mul, ← pow_mul]
        ring
      have h6 : -∑ j, 2 * a 0 j ^ 2 ≤ ∑ j ∈ Finset.univ.erase i, (lr * lam j - 2) * a t j ^ 2 := by
        have h7 : ∑ j ∈ Finset.univ.erase i, 2 * a 0 j ^ 2 ≤ ∑ j, 2 * a 0 j ^ 2 :=
          Finset.sum_le_sum_of_subset_of_nonneg (Finset.erase_subset _ _) (fun j _ _ => by positivity)
        have h8 : -∑ j ∈ Finset.univ.erase i, 2 * a 0 j ^ 2 ≤ ∑ j ∈ Finset.univ.erase i, (lr * lam j - 2) * a t j ^ 2 := by
          rw [← Finset.sum_neg_distrib]
          refine Finset.sum_le_sum (fun j _ => ?_)
          by_cases hj : 2 ≤ lr * lam j
          · have : 0 ≤ (lr * lam j - 2) * a t j ^ 2 := mul_nonneg (by linarith) (by positivity)
            have : 0 ≤ 2 * a 0 j ^ 2 := by positivity
            linarith
          · have h9 : 0 ≤ lr * lam j := mul_nonneg hlr.le (hlam j)
            have h10 : a t j ^ 2 ≤ a 0 j ^ 2 := by
              rw [ha, mul_pow]
              have : ((1 - lr * lam j) ^ t) ^ 2 ≤ 1 := by
                rw [← sq_abs, abs_pow, ← pow_mul]
                refine pow_le_one₀ (abs_nonneg _) (abs_le.2 ⟨by linarith, by linarith⟩)
              nlinarith [sq_nonneg (a 0 j)]
            nlinarith [sq_nonneg (a t j)]
        linarith
      rw [h5] at h4
      linarith
    exact abs_lt.2 ⟨by linarith, by linarith⟩
  have hlim : ∀ i, Tendsto (fun t => a t i) atTop (𝓝 0) := by
    intro i
    by_cases hi : a 0 i = 0
    · have : (fun t => a t i) = fun _ => 0 := by
        funext t
        rw [ha, hi, mul_zero]
      rw [this]
      exact tendsto_const_nhds
    · have h1 := (tendsto_pow_atTop_nhds_zero_of_abs_lt_one (hcontr i hi)).mul_const (a 0 i)
      rw [zero_mul] at h1
      refine h1.congr (fun t => (ha t i).symm)
  have hg : ∀ t, g t k = ∑ i, b i k * a t i := by
    intro t
    have := hexp (Pi.single k 1) (g t)
    rw [single_one_dotProduct] at this
    rw [this]
    refine Finset.sum_congr rfl (fun i _ => ?_)
    rw [dotProduct_single_one]
  simp only [hg]
  have := tendsto_finsetSum (f := fun i t => b i k * a t i) (a := fun i => b i k * 0) (x := atTop) Finset.univ (fun i _ => (hlim i).const_mul (b i k))
  simpa using this

/-- A symmetric positive semidefinite matrix reaches every vector that is orthogonal to its kernel. -/
theorem exists_mulVec_eq {H : Matrix n n ℝ} (hH : H.PosSemidef) (y : n → ℝ) (hker : ∀ v : n → ℝ, H *ᵥ v = 0 → v ⬝ᵥ y = 0) :
    ∃ x, H *ᵥ x = y := by
  let b : n → n → ℝ := fun i => (hH.isHermitian.eigenvectorBasis i).ofLp
  let lam : n → ℝ := hH.isHermitian.eigenvalues
  have hb : ∀ i, H *ᵥ b i = lam i • b i := fun i => hH.isHermitian.mulVec_eigenvectorBasis i
  have hinner : ∀ (x y : n → ℝ), x ⬝ᵥ y = inner ℝ (WithLp.toLp 2 x : EuclideanSpace ℝ n) (WithLp.toLp 2 y) := by
    intro x y
    simp [PiLp.inner_apply, dotProduct, mul_comm]
  have hexp : ∀ x y : n → ℝ, x ⬝ᵥ y = ∑ i, (b i ⬝ᵥ x) * (b i ⬝ᵥ y) := by
    intro x y
    have := OrthonormalBasis.sum_inner_mul_inner hH.isHermitian.eigenvectorBasis (WithLp.toLp 2 x) (WithLp.toLp 2 y)
    rw [hinner, ← this]
    refine Finset.sum_congr rfl (fun i _ => ?_)
    rw [hinner, hinner, real_inner_comm]
  refine ⟨∑ i, ((b i ⬝ᵥ y) / lam i) • b i, ?_⟩
  rw [Matrix.mulVec_sum]
  funext k
  have h1 := hexp (Pi.single k 1) y
  rw [single_one_dotProduct] at h1
  rw [h1, Finset.sum_apply]
  refine Finset.sum_congr rfl (fun i _ => ?_)
  rw [Matrix.mulVec_smul, hb, Pi.smul_apply, Pi.smul_apply, smul_eq_mul, smul_eq_mul, dotProduct_single_one]
  by_cases h0 : lam i = 0
  · have := hker (b i) (by rw [hb, h0, zero_smul])
    rw [this]
    simp
  · field_simp

end Verif
