import Verif.Model.LModel
import Verif.Spec.Gauss
import Verif.Proof.Topo
import Verif.Proof.Rank
import Mathlib.Analysis.Matrix.PosDef
import Mathlib.Analysis.Matrix.Order

namespace Verif
open Spec Matrix

variable {p l e : Nat}

/-- A matrix whose non-zero entries increase a rank function is strictly triangular up to reordering. -/
theorem det_one_sub_of_rank {V : Type} [Fintype V] [DecidableEq V] (X : Matrix V V ℝ) (f : V → Nat) (h : ∀ i j, X i j ≠ 0 → f i < f j) :
    (1 - X).det = 1 := by
  rw [Matrix.det_apply, Finset.sum_eq_single (1 : Equiv.Perm V)]
  · have : ∏ i, (1 - X) ((1 : Equiv.Perm V) i) i = 1 := by
      apply Finset.prod_eq_one
      intro i _
      have hX : X i i = 0 := by
        by_contra hc
        exact lt_irrefl _ (h i i hc)
      simp [hX]
    rw [this]
    simp
  · intro σ _ hσ
    have : ∏ i, (1 - X) (σ i) i = 0 := by
      by_contra hc
      replace hc := Finset.prod_ne_zero_iff.1 hc
      have hle : ∀ i, f (σ i) ≤ f i := by
        intro i
        have hi := hc i (Finset.mem_univ i)
        by_cases heq : σ i = i
        · rw [heq]
        · rw [Matrix.sub_apply, Matrix.one_apply_ne heq, zero_sub, neg_ne_zero] at hi
          exact (h _ _ hi).le
      have hsum : ∑ i, f (σ i) = ∑ i, f i := Equiv.sum_comp σ f
      have heq : ∀ i ∈ Finset.univ, f (σ i) = f i :=
        (Finset.sum_eq_sum_iff_of_le (fun i _ => hle i)).1 hsum
      apply hσ
      ext i
      by_contra hne
      have hne : σ i ≠ i := fun hc => hne (by rw [hc]; rfl)
      have hi := hc i (Finset.mem_univ i)
      rw [Matrix.sub_apply, Matrix.one_apply_ne hne, zero_sub, neg_ne_zero] at hi
      have := h _ _ hi
      have := heq i (Finset.mem_univ i)
      omega
    rw [this]
    simp
  · intro hc
    exact absurd (Finset.mem_univ _) hc

/-- `B` is zero wherever `A` is. -/
def Respects (A : Adj p) (B : Matrix (Fin p) (Fin p) ℝ) : Prop := ∀ i j, A i j = 0 → B i j = 0

theorem det_one_sub_transpose {A : Adj p} {B : Matrix (Fin p) (Fin p) ℝ} (hac : Acyclic A) (hB : Respects A B) :
    (1 - Bᵀ).det = 1 := by
  obtain ⟨f, hf⟩ := hac.exists_rank
  have h : (1 - B).det = 1 := det_one_sub_of_rank B f (fun i j hij => hf i j (fun hc => hij (hB i j hc)))
  rw [show (1 - Bᵀ) = (1 - B)ᵀ by rw [Matrix.transpose_sub, Matrix.transpose_one], Matrix.det_transpose, h]

theorem noise_eq (m : LModel p l e) (k : Fin e) : m.noise k = noiseCov m.gamma (m.psis k) (m.omegas k) := by
  ext i j
  unfold LModel.noise noiseCov
  rw [Matrix.add_apply, Matrix.mul_assoc, Matrix.mul_apply, Matrix.diagonal_apply]
  congr 1
  refine Finset.sum_congr rfl (fun x _ => ?_)
  rw [Matrix.diagonal_mul, Matrix.transpose_apply]
  ring

theorem noise_posDef (m : LModel p l e) (k : Fin e) (ho : ∀ i, 0 < m.omegas k i) (hp : ∀ i, 0 ≤ m.psis k i) :
    (m.noise k).PosDef := by
  unfold LModel.noise
  refine Matrix.PosDef.posSemidef_add ?_ (Matrix.PosDef.diagonal ho)
  have := (Matrix.PosSemidef.diagonal (d := m.psis k) hp).conjTranspose_mul_mul_same m.gamma
  rwa [Matrix.conjTranspose_eq_transpose_of_trivial] at this

theorem invNoise_ok (m : LModel p l e) (h : ∀ k, (m.noise k).det ≠ 0) : m.invNoise = .ok (fun k => (m.noise k)⁻¹) := by
  unfold LModel.invNoise
  rw [if_neg]
  push Not
  exact h

theorem invNoise_ok_of_pos (m : LModel p l e) (ho : ∀ k i, 0 < m.omegas k i) (hp : ∀ k i, 0 ≤ m.psis k i) :
    m.invNoise = .ok (fun k => (m.noise k)⁻¹) :=
  invNoise_ok m (fun k => (noise_posDef m k (ho k) (hp k)).det_pos.ne')

theorem covariances_ok (m : LModel p l e) (h : (1 - m.Bᵀ).det = 1) :
    m.covariances = .ok (fun k => (1 - m.Bᵀ)⁻¹ * m.noise k * ((1 - m.Bᵀ)⁻¹)ᵀ) := by
  unfold LModel.covariances npInv
  rw [if_neg (by rw [h]; norm_num)]

/-- For positive definite `X`: `tr X - log det X ≥ p`, with equality only for the identity. -/
theorem trace_sub_log_det {n : Nat} {X : Matrix (Fin n) (Fin n) ℝ} (hX : X.PosDef) :
    (n : ℝ) ≤ X.trace - Real.log X.det ∧ (X.trace - Real.log X.det = n → X = 1) := by
  have hev := hX.eigenvalues_pos
  have hdet : X.det = ∏ i, hX.1.eigenvalues i := by simpa using hX.1.det_eq_prod_eigenvalues
  have htr : X.trace = ∑ i, hX.1.eigenvalues i := by simpa using hX.1.trace_eq_sum_eigenvalues
  have hlog : Real.log X.det = ∑ i, Real.log (hX.1.eigenvalues i) := by
    rw [hdet, Real.log_prod (fun i _ => (hev i).ne')]
  have hsum : X.trace - Real.log X.det - n = ∑ i, (hX.1.eigenvalues i - Real.log (hX.1.eigenvalues i) - 1) := by
    rw [htr, hlog, Finset.sum_sub_distrib, Finset.sum_sub_distrib]
    simp
  have hnn : ∀ i ∈ Finset.univ, 0 ≤ hX.1.eigenvalues i - Real.log (hX.1.eigenvalues i) - 1 := by
    intro i _
    have := Real.log_le_sub_one_of_pos (hev i)
    linarith
  refine ⟨?_, ?_⟩
  · have := Finset.sum_nonneg hnn
    linarith
  · intro h
    have h0 : ∑ i, (hX.1.eigenvalues i - Real.log (hX.1.eigenvalues i) - 1) = 0 := by
      rw [← hsum, h]
      ring
    have h1 := (Finset.sum_eq_zero_iff_of_nonneg hnn).1 h0
    have h2 : ∀ i, hX.1.eigenvalues i = 1 := by
      intro i
      by_contra hne
      have := Real.log_lt_sub_one_of_pos (hev i) hne
      have := h1 i (Finset.mem_univ i)
      linarith
    rw [hX.1.spectral_theorem]
    have : (diagonal (RCLike.ofReal ∘ hX.1.eigenvalues) : Matrix (Fin n) (Fin n) ℝ) = 1 := by
      rw [← Matrix.diagonal_one]
      congr 1
      funext i
      simp [h2 i]
    rw [this]
    simp

/-- The Gaussian negative log-likelihood is minimal exactly at the sample covariance. -/
theorem gaussNLL_ge {C S : Matrix (Fin p) (Fin p) ℝ} (hC : C.PosDef) (hS : S.PosDef) :
    Real.log S.det + p ≤ gaussNLL C S ∧ (gaussNLL C S = Real.log S.det + p → C = S) := by
  classical
  have hCi := hC.inv
  open scoped MatrixOrder in
  obtain ⟨Q, hQ⟩ := CStarAlgebra.nonneg_iff_eq_star_mul_self.mp hCi.posSemidef.nonneg
  rw [Matrix.star_eq_conjTranspose, Matrix.conjTranspose_eq_transpose_of_trivial] at hQ
  have hdetC : C.det ≠ 0 := hC.det_pos.ne'
  have hQdet : Q.det * Q.det = (C.det)⁻¹ := by
    have := congrArg Matrix.det hQ
    rw [Matrix.det_nonsing_inv, Ring.inverse_eq_inv', Matrix.det_mul, Matrix.det_transpose] at this
    exact this.symm
  have hQ0 : Q.det ≠ 0 := by
    intro h0
    rw [h0, zero_mul] at hQdet
    exact inv_ne_zero hdetC hQdet.symm
  have hQu : IsUnit Q.det := isUnit_iff_ne_zero.2 hQ0
  have hX : (Q * S * Qᵀ).PosDef := by
    have := hS.mul_mul_conjTranspose_same (B := Q) (by
      intro x y hxy
      have h1 := congrArg (fun v => Matrix.vecMul v Q⁻¹) hxy
      simpa [Matrix.vecMul_vecMul, Matrix.mul_nonsing_inv Q hQu] using h1)
    rwa [Matrix.conjTranspose_eq_transpose_of_trivial] at this
  have htr : (Q * S * Qᵀ).trace = (C⁻¹ * S).trace := by
    rw [hQ, Matrix.trace_mul_comm, ← Matrix.mul_assoc]
  have hlog : Real.log (Q * S * Qᵀ).det = Real.log S.det - Real.log C.det := by
    rw [Matrix.det_mul, Matrix.det_mul, Matrix.det_transpose,
      show Q.det * S.det * Q.det = S.det * (C.det)⁻¹ by rw [← hQdet]; ring,
      Real.log_mul hS.det_pos.ne' (inv_ne_zero hdetC), Real.log_inv]
    ring
  obtain ⟨h1, h2⟩ := trace_sub_log_det hX
  rw [htr, hlog] at h1 h2
  unfold gaussNLL
  refine ⟨by linarith, fun h => ?_⟩
  have h3 := h2 (by linarith)
  -- Q S Qᵀ = 1
  have h4 : S = Q⁻¹ * (Qᵀ)⁻¹ := by
    have hQtu : IsUnit Qᵀ.det := by rwa [Matrix.det_transpose]
    calc S = Q⁻¹ * (Q * S * Qᵀ) * (Qᵀ)⁻¹ := by
          rw [Matrix.mul_assoc Q, Matrix.nonsing_inv_mul_cancel_left _ _ hQu, Matrix.mul_nonsing_inv_cancel_right _ _ hQtu]
      _ = _ := by rw [h3, Matrix.mul_one]
  have h5 : C = (C⁻¹)⁻¹ := (Matrix.nonsing_inv_nonsing_inv C (isUnit_iff_ne_zero.2 hdetC)).symm
  rw [h5, hQ, Matrix.mul_inv_rev, ← h4]

theorem gaussNLL_self {S : Matrix (Fin p) (Fin p) ℝ} (hS : S.PosDef) : gaussNLL S S = Real.log S.det + p := by
  unfold gaussNLL
  rw [Matrix.nonsing_inv_mul S (isUnit_iff_ne_zero.2 hS.det_pos.ne'), Matrix.trace_one]
  simp

theorem scoreTerm_inv {IB V sigma : Matrix (Fin p) (Fin p) ℝ} (hV : V.PosDef) :
    scoreTerm IB V⁻¹ sigma = some (Real.log V.det + (V⁻¹ * (IB * sigma * IBᵀ)).trace) := by
  unfold scoreTerm
  rw [if_pos hV.inv.det_pos, Matrix.det_nonsing_inv, Ring.inverse_eq_inv', Real.log_inv, neg_neg]

/-- The per-environment term is the Gaussian negative log-likelihood of the entailed covariance. -/
theorem term_eq_gaussNLL {IB V sigma : Matrix (Fin p) (Fin p) ℝ} (hI : IB.det = 1) :
    Real.log V.det + (V⁻¹ * (IB * sigma * IBᵀ)).trace = gaussNLL (IB⁻¹ * V * (IB⁻¹)ᵀ) sigma := by
  unfold gaussNLL
  have hu : IsUnit IB.det := by rw [hI]; exact isUnit_one
  have hut : IsUnit (IB⁻¹)ᵀ.det := by
    rw [Matrix.det_transpose, Matrix.det_nonsing_inv, hI]
    simp
  congr 1
  · rw [Matrix.det_mul, Matrix.det_mul, Matrix.det_transpose, Matrix.det_nonsing_inv, hI]
    simp
  · rw [Matrix.mul_inv_rev, Matrix.mul_inv_rev, Matrix.nonsing_inv_nonsing_inv IB hu, Matrix.transpose_nonsing_inv,
      Matrix.nonsing_inv_nonsing_inv IBᵀ (by rwa [Matrix.det_transpose]), Matrix.mul_assoc IBᵀ,
      Matrix.trace_mul_comm IBᵀ]
    simp only [Matrix.mul_assoc]

end Verif
