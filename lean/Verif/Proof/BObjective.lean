import Verif.Proof.Score
import Mathlib.Analysis.Matrix.Order

/-!
# The objective of the solvers for `B`
-/

namespace Verif

open Matrix

variable {p l e : Nat}

/-- The part of the score that depends on `B`, with weights `w` for the environments:
`Σ w_k tr(M_k (I - Bᵀ) S_k (I - Bᵀ)ᵀ)`. -/
noncomputable def Spec.traceLoss (w : Fin e → ℝ) (M S : Fin e → Matrix (Fin p) (Fin p) ℝ) (B : Matrix (Fin p) (Fin p) ℝ) : ℝ :=
  ∑ k, w k * trace (M k * ((1 - Bᵀ) * S k * (1 - Bᵀ)ᵀ))

/-- What `scipy.linalg.sqrtm` is expected to do for a symmetric positive semi-definite matrix: return its square root. -/
def GoodSqrt (f : Matrix (Fin p) (Fin p) ℝ → Matrix (Fin p) (Fin p) ℝ) : Prop :=
  ∀ X : Matrix (Fin p) (Fin p) ℝ, X.PosSemidef → (f X).PosSemidef ∧ f X * f X = X

open scoped MatrixOrder in
/-- There is such a function. -/
theorem goodSqrt_exists : ∃ f : Matrix (Fin p) (Fin p) ℝ → Matrix (Fin p) (Fin p) ℝ, GoodSqrt f := by
  refine ⟨fun X => CFC.sqrt X, fun X hX => ⟨?_, ?_⟩⟩
  · exact Matrix.nonneg_iff_posSemidef.1 (CFC.sqrt_nonneg X)
  · exact CFC.sqrt_mul_sqrt_self X (Matrix.nonneg_iff_posSemidef.2 hX)

theorem posSemidef_symm {X : Matrix (Fin p) (Fin p) ℝ} (h : X.PosSemidef) : Xᵀ = X := by
  have := h.isHermitian
  rwa [Matrix.IsHermitian, Matrix.conjTranspose_eq_transpose_of_trivial] at this

theorem sum_pairs (f : Fin (p * p) → ℝ) : ∑ k, f k = ∑ i : Fin p, ∑ j : Fin p, f (finProdFinEquiv (j, i)) := by
  rw [← finProdFinEquiv.sum_comp f, Fintype.sum_prod_type, Finset.sum_comm]

theorem dot_pairs (x y : Fin (p * p) → ℝ) : x ⬝ᵥ y = ∑ i : Fin p, ∑ j : Fin p, x (finProdFinEquiv (i, j)) * y (finProdFinEquiv (i, j)) := by
  unfold dotProduct
  rw [sum_pairs, Finset.sum_comm]

/-- The columns of a matrix one after the other. -/
def vecM (Q : Matrix (Fin p) (Fin p) ℝ) : Fin (p * p) → ℝ := fun k => Q k.modNat k.divNat

theorem vecM_pair (Q : Matrix (Fin p) (Fin p) ℝ) (i j : Fin p) : vecM Q (finProdFinEquiv (j, i)) = Q i j := by
  unfold vecM
  rw [modNat_pair, divNat_pair]

/-- Every vector is the flattening of `I - Bᵀ` for the matrix the code makes of it. -/
theorem vecM_unflattenB (v : Fin (p * p) → ℝ) : vecM (1 - (unflattenB v)ᵀ) = v := by
  have h : 1 - (unflattenB v)ᵀ = Matrix.of (reshapeF v) := by
    unfold unflattenB
    rw [Matrix.transpose_transpose, sub_sub_cancel]
  rw [h]
  exact flattenF_reshapeF v

theorem unflattenB_vecM (B : Matrix (Fin p) (Fin p) ℝ) : unflattenB (vecM (1 - Bᵀ)) = B := by
  ext i j
  rw [unflattenB_apply, vecM_pair, Matrix.sub_apply, Matrix.transpose_apply, Matrix.one_apply]
  simp only [eq_comm (a := j), sub_sub_cancel]

theorem vecM_sub (X Y : Matrix (Fin p) (Fin p) ℝ) : vecM X - vecM Y = vecM (X - Y) := rfl

theorem vecM_sum (X : Fin e → Matrix (Fin p) (Fin p) ℝ) : vecM (∑ k, X k) = ∑ k, vecM (X k) := by
  funext r
  rw [Finset.sum_apply]
  unfold vecM
  rw [Matrix.sum_apply]

theorem dot_vecM (X Y : Matrix (Fin p) (Fin p) ℝ) : vecM X ⬝ᵥ vecM Y = ∑ i, ∑ j, X i j * Y i j := by
  unfold dotProduct
  rw [sum_pairs]
  refine Finset.sum_congr rfl (fun i _ => Finset.sum_congr rfl (fun j _ => ?_))
  rw [vecM_pair, vecM_pair]

theorem dot_vecM_trace (X Y : Matrix (Fin p) (Fin p) ℝ) : vecM X ⬝ᵥ vecM Y = trace (Y * Xᵀ) := by
  rw [dot_vecM]
  unfold Matrix.trace
  refine Finset.sum_congr rfl (fun i _ => ?_)
  rw [Matrix.diag_apply, Matrix.mul_apply]
  refine Finset.sum_congr rfl (fun j _ => ?_)
  rw [Matrix.transpose_apply, mul_comm]

theorem kron_mulVec (a b Q : Matrix (Fin p) (Fin p) ℝ) : kron a b *ᵥ vecM Q = vecM (b * Q * aᵀ) := by
  funext r
  unfold kron Matrix.mulVec dotProduct
  rw [sum_pairs]
  simp only [divNat_pair, modNat_pair, vecM_pair]
  unfold vecM
  rw [Matrix.mul_apply, Finset.sum_comm]
  refine Finset.sum_congr rfl (fun j _ => ?_)
  rw [Matrix.mul_apply, Finset.sum_mul]
  refine Finset.sum_congr rfl (fun i _ => ?_)
  rw [Matrix.transpose_apply]
  ring

theorem kron_transpose (a b : Matrix (Fin p) (Fin p) ℝ) : (kron a b)ᵀ = kron aᵀ bᵀ := rfl

/-- The sum of the squared entries of `R Q S`. -/
theorem frobenius {R Q S M X : Matrix (Fin p) (Fin p) ℝ} (hR : Rᵀ = R) (hS : Sᵀ = S) (hM : R * R = M) (hX : S * S = X) :
    ∑ i, ∑ j, (R * Q * S) i j ^ 2 = trace (M * (Q * X * Qᵀ)) := by
  have h1 : ∑ i, ∑ j, (R * Q * S) i j ^ 2 = trace ((R * Q * S) * (R * Q * S)ᵀ) := by
    rw [← dot_vecM_trace, dot_vecM]
    simp only [sq]
  rw [h1, Matrix.transpose_mul, Matrix.transpose_mul, hR, hS, ← hM, ← hX]
  rw [show R * Q * S * (S * (Qᵀ * R)) = R * (Q * (S * S) * Qᵀ * R) by simp only [Matrix.mul_assoc], Matrix.trace_mul_comm]
  rw [show Q * (S * S) * Qᵀ * R * R = Q * (S * S) * Qᵀ * (R * R) by simp only [Matrix.mul_assoc], Matrix.trace_mul_comm]

/-- `N v` for a flattened matrix. -/
theorem nMatrix_mulVec {num : NumLib p e} (hs : GoodSqrt num.sqrtm) {d : Data p e} (hd : ∀ k, (d.covs k).PosSemidef)
    {Ms : Fin e → Matrix (Fin p) (Fin p) ℝ} (hM : ∀ k, (Ms k).PosSemidef) (Q : Matrix (Fin p) (Fin p) ℝ) :
    nMatrix num d Ms *ᵥ vecM Q = vecM (∑ k, Ms k * Q * d.covs k) := by
  unfold nMatrix
  rw [Matrix.sum_mulVec, vecM_sum]
  refine Finset.sum_congr rfl (fun k _ => ?_)
  obtain ⟨a1, a2⟩ := hs _ (hd k)
  obtain ⟨b1, b2⟩ := hs _ (hM k)
  rw [← Matrix.mulVec_mulVec, kron_mulVec, kron_transpose, kron_mulVec, posSemidef_symm a1, posSemidef_symm b1, posSemidef_symm a1]
  rw [show num.sqrtm (Ms k) * (num.sqrtm (Ms k) * Q * num.sqrtm (d.covs k)) * num.sqrtm (d.covs k) =
    (num.sqrtm (Ms k) * num.sqrtm (Ms k)) * Q * (num.sqrtm (d.covs k) * num.sqrtm (d.covs k)) by simp only [Matrix.mul_assoc], a2, b2]

/-- The quadratic form of `N` is the objective. -/
theorem nMatrix_quad {num : NumLib p e} (hs : GoodSqrt num.sqrtm) {d : Data p e} (hd : ∀ k, (d.covs k).PosSemidef)
    {Ms : Fin e → Matrix (Fin p) (Fin p) ℝ} (hM : ∀ k, (Ms k).PosSemidef) (v : Fin (p * p) → ℝ) :
    v ⬝ᵥ (nMatrix num d Ms *ᵥ v) = Spec.traceLoss (fun _ => 1) Ms d.covs (unflattenB v) := by
  conv_lhs => rw [← vecM_unflattenB v, nMatrix_mulVec hs hd hM, dot_vecM_trace, Finset.sum_mul, Matrix.trace_sum]
  unfold Spec.traceLoss
  refine Finset.sum_congr rfl (fun k _ => ?_)
  rw [one_mul]
  simp only [Matrix.mul_assoc]

theorem nMatrix_symm (num : NumLib p e) (d : Data p e) (Ms : Fin e → Matrix (Fin p) (Fin p) ℝ) : (nMatrix num d Ms)ᵀ = nMatrix num d Ms := by
  unfold nMatrix
  rw [Matrix.transpose_sum]
  refine Finset.sum_congr rfl (fun k _ => ?_)
  rw [Matrix.transpose_mul, Matrix.transpose_transpose]

theorem nMatrix_nonneg (num : NumLib p e) (d : Data p e) (Ms : Fin e → Matrix (Fin p) (Fin p) ℝ) (v : Fin (p * p) → ℝ) :
    0 ≤ v ⬝ᵥ (nMatrix num d Ms *ᵥ v) := by
  unfold nMatrix
  rw [Matrix.sum_mulVec, dotProduct_sum]
  refine Finset.sum_nonneg (fun k _ => ?_)
  rw [← Matrix.mulVec_mulVec, Matrix.dotProduct_mulVec, Matrix.vecMul_transpose]
  unfold dotProduct
  exact Finset.sum_nonneg (fun i _ => mul_self_nonneg _)

/-- Expansion of the quadratic form. -/
theorem quad_expand {n : Type} [Fintype n] {N : Matrix n n ℝ} (hN : Nᵀ = N) (v w : n → ℝ) :
    w ⬝ᵥ (N *ᵥ w) = v ⬝ᵥ (N *ᵥ v) + 2 * ((w - v) ⬝ᵥ (N *ᵥ v)) + (w - v) ⬝ᵥ (N *ᵥ (w - v)) := by
  have h1 : v ⬝ᵥ (N *ᵥ w) = w ⬝ᵥ (N *ᵥ v) := by
    rw [Matrix.dotProduct_mulVec, ← Matrix.mulVec_transpose, hN, dotProduct_comm]
  rw [Matrix.mulVec_sub]
  simp only [sub_dotProduct, dotProduct_sub]
  rw [h1]
  ring

end Verif
