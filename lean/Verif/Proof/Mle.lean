import Verif.Props.ScoreInit
import Verif.Props.BSolvers
import Verif.Props.Gradients

/-!
# The likelihood of a linear Gaussian model without latents, variable by variable
-/

namespace Verif

open Spec Matrix

variable {p : Nat}

theorem residual_diag (B S : Matrix (Fin p) (Fin p) ℝ) (hS : ∀ a b, S a b = S b a) (j : Fin p) :
    ((1 - Bᵀ) * S * (1 - Bᵀ)ᵀ : Matrix (Fin p) (Fin p) ℝ) j j = residualVar S j (fun i => B i j) := by
  unfold residualVar
  have e1 : ((1 - Bᵀ) * S * (1 - Bᵀ)ᵀ) = S - Bᵀ * S - S * B + Bᵀ * S * B := by
    simp only [Matrix.transpose_sub, Matrix.transpose_one, Matrix.transpose_transpose]
    noncomm_ring
  rw [e1]
  simp only [Matrix.add_apply, Matrix.sub_apply, Matrix.mul_apply, Matrix.transpose_apply, Finset.sum_mul]
  have e2 : ∑ i, S j i * B i j = ∑ i, B i j * S i j := Finset.sum_congr rfl (fun i _ => by rw [hS j i]; ring)
  have e3 : ∑ x, ∑ i, B i j * S i x * B x j = ∑ i, ∑ x, B i j * S i x * B x j := Finset.sum_comm
  rw [e2, e3]
  ring

/-- The negative log-likelihood is a sum over the variables. -/
theorem gaussNLL_diagonal {A : Adj p} (hac : Acyclic A) {B S D : Matrix (Fin p) (Fin p) ℝ} (hB : Respects A B) (hS : ∀ a b, S a b = S b a)
    {w : Fin p → ℝ} (hw : ∀ j, 0 < w j) (h : Entails B (Matrix.diagonal w) D) :
    gaussNLL D S = ∑ j, (Real.log (w j) + residualVar S j (fun i => B i j) / w j) := by
  have hdet := det_one_sub_transpose hac hB
  rw [entails_eq hdet h, ← term_eq_gaussNLL hdet, Matrix.det_diagonal, Real.log_prod (fun j _ => (hw j).ne'), Finset.sum_add_distrib]
  congr 1
  have hinv : (Matrix.diagonal w)⁻¹ = Matrix.diagonal (fun j => (w j)⁻¹) := by
    refine Matrix.inv_eq_right_inv ?_
    rw [Matrix.diagonal_mul_diagonal, ← Matrix.diagonal_one]
    congr 1
    funext j
    exact mul_inv_cancel₀ (hw j).ne'
  rw [hinv, Matrix.trace]
  refine Finset.sum_congr rfl fun j _ => ?_
  rw [Matrix.diag_apply, Matrix.diagonal_mul, residual_diag B S hS]
  rw [div_eq_inv_mul]

/-- The residual variance of other coefficients, if those of the regression satisfy the normal equations. -/
theorem residualVar_eq {A : Adj p} {B S : Matrix (Fin p) (Fin p) ℝ} (hS : ∀ a b, S a b = S b a) (hB : Respects A B)
    (hreg : ∀ i j, A i j ≠ 0 → ∑ k, S i k * B k j = S j i) (j : Fin p) (b : Fin p → ℝ) (hb : ∀ i, A i j = 0 → b i = 0) :
    residualVar S j b = residualVar S j (fun i => B i j) + ∑ i, ∑ k, (b i - B i j) * S i k * (b k - B k j) := by
  have hcross : ∀ x : Fin p → ℝ, (∀ i, A i j = 0 → x i = 0) → ∑ i, ∑ k, x i * S i k * B k j = ∑ i, x i * S i j := by
    intro x hx
    refine Finset.sum_congr rfl (fun i _ => ?_)
    by_cases hi : A i j = 0
    · simp [hx i hi]
    · simp only [mul_assoc]
      rw [← Finset.mul_sum, hreg i j hi, hS j i]
  have hx1 := hcross b hb
  have hx2 := hcross (fun i => B i j) (fun i hi => hB i j hi)
  have hsw : ∑ i, ∑ k, B i j * S i k * b k = ∑ i, ∑ k, b i * S i k * B k j := by
    rw [Finset.sum_comm]
    refine Finset.sum_congr rfl (fun i _ => Finset.sum_congr rfl (fun k _ => ?_))
    rw [hS k i]; ring
  have hexp : ∑ i, ∑ k, (b i - B i j) * S i k * (b k - B k j) = (∑ i, ∑ k, b i * S i k * b k) - (∑ i, ∑ k, b i * S i k * B k j) -
      (∑ i, ∑ k, B i j * S i k * b k) + ∑ i, ∑ k, B i j * S i k * B k j := by
    simp only [← Finset.sum_sub_distrib, ← Finset.sum_add_distrib]
    refine Finset.sum_congr rfl (fun i _ => Finset.sum_congr rfl (fun k _ => ?_))
    ring
  unfold residualVar
  rw [hexp, hsw, hx1, hx2]
  ring

theorem log_add_div_ge {r w : ℝ} (hr : 0 < r) (hw : 0 < w) : Real.log r + 1 ≤ Real.log w + r / w ∧ (Real.log w + r / w = Real.log r + 1 → w = r) := by
  have h1 : Real.log r = Real.log (r / w) + Real.log w := by
    rw [Real.log_div hr.ne' hw.ne']
    ring
  have hx : 0 < r / w := div_pos hr hw
  refine ⟨?_, fun h => ?_⟩
  · have := Real.log_le_sub_one_of_pos hx
    linarith
  · by_contra hne
    have : r / w ≠ 1 := fun hc => hne ((div_eq_one_iff_eq hw.ne').1 hc).symm
    have := Real.log_lt_sub_one_of_pos hx this
    linarith

/-- The regressions on the parents are the unique maximum of the likelihood. -/
theorem mle_unique {A : Adj p} (hac : Acyclic A) {B S D : Matrix (Fin p) (Fin p) ℝ} (hSp : S.PosDef) (hB : Respects A B)
    (hreg : ∀ i j, A i j ≠ 0 → ∑ k, S i k * B k j = S j i) {w : Fin p → ℝ} (hwr : ∀ j, w j = residualVar S j (fun i => B i j)) (hw : ∀ j, 0 < w j)
    (h : Entails B (Matrix.diagonal w) D) {B' D' : Matrix (Fin p) (Fin p) ℝ} (hB' : Respects A B') {w' : Fin p → ℝ} (hw' : ∀ j, 0 < w' j)
    (h' : Entails B' (Matrix.diagonal w') D') :
    gaussNLL D S ≤ gaussNLL D' S ∧ (gaussNLL D' S ≤ gaussNLL D S → B' = B ∧ w' = w) := by
  have hS : ∀ a b, S a b = S b a := fun a b => (congrFun (congrFun hSp.1 a) b).symm
  rw [gaussNLL_diagonal hac hB hS hw h, gaussNLL_diagonal hac hB' hS hw' h']
  have hq : ∀ j, 0 ≤ ∑ i, ∑ k, (B' i j - B i j) * S i k * (B' k j - B k j) := fun j => by
    have := hSp.posSemidef.dotProduct_mulVec_nonneg (fun i => B' i j - B i j)
    simp only [dotProduct, Matrix.mulVec, star_trivial, Finset.mul_sum] at this
    simpa [mul_assoc] using this
  have hr := fun j => residualVar_eq hS hB hreg j (fun i => B' i j) (fun i hi => hB' i j hi)
  have hle : ∀ j, Real.log (w j) + residualVar S j (fun i => B i j) / w j ≤ Real.log (w' j) + residualVar S j (fun i => B' i j) / w' j := by
    intro j
    rw [hr j, ← hwr j, div_self (hw j).ne', add_div]
    have := (log_add_div_ge (hw j) (hw' j)).1
    have := div_nonneg (hq j) (hw' j).le
    linarith
  refine ⟨Finset.sum_le_sum fun j _ => hle j, fun hge => ?_⟩
  have heq : ∀ j, Real.log (w j) + residualVar S j (fun i => B i j) / w j = Real.log (w' j) + residualVar S j (fun i => B' i j) / w' j := by
    have := (Finset.sum_eq_sum_iff_of_le (fun j (_ : j ∈ Finset.univ) => hle j)).1 (le_antisymm (Finset.sum_le_sum fun j _ => hle j) hge)
    exact fun j => this j (Finset.mem_univ j)
  have hboth : ∀ j, w' j = w j ∧ ∑ i, ∑ k, (B' i j - B i j) * S i k * (B' k j - B k j) = 0 := by
    intro j
    have h1 := heq j
    rw [hr j, ← hwr j, div_self (hw j).ne', add_div] at h1
    obtain ⟨h2, h3⟩ := log_add_div_ge (hw j) (hw' j)
    have h4 := div_nonneg (hq j) (hw' j).le
    refine ⟨h3 (by linarith), ?_⟩
    have h5 : (∑ i, ∑ k, (B' i j - B i j) * S i k * (B' k j - B k j)) / w' j = 0 := by linarith
    rcases div_eq_zero_iff.1 h5 with h6 | h6
    · exact h6
    · exact absurd h6 (hw' j).ne'
  refine ⟨?_, funext fun j => (hboth j).1⟩
  ext i j
  by_contra hne
  have hx : (fun i => B' i j - B i j) ≠ 0 := fun hc => hne (by have := congrFun hc i; simp only [Pi.zero_apply] at this; linarith)
  have := hSp.dotProduct_mulVec_pos hx
  simp only [dotProduct, Matrix.mulVec, star_trivial, Finset.mul_sum] at this
  rw [show ∑ x, ∑ i, (B' x j - B x j) * (S x i * (B' i j - B i j)) = ∑ i, ∑ k, (B' i j - B i j) * S i k * (B' k j - B k j) by simp only [mul_assoc],
    (hboth j).2] at this
  exact lt_irrefl _ this

end Verif
