import Verif.Props.Robust

/-!
# C113: without latents the entailed covariances are closed

Without latents a class of models approximates positive definite covariances only if it entails them.  With latents this is wrong.
-/

namespace Verif

open Matrix Spec

variable {p l e : Nat}

/-- The coefficients of the normal equations for the parents of `j`, completed by the identity. -/
def parentMatrix (A : Adj p) (j : Fin p) (D : Matrix (Fin p) (Fin p) ℝ) : Matrix (Fin p) (Fin p) ℝ :=
  Matrix.of fun i k => if A i j ≠ 0 ∧ A k j ≠ 0 then D i k else if i = k then 1 else 0

/-- The right-hand side of the normal equations. -/
def parentVector (A : Adj p) (j : Fin p) (D : Matrix (Fin p) (Fin p) ℝ) : Fin p → ℝ := fun i => if A i j ≠ 0 then D j i else 0

/-- The regression coefficients of every variable on its parents. -/
noncomputable def regWeights (A : Adj p) (D : Matrix (Fin p) (Fin p) ℝ) : Matrix (Fin p) (Fin p) ℝ :=
  Matrix.of fun i j => ((parentMatrix A j D)⁻¹ *ᵥ parentVector A j D) i

theorem parentMatrix_row (A : Adj p) (j : Fin p) (D : Matrix (Fin p) (Fin p) ℝ) (x : Fin p → ℝ) (i : Fin p) :
    (parentMatrix A j D *ᵥ x) i = if A i j ≠ 0 then ∑ k, (if A k j ≠ 0 then D i k * x k else 0) else x i := by
  unfold parentMatrix Matrix.mulVec dotProduct
  simp only [Matrix.of_apply]
  split_ifs with hi
  · refine Finset.sum_congr rfl fun k _ => ?_
    by_cases hk : A k j = 0
    · have : i ≠ k := fun hc => hi (hc ▸ hk)
      simp [hk, this]
    · simp [hi, hk]
  · simp only [hi, false_and, ↓reduceIte, ite_mul, one_mul, zero_mul]
    simp

theorem parentMatrix_det (A : Adj p) (j : Fin p) {D : Matrix (Fin p) (Fin p) ℝ} (hD : D.PosDef) : (parentMatrix A j D).det ≠ 0 := by
  intro h0
  obtain ⟨x, hx0, hx⟩ := Matrix.exists_mulVec_eq_zero_iff.2 h0
  have h1 : ∀ i, A i j = 0 → x i = 0 := by
    intro i hi
    have := congrFun hx i
    rw [parentMatrix_row] at this
    simpa [hi] using this
  have h2 : ∀ i, A i j ≠ 0 → (D *ᵥ x) i = 0 := by
    intro i hi
    have := congrFun hx i
    rw [parentMatrix_row, if_pos hi] at this
    rw [Pi.zero_apply] at this
    rw [← this]
    unfold Matrix.mulVec dotProduct
    refine Finset.sum_congr rfl fun k _ => ?_
    by_cases hk : A k j = 0
    · simp [hk, h1 k hk]
    · simp [hk]
  have h3 : x ⬝ᵥ (D *ᵥ x) = 0 := by
    unfold dotProduct
    refine Finset.sum_eq_zero fun i _ => ?_
    by_cases hi : A i j = 0
    · rw [h1 i hi, zero_mul]
    · rw [h2 i hi, mul_zero]
  have h4 := hD.dotProduct_mulVec_pos hx0
  rw [star_trivial, h3] at h4
  exact lt_irrefl _ h4

theorem regWeights_eq {A : Adj p} (hac : Acyclic A) {B D : Matrix (Fin p) (Fin p) ℝ} (hB : Respects A B) (hD : D.PosDef) {w : Fin p → ℝ}
    (h : Entails B (Matrix.diagonal w) D) : regWeights A D = B := by
  ext i j
  unfold regWeights
  rw [Matrix.of_apply]
  have hu : IsUnit (parentMatrix A j D).det := isUnit_iff_ne_zero.2 (parentMatrix_det A j hD)
  have hv : parentMatrix A j D *ᵥ (fun i => B i j) = parentVector A j D := by
    funext i
    rw [parentMatrix_row]
    unfold parentVector
    split_ifs with hi
    · rw [← C103_regression hac hB h i j hi]
      refine Finset.sum_congr rfl fun k _ => ?_
      by_cases hk : A k j = 0
      · simp [hk, hB k j hk]
      · simp [hk]
    · exact hB i j (not_not.1 hi)
  rw [← hv, Matrix.mulVec_mulVec, Matrix.nonsing_inv_mul _ hu, Matrix.one_mulVec]

theorem regWeights_respects (A : Adj p) {D : Matrix (Fin p) (Fin p) ℝ} (hD : D.PosDef) : Respects A (regWeights A D) := by
  intro i j hij
  have hu : IsUnit (parentMatrix A j D).det := isUnit_iff_ne_zero.2 (parentMatrix_det A j hD)
  have h1 : parentMatrix A j D *ᵥ ((parentMatrix A j D)⁻¹ *ᵥ parentVector A j D) = parentVector A j D := by
    rw [Matrix.mulVec_mulVec, Matrix.mul_nonsing_inv _ hu, Matrix.one_mulVec]
  have h2 := congrFun h1 i
  rw [parentMatrix_row] at h2
  rw [if_neg (not_not.2 hij)] at h2
  unfold regWeights
  rw [Matrix.of_apply, h2]
  simp [parentVector, hij]

theorem regWeights_continuousAt (A : Adj p) {C : Matrix (Fin p) (Fin p) ℝ} (hC : C.PosDef) : ContinuousAt (regWeights A) C := by
  unfold regWeights
  refine continuousAt_pi.2 fun i => continuousAt_pi.2 fun j => ?_
  simp only [Matrix.of_apply]
  have hM : Continuous fun D : Matrix (Fin p) (Fin p) ℝ => parentMatrix A j D := by
    refine continuous_pi fun a => continuous_pi fun b => ?_
    unfold parentMatrix
    simp only [Matrix.of_apply]
    split_ifs
    · exact (continuous_apply b).comp (continuous_apply a)
    · exact continuous_const
    · exact continuous_const
  have hV : Continuous fun D : Matrix (Fin p) (Fin p) ℝ => parentVector A j D := by
    refine continuous_pi fun a => ?_
    unfold parentVector
    split_ifs
    · exact (continuous_apply a).comp (continuous_apply j)
    · exact continuous_const
  have heq : (fun D : Matrix (Fin p) (Fin p) ℝ => ((parentMatrix A j D)⁻¹ *ᵥ parentVector A j D) i) =
      fun D => ((parentMatrix A j D).det)⁻¹ * ((parentMatrix A j D).adjugate *ᵥ parentVector A j D) i := by
    funext D
    rw [Matrix.inv_def, Ring.inverse_eq_inv', Matrix.smul_mulVec, Pi.smul_apply, smul_eq_mul]
  rw [heq]
  refine ContinuousAt.mul (ContinuousAt.inv₀ hM.matrix_det.continuousAt (parentMatrix_det A j hC)) ?_
  exact ((continuous_apply i).comp (Continuous.matrix_mulVec hM.matrix_adjugate hV)).continuousAt

/-- A function that is continuous at `C` and vanishes at points arbitrarily close to `C` vanishes at `C`. -/
theorem vanishes_of_near {C : Fin e → Matrix (Fin p) (Fin p) ℝ} {P : (Fin e → Matrix (Fin p) (Fin p) ℝ) → Prop}
    (hP : ∀ ε > 0, ∃ D, P D ∧ Within ε C D) {f : (Fin e → Matrix (Fin p) (Fin p) ℝ) → ℝ} (hf : ContinuousAt f C) (h0 : ∀ D, P D → f D = 0) : f C = 0 := by
  by_contra hne
  obtain ⟨δ, hδ, h⟩ := (Metric.continuousAt_iff (α := Fin e → Fin p → Fin p → ℝ)).1 hf |f C| (abs_pos.2 hne)
  obtain ⟨D, hD, hDC⟩ := hP δ hδ
  have h1 := @h D ((dist_pi_lt_iff (X := fun _ : Fin e => Fin p → Fin p → ℝ) hδ).2 fun k => (dist_pi_lt_iff hδ).2 fun i => (dist_pi_lt_iff hδ).2 fun j => hDC k i j)
  rw [h0 D hD, Real.dist_eq, zero_sub, abs_neg] at h1
  exact lt_irrefl _ h1

theorem entailedWith_zero {I : Finset (Fin p)} {A : Adj p} {C : Fin e → Matrix (Fin p) (Fin p) ℝ} :
    EntailedWith 0 I A C ↔ Acyclic A ∧ EntailedBy I A C := by
  constructor
  · rintro ⟨hac, B, gamma, w, psis, h1, h2, -, h4, h5⟩
    exact ⟨hac, B, w, h1, h2, h4, fun k => by rw [← noiseCov_zero gamma (psis k)]; exact h5 k⟩
  · rintro ⟨hac, B, w, h1, h2, h4, h5⟩
    exact ⟨hac, B, 0, w, fun _ i => i.elim0, h1, h2, fun _ i => i.elim0, h4, fun k => by rw [noiseCov_zero]; exact h5 k⟩

/-- C113: without latents a class of models that approximates positive definite covariances entails them. -/
theorem C113_closed {I : Finset (Fin p)} {A : Adj p} {C : Fin e → Matrix (Fin p) (Fin p) ℝ} (hC : ∀ k, (C k).PosDef) :
    Approximates 0 I A C ↔ EntailedWith 0 I A C := by
  refine ⟨fun h => ?_, fun h => h.approximates⟩
  have hac : Acyclic A := by
    obtain ⟨D, hD, -⟩ := h 1 one_pos
    exact hD.1
  -- the residual covariances
  let V : Matrix (Fin p) (Fin p) ℝ → Matrix (Fin p) (Fin p) ℝ := fun D => (1 - (regWeights A D)ᵀ) * D * (1 - (regWeights A D)ᵀ)ᵀ
  have hV : ∀ k, ContinuousAt V (C k) := by
    intro k
    have h1 : ContinuousAt (fun D : Matrix (Fin p) (Fin p) ℝ => (1 - (regWeights A D)ᵀ)) (C k) := by
      refine ContinuousAt.sub continuousAt_const ?_
      have ht : Continuous fun X : Matrix (Fin p) (Fin p) ℝ => Xᵀ := continuous_id.matrix_transpose
      exact ht.continuousAt.comp (regWeights_continuousAt A (hC k))
    have hcont : Continuous fun x : Matrix (Fin p) (Fin p) ℝ × Matrix (Fin p) (Fin p) ℝ => x.1 * x.2 * x.1ᵀ :=
      ((continuous_fst.matrix_mul continuous_snd).matrix_mul continuous_fst.matrix_transpose)
    exact ContinuousAt.comp (x := C k) (f := fun D : Matrix (Fin p) (Fin p) ℝ => ((1 - (regWeights A D)ᵀ), D)) hcont.continuousAt
      (h1.prodMk continuousAt_id)
  have happ : ∀ k, Filter.Tendsto (fun D : Fin e → Matrix (Fin p) (Fin p) ℝ => D k) (nhds C) (nhds (C k)) := fun k => (continuous_apply k).continuousAt
  have hel : ∀ i j, Continuous fun X : Matrix (Fin p) (Fin p) ℝ => X i j := fun i j => continuous_id.matrix_elem i j
  have hVk : ∀ k i j, ContinuousAt (fun D : Fin e → Matrix (Fin p) (Fin p) ℝ => V (D k) i j) C := fun k i j =>
    ((hel i j).tendsto (V (C k))).comp ((hV k).tendsto.comp (happ k))
  have hWk : ∀ k i j, ContinuousAt (fun D : Fin e → Matrix (Fin p) (Fin p) ℝ => regWeights A (D k) i j) C := fun k i j =>
    ((hel i j).tendsto (regWeights A (C k))).comp ((regWeights_continuousAt A (hC k)).tendsto.comp (happ k))
  have hent : ∀ D : Fin e → Matrix (Fin p) (Fin p) ℝ, EntailedWith 0 I A D → ∃ (B : Matrix (Fin p) (Fin p) ℝ) (w : Fin e → Fin p → ℝ),
      (∀ k k' i, i ∉ I → w k i = w k' i) ∧ ∀ k, regWeights A (D k) = B ∧ V (D k) = Matrix.diagonal (w k) := by
    intro D hD
    obtain ⟨-, B, w, h1, -, h3, h4⟩ := entailedWith_zero.1 hD
    refine ⟨B, w, h3, fun k => ?_⟩
    have h5 := regWeights_eq hac h1 (hD.posDef k) (h4 k)
    refine ⟨h5, ?_⟩
    change (1 - (regWeights A (D k))ᵀ) * D k * (1 - (regWeights A (D k))ᵀ)ᵀ = _
    rw [h5]
    exact h4 k
  have hWc : ∀ k k', regWeights A (C k) = regWeights A (C k') := by
    intro k k'
    ext i j
    refine sub_eq_zero.1 (vanishes_of_near h (f := fun D => regWeights A (D k) i j - regWeights A (D k') i j) ((hWk k i j).sub (hWk k' i j)) fun D hD => ?_)
    obtain ⟨B, w, -, h2⟩ := hent D hD
    simp only [(h2 k).1, (h2 k').1, sub_self]
  have hVo : ∀ k i j, i ≠ j → V (C k) i j = 0 := by
    intro k i j hij
    refine vanishes_of_near h (f := fun D => V (D k) i j) (hVk k i j) fun D hD => ?_
    obtain ⟨B, w, -, h2⟩ := hent D hD
    simp only [(h2 k).2, Matrix.diagonal_apply_ne _ hij]
  have hVc : ∀ k k' i, i ∉ I → V (C k) i i = V (C k') i i := by
    intro k k' i hi
    refine sub_eq_zero.1 (vanishes_of_near h (f := fun D => V (D k) i i - V (D k') i i) ((hVk k i i).sub (hVk k' i i)) fun D hD => ?_)
    obtain ⟨B, w, h1, h2⟩ := hent D hD
    simp only [(h2 k).2, (h2 k').2, Matrix.diagonal_apply_eq, h1 k k' i hi, sub_self]
  refine entailedWith_zero.2 ⟨hac, ?_⟩
  have hdiag : ∀ k, V (C k) = Matrix.diagonal fun i => V (C k) i i := by
    intro k
    ext i j
    by_cases hij : i = j
    · subst hij
      rw [Matrix.diagonal_apply_eq]
    · rw [Matrix.diagonal_apply_ne _ hij, hVo k i j hij]
  have hpos : ∀ k i, 0 < V (C k) i i := by
    intro k i
    have hdet := det_one_sub_transpose hac (regWeights_respects A (hC k))
    have hu : IsUnit (1 - (regWeights A (C k))ᵀ).det := by rw [hdet]; exact isUnit_one
    have := (hC k).mul_mul_conjTranspose_same (B := 1 - (regWeights A (C k))ᵀ) (by
      intro x y hxy
      have h1 := congrArg (fun v => Matrix.vecMul v (1 - (regWeights A (C k))ᵀ)⁻¹) hxy
      simpa only [Matrix.vecMul_vecMul, Matrix.mul_nonsing_inv _ hu, Matrix.vecMul_one] using h1)
    rw [Matrix.conjTranspose_eq_transpose_of_trivial] at this
    exact this.diag_pos
  rcases Nat.eq_zero_or_pos e with rfl | he
  · exact ⟨0, fun k => k.elim0, fun _ _ _ => rfl, fun k => k.elim0, fun k => k.elim0, fun k => k.elim0⟩
  · refine ⟨regWeights A (C ⟨0, he⟩), fun k i => V (C k) i i, regWeights_respects A (hC _), hpos, hVc, fun k => ?_⟩
    rw [← hdiag k, hWc ⟨0, he⟩ k]
    rfl

end Verif
