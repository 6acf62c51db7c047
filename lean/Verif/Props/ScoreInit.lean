import Verif.Props.ScoreStale

/-!
# C53: the initial values of `score_dag`
-/

namespace Verif

open Spec Matrix

variable {p l e : Nat}

/-! ## Specification -/

namespace Spec

/-- Sample covariance averaged over the environments with the sample sizes as weights. -/
noncomputable def pooledCov (d : Data p e) : Matrix (Fin p) (Fin p) ℝ :=
  fun i j => (∑ k, (d.nObs k : ℝ) * d.covs k i j) / ∑ k, (d.nObs k : ℝ)

/-- The covariance that the argument `init` selects: that of the first environment for 'obs', the average for 'avg'. -/
inductive Selected (d : Data p e) : InitKind → Matrix (Fin p) (Fin p) ℝ → Prop
  | obs (h : 0 < e) : Selected d .obs (d.covs ⟨0, h⟩)
  | avg : Selected d .avg (pooledCov d)

/-- Variance of `X_j - Σ_i b_i X_i` if `X` has covariance `C`. -/
noncomputable def residualVar (C : Matrix (Fin p) (Fin p) ℝ) (j : Fin p) (b : Fin p → ℝ) : ℝ :=
  C j j - 2 * ∑ i, b i * C i j + ∑ i, ∑ k, b i * C i k * b k

end Spec

theorem avgCov_eq (d : Data p e) : avgCov d = pooledCov d := by
  ext i j
  simp only [avgCov, pooledCov, Data.total, Matrix.smul_apply, Matrix.sum_apply, smul_eq_mul]
  push_cast
  rw [one_div, mul_comm, ← div_eq_mul_inv]

theorem initCovariance_ok_iff (d : Data p e) (init : InitKind) (C : Matrix (Fin p) (Fin p) ℝ) :
    initCovariance d init = .ok C ↔ Selected d init C := by
  constructor
  · intro h
    cases init with
    | other => simp [initCovariance] at h
    | obs =>
      unfold initCovariance at h
      split_ifs at h with he
      simp only [Except.ok.injEq] at h
      subst h
      exact .obs he
    | avg =>
      simp only [initCovariance, Except.ok.injEq] at h
      rw [avgCov_eq] at h
      subst h
      exact .avg
  · intro h
    cases h with
    | obs he => simp [initCovariance, he]
    | avg => simp [initCovariance, avgCov_eq]

/-! ## The weights -/

theorem regressAll_ok {A : Adj p} {C B : Matrix (Fin p) (Fin p) ℝ} (h : regressAll A C = .ok B) :
    Respects A B ∧ ∀ j i, A i j ≠ 0 → ∑ k, C i k * B k j = C j i := by
  unfold regressAll at h
  split_ifs at h with hdet
  push Not at hdet
  simp only [Except.ok.injEq] at h
  have hreg : ∀ j, regress j (paOf A j) C = .ok ((covPa C (paOf A j))⁻¹ *ᵥ (fun i => C j i.val)) := by
    intro j
    unfold regress
    rw [if_neg (hdet j)]
  have hB : ∀ i j, B i j = if hi : i ∈ paOf A j then ((covPa C (paOf A j))⁻¹ *ᵥ (fun i => C j i.val)) ⟨i, hi⟩ else 0 := by
    intro i j
    rw [← h, Matrix.of_apply, hreg j]
  constructor
  · intro i j hij
    rw [hB, dif_neg (by simp [paOf, hij])]
  · intro j i hij
    have hi : i ∈ paOf A j := by simp [paOf, hij]
    have h1 : (covPa C (paOf A j) *ᵥ ((covPa C (paOf A j))⁻¹ *ᵥ (fun i => C j i.val))) ⟨i, hi⟩ = C j i := by
      rw [Matrix.mulVec_mulVec, Matrix.mul_nonsing_inv _ (isUnit_iff_ne_zero.2 (hdet j)), Matrix.one_mulVec]
    rw [← h1]
    simp only [Matrix.mulVec, dotProduct, covPa, Matrix.submatrix_apply]
    rw [← Finset.sum_subset (Finset.subset_univ (paOf A j)), ← Finset.sum_coe_sort]
    · refine Finset.sum_congr rfl (fun k _ => ?_)
      rw [hB, dif_pos k.2]
      rfl
    · intro k _ hk
      rw [hB, dif_neg hk, mul_zero]

/-- C53: `_initialize_B` uses the selected covariance, returns weights on the graph, and they solve the normal equations of the
regression of every variable on its parents. -/
theorem C53_B_normal_equations (A : Adj p) (d : Data p e) (init : InitKind) (B : Matrix (Fin p) (Fin p) ℝ)
    (h : initializeB A d init = .ok B) :
    ∃ C, Selected d init C ∧ (∀ i j, A i j = 0 → B i j = 0) ∧ ∀ i j, A i j ≠ 0 → ∑ k, C i k * B k j = C j i := by
  unfold initializeB at h
  split at h
  · simp at h
  · rename_i C hC
    obtain ⟨h1, h2⟩ := regressAll_ok h
    exact ⟨C, (initCovariance_ok_iff d init C).1 hC, h1, fun i j hij => h2 j i hij⟩

/-- C53: for a positive semidefinite covariance, every column of the initial weights has the smallest residual variance among all
coefficients that are zero outside of the parents. -/
theorem C53_B_least_squares (A : Adj p) (d : Data p e) (init : InitKind) (B C : Matrix (Fin p) (Fin p) ℝ)
    (h : initializeB A d init = .ok B) (hC : Selected d init C) (hpsd : C.PosSemidef) (j : Fin p) (b : Fin p → ℝ)
    (hb : ∀ i, A i j = 0 → b i = 0) : residualVar C j (fun i => B i j) ≤ residualVar C j b := by
  have hsym : ∀ a b, C a b = C b a := fun a b => by
    have := congrFun (congrFun hpsd.isHermitian.transpose b) a
    simpa [Matrix.transpose_apply] using (congrFun (congrFun hpsd.1 a) b).symm
  unfold initializeB at h
  rw [(initCovariance_ok_iff d init C).2 hC] at h
  obtain ⟨h1, h2⟩ := regressAll_ok h
  have hq : 0 ≤ ∑ i, ∑ k, (b i - B i j) * C i k * (b k - B k j) := by
    have := hpsd.dotProduct_mulVec_nonneg (fun i => b i - B i j)
    simp only [dotProduct, Matrix.mulVec, star_trivial, Finset.mul_sum] at this
    simpa [mul_assoc] using this
  have hcross : ∀ x : Fin p → ℝ, (∀ i, A i j = 0 → x i = 0) → ∑ i, ∑ k, x i * C i k * B k j = ∑ i, x i * C i j := by
    intro x hx
    refine Finset.sum_congr rfl (fun i _ => ?_)
    by_cases hi : A i j = 0
    · simp [hx i hi]
    · have := h2 j i hi
      simp only [mul_assoc]
      rw [← Finset.mul_sum, this, hsym j i]
  have hx1 := hcross b hb
  have hx2 := hcross (fun i => B i j) (fun i hi => h1 i j hi)
  have hsw : ∑ i, ∑ k, B i j * C i k * b k = ∑ i, ∑ k, b i * C i k * B k j := by
    rw [Finset.sum_comm]
    refine Finset.sum_congr rfl (fun i _ => Finset.sum_congr rfl (fun k _ => ?_))
    rw [hsym k i]; ring
  have hexp : ∑ i, ∑ k, (b i - B i j) * C i k * (b k - B k j) = (∑ i, ∑ k, b i * C i k * b k) - (∑ i, ∑ k, b i * C i k * B k j) -
      (∑ i, ∑ k, B i j * C i k * b k) + ∑ i, ∑ k, B i j * C i k * B k j := by
    simp only [← Finset.sum_sub_distrib, ← Finset.sum_add_distrib]
    refine Finset.sum_congr rfl (fun i _ => Finset.sum_congr rfl (fun k _ => ?_))
    ring
  unfold residualVar
  rw [hexp, hsw, hx1, hx2] at hq
  rw [hx2]
  linarith

/-- C53: the only exceptions: an unknown value of `init`, no environments with 'obs', or a singular covariance of some parents. -/
theorem C53_B_raises (A : Adj p) (d : Data p e) (init : InitKind) (err : Err) :
    initializeB A d init = .error err ↔
      (init = .other ∧ err = .valueError) ∨ (init = .obs ∧ e = 0 ∧ err = .indexError) ∨
      (err = .linAlgError ∧ ∃ C j, Selected d init C ∧
        (C.submatrix (Subtype.val : {i // A i j ≠ 0} → Fin p) Subtype.val).det = 0) := by
  have hdet : ∀ (C : Matrix (Fin p) (Fin p) ℝ) (j : Fin p), (covPa C (paOf A j)).det =
      (C.submatrix (Subtype.val : {i // A i j ≠ 0} → Fin p) Subtype.val).det := by
    intro C j
    have hmem : ∀ i, i ∈ paOf A j ↔ A i j ≠ 0 := by intro i; simp [paOf]
    rw [← Matrix.det_submatrix_equiv_self (Equiv.subtypeEquivRight hmem)]
    rfl
  have hreg : ∀ C, (regressAll A C = .error err ↔ err = .linAlgError ∧ ∃ j, (covPa C (paOf A j)).det = 0) := by
    intro C
    unfold regressAll
    split_ifs with h1
    · simp only [Except.error.injEq]
      exact ⟨fun h => ⟨h.symm, h1⟩, fun h => h.1.symm⟩
    · simp only [false_iff]
      exact fun h => h1 h.2
  unfold initializeB
  cases hC : initCovariance d init with
  | ok C =>
    have hsel := (initCovariance_ok_iff d init C).1 hC
    simp only []
    rw [hreg]
    constructor
    · rintro ⟨h1, j, h2⟩
      exact Or.inr (Or.inr ⟨h1, C, j, hsel, by rw [← hdet]; exact h2⟩)
    · rintro (⟨rfl, -⟩ | ⟨rfl, rfl, -⟩ | ⟨h1, C', j, h2, h3⟩)
      · cases hsel
      · simp [initCovariance] at hC
      · have : initCovariance d init = .ok C' := (initCovariance_ok_iff d init C').2 h2
        rw [hC] at this
        simp only [Except.ok.injEq] at this
        subst this
        exact ⟨h1, j, by rw [hdet]; exact h3⟩
  | error err' =>
    simp only [Except.error.injEq]
    have hno : ∀ C, ¬ Selected d init C := fun C hs => by
      rw [(initCovariance_ok_iff d init C).2 hs] at hC; simp at hC
    cases init with
    | other =>
      simp only [initCovariance, Except.error.injEq] at hC
      subst hC
      constructor
      · rintro rfl; exact Or.inl ⟨rfl, rfl⟩
      · rintro (⟨-, h⟩ | ⟨h, -⟩ | ⟨-, C, j, h, -⟩)
        · exact h.symm
        · simp at h
        · exact absurd h (hno C)
    | avg => simp [initCovariance] at hC
    | obs =>
      unfold initCovariance at hC
      split_ifs at hC with he
      simp only [Except.error.injEq] at hC
      subst hC
      constructor
      · rintro rfl; exact Or.inr (Or.inl ⟨rfl, by omega, rfl⟩)
      · rintro (⟨h, -⟩ | ⟨-, -, h⟩ | ⟨-, C, j, h, -⟩)
        · simp at h
        · exact h.symm
        · exact absurd h (hno C)

/-! ## The variances -/

/-- C53: the initial variances of a target are the residual variances of the weights `B` in the environments, those of any other
variable are their average weighted by sample size, the same in all environments. -/
theorem C53_omegas (B : Matrix (Fin p) (Fin p) ℝ) (I : Finset (Fin p)) (d : Data p e) (init : InitKind)
    (om : Matrix (Fin e) (Fin p) ℝ) (hsym : ∀ k, (d.covs k).IsSymm) (h : initializeOmegas B I d init = .ok om) :
    (∀ k, ∀ j ∈ I, om k j = residualVar (d.covs k) j (fun i => B i j)) ∧
    (∀ k, ∀ j ∉ I, om k j = (∑ h, (d.nObs h : ℝ) * residualVar (d.covs h) j (fun i => B i j)) / ∑ h, (d.nObs h : ℝ)) ∧
    ∀ j ∉ I, ConstEnv om j := by
  have hres : ∀ k j, omegasFree B d k j = residualVar (d.covs k) j (fun i => B i j) := by
    intro k j
    have hs : ∀ a b, d.covs k a b = d.covs k b a := fun a b => (hsym k).apply b a
    unfold omegasFree nCov residualVar
    have e1 : ((1 - Bᵀ) * d.covs k * (1 - Bᵀ)ᵀ) = d.covs k - Bᵀ * d.covs k - d.covs k * B + Bᵀ * d.covs k * B := by
      simp only [Matrix.transpose_sub, Matrix.transpose_one, Matrix.transpose_transpose]
      noncomm_ring
    rw [e1]
    simp only [Matrix.add_apply, Matrix.sub_apply, Matrix.mul_apply, Matrix.transpose_apply, Finset.sum_mul]
    have e2 : ∑ i, d.covs k j i * B i j = ∑ i, B i j * d.covs k i j :=
      Finset.sum_congr rfl (fun i _ => by rw [hs j i]; ring)
    have e3 : ∑ x, ∑ i, B i j * d.covs k i x * B x j = ∑ i, ∑ x, B i j * d.covs k i x * B x j := Finset.sum_comm
    rw [e2, e3]
    ring
  unfold initializeOmegas at h
  split at h
  · simp at h
  · simp only [Except.ok.injEq] at h
    subst h
    refine ⟨fun k j hj => ?_, fun k j hj => ?_, fun j hj k k' => ?_⟩
    · rw [Matrix.of_apply, if_pos hj, hres]
    · rw [Matrix.of_apply, if_neg hj]
      simp only [hres, Data.total, mul_comm]
      push_cast
      rfl
    · rw [Matrix.of_apply, Matrix.of_apply, if_neg hj, if_neg hj]

/-- C53: for positive definite covariances and weights on a DAG the initial variances are positive. -/
theorem C53_omegas_pos {A : Adj p} (hac : Acyclic A) (B : Matrix (Fin p) (Fin p) ℝ) (hB : ∀ i j, A i j = 0 → B i j = 0)
    (I : Finset (Fin p)) (d : Data p e) (hpd : ∀ k, (d.covs k).PosDef) (hn : ∀ k, 0 < d.nObs k) (init : InitKind)
    (om : Matrix (Fin e) (Fin p) ℝ) (h : initializeOmegas B I d init = .ok om) (k : Fin e) (j : Fin p) : 0 < om k j := by
  have hd : GoodData d := ⟨hpd, hn, Nat.pos_of_ne_zero (fun h0 => by subst h0; exact k.elim0)⟩
  have hpos : ∀ h, 0 < omegasFree B d h j := fun h => (nCov_posDef hac d hd hB h).diag_pos
  unfold initializeOmegas at h
  split at h
  · simp at h
  · simp only [Except.ok.injEq] at h
    subst h
    rw [Matrix.of_apply]
    split_ifs
    · exact hpos k
    · refine div_pos (Finset.sum_pos (fun h _ => mul_pos (hpos h) (Nat.cast_pos.2 (hd.pos h))) ⟨⟨0, hd.some⟩, Finset.mem_univ _⟩) ?_
      exact Nat.cast_pos.2 hd.total_pos

/-- C53: the argument `init` of `_initialize_omegas` has no effect on the result. -/
theorem C53_omegas_ignore_init (he : 0 < e) (B : Matrix (Fin p) (Fin p) ℝ) (I : Finset (Fin p)) (d : Data p e) :
    initializeOmegas B I d .obs = initializeOmegas B I d .avg := by
  unfold initializeOmegas initCovariance
  rw [dif_pos he]

/-- C53: the three functions raise `ValueError` for other values of `init`. -/
theorem C53_init_unknown (A : Adj p) (B : Matrix (Fin p) (Fin p) ℝ) (I : Finset (Fin p)) (d : Data p e) (l : Nat)
    (svd : Matrix (Fin p) (Fin p) ℝ → Matrix (Fin p) (Fin p) ℝ × (Fin p → ℝ)) :
    initializeB A d .other = .error .valueError ∧ initializeGamma svd B l d .other = .error .valueError ∧
      initializeOmegas B I d .other = .error .valueError := ⟨rfl, rfl, rfl⟩

/-! ## The latent effects -/

/-- What `np.linalg.svd` returns for a positive semidefinite matrix: orthonormal singular vectors and the singular values in decreasing
order. -/
structure Spec.IsSvd (M U : Matrix (Fin p) (Fin p) ℝ) (S : Fin p → ℝ) : Prop where
  orthogonal : Uᵀ * U = 1
  nonneg : ∀ i, 0 ≤ S i
  antitone : Antitone S
  eq : M = U * Matrix.diagonal S * Uᵀ

/-- C53: `gammaᵀ gamma` of the initial value is the part of `(I - Bᵀ) C (I - Bᵀ)ᵀ` that belongs to the first `num_latent` singular
values; in particular all of it if there are at least `p` latents. -/
theorem C53_gamma (svd : Matrix (Fin p) (Fin p) ℝ → Matrix (Fin p) (Fin p) ℝ × (Fin p → ℝ)) (B : Matrix (Fin p) (Fin p) ℝ) (l : Nat)
    (d : Data p e) (init : InitKind) (gamma : Matrix (Fin (min l p)) (Fin p) ℝ) (C : Matrix (Fin p) (Fin p) ℝ)
    (hC : Selected d init C)
    (hsvd : IsSvd ((1 - Bᵀ) * C * (1 - Bᵀ)ᵀ) (svd ((1 - Bᵀ) * C * (1 - Bᵀ)ᵀ)).1 (svd ((1 - Bᵀ) * C * (1 - Bᵀ)ᵀ)).2)
    (h : initializeGamma svd B l d init = .ok gamma) :
    gammaᵀ * gamma = (svd ((1 - Bᵀ) * C * (1 - Bᵀ)ᵀ)).1 * Matrix.diagonal (fun i =>
        if i.val < l then (svd ((1 - Bᵀ) * C * (1 - Bᵀ)ᵀ)).2 i else 0) * ((svd ((1 - Bᵀ) * C * (1 - Bᵀ)ᵀ)).1)ᵀ ∧
      (p ≤ l → gammaᵀ * gamma = (1 - Bᵀ) * C * (1 - Bᵀ)ᵀ) := by
  unfold initializeGamma at h
  rw [(initCovariance_ok_iff d init C).2 hC] at h
  simp only [Except.ok.injEq] at h
  generalize hM : (1 - Bᵀ) * C * (1 - Bᵀ)ᵀ = M at *
  generalize hU : svd M = us at *
  obtain ⟨U, S⟩ := us
  simp only at *
  have key : gammaᵀ * gamma = U * Matrix.diagonal (fun i => if i.val < l then S i else 0) * Uᵀ := by
    subst h
    ext a b
    rw [Matrix.mul_apply, Matrix.mul_apply]
    simp only [Matrix.mul_diagonal, Matrix.transpose_apply, Matrix.of_apply]
    have e1 : ∀ c : Fin (min l p), U a ⟨c.val, lt_of_lt_of_le c.isLt (min_le_right l p)⟩ *
        Real.sqrt (S ⟨c.val, lt_of_lt_of_le c.isLt (min_le_right l p)⟩) *
        (U b ⟨c.val, lt_of_lt_of_le c.isLt (min_le_right l p)⟩ *
          Real.sqrt (S ⟨c.val, lt_of_lt_of_le c.isLt (min_le_right l p)⟩)) =
        (fun i : Fin p => U a i * S i * U b i) ⟨c.val, lt_of_lt_of_le c.isLt (min_le_right l p)⟩ := by
      intro c
      have := Real.mul_self_sqrt (hsvd.nonneg ⟨c.val, lt_of_lt_of_le c.isLt (min_le_right l p)⟩)
      linear_combination U a ⟨c.val, lt_of_lt_of_le c.isLt (min_le_right l p)⟩ *
        U b ⟨c.val, lt_of_lt_of_le c.isLt (min_le_right l p)⟩ * this
    simp only [e1]
    have e2 : ∀ i : Fin p, U a i * (if i.val < l then S i else 0) * U b i = if i.val < l then U a i * S i * U b i else 0 := by
      intro i; split_ifs <;> simp
    simp only [e2]
    rw [← Finset.sum_filter]
    refine Finset.sum_bij (fun c _ => ⟨c.val, lt_of_lt_of_le c.isLt (min_le_right l p)⟩) ?_ ?_ ?_ ?_
    · intro c _
      simp only [Finset.mem_filter, Finset.mem_univ, true_and]
      exact lt_of_lt_of_le c.isLt (min_le_left l p)
    · intro c _ c' _ hcc
      exact Fin.ext (by simpa using hcc)
    · intro i hi
      simp only [Finset.mem_filter, Finset.mem_univ, true_and] at hi
      exact ⟨⟨i.val, lt_min hi i.isLt⟩, Finset.mem_univ _, rfl⟩
    · intro c _; rfl
  refine ⟨key, fun hl => ?_⟩
  rw [key, hsvd.eq]
  congr 3
  funext i
  rw [if_pos (lt_of_lt_of_le i.isLt hl)]

/-- C53: the whole initial model of `score_dag`.  All its parameters come from the average of the sample covariances over the environments:
the weights are the regressions of the variables on their parents, the effects of the latents belong to the largest singular values of the
covariance of the residuals, the noise variances are those of the residuals (averaged at variables that are not targets) and the variances
of the latents are one. -/
theorem C53_initial_model (it : SetIter p) (svd : Matrix (Fin p) (Fin p) ℝ → Matrix (Fin p) (Fin p) ℝ × (Fin p → ℝ)) (A : Adj p)
    (hA : Nonneg A) (I : Finset (Fin p)) (d : Data p e) (hsym : ∀ k, (d.covs k).IsSymm)
    (m : LModel p l e) (h : initialModel it svd d A I = .ok m) :
    m.A = A ∧ Acyclic A ∧ (∀ i j, A i j = 0 → m.B i j = 0) ∧ (∀ i j, A i j ≠ 0 → ∑ k, pooledCov d i k * m.B k j = pooledCov d j i) ∧
    (IsSvd ((1 - m.Bᵀ) * pooledCov d * (1 - m.Bᵀ)ᵀ) (svd ((1 - m.Bᵀ) * pooledCov d * (1 - m.Bᵀ)ᵀ)).1
        (svd ((1 - m.Bᵀ) * pooledCov d * (1 - m.Bᵀ)ᵀ)).2 →
      m.gammaᵀ * m.gamma = (svd ((1 - m.Bᵀ) * pooledCov d * (1 - m.Bᵀ)ᵀ)).1 * Matrix.diagonal (fun i =>
        if i.val < l then (svd ((1 - m.Bᵀ) * pooledCov d * (1 - m.Bᵀ)ᵀ)).2 i else 0) * ((svd ((1 - m.Bᵀ) * pooledCov d * (1 - m.Bᵀ)ᵀ)).1)ᵀ) ∧
    (∀ k, ∀ j ∈ I, m.omegas k j = residualVar (d.covs k) j (fun i => m.B i j)) ∧
    (∀ k, ∀ j ∉ I, m.omegas k j = (∑ h, (d.nObs h : ℝ) * residualVar (d.covs h) j (fun i => m.B i j)) / ∑ h, (d.nObs h : ℝ)) ∧
    ∀ k i, m.psis k i = 1 := by
  unfold initialModel at h
  split at h
  · simp at h
  · rename_i B hB
    split at h
    · simp at h
    · rename_i gamma hg
      split at h
      · simp at h
      · rename_i om hom
        split_ifs at h with hl
        obtain ⟨hac, hresp, rfl⟩ := mkModel_ok hA h
        obtain ⟨C, hC, b1, b2⟩ := C53_B_normal_equations A d .avg B hB
        cases hC
        obtain ⟨o1, o2, -⟩ := C53_omegas B I d .avg om hsym hom
        refine ⟨rfl, hac, b1, b2, fun hsvd => ?_, o1, o2, fun _ _ => rfl⟩
        rw [← (C53_gamma svd B l d .avg gamma _ .avg hsvd hg).1]
        ext a b
        rw [Matrix.mul_apply, Matrix.mul_apply]
        exact Equiv.sum_comp (finCongr hl.symm) (fun c => gammaᵀ a c * gamma c b)

/-- C53: with more latents than variables `score_dag` raises `ValueError` (unless a regression fails first): the matrix of latent
effects has only `p` rows. -/
theorem C53_too_many_latents (hl : p < l) (it : SetIter p)
    (svd : Matrix (Fin p) (Fin p) ℝ → Matrix (Fin p) (Fin p) ℝ × (Fin p → ℝ)) (sv : Finset (Fin p) → Solvers p l e) (cfg : StopCfg)
    (d : Data p e) (hd : GoodData d) (A : Adj p) (I : Finset (Fin p)) :
    fitDag it svd sv cfg d A I none = .error .valueError := by
  unfold fitDag
  split_ifs
  · rfl
  · have : initialModel it svd d A I = (.error .valueError : Except Err (LModel p l e)) := by
      obtain ⟨B, hB, -⟩ := initializeB_ok (A := A) d hd
      unfold initialModel
      rw [hB]
      simp only []
      unfold initializeGamma initializeOmegas initCovariance
      simp only []
      rw [dif_neg (by rw [min_eq_right hl.le]; omega)]
    simp only [this]

/-! ## Examples -/

example : initializeB StaleEx.graph StaleEx.data .avg = .ok !![0, 1 / 2; 0, 0] := StaleEx.initB

example : Selected StaleEx.data .avg (pooledCov StaleEx.data) ∧ (pooledCov StaleEx.data).PosSemidef :=
  ⟨.avg, by rw [← avgCov_eq]; exact (avgCov_posDef _ StaleEx.good).posSemidef⟩

example : initializeOmegas StaleEx.B0 Finset.univ StaleEx.data .avg = .ok StaleEx.om := by
  unfold initializeOmegas initCovariance
  simp only []
  congr 1
  ext k j
  simp [StaleEx.omFree]

example : IsSvd (Matrix.diagonal ![4, 1]) (1 : Matrix (Fin 2) (Fin 2) ℝ) ![4, 1] where
  orthogonal := by simp
  nonneg := by intro i; fin_cases i <;> simp
  antitone := by intro i j hij; fin_cases i <;> fin_cases j <;> simp at hij ⊢
  eq := by simp

/-- The singular value decomposition of the covariance of the residuals in the example. -/
theorem StaleEx.svd : IsSvd ((1 - (!![0, 1 / 2; 0, 0] : Matrix (Fin 2) (Fin 2) ℝ)ᵀ) * pooledCov StaleEx.data *
    (1 - (!![0, 1 / 2; 0, 0] : Matrix (Fin 2) (Fin 2) ℝ)ᵀ)ᵀ) !![0, 1; 1, 0] ![9 / 4, 1] where
  orthogonal := by ext i j; fin_cases i <;> fin_cases j <;> simp [Matrix.mul_apply, Fin.sum_univ_two]
  nonneg := by intro i; fin_cases i <;> norm_num
  antitone := by intro i j hij; fin_cases i <;> fin_cases j <;> simp at hij ⊢ <;> norm_num
  eq := by
    ext i j
    fin_cases i <;> fin_cases j <;>
      simp [Matrix.mul_apply, Fin.sum_univ_two, pooledCov, StaleEx.data, Matrix.one_apply, Matrix.sub_apply, Matrix.diagonal, Matrix.vecHead,
        Matrix.vecTail] <;> norm_num

/-- The hypotheses of `C53_initial_model` are met with one latent, and the conclusion gives the effects of the latent: 0 and ±3/2. -/
example (it : SetIter 2) : ∃ m : LModel 2 1 2, initialModel it (fun _ => (!![0, 1; 1, 0], ![9 / 4, 1])) StaleEx.data StaleEx.graph {1} = .ok m ∧
    m.B = !![0, 1 / 2; 0, 0] ∧ m.gammaᵀ * m.gamma = !![0, 0; 0, 9 / 4] ∧ m.psis = fun _ _ => 1 := by
  obtain ⟨m, hm, -⟩ := initialModel_returns (it := it) (l := 1) StaleEx.nonneg StaleEx.acyclic
    (fun _ => (!![0, 1; 1, 0], ![9 / 4, 1])) StaleEx.data StaleEx.good {1} (by norm_num) (psiMax := none) (by simp)
  have hB : m.B = !![0, 1 / 2; 0, 0] := by
    have h := hm
    unfold initialModel at h
    rw [StaleEx.initB] at h
    simp only [] at h
    unfold initializeGamma initializeOmegas initCovariance at h
    simp only [] at h
    rw [dif_pos (by simp)] at h
    obtain ⟨-, -, rfl⟩ := mkModel_fields h
    rfl
  obtain ⟨-, -, -, -, h5, -, -, h8⟩ := C53_initial_model it _ _ StaleEx.nonneg {1} StaleEx.data
    (fun k => by simpa using (StaleEx.good.posDef k).isHermitian) m hm
  refine ⟨m, hm, hB, ?_, by ext k i; exact h8 k i⟩
  rw [h5 (by rw [hB]; exact StaleEx.svd)]
  ext i j
  fin_cases i <;> fin_cases j <;> simp [Matrix.mul_apply, Matrix.diagonal, Matrix.vecHead, Matrix.vecTail]

end Verif
