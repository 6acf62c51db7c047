import Mathlib.Topology.Instances.Matrix
import Verif.Props.ManyLatents
import Verif.Props.Population
import Verif.Props.ApartExamples

/-!
# C113: how far the score separates classes of models

If the likelihood of a covariance is almost the largest possible, the covariance is close to the sample covariance.  So a class of models (a
graph, a set of targets, a number of latents) whose covariances stay away from those of the data has a score that stays away from the best one,
also on covariances that are slightly wrong.
-/

namespace Verif

open Matrix Spec

variable {p l e : Nat}

/-- `C`, one covariance per environment, is entailed by a model over the DAG `A` with `l` latents whose noise variances are positive and,
outside `I`, the same in all environments. -/
def Spec.EntailedWith (l : Nat) (I : Finset (Fin p)) (A : Adj p) (C : Fin e → Matrix (Fin p) (Fin p) ℝ) : Prop :=
  Acyclic A ∧ ∃ (B : Matrix (Fin p) (Fin p) ℝ) (gamma : Matrix (Fin l) (Fin p) ℝ) (omegas : Fin e → Fin p → ℝ) (psis : Fin e → Fin l → ℝ),
    Respects A B ∧ (∀ k i, 0 < omegas k i) ∧ (∀ k i, 0 ≤ psis k i) ∧ (∀ k k' i, i ∉ I → omegas k i = omegas k' i) ∧
    ∀ k, Entails B (noiseCov gamma (psis k) (omegas k)) (C k)

/-- The entries of the covariances differ by less than `δ`. -/
def Spec.Within (δ : ℝ) (C D : Fin e → Matrix (Fin p) (Fin p) ℝ) : Prop := ∀ k i j, |D k i j - C k i j| < δ

/-- Covariances that are entailed by such models come arbitrarily close to `C`. -/
def Spec.Approximates (l : Nat) (I : Finset (Fin p)) (A : Adj p) (C : Fin e → Matrix (Fin p) (Fin p) ℝ) : Prop :=
  ∀ ε > 0, ∃ D, EntailedWith l I A D ∧ Within ε C D

theorem Spec.EntailedWith.approximates {I : Finset (Fin p)} {A : Adj p} {C : Fin e → Matrix (Fin p) (Fin p) ℝ} (h : EntailedWith l I A C) :
    Approximates l I A C := fun ε hε => ⟨C, h, fun k i j => by simpa using hε⟩

theorem entails_pd {B V C : Matrix (Fin p) (Fin p) ℝ} (hdet : (1 - Bᵀ).det = 1) (hV : V.PosDef) (h : Entails B V C) : C.PosDef := by
  have hu : IsUnit (1 - Bᵀ).det := by rw [hdet]; exact isUnit_one
  have hut : IsUnit ((1 - Bᵀ)ᵀ).det := by rw [Matrix.det_transpose]; exact hu
  have hC : C = (1 - Bᵀ)⁻¹ * V * ((1 - Bᵀ)⁻¹)ᵀ := by
    rw [← h, Matrix.mul_assoc (1 - Bᵀ), Matrix.nonsing_inv_mul_cancel_left _ _ hu, Matrix.transpose_nonsing_inv,
      Matrix.mul_nonsing_inv_cancel_right _ _ hut]
  rw [hC]
  have := hV.mul_mul_conjTranspose_same (B := (1 - Bᵀ)⁻¹) (by
    intro x y hxy
    have h1 := congrArg (fun v => Matrix.vecMul v (1 - Bᵀ)) hxy
    simpa [Matrix.vecMul_vecMul, Matrix.nonsing_inv_mul _ hu] using h1)
  rwa [Matrix.conjTranspose_eq_transpose_of_trivial] at this

theorem Spec.EntailedWith.posDef {I : Finset (Fin p)} {A : Adj p} {C : Fin e → Matrix (Fin p) (Fin p) ℝ} (h : EntailedWith l I A C) (k : Fin e) :
    (C k).PosDef := by
  obtain ⟨hac, B, gamma, omegas, psis, h1, h2, h3, -, h5⟩ := h
  exact entails_pd (det_one_sub_transpose hac h1) (noiseCov_posDef (h2 k) (h3 k)) (h5 k)

/-! ## Almost optimal covariances are close to the sample covariance -/

theorem sq_sqrt_sub_one_le {x : ℝ} (hx : 0 < x) : (Real.sqrt x - 1) ^ 2 ≤ x - 1 - Real.log x := by
  have h1 := Real.sqrt_pos.2 hx
  have h2 := Real.log_le_sub_one_of_pos h1
  have h3 : Real.log x = 2 * Real.log (Real.sqrt x) := by rw [Real.log_sqrt hx.le]; ring
  have h4 := Real.sq_sqrt hx.le
  nlinarith

theorem abs_sub_one_le {x t : ℝ} (hx : 0 < x) (ht : 0 ≤ t) (ht1 : t ≤ 1) (h : x - 1 - Real.log x ≤ t ^ 2) : |x - 1| ≤ 3 * t := by
  have h1 := (sq_sqrt_sub_one_le hx).trans h
  have h2 := abs_le_of_sq_le_sq h1 ht
  have h3 := Real.sq_sqrt hx.le
  have h4 := Real.sqrt_pos.2 hx
  rw [abs_le] at h2 ⊢
  obtain ⟨h5, h6⟩ := h2
  constructor <;> nlinarith

/-- C113: a covariance `C` whose likelihood is within `t²` of the largest possible one differs from the sample covariance `S` by at most
`3 t (S i i + S j j)` in every entry. -/
theorem C113_close {C S : Matrix (Fin p) (Fin p) ℝ} (hC : C.PosDef) (hS : S.PosDef) {t : ℝ} (ht : 0 ≤ t) (ht1 : t ≤ 1 / 6)
    (h : gaussNLL C S ≤ Real.log S.det + p + t ^ 2) (i j : Fin p) : |C i j - S i j| ≤ 3 * t * (S i i + S j j) := by
  obtain ⟨R, w, hw0, hCR, hSR⟩ := simultaneous_diagonal hC hS.posSemidef
  have hRd : 0 < R.det * R.det := by
    have := hC.det_pos
    rwa [hCR, det_mul, det_transpose] at this
  have hRu : IsUnit R.det := by
    rw [isUnit_iff_ne_zero]
    intro h0
    simp [h0] at hRd
  have hRtu : IsUnit Rᵀ.det := by rwa [det_transpose]
  have hprod : S.det = (R.det * R.det) * ∏ a, w a := by
    rw [hSR, det_mul, det_mul, det_transpose, det_diagonal]
    ring
  have hw : ∀ a, 0 < w a := by
    intro a
    refine lt_of_le_of_ne (hw0 a) fun hc => ?_
    have := hS.det_pos
    rw [hprod, Finset.prod_eq_zero (Finset.mem_univ a) hc.symm] at this
    simp at this
  have hlogS : Real.log S.det = Real.log C.det + ∑ a, Real.log (w a) := by
    rw [hprod, Real.log_mul hRd.ne' (Finset.prod_ne_zero_iff.2 fun a _ => (hw a).ne'), Real.log_prod fun a _ => (hw a).ne', hCR, det_mul,
      det_transpose]
  have htr : (C⁻¹ * S).trace = ∑ a, w a := by
    rw [hCR, hSR, Matrix.mul_inv_rev, Matrix.mul_assoc R⁻¹, Matrix.mul_assoc Rᵀ, ← Matrix.mul_assoc (Rᵀ)⁻¹, Matrix.nonsing_inv_mul _ hRtu,
      Matrix.one_mul, Matrix.trace_mul_comm, Matrix.mul_assoc, Matrix.mul_nonsing_inv _ hRu, Matrix.mul_one, Matrix.trace_diagonal]
  have hsum : ∑ a, (w a - 1 - Real.log (w a)) ≤ t ^ 2 := by
    unfold gaussNLL at h
    rw [hlogS, htr] at h
    rw [Finset.sum_sub_distrib, Finset.sum_sub_distrib]
    simp only [Finset.sum_const, Finset.card_univ, Fintype.card_fin, nsmul_eq_mul, mul_one]
    linarith
  have hwa : ∀ a, |w a - 1| ≤ 3 * t := fun a => by
    refine abs_sub_one_le (hw a) ht (by linarith) ((Finset.single_le_sum (f := fun a => w a - 1 - Real.log (w a)) (fun b _ => ?_)
      (Finset.mem_univ a)).trans hsum)
    have := Real.log_le_sub_one_of_pos (hw b)
    linarith
  have hCe : ∀ i j, C i j = ∑ a, R a i * R a j := fun i j => by
    rw [hCR, Matrix.mul_apply]
    rfl
  have hSe : ∀ i j, S i j = ∑ a, w a * (R a i * R a j) := fun i j => by
    rw [hSR, Matrix.mul_apply]
    refine Finset.sum_congr rfl fun a _ => ?_
    rw [Matrix.mul_diagonal, Matrix.transpose_apply]
    ring
  have hdiag : ∀ i, ∑ a, R a i ^ 2 ≤ 2 * S i i := by
    intro i
    rw [hSe, Finset.mul_sum]
    refine Finset.sum_le_sum fun a _ => ?_
    have h1 := (abs_le.1 (hwa a)).1
    have h2 : 1 / 2 ≤ w a := by linarith
    nlinarith [sq_nonneg (R a i)]
  have hterm : ∀ a, |(1 - w a) * (R a i * R a j)| ≤ 3 * t * ((R a i ^ 2 + R a j ^ 2) / 2) := by
    intro a
    rw [abs_mul, abs_sub_comm]
    refine mul_le_mul (hwa a) ?_ (abs_nonneg _) (by linarith)
    rw [abs_le]
    constructor <;> nlinarith [sq_nonneg (R a i - R a j), sq_nonneg (R a i + R a j)]
  calc |C i j - S i j| = |∑ a, (1 - w a) * (R a i * R a j)| := by
        rw [hCe, hSe, ← Finset.sum_sub_distrib]
        congr 1
        exact Finset.sum_congr rfl fun a _ => by ring
    _ ≤ ∑ a, |(1 - w a) * (R a i * R a j)| := Finset.abs_sum_le_sum_abs _ _
    _ ≤ ∑ a, 3 * t * ((R a i ^ 2 + R a j ^ 2) / 2) := Finset.sum_le_sum fun a _ => hterm a
    _ = 3 * t * ((∑ a, R a i ^ 2 + ∑ a, R a j ^ 2) / 2) := by
        rw [← Finset.mul_sum, ← Finset.sum_div, Finset.sum_add_distrib]
    _ ≤ 3 * t * (S i i + S j j) := by
        refine mul_le_mul_of_nonneg_left ?_ (by linarith)
        have := hdiag i
        have := hdiag j
        linarith

/-- Near `C`, almost optimal covariances are near `C`. -/
theorem near_of_excess (C : Fin e → Matrix (Fin p) (Fin p) ℝ) {ε : ℝ} (hε : 0 < ε) :
    ∃ η > 0, ∃ δ > 0, ∀ S : Fin e → Matrix (Fin p) (Fin p) ℝ, (∀ k, (S k).PosDef) → Within δ C S → ∀ k, ∀ D : Matrix (Fin p) (Fin p) ℝ, D.PosDef →
      gaussNLL D (S k) ≤ Real.log (S k).det + p + η → ∀ i j, |D i j - C k i j| < ε := by
  obtain ⟨M, hM0, hM⟩ : ∃ M : ℝ, 1 ≤ M ∧ ∀ k i, C k i i ≤ M := by
    refine ⟨1 + ∑ k, ∑ i, |C k i i|, ?_, fun k i => ?_⟩
    · have : (0 : ℝ) ≤ ∑ k, ∑ i, |C k i i| := Finset.sum_nonneg fun _ _ => Finset.sum_nonneg fun _ _ => abs_nonneg _
      linarith
    · have h1 : |C k i i| ≤ ∑ i, |C k i i| := Finset.single_le_sum (f := fun i => |C k i i|) (fun _ _ => abs_nonneg _) (Finset.mem_univ i)
      have h2 : ∑ i, |C k i i| ≤ ∑ k, ∑ i, |C k i i| :=
        Finset.single_le_sum (f := fun k => ∑ i, |C k i i|) (fun _ _ => Finset.sum_nonneg fun _ _ => abs_nonneg _) (Finset.mem_univ k)
      have := le_abs_self (C k i i)
      linarith
  obtain ⟨t, ht0, ht1, ht2⟩ : ∃ t : ℝ, 0 < t ∧ t ≤ 1 / 6 ∧ 3 * t * (4 * M) ≤ ε / 2 := by
    refine ⟨min (1 / 6) (ε / (24 * M)), lt_min (by norm_num) (by positivity), min_le_left _ _, ?_⟩
    have h1 : min (1 / 6) (ε / (24 * M)) ≤ ε / (24 * M) := min_le_right _ _
    calc 3 * min (1 / 6) (ε / (24 * M)) * (4 * M) ≤ 3 * (ε / (24 * M)) * (4 * M) := by gcongr
      _ = ε / 2 := by field_simp; norm_num
  refine ⟨t ^ 2, by positivity, min 1 (ε / 2), lt_min one_pos (by linarith), fun S hS hSC k D hD hle i j => ?_⟩
  have h1 := C113_close hD (hS k) ht0.le ht1 hle i j
  have h2 : ∀ i, S k i i ≤ 2 * M := fun i => by
    have a1 := (abs_lt.1 (hSC k i i)).2
    have a2 := hM k i
    have a3 : min 1 (ε / 2) ≤ 1 := min_le_left _ _
    linarith
  have h3 : |D i j - S k i j| ≤ ε / 2 := by
    refine h1.trans (le_trans ?_ ht2)
    have := h2 i
    have := h2 j
    refine mul_le_mul_of_nonneg_left (by linarith) (by linarith)
  have h4 := (hSC k i j).trans_le (min_le_right 1 (ε / 2))
  calc |D i j - C k i j| = |(D i j - S k i j) + (S k i j - C k i j)| := by ring_nf
    _ ≤ |D i j - S k i j| + |S k i j - C k i j| := abs_add_le _ _
    _ < ε := by linarith

/-! ## Covariances that are close to each other have almost optimal likelihoods -/

theorem nll_continuousAt {C : Matrix (Fin p) (Fin p) ℝ} (hC : C.PosDef) :
    ContinuousAt (fun x : (Fin p → Fin p → ℝ) × (Fin p → Fin p → ℝ) =>
      gaussNLL (Matrix.of x.1) (Matrix.of x.2) - Real.log (Matrix.of x.2).det) (C, C) := by
  have hd : Continuous fun y : Fin p → Fin p → ℝ => (Matrix.of y).det := Continuous.matrix_det (A := fun y => Matrix.of y) continuous_id
  have ha : Continuous fun y : Fin p → Fin p → ℝ => (Matrix.of y).adjugate := Continuous.matrix_adjugate (A := fun y => Matrix.of y) continuous_id
  have hdet : (Matrix.of (C : Fin p → Fin p → ℝ)).det ≠ 0 := hC.det_pos.ne'
  have h1 : ContinuousAt (fun x : (Fin p → Fin p → ℝ) × (Fin p → Fin p → ℝ) => (Matrix.of x.1).det) (C, C) := (hd.comp continuous_fst).continuousAt
  have h2 : ContinuousAt (fun x : (Fin p → Fin p → ℝ) × (Fin p → Fin p → ℝ) => (Matrix.of x.2).det) (C, C) := (hd.comp continuous_snd).continuousAt
  have h3 : ContinuousAt (fun x : (Fin p → Fin p → ℝ) × (Fin p → Fin p → ℝ) => ((Matrix.of x.1)⁻¹ * Matrix.of x.2).trace) (C, C) := by
    have : (fun x : (Fin p → Fin p → ℝ) × (Fin p → Fin p → ℝ) => ((Matrix.of x.1)⁻¹ * Matrix.of x.2).trace) =
        fun x => ((Matrix.of x.1).det)⁻¹ * ((Matrix.of x.1).adjugate * Matrix.of x.2).trace := by
      funext x
      rw [Matrix.inv_def, Ring.inverse_eq_inv', Matrix.smul_mul, Matrix.trace_smul, smul_eq_mul]
    rw [this]
    refine (h1.inv₀ hdet).mul ?_
    refine Continuous.continuousAt ?_
    exact Continuous.matrix_trace (Continuous.matrix_mul (ha.comp continuous_fst) continuous_snd)
  unfold gaussNLL
  exact ((h1.log hdet).add h3).sub (h2.log hdet)

theorem excess_of_near {C : Fin e → Matrix (Fin p) (Fin p) ℝ} (hC : ∀ k, (C k).PosDef) {η : ℝ} (hη : 0 < η) :
    ∃ δ > 0, ∀ S D : Fin e → Matrix (Fin p) (Fin p) ℝ, Within δ C S → Within δ C D → ∀ k,
      gaussNLL (D k) (S k) < Real.log (S k).det + p + η := by
  have key : ∀ k, ∃ δ > 0, ∀ S D : Fin e → Matrix (Fin p) (Fin p) ℝ, Within δ C S → Within δ C D →
      gaussNLL (D k) (S k) < Real.log (S k).det + p + η := by
    intro k
    obtain ⟨δ, hδ, h⟩ := Metric.continuousAt_iff.1 (nll_continuousAt (hC k)) η hη
    refine ⟨δ, hδ, fun S D hS hD => ?_⟩
    have h1 := @h (D k, S k) (by
      rw [Prod.dist_eq, max_lt_iff]
      simp only
      exact ⟨(dist_pi_lt_iff hδ).2 fun i => (dist_pi_lt_iff hδ).2 fun j => hD k i j,
        (dist_pi_lt_iff hδ).2 fun i => (dist_pi_lt_iff hδ).2 fun j => hS k i j⟩)
    rw [Real.dist_eq] at h1
    have h2 := (abs_lt.1 h1).2
    have h3 := gaussNLL_self (hC k)
    have h4 : gaussNLL (Matrix.of (C k : Fin p → Fin p → ℝ)) (Matrix.of (C k : Fin p → Fin p → ℝ)) = gaussNLL (C k) (C k) := rfl
    have h5 : Real.log (Matrix.of (C k : Fin p → Fin p → ℝ)).det = Real.log (C k).det := rfl
    have h6 : gaussNLL (Matrix.of (D k : Fin p → Fin p → ℝ)) (Matrix.of (S k : Fin p → Fin p → ℝ)) = gaussNLL (D k) (S k) := rfl
    have h7 : Real.log (Matrix.of (S k : Fin p → Fin p → ℝ)).det = Real.log (S k).det := rfl
    simp only [h4, h5, h6, h7] at h2
    linarith
  choose δ hδ h using key
  rcases Nat.eq_zero_or_pos e with rfl | he
  · exact ⟨1, one_pos, fun _ _ _ _ k => k.elim0⟩
  have : Nonempty (Fin e) := ⟨⟨0, he⟩⟩
  obtain ⟨k0, hk0⟩ := Finite.exists_min δ
  refine ⟨δ k0, hδ k0, fun S D hS hD k => h k S D (fun a i j => ?_) (fun a i j => ?_)⟩
  · exact (hS a i j).trans_le (hk0 k)
  · exact (hD a i j).trans_le (hk0 k)

/-! ## The margin -/

/-- C113: a class of models that does not approximate the covariances `C` misses the largest possible likelihood, in some environment, by a
margin `η` that is the same for all its models and for all covariances `S` within `δ` of `C`. -/
theorem C113_margin {I : Finset (Fin p)} {A : Adj p} {C : Fin e → Matrix (Fin p) (Fin p) ℝ} (h : ¬ Approximates l I A C) :
    ∃ η > 0, ∃ δ > 0, ∀ S : Fin e → Matrix (Fin p) (Fin p) ℝ, (∀ k, (S k).PosDef) → Within δ C S → ∀ D, EntailedWith l I A D →
      ∃ k, Real.log (S k).det + p + η < gaussNLL (D k) (S k) := by
  unfold Approximates at h
  push Not at h
  obtain ⟨ε, hε, h⟩ := h
  obtain ⟨η, hη, δ, hδ, hnear⟩ := near_of_excess C hε
  refine ⟨η, hη, δ, hδ, fun S hS hSC D hD => ?_⟩
  by_contra hc
  push Not at hc
  exact h D hD fun k i j => hnear S hS hSC k (D k) (hD.posDef k) (hc k) i j

/-- C113, converse: a class of models that approximates `C` contains models with almost the largest possible likelihood on all covariances
close enough to `C`. -/
theorem C113_attained {I : Finset (Fin p)} {A : Adj p} {C : Fin e → Matrix (Fin p) (Fin p) ℝ} (hC : ∀ k, (C k).PosDef) (h : Approximates l I A C)
    {η : ℝ} (hη : 0 < η) : ∃ D, EntailedWith l I A D ∧ ∃ δ > 0, ∀ S, Within δ C S → ∀ k, gaussNLL (D k) (S k) < Real.log (S k).det + p + η := by
  obtain ⟨δ, hδ, h1⟩ := excess_of_near hC hη
  obtain ⟨D, hD, hDC⟩ := h δ hδ
  exact ⟨D, hD, δ, hδ, fun S hS k => h1 S D hS hDC k⟩

end Verif
