import Verif.Props.Weights
import Verif.Props.EmptyFit
import Verif.Props.DescentMany

/-!
# C122: the variances are consistent in the environments that count

The weights of the score are those of the code (C37).  The parameters are close to the truth in every environment whose weight is not negligible.
-/

namespace Verif

open Spec Matrix

variable {p l e : Nat}

/-- How much worse than the best variance a variance is, as a function of the quotient. -/
noncomputable def phi (x : ℝ) : ℝ := x - 1 - Real.log x

theorem phi_nonneg {x : ℝ} (hx : 0 < x) : 0 ≤ phi x := by
  unfold phi
  linarith [Real.log_le_sub_one_of_pos hx]

theorem le_phi {x : ℝ} (hx : 0 < x) : x ≤ 2 * phi x + 2 := by
  unfold phi
  have h1 := Real.log_le_sub_one_of_pos (half_pos hx)
  have h2 : Real.log x = Real.log (x / 2) + Real.log 2 := by
    rw [Real.log_div hx.ne' two_ne_zero]
    ring
  have h3 : Real.log 2 ≤ 1 := by
    have := Real.log_le_sub_one_of_pos (x := 2) two_pos
    linarith
  rw [h2]
  linarith

theorem phi_le {x : ℝ} (hx : 0 < x) : phi x ≤ (x - 1) ^ 2 / x := by
  unfold phi
  have h1 := Real.log_le_sub_one_of_pos (inv_pos.2 hx)
  rw [Real.log_inv] at h1
  have h2 : (x - 1) ^ 2 / x = x - 2 + x⁻¹ := by
    field_simp
    ring
  rw [h2]
  linarith

theorem nll_phi {v s w : ℝ} (hv : 0 < v) (hw : 0 < w) : nll v s = 1 + Real.log w + phi (w / v) + (s - w) / v := by
  unfold nll phi
  rw [Real.log_div hw.ne' hv.ne', sub_div]
  ring

/-- The sum of the excesses over environments and variables. -/
noncomputable def phiSum (a : Fin e → ℝ) (w o : Fin e → Fin p → ℝ) : ℝ := ∑ k, a k * ∑ j, phi (w k j / o k j)

theorem phiSum_nonneg {a : Fin e → ℝ} (ha : ∀ k, 0 < a k) {w o : Fin e → Fin p → ℝ} (hw : ∀ k j, 0 < w k j) (ho : ∀ k j, 0 < o k j) : 0 ≤ phiSum a w o :=
  Finset.sum_nonneg fun k _ => mul_nonneg (ha k).le (Finset.sum_nonneg fun j _ => phi_nonneg (div_pos (hw k j) (ho k j)))

theorem ratio_sum {a : Fin e → ℝ} (ha : ∀ k, 0 < a k) {w o : Fin e → Fin p → ℝ} (hw : ∀ k j, 0 < w k j) (ho : ∀ k j, 0 < o k j) :
    ∑ k, a k * ∑ j, w k j / o k j ≤ 2 * phiSum a w o + 2 * p * ∑ k, a k := by
  unfold phiSum
  rw [Finset.mul_sum, Finset.mul_sum, ← Finset.sum_add_distrib]
  refine Finset.sum_le_sum fun k _ => ?_
  have : ∑ j, w k j / o k j ≤ ∑ j, (2 * phi (w k j / o k j) + 2) := Finset.sum_le_sum fun j _ => le_phi (div_pos (hw k j) (ho k j))
  rw [Finset.sum_add_distrib, ← Finset.mul_sum] at this
  simp only [Finset.sum_const, Finset.card_univ, Fintype.card_fin, nsmul_eq_mul] at this
  have h2 := mul_le_mul_of_nonneg_left this (ha k).le
  linarith

/-- The likelihood of residual variances `r` close to `w`. -/
theorem nll_sum_phi {a : Fin e → ℝ} (ha : ∀ k, 0 < a k) {w o r : Fin e → Fin p → ℝ} (hw : ∀ k j, 0 < w k j) (ho : ∀ k j, 0 < o k j) {τ : ℝ}
    (hr : ∀ k j, |r k j - w k j| ≤ τ * w k j) :
    |∑ k, a k * ∑ j, nll (o k j) (r k j) - (∑ k, a k * ∑ j, (1 + Real.log (w k j)) + phiSum a w o)| ≤ τ * ∑ k, a k * ∑ j, w k j / o k j := by
  have h1 : ∑ k, a k * ∑ j, nll (o k j) (r k j) - (∑ k, a k * ∑ j, (1 + Real.log (w k j)) + phiSum a w o) = ∑ k, a k * ∑ j, (r k j - w k j) / o k j := by
    unfold phiSum
    rw [← Finset.sum_add_distrib, ← Finset.sum_sub_distrib]
    refine Finset.sum_congr rfl fun k _ => ?_
    rw [← mul_add, ← mul_sub, ← Finset.sum_add_distrib, ← Finset.sum_sub_distrib]
    congr 1
    refine Finset.sum_congr rfl fun j _ => ?_
    rw [nll_phi (ho k j) (hw k j)]
    ring
  rw [h1]
  refine (Finset.abs_sum_le_sum_abs _ _).trans ?_
  rw [Finset.mul_sum]
  refine Finset.sum_le_sum fun k _ => ?_
  rw [abs_mul, abs_of_pos (ha k), mul_left_comm]
  refine mul_le_mul_of_nonneg_left ?_ (ha k).le
  rw [Finset.mul_sum]
  refine (Finset.abs_sum_le_sum_abs _ _).trans (Finset.sum_le_sum fun j _ => ?_)
  rw [abs_div, abs_of_pos (ho k j), ← mul_div_assoc]
  exact div_le_div_of_nonneg_right (hr k j) (ho k j).le

/-- Variances that do not make the likelihood worse do not get much further away from the truth. -/
theorem phi_step {a : Fin e → ℝ} (ha : ∀ k, 0 < a k) {w o o' r : Fin e → Fin p → ℝ} (hw : ∀ k j, 0 < w k j) (ho : ∀ k j, 0 < o k j)
    (ho' : ∀ k j, 0 < o' k j) {τ : ℝ} (hτ : 0 ≤ τ) (hτ1 : τ ≤ 1 / 4) (hr : ∀ k j, |r k j - w k j| ≤ τ * w k j)
    (hle : ∑ k, a k * ∑ j, nll (o' k j) (r k j) ≤ ∑ k, a k * ∑ j, nll (o k j) (r k j)) :
    phiSum a w o' + 4 * τ * p * ∑ k, a k ≤ 3 * (phiSum a w o + 4 * τ * p * ∑ k, a k) := by
  have h1 := abs_le.1 (nll_sum_phi ha hw ho hr)
  have h2 := abs_le.1 (nll_sum_phi ha hw ho' hr)
  have h3 := mul_le_mul_of_nonneg_left (ratio_sum ha hw ho) hτ
  have h4 := mul_le_mul_of_nonneg_left (ratio_sum ha hw ho') hτ
  have h5 := phiSum_nonneg ha hw ho
  have h6 := phiSum_nonneg ha hw ho'
  have h7 : 0 ≤ τ * p * ∑ k, a k := mul_nonneg (mul_nonneg hτ (Nat.cast_nonneg _)) (Finset.sum_nonneg fun k _ => (ha k).le)
  have h8 : τ * phiSum a w o ≤ 1 / 4 * phiSum a w o := mul_le_mul_of_nonneg_right hτ1 h5
  have h9 : τ * phiSum a w o' ≤ 1 / 4 * phiSum a w o' := mul_le_mul_of_nonneg_right hτ1 h6
  nlinarith [h1.1, h1.2, h2.1, h2.2]

/-- A quotient whose excess is small is close to one. -/
theorem var_close {w o t : ℝ} (hw : 0 < w) (ho : 0 < o) (ht : 0 ≤ t) (ht1 : t ≤ 1 / 6) (h : phi (w / o) ≤ t ^ 2) : |o - w| ≤ 6 * t * w := by
  have h1 := abs_le.1 (abs_sub_one_le (div_pos hw ho) ht (by linarith) h)
  have e : w = w / o * o := by field_simp
  set x := w / o with hx
  have hx0 : 1 / 2 ≤ x := by linarith [h1.1]
  have h2 : o ≤ 2 * w := by nlinarith
  rw [abs_le]
  constructor
  · nlinarith [h1.2]
  · nlinarith [h1.1]

/-- The residual variances are close to the true variances. -/
theorem residual_near {B : Matrix (Fin p) (Fin p) ℝ} {w : Fin e → Fin p → ℝ} (hw : ∀ k i, 0 < w k i) {C : Fin e → Matrix (Fin p) (Fin p) ℝ}
    (hCs : ∀ k a b, C k a b = C k b a) (hC : ∀ k, Entails B (Matrix.diagonal (w k)) (C k)) {τ : ℝ} (hτ : 0 < τ) :
    ∃ δ > 0, ∀ (S : Fin e → Matrix (Fin p) (Fin p) ℝ) (B' : Matrix (Fin p) (Fin p) ℝ), Within δ C S → (∀ i j, |B' i j - B i j| < δ) → ∀ k j,
      |residualVar (S k) j (fun i => B' i j) - w k j| ≤ τ * w k j := by
  have hone : ∀ x : Fin e × Fin p, ∃ δ > 0, ∀ (S B' : Matrix (Fin p) (Fin p) ℝ), (∀ i j, |S i j - C x.1 i j| < δ) → (∀ i j, |B' i j - B i j| < δ) →
      |residualVar S x.2 (fun i => B' i x.2) - w x.1 x.2| ≤ τ * w x.1 x.2 := by
    rintro ⟨k, j⟩
    have hcont : Continuous fun x : (Fin p → Fin p → ℝ) × (Fin p → Fin p → ℝ) => residualVar (Matrix.of x.1) j (fun i => x.2 i j) := by
      unfold residualVar
      simp only [Matrix.of_apply]
      fun_prop
    have hval : residualVar (C k) j (fun i => B i j) = w k j := by
      rw [← residual_diag B (C k) (hCs k), hC k, Matrix.diagonal_apply_eq]
    have hat := hcont.continuousAt (x := ((fun a b => C k a b : Fin p → Fin p → ℝ), (fun a b => B a b : Fin p → Fin p → ℝ)))
    obtain ⟨δ, hδ, h⟩ := Metric.continuousAt_iff.1 hat (τ * w k j) (mul_pos hτ (hw k j))
    refine ⟨δ, hδ, fun S B' hS hB => ?_⟩
    have h1 := @h ((fun a b => S a b : Fin p → Fin p → ℝ), (fun a b => B' a b : Fin p → Fin p → ℝ)) (by
      rw [Prod.dist_eq, max_lt_iff]
      exact ⟨(dist_pi_lt_iff hδ).2 fun i => (dist_pi_lt_iff hδ).2 fun j => by rw [Real.dist_eq]; exact hS i j,
        (dist_pi_lt_iff hδ).2 fun i => (dist_pi_lt_iff hδ).2 fun j => by rw [Real.dist_eq]; exact hB i j⟩)
    rw [Real.dist_eq] at h1
    have h2 : |residualVar S j (fun i => B' i j) - residualVar (C k) j (fun i => B i j)| < τ * w k j := h1
    rw [hval] at h2
    exact h2.le
  obtain ⟨δ, hδ, h⟩ := exists_uniform hone (fun x δ δ' _ hle h S B' hS hB => h S B' (fun i j => (hS i j).trans_le hle) fun i j => (hB i j).trans_le hle)
  exact ⟨δ, hδ, fun S B' hS hB k j => h (k, j) (S k) B' (hS k) hB⟩

/-! ## The initial model -/

theorem residualVar_pooled (d : Data p e) (hN : (0 : ℝ) < ∑ k, (d.nObs k : ℝ)) (j : Fin p) (b : Fin p → ℝ) :
    ∑ k, (d.nObs k : ℝ) * residualVar (d.covs k) j b = (∑ k, (d.nObs k : ℝ)) * residualVar (pooledCov d) j b := by
  have h1 : ∀ i a, (∑ k, (d.nObs k : ℝ)) * pooledCov d i a = ∑ k, (d.nObs k : ℝ) * d.covs k i a := by
    intro i a
    unfold pooledCov
    field_simp
  unfold residualVar
  rw [mul_add, mul_sub, h1]
  simp only [mul_add, mul_sub, Finset.sum_add_distrib, Finset.sum_sub_distrib]
  congr 1
  · congr 1
    simp only [Finset.mul_sum]
    rw [Finset.sum_comm]
    refine Finset.sum_congr rfl fun i _ => ?_
    have : (∑ k, (d.nObs k : ℝ)) * (2 * (b i * pooledCov d i j)) = 2 * b i * ((∑ k, (d.nObs k : ℝ)) * pooledCov d i j) := by ring
    rw [this, h1, Finset.mul_sum]
    exact Finset.sum_congr rfl fun k _ => by ring
  · simp only [Finset.mul_sum]
    rw [Finset.sum_comm]
    refine Finset.sum_congr rfl fun i _ => ?_
    rw [Finset.sum_comm]
    refine Finset.sum_congr rfl fun a _ => ?_
    have : (∑ k, (d.nObs k : ℝ)) * (b i * pooledCov d i a * b a) = b i * b a * ((∑ k, (d.nObs k : ℝ)) * pooledCov d i a) := by ring
    rw [this, h1, Finset.mul_sum]
    exact Finset.sum_congr rfl fun k _ => by ring

/-- Solutions of the normal equations are least squares. -/
theorem normal_optimal {P : Matrix (Fin p) (Fin p) ℝ} (hP : ∀ a b, P a b = P b a) (hq : ∀ x, 0 ≤ quad P x) {A : Adj p} {j : Fin p} {b0 b : Fin p → ℝ}
    (h0 : ∀ i, A i j = 0 → b0 i = 0) (hn : ∀ i, A i j ≠ 0 → ∑ k, P i k * b0 k = P j i) (hb : ∀ i, A i j = 0 → b i = 0) :
    residualVar P j b0 ≤ residualVar P j b := by
  have h1 : ∑ i, (b i - b0 i) * (P i j - ∑ k, P i k * b0 k) = 0 := by
    refine Finset.sum_eq_zero fun i _ => ?_
    by_cases hi : A i j = 0
    · rw [hb i hi, h0 i hi]
      ring
    · rw [hn i hi, hP i j]
      ring
  have hx : quad P (fun i => b i - b0 i) = ∑ i, ∑ k, (b i * P i k * b k - b i * P i k * b0 k - b0 i * P i k * b k + b0 i * P i k * b0 k) := by
    unfold quad
    exact Finset.sum_congr rfl fun i _ => Finset.sum_congr rfl fun k _ => by ring
  have hsw : ∑ i, ∑ k, b0 i * P i k * b k = ∑ i, ∑ k, b i * P i k * b0 k := by
    rw [Finset.sum_comm]
    exact Finset.sum_congr rfl fun i _ => Finset.sum_congr rfl fun k _ => by rw [hP k i]; ring
  have h2 := hq fun i => b i - b0 i
  rw [hx] at h2
  simp only [Finset.sum_add_distrib, Finset.sum_sub_distrib] at h2
  have h3 : ∑ i, (b i - b0 i) * (P i j - ∑ k, P i k * b0 k) =
      ∑ i, b i * P i j - ∑ i, b0 i * P i j - (∑ i, ∑ k, b i * P i k * b0 k) + ∑ i, ∑ k, b0 i * P i k * b0 k := by
    rw [← Finset.sum_sub_distrib, ← Finset.sum_sub_distrib, ← Finset.sum_add_distrib]
    refine Finset.sum_congr rfl fun i _ => ?_
    have e1 : ∑ k, b i * P i k * b0 k = b i * ∑ k, P i k * b0 k := by
      rw [Finset.mul_sum]
      exact Finset.sum_congr rfl fun k _ => by ring
    have e2 : ∑ k, b0 i * P i k * b0 k = b0 i * ∑ k, P i k * b0 k := by
      rw [Finset.mul_sum]
      exact Finset.sum_congr rfl fun k _ => by ring
    rw [e1, e2]
    ring
  rw [h1] at h3
  unfold residualVar
  linarith

/-- The initial weights minimise the sum of the residual variances, with the sample sizes as weights. -/
theorem initial_optimal {it : SetIter p} {svd : Matrix (Fin p) (Fin p) ℝ → Matrix (Fin p) (Fin p) ℝ × (Fin p → ℝ)} {A : Adj p} (hA : Nonneg A)
    {I : Finset (Fin p)} {d : Data p e} (hd : GoodData d) {m : LModel p l e} (h : initialModel it svd d A I = .ok m) (j : Fin p) (b : Fin p → ℝ)
    (hb : ∀ i, A i j = 0 → b i = 0) :
    ∑ k, (d.nObs k : ℝ) * residualVar (d.covs k) j (fun i => m.B i j) ≤ ∑ k, (d.nObs k : ℝ) * residualVar (d.covs k) j b := by
  have hS : ∀ k a b, d.covs k a b = d.covs k b a := fun k a b => (congrFun (congrFun (hd.posDef k).1 a) b).symm
  have hN : (0 : ℝ) < ∑ k, (d.nObs k : ℝ) := Finset.sum_pos (fun k _ => by exact_mod_cast hd.pos k) ⟨⟨0, hd.some⟩, Finset.mem_univ _⟩
  obtain ⟨-, -, h1, h2, -⟩ := C53_initial_model it svd A hA I d (fun k => by ext a b; exact hS k b a) m h
  rw [residualVar_pooled d hN, residualVar_pooled d hN]
  refine mul_le_mul_of_nonneg_left (normal_optimal (A := A) (fun a c => ?_) (fun x => ?_) (fun i hi => h1 i j hi) (fun i hi => h2 i j hi) hb) hN.le
  · unfold pooledCov
    congr 1
    exact Finset.sum_congr rfl fun k _ => by rw [hS k a c]
  · have e1 : quad (pooledCov d) x = (∑ k, (d.nObs k : ℝ) * quad (d.covs k) x) / ∑ k, (d.nObs k : ℝ) := by
      have e2 : ∑ k, (d.nObs k : ℝ) * quad (d.covs k) x = ∑ i, ∑ a, ∑ k, (d.nObs k : ℝ) * (x i * d.covs k i a * x a) := by
        unfold quad
        simp only [Finset.mul_sum]
        rw [Finset.sum_comm]
        exact Finset.sum_congr rfl fun i _ => Finset.sum_comm
      rw [e2]
      unfold quad pooledCov
      rw [Finset.sum_div]
      refine Finset.sum_congr rfl fun i _ => ?_
      rw [Finset.sum_div]
      refine Finset.sum_congr rfl fun a _ => ?_
      rw [mul_div_assoc', div_mul_eq_mul_div, Finset.mul_sum, Finset.sum_mul]
      congr 1
      refine Finset.sum_congr rfl fun k _ => ?_
      ring
    rw [e1]
    refine div_nonneg (Finset.sum_nonneg fun k _ => mul_nonneg (Nat.cast_nonneg _) ?_) hN.le
    obtain ⟨c, hc, hlow⟩ := quad_lower (hd.posDef k)
    exact (mul_nonneg hc.le (Finset.sum_nonneg fun i _ => sq_nonneg _)).trans (hlow x)

/-! ## A fit -/

/-- The score of a model without latents, with the weights of the code. -/
theorem score_nll {it : SetIter p} {A : Adj p} (hA : Nonneg A) (hac : Acyclic A) {B : Matrix (Fin p) (Fin p) ℝ} (hB : Respects A B)
    {gamma : Matrix (Fin 0) (Fin p) ℝ} {omegas : Matrix (Fin e) (Fin p) ℝ} {psis : Matrix (Fin e) (Fin 0) ℝ} (ho : ∀ k j, 0 < omegas k j)
    {d : Data p e} (hn : ∀ k, 0 < d.nObs k) (he : 0 < e) (hS : ∀ k a b, d.covs k a b = d.covs k b a) {m : LModel p 0 e}
    (hm : mkModel it A B gamma omegas psis = .ok m) :
    m.scoreOn d = .ok (some (∑ k, codeWeight d.nObs k * ∑ j, nll (omegas k j) (residualVar (d.covs k) j (fun i => B i j)))) := by
  obtain ⟨C, hC, hent⟩ := (C35_covariances it A hA B gamma omegas psis m hm).2
  have hN : ∑ k, d.nObs k ≠ 0 := (Finset.sum_pos (fun k _ => hn k) ⟨⟨0, he⟩, Finset.mem_univ _⟩).ne'
  have h1 := C37_actual_score it A hA B gamma omegas psis m hm ho (fun _ i => i.elim0) d.nObs hN d.covs C hC
  have h2 : ∑ k, (d.nObs k : ℝ) * gaussNLL (C k) (d.covs k) / (∑ k, (d.nObs k : ℝ)) ^ (e - k.val) =
      ∑ k, codeWeight d.nObs k * ∑ j, nll (omegas k j) (residualVar (d.covs k) j (fun i => B i j)) := by
    have := codeNLL_eq d.nObs C d.covs
    unfold codeNLL at this
    rw [this]
    refine Finset.sum_congr rfl fun k _ => ?_
    have h3 := (hent k).1
    rw [noiseCov_zero] at h3
    rw [gaussNLL_diagonal hac hB (hS k) (ho k) h3]
    rfl
  rw [h2] at h1
  exact h1

/-- One iteration: the weights are close to the truth, and the variances do not get much further away from it. -/
theorem step_tracks {A : Adj p} (hA : Nonneg A) (hac : Acyclic A) {it : SetIter p} {num : NumLib p e} (hs : GoodSqrt num.sqrtm) {cfg : ScoreCfg}
    (hcvx : cfg.solver = .cvx) {d : Data p e} (hd : GoodData d) {u v : Nat → Fin (p * p) → ℝ} {I : Finset (Fin p)} (hopt : ∀ Ms, CvxOptimal num A Ms d 0)
    {i : Nat} {prev cur : LModel p 0 e} (hpA : prev.A = A) (hpos : ∀ k j, 0 < prev.omegas k j)
    (h : altBody it (codeSolvers it num cfg d u v I) i prev = .ok cur) {w : Fin e → Fin p → ℝ} (hw : ∀ k j, 0 < w k j) {τ : ℝ} (hτ : 0 ≤ τ) (hτ1 : τ ≤ 1 / 4)
    (hr : ∀ k j, |residualVar (d.covs k) j (fun i => cur.B i j) - w k j| ≤ τ * w k j) :
    phiSum (codeWeight d.nObs) w cur.omegas + 4 * τ * p * ∑ k, codeWeight d.nObs k ≤
      3 * (phiSum (codeWeight d.nObs) w prev.omegas + 4 * τ * p * ∑ k, codeWeight d.nObs k) := by
  obtain ⟨hcA, hcB, hcpos, -⟩ := step_optimal hac hs hcvx hd hopt hpA hpos h
  have hS : ∀ k a b, d.covs k a b = d.covs k b a := fun k a b => (congrFun (congrFun (hd.posDef k).1 a) b).symm
  have hm1 := mkModel_eq_ok (it := it) hA prev.gamma prev.omegas prev.psis hac hcB
  have hs1 := score_nll hA hac hcB hpos hd.pos hd.some hS hm1
  rw [← hpA] at hm1
  obtain ⟨m2, s2, hm2, hs2, hle⟩ := C106_after_B it num cfg d u v I i prev cur h _ _ hm1 hs1
  rw [hcA] at hm2
  rw [score_nll hA hac hcB hcpos hd.pos hd.some hS hm2] at hs2
  simp only [Except.ok.injEq, Option.some.injEq] at hs2
  rw [← hs2] at hle
  exact phi_step (fun k => codeWeight_pos hd.some hd.pos k) hw hpos hcpos hτ hτ1 hr hle

/-- The excess of a variance that is close to the truth. -/
theorem phi_near {w o τ : ℝ} (hw : 0 < w) (hτ1 : τ ≤ 1 / 4) (h : |o - w| ≤ τ * w) : 0 < o ∧ phi (w / o) ≤ τ := by
  have h1 := abs_le.1 h
  have hτ : 0 ≤ τ := by
    by_contra hc
    push Not at hc
    nlinarith [abs_nonneg (o - w)]
  have ho : 3 / 4 * w ≤ o := by nlinarith [h1.1]
  have ho0 : 0 < o := by linarith
  refine ⟨ho0, (phi_le (div_pos hw ho0)).trans ?_⟩
  have h2 : (w / o - 1) ^ 2 / (w / o) = (o - w) ^ 2 / (w * o) := by
    field_simp
    ring
  rw [h2, div_le_iff₀ (by positivity)]
  have h3 : (o - w) ^ 2 ≤ (τ * w) ^ 2 := sq_le_sq' (by linarith [h1.1]) h1.2
  have h4 : (τ * w) ^ 2 ≤ τ * (w * (3 / 4 * w)) := by nlinarith [mul_nonneg hτ (sq_nonneg w)]
  have h5 : τ * (w * (3 / 4 * w)) ≤ τ * (w * o) := mul_le_mul_of_nonneg_left (mul_le_mul_of_nonneg_left ho hw.le) hτ
  linarith

/-- A fit without latents to data close to the covariances of a model of the class, with any number of environments: all weights are close to the
truth, and the variances are close to the truth in the sum with the weights of the score. -/
theorem fit_tracks {A : Adj p} (hA : Nonneg A) (hac : Acyclic A) {B : Matrix (Fin p) (Fin p) ℝ} (hB : Respects A B) {w : Fin e → Fin p → ℝ}
    (hw : ∀ k i, 0 < w k i) {C : Fin e → Matrix (Fin p) (Fin p) ℝ} (hC : ∀ k, Entails B (Matrix.diagonal (w k)) (C k)) {I : Finset (Fin p)}
    (hI : ∀ k k' i, i ∉ I → w k i = w k' i) (T : Nat) {θ : ℝ} (hθ : 0 < θ) :
    ∃ δ > 0, ∀ (it : SetIter p) (svd : Matrix (Fin p) (Fin p) ℝ → Matrix (Fin p) (Fin p) ℝ × (Fin p → ℝ)) (num : NumLib p e) (cfg : ScoreCfg) (d : Data p e)
      (u v : Nat → Fin (p * p) → ℝ) (m : LModel p 0 e) (s : Flt), GoodSqrt num.sqrtm → cfg.solver = .cvx → cfg.stop.maxIter ≤ T →
      GoodData d → (∀ Ms, CvxOptimal num A Ms d 0) → Within δ C d.covs → fitCode it svd num cfg d u v A I none = .ok (m, s) →
      m.A = A ∧ (∃ B', Respects A B' ∧ m.IB = 1 - B'ᵀ ∧ ∀ i j, |B' i j - B i j| < θ) ∧ Respects A m.B ∧
        (∀ i j, |m.B i j - B i j| < θ) ∧ (∀ k j, 0 < m.omegas k j) ∧ phiSum (codeWeight d.nObs) w m.omegas ≤ θ * ∑ k, codeWeight d.nObs k := by
  have hdet := det_one_sub_transpose hac hB
  have hCp : ∀ k, (C k).PosDef := fun k => entails_pd hdet (Matrix.PosDef.diagonal (hw k)) (hC k)
  have hCs : ∀ k a b, C k a b = C k b a := fun k a b => (congrFun (congrFun (hCp k).1 a) b).symm
  obtain ⟨τ, hτdef⟩ : ∃ τ : ℝ, τ = min (1 / 4) (θ / (5 * 3 ^ T * (p + 1))) := ⟨_, rfl⟩
  have hden : (0 : ℝ) < 5 * 3 ^ T * (p + 1) := by positivity
  have hτ : 0 < τ := by rw [hτdef]; exact lt_min (by norm_num) (by positivity)
  have hτ1 : τ ≤ 1 / 4 := by rw [hτdef]; exact min_le_left _ _
  have hτ2 : τ * (5 * 3 ^ T * (p + 1)) ≤ θ := by
    have : τ ≤ θ / (5 * 3 ^ T * (p + 1)) := by rw [hτdef]; exact min_le_right _ _
    rwa [le_div_iff₀ hden] at this
  obtain ⟨δ₁, hδ₁, hres⟩ := residual_near hw hCs hC hτ
  obtain ⟨δ₂, hδ₂, hcol⟩ := columns_close hac hB hw hC (lt_min hδ₁ hθ)
  refine ⟨min δ₁ δ₂, lt_min hδ₁ hδ₂, ?_⟩
  intro it svd num cfg d u v m s hs hcvx hT hd hopt hwithin h
  have hS : ∀ k a b, d.covs k a b = d.covs k b a := fun k a b => (congrFun (congrFun (hd.posDef k).1 a) b).symm
  have hN : (0 : ℝ) < ∑ k, (d.nObs k : ℝ) := Finset.sum_pos (fun k _ => by exact_mod_cast hd.pos k) ⟨⟨0, hd.some⟩, Finset.mem_univ _⟩
  have hn : ∀ k, (0 : ℝ) < d.nObs k := fun k => by exact_mod_cast hd.pos k
  have ha := codeWeight_pos hd.some hd.pos
  have hw1 : Within δ₁ C d.covs := hwithin.mono (min_le_left _ _)
  have hw2 : Within δ₂ C d.covs := hwithin.mono (min_le_right _ _)
  obtain ⟨-, m0, halt, hm0, hi⟩ := fitDag_ok h
  have hi0 : initialModel it svd d A I = .ok m0 := by
    rcases hi with hi | ⟨-, hi⟩
    · cases hi
    · exact hi
  obtain ⟨-, -, hB0, -, -, hoI, hoN, -⟩ := C53_initial_model it svd A hA I d (fun k => by ext a b; exact hS k b a) m0 hi0
  have hclose0 : ∀ i j, |m0.B i j - B i j| < min δ₁ θ := fun i j =>
    hcol d.covs hS hw2 hd.some j (fun k => (d.nObs k : ℝ)) hn (fun i => m0.B i j) (fun i hij => hB0 i j hij) (initial_optimal hA hd hi0 j _ fun i hij => hB i j hij) i
  have hres0 := hres d.covs m0.B hw1 fun i j => (hclose0 i j).trans_le (min_le_left _ _)
  have hom0 : ∀ k j, |m0.omegas k j - w k j| ≤ τ * w k j := by
    intro k j
    by_cases hj : j ∈ I
    · rw [hoI k j hj]
      exact hres0 k j
    · rw [hoN k j hj]
      have e1 : (∑ h, (d.nObs h : ℝ) * residualVar (d.covs h) j (fun i => m0.B i j)) / ∑ h, (d.nObs h : ℝ) - w k j =
          (∑ h, (d.nObs h : ℝ) * (residualVar (d.covs h) j (fun i => m0.B i j) - w h j)) / ∑ h, (d.nObs h : ℝ) := by
        have : ∑ h, (d.nObs h : ℝ) * (residualVar (d.covs h) j (fun i => m0.B i j) - w h j) =
            ∑ h, (d.nObs h : ℝ) * residualVar (d.covs h) j (fun i => m0.B i j) - (∑ h, (d.nObs h : ℝ)) * w k j := by
          rw [Finset.sum_mul, ← Finset.sum_sub_distrib]
          exact Finset.sum_congr rfl fun h _ => by rw [hI h k j hj]; ring
        rw [this, sub_div, mul_div_cancel_left₀ _ hN.ne']
      rw [e1, abs_div, abs_of_pos hN, div_le_iff₀ hN]
      refine (Finset.abs_sum_le_sum_abs _ _).trans ?_
      rw [Finset.mul_sum]
      refine Finset.sum_le_sum fun h _ => ?_
      rw [abs_mul, abs_of_pos (hn h), mul_comm]
      refine mul_le_mul_of_nonneg_right ?_ (hn h).le
      rw [← hI h k j hj]
      exact hres0 h j
  have hphi0 : phiSum (codeWeight d.nObs) w m0.omegas ≤ τ * p * ∑ k, codeWeight d.nObs k := by
    unfold phiSum
    rw [Finset.mul_sum]
    refine Finset.sum_le_sum fun k _ => ?_
    rw [mul_comm]
    refine mul_le_mul_of_nonneg_right ?_ (ha k).le
    calc ∑ j, phi (w k j / m0.omegas k j) ≤ ∑ _j : Fin p, τ := Finset.sum_le_sum fun j _ => (phi_near (hw k j) hτ1 (hom0 k j)).2
      _ = τ * p := by simp [mul_comm]
  -- the iterations
  obtain ⟨n, hn0, hit, -, hgo, -⟩ := C44_run halt
  have hnT : n ≤ T := by
    obtain ⟨j, rfl⟩ : ∃ j, n = j + 1 := ⟨n - 1, by omega⟩
    have := (hgo j (by omega)).1
    omega
  have hstep : ∀ i (prev cur : LModel p 0 e), prev.A = A → (∀ k j, 0 < prev.omegas k j) →
      altBody it (codeSolvers it num cfg d u v I) i prev = .ok cur → cur.A = A ∧ Respects A cur.B ∧ (∀ k j, 0 < cur.omegas k j) ∧
        ∀ i j, |cur.B i j - B i j| < min δ₁ θ := by
    intro i prev cur q1 q2 hb
    obtain ⟨r0, r1, r2, r3⟩ := step_optimal hac hs hcvx hd hopt q1 q2 hb
    exact ⟨r0, r1, r2, fun i j => hcol d.covs hS hw2 hd.some j (fun k => ((d.nObs k : ℝ) / ∑ k, (d.nObs k : ℝ)) * (prev.omegas k j)⁻¹)
      (fun k => mul_pos (div_pos (hn k) hN) (inv_pos.2 (q2 k j))) (fun i => cur.B i j) (fun i hij => r1 i j hij) (r3 j _ fun i hij => hB i j hij) i⟩
  have key : ∀ n m, iterates (altBody it (codeSolvers it num cfg d u v I)) m0 n = .ok m → m.A = A ∧ Respects A m.B ∧ (∀ k j, 0 < m.omegas k j) ∧
      (∀ i j, |m.B i j - B i j| < min δ₁ θ) ∧
      phiSum (codeWeight d.nObs) w m.omegas + 4 * τ * p * ∑ k, codeWeight d.nObs k ≤
        3 ^ n * (phiSum (codeWeight d.nObs) w m0.omegas + 4 * τ * p * ∑ k, codeWeight d.nObs k) := by
    intro n
    induction n with
    | zero =>
      intro m hm'
      simp only [iterates, Except.ok.injEq] at hm'
      subst hm'
      exact ⟨hm0, fun i j hij => hB0 i j hij, fun k j => (phi_near (hw k j) hτ1 (hom0 k j)).1, hclose0, by simp⟩
    | succ n ih =>
      intro m hm'
      rw [iterates] at hm'
      split at hm'
      · simp at hm'
      · rename_i m1 hm1
        obtain ⟨g1, -, g3, -, g5⟩ := ih m1 hm1
        obtain ⟨b1, b2, b3, b4⟩ := hstep n m1 m g1 g3 hm'
        refine ⟨b1, b2, b3, b4, ?_⟩
        have := step_tracks hA hac hs hcvx hd hopt g1 g3 hm' hw hτ.le hτ1 (hres d.covs m.B hw1 fun i j => (b4 i j).trans_le (min_le_left _ _))
        rw [pow_succ]
        nlinarith
  obtain ⟨k1, k2, k3, k4, k5⟩ := key n m hit
  refine ⟨k1, ?_, k2, fun i j => (k4 i j).trans_le (min_le_right _ _), k3, ?_⟩
  · obtain ⟨n', rfl⟩ : ∃ n', n = n' + 1 := ⟨n - 1, by omega⟩
    rw [iterates] at hit
    split at hit
    · simp at hit
    · rename_i m1 hm1
      obtain ⟨-, g2, -, g4, -⟩ := key n' m1 hm1
      obtain ⟨-, -, hIB, -⟩ := altBody_ok hit
      exact ⟨m1.B, g2, hIB, fun i j => (g4 i j).trans_le (min_le_right _ _)⟩
  · have ha0 : 0 ≤ ∑ k, codeWeight d.nObs k := Finset.sum_nonneg fun k _ => (ha k).le
    have hp0 : (0 : ℝ) ≤ τ * p * ∑ k, codeWeight d.nObs k := by positivity
    have h1 : (3 : ℝ) ^ n ≤ 3 ^ T := pow_le_pow_right₀ (by norm_num) hnT
    have h2 : 3 ^ n * (phiSum (codeWeight d.nObs) w m0.omegas + 4 * τ * p * ∑ k, codeWeight d.nObs k) ≤ 3 ^ T * (5 * (τ * p * ∑ k, codeWeight d.nObs k)) := by
      refine mul_le_mul h1 (by linarith) ?_ (by positivity)
      have := phiSum_nonneg ha hw fun k j => (phi_near (hw k j) hτ1 (hom0 k j)).1
      nlinarith
    have h3 : (3 : ℝ) ^ T * (5 * (τ * p * ∑ k, codeWeight d.nObs k)) ≤ θ * ∑ k, codeWeight d.nObs k := by
      have e1 : (3 : ℝ) ^ T * (5 * (τ * p * ∑ k, codeWeight d.nObs k)) = τ * (5 * 3 ^ T * p) * ∑ k, codeWeight d.nObs k := by ring
      rw [e1]
      refine mul_le_mul_of_nonneg_right (le_trans ?_ hτ2) ha0
      refine mul_le_mul_of_nonneg_left ?_ hτ.le
      have : (0 : ℝ) ≤ 5 * 3 ^ T := by positivity
      nlinarith
    nlinarith [k5, h2, h3, hp0]

/-! ## Variances -/

theorem codeWeight_sum_le (he : 0 < e) {n : Fin e → Nat} (hn : ∀ k, 0 < n k) : ∑ k, codeWeight n k ≤ 1 := by
  have hN : (0 : ℝ) < ∑ k, (n k : ℝ) := Finset.sum_pos (fun k _ => by exact_mod_cast hn k) ⟨⟨0, he⟩, Finset.mem_univ _⟩
  have hN1 : (1 : ℝ) ≤ ∑ k, (n k : ℝ) := by
    have h1 : (n ⟨0, he⟩ : ℝ) ≤ ∑ k, (n k : ℝ) := Finset.single_le_sum (f := fun k => (n k : ℝ)) (fun k _ => Nat.cast_nonneg _) (Finset.mem_univ _)
    have h2 : (1 : ℝ) ≤ n ⟨0, he⟩ := by exact_mod_cast hn ⟨0, he⟩
    linarith
  calc ∑ k, codeWeight n k ≤ ∑ k, (n k : ℝ) / ∑ k, (n k : ℝ) := Finset.sum_le_sum fun k _ => by
        unfold codeWeight
        refine div_le_div_of_nonneg_left (Nat.cast_nonneg _) hN ?_
        calc ∑ k, (n k : ℝ) = (∑ k, (n k : ℝ)) ^ 1 := (pow_one _).symm
          _ ≤ _ := pow_le_pow_right₀ hN1 (by omega)
    _ = 1 := by rw [← Finset.sum_div, div_self hN.ne']

/-- The last environment has the weight of its share of the observations. -/
theorem codeWeight_last {n : Fin e → Nat} {k : Fin e} (hk : k.val + 1 = e) : codeWeight n k = (n k : ℝ) / ∑ k, (n k : ℝ) := by
  unfold codeWeight
  rw [show e - k.val = 1 by omega, pow_one]

/-- C122: the fit without latents to data close to the covariances of a model of the class: the weights are close to the truth, and so are the
variances in all environments that have at least the share `ρ` of the weights of the score. -/
theorem C122_variances {A : Adj p} (hA : Nonneg A) (hac : Acyclic A) {B : Matrix (Fin p) (Fin p) ℝ} (hB : Respects A B) {w : Fin e → Fin p → ℝ}
    (hw : ∀ k i, 0 < w k i) {C : Fin e → Matrix (Fin p) (Fin p) ℝ} (hC : ∀ k, Entails B (Matrix.diagonal (w k)) (C k)) {I : Finset (Fin p)}
    (hI : ∀ k k' i, i ∉ I → w k i = w k' i) (T : Nat) {ρ : ℝ} (hρ : 0 < ρ) {ε : ℝ} (hε : 0 < ε) :
    ∃ δ > 0, ∀ (it : SetIter p) (svd : Matrix (Fin p) (Fin p) ℝ → Matrix (Fin p) (Fin p) ℝ × (Fin p → ℝ)) (num : NumLib p e) (cfg : ScoreCfg) (d : Data p e)
      (u v : Nat → Fin (p * p) → ℝ) (m : LModel p 0 e) (s : Flt), GoodSqrt num.sqrtm → cfg.solver = .cvx → cfg.stop.maxIter ≤ T →
      GoodData d → (∀ Ms, CvxOptimal num A Ms d 0) → Within δ C d.covs → fitCode it svd num cfg d u v A I none = .ok (m, s) →
      (∀ i j, |m.B i j - B i j| < ε) ∧ ∀ k, ρ * ∑ k, codeWeight d.nObs k ≤ codeWeight d.nObs k → ∀ j, |m.omegas k j - w k j| < ε := by
  obtain ⟨W, hW⟩ : ∃ W, W = ∑ k, ∑ j, w k j := ⟨_, rfl⟩
  have hwW : ∀ k j, w k j ≤ W := fun k j => by
    rw [hW]
    exact (Finset.single_le_sum (f := fun j => w k j) (fun j _ => (hw k j).le) (Finset.mem_univ j)).trans
      (Finset.single_le_sum (f := fun k => ∑ j, w k j) (fun k _ => Finset.sum_nonneg fun j _ => (hw k j).le) (Finset.mem_univ k))
  have hW0 : 0 ≤ W := by
    rw [hW]
    exact Finset.sum_nonneg fun k _ => Finset.sum_nonneg fun j _ => (hw k j).le
  obtain ⟨t, htdef⟩ : ∃ t : ℝ, t = min (1 / 6) (ε / (12 * (W + 1))) := ⟨_, rfl⟩
  have ht : 0 < t := by rw [htdef]; exact lt_min (by norm_num) (by positivity)
  have ht1 : t ≤ 1 / 6 := by rw [htdef]; exact min_le_left _ _
  have ht2 : t * (12 * (W + 1)) ≤ ε := by
    have : t ≤ ε / (12 * (W + 1)) := by rw [htdef]; exact min_le_right _ _
    rwa [le_div_iff₀ (by positivity)] at this
  obtain ⟨δ, hδ, h⟩ := fit_tracks hA hac hB hw hC hI T (θ := min ε (ρ * t ^ 2)) (lt_min hε (by positivity))
  refine ⟨δ, hδ, fun it svd num cfg d u v m s hs hcvx hT hd hopt hwithin hfit => ?_⟩
  obtain ⟨-, -, -, h1, h2, h3⟩ := h it svd num cfg d u v m s hs hcvx hT hd hopt hwithin hfit
  refine ⟨fun i j => (h1 i j).trans_le (min_le_left _ _), fun k hk j => ?_⟩
  have ha := codeWeight_pos hd.some hd.pos
  have h4 : codeWeight d.nObs k * phi (w k j / m.omegas k j) ≤ phiSum (codeWeight d.nObs) w m.omegas := by
    refine le_trans (mul_le_mul_of_nonneg_left ?_ (ha k).le) (Finset.single_le_sum (f := fun k => codeWeight d.nObs k * ∑ j, phi (w k j / m.omegas k j))
      (fun k _ => mul_nonneg (ha k).le (Finset.sum_nonneg fun j _ => phi_nonneg (div_pos (hw k j) (h2 k j)))) (Finset.mem_univ k))
    exact Finset.single_le_sum (f := fun j => phi (w k j / m.omegas k j)) (fun j _ => phi_nonneg (div_pos (hw k j) (h2 k j))) (Finset.mem_univ j)
  have h5 : min ε (ρ * t ^ 2) * ∑ k, codeWeight d.nObs k ≤ t ^ 2 * codeWeight d.nObs k := by
    calc min ε (ρ * t ^ 2) * ∑ k, codeWeight d.nObs k ≤ (ρ * t ^ 2) * ∑ k, codeWeight d.nObs k :=
          mul_le_mul_of_nonneg_right (min_le_right _ _) (Finset.sum_nonneg fun k _ => (ha k).le)
      _ = t ^ 2 * (ρ * ∑ k, codeWeight d.nObs k) := by ring
      _ ≤ _ := mul_le_mul_of_nonneg_left hk (sq_nonneg t)
  have h6 : phi (w k j / m.omegas k j) ≤ t ^ 2 := by
    refine le_of_mul_le_mul_left ?_ (ha k)
    linarith [mul_comm (t ^ 2) (codeWeight d.nObs k)]
  refine (var_close (hw k j) (h2 k j) ht.le ht1 h6).trans_lt ?_
  have h7 := mul_le_mul_of_nonneg_left (hwW k j) ht.le
  nlinarith

/-- C122: the last environment is one of them, if it has at least the share `ρ` of the observations. -/
theorem C122_last_weight (he : 0 < e) {n : Fin e → Nat} (hn : ∀ k, 0 < n k) {ρ : ℝ} (hρ : 0 < ρ) {k : Fin e} (hk : k.val + 1 = e)
    (h : ρ * ∑ k, (n k : ℝ) ≤ n k) : ρ * ∑ k, codeWeight n k ≤ codeWeight n k := by
  have hN : (0 : ℝ) < ∑ k, (n k : ℝ) := Finset.sum_pos (fun k _ => by exact_mod_cast hn k) ⟨⟨0, he⟩, Finset.mem_univ _⟩
  have h1 := codeWeight_sum_le he hn
  have h2 : ρ ≤ codeWeight n k := by
    rw [codeWeight_last hk]
    exact (le_div_iff₀ hN).2 h
  nlinarith

end Verif
