import Mathlib.Probability.CentralLimitTheorem
import Mathlib.MeasureTheory.Measure.Portmanteau
import Verif.Props.Lln

/-!
# The fluctuations of sample variances
-/

namespace Verif

open Spec Matrix MeasureTheory ProbabilityTheory Filter Topology

variable {p : Nat} {Ω : Type} [MeasurableSpace Ω] {μ : Measure Ω} [IsProbabilityMeasure μ] {X : ℕ → Ω → Fin p → ℝ} {S : Matrix (Fin p) (Fin p) ℝ}

/-- The variance of the squared deviations from the mean. -/
noncomputable def Spec.sqVar (μ : Measure Ω) (Y : Ω → ℝ) : ℝ := Var[fun ω => (Y ω - ∫ ω, Y ω ∂μ) ^ 2; μ]

/-- The sample variance in terms of deviations from a constant. -/
theorem npCov_shift (s : Sample p) (hs : 2 ≤ s.length) (i : Fin p) (a : ℝ) :
    npCov s i i = (s.length : ℝ) / (s.length - 1) * ((s.map fun x => (x i - a) ^ 2).sum / s.length - ((s.map fun x => x i).sum / s.length - a) ^ 2) := by
  have hne : s ≠ [] := by rintro rfl; simp at hs
  have h0 : (s.length : ℝ) ≠ 0 := by exact_mod_cast (List.length_pos_of_ne_nil hne).ne'
  rw [npCov_eq s hne]
  have := sum_centred s i i a a
  simp only [← pow_two] at this ⊢
  rw [this]
  congr 1
  field_simp
  ring

theorem sqrt_scaled (n : ℕ) (hn : 2 ≤ n) (z y v a : ℝ) :
    √n * ((n : ℝ) / (n - 1) * (z / n - (y / n - a) ^ 2) - v) - (√n)⁻¹ * (z - n * v) =
      √n / (n - 1) * (z / n - v) - (n : ℝ) / (n - 1) * (√n * (y / n - a) ^ 2) + √n / (n - 1) * v := by
  have h2 : (2 : ℝ) ≤ n := by exact_mod_cast hn
  have h1 : (n : ℝ) - 1 ≠ 0 := by linarith
  have h0 : (n : ℝ) ≠ 0 := by linarith
  have hs : (√(n : ℝ)) ≠ 0 := (Real.sqrt_pos.2 (by linarith)).ne'
  have hinv : (√(n : ℝ))⁻¹ = √n / n := by
    rw [eq_div_iff h0]
    nth_rewrite 2 [← Real.mul_self_sqrt (show (0 : ℝ) ≤ n by linarith)]
    field_simp
  rw [hinv]
  field_simp
  ring

theorem tendsto_ratio : Tendsto (fun n : ℕ => (n : ℝ) / (n - 1)) atTop (𝓝 1) := by
  have h1 : Tendsto (fun m : ℕ => 1 + ((m : ℝ) - 1)⁻¹) atTop (𝓝 (1 + 0)) :=
    tendsto_const_nhds.add (tendsto_inv_atTop_zero.comp (tendsto_atTop_add_const_right _ _ tendsto_natCast_atTop_atTop))
  rw [add_zero] at h1
  refine h1.congr' ?_
  filter_upwards [eventually_ge_atTop 2] with m hm
  have : (m : ℝ) - 1 ≠ 0 := by
    have : (2 : ℝ) ≤ m := by exact_mod_cast hm
    linarith
  field_simp
  ring

theorem tendsto_sqrt_ratio : Tendsto (fun n : ℕ => √(n : ℝ) / (n - 1)) atTop (𝓝 0) := by
  have h2 : Tendsto (fun n : ℕ => (√(n : ℝ))⁻¹) atTop (𝓝 0) :=
    tendsto_inv_atTop_zero.comp (Real.tendsto_sqrt_atTop.comp tendsto_natCast_atTop_atTop)
  have h3 := tendsto_ratio.mul h2
  rw [one_mul] at h3
  refine h3.congr' ?_
  filter_upwards [eventually_ge_atTop 2] with n hn
  have h2 : (2 : ℝ) ≤ n := by exact_mod_cast hn
  have h1 : (n : ℝ) - 1 ≠ 0 := by linarith
  have hs : (√(n : ℝ)) ≠ 0 := (Real.sqrt_pos.2 (by linarith)).ne'
  nth_rewrite 1 [← Real.mul_self_sqrt (show (0 : ℝ) ≤ n by linarith)]
  field_simp

/-- The squared error of the mean vanishes, also when it is multiplied by the square root of the number of observations. -/
theorem mean_error (h : Iid μ X S) (i : Fin p) :
    TendstoInMeasure μ (fun (n : ℕ) ω => √n * ((∑ a ∈ Finset.range n, X a ω i) / n - ∫ ω, X 0 ω i ∂μ) ^ 2) atTop 0 := by
  have hid : ∀ a, IdentDistrib (fun ω => X a ω i) (fun ω => X 0 ω i) μ μ := fun a => (h.ident a).comp (measurable_pi_apply i)
  have hm : ∀ a, MemLp (fun ω => X a ω i) 2 μ := fun a => (hid a).memLp_iff.2 (h.mem i)
  rw [tendstoInMeasure_iff_dist]
  intro ε hε
  have hmean : ∀ n : ℕ, ∫ ω, (∑ a ∈ Finset.range n, fun ω => X a ω i) ω ∂μ = n * ∫ ω, X 0 ω i ∂μ := by
    intro n
    simp only [Finset.sum_apply]
    rw [integral_finsetSum _ fun a _ => (hm a).integrable one_le_two]
    simp only [fun a => (hid a).integral_eq, Finset.sum_const, Finset.card_range, nsmul_eq_mul]
  have hvar : ∀ n : ℕ, Var[∑ a ∈ Finset.range n, fun ω => X a ω i; μ] = n * Var[fun ω => X 0 ω i; μ] := by
    intro n
    rw [IndepFun.variance_sum (fun a _ => hm a)]
    · simp only [fun a => (hid a).variance_eq, Finset.sum_const, Finset.card_range, nsmul_eq_mul]
    · intro a _ b _ hab
      exact (h.indep.indepFun hab).comp (measurable_pi_apply i) (measurable_pi_apply i)
  have hlim : Tendsto (fun n : ℕ => ENNReal.ofReal (Var[fun ω => X 0 ω i; μ] / ε * (√(n : ℝ))⁻¹)) atTop (𝓝 0) := by
    have h2 : Tendsto (fun n : ℕ => (√(n : ℝ))⁻¹) atTop (𝓝 0) :=
      tendsto_inv_atTop_zero.comp (Real.tendsto_sqrt_atTop.comp tendsto_natCast_atTop_atTop)
    have h3 := ENNReal.tendsto_ofReal (h2.const_mul (Var[fun ω => X 0 ω i; μ] / ε))
    simpa using h3
  refine tendsto_of_tendsto_of_tendsto_of_le_of_le' tendsto_const_nhds hlim (Eventually.of_forall fun _ => zero_le) ?_
  filter_upwards [eventually_ge_atTop 1] with n hn
  have hn' : (0 : ℝ) < n := by exact_mod_cast hn
  have hs : 0 < √(n : ℝ) := Real.sqrt_pos.2 hn'
  have hc : 0 < n * √(ε / √(n : ℝ)) := by positivity
  have hcheb := meas_ge_le_variance_div_sq (memLp_finsetSum' (Finset.range n) fun a _ => hm a) hc
  rw [hmean, hvar] at hcheb
  refine le_trans (measure_mono fun ω hω => ?_) (hcheb.trans (ENNReal.ofReal_le_ofReal (le_of_eq ?_)))
  · simp only [Set.mem_ofPred_eq, Finset.sum_apply] at hω ⊢
    have h1 : ε / √(n : ℝ) ≤ ((∑ a ∈ Finset.range n, X a ω i) / n - ∫ ω, X 0 ω i ∂μ) ^ 2 := by
      rw [div_le_iff₀ hs, mul_comm]
      simpa [Real.dist_eq, abs_of_nonneg, abs_mul] using hω
    have h2 : √(ε / √(n : ℝ)) ≤ |(∑ a ∈ Finset.range n, X a ω i) / n - ∫ ω, X 0 ω i ∂μ| := by
      rw [← Real.sqrt_sq_eq_abs]
      exact Real.sqrt_le_sqrt h1
    have h3 : |∑ a ∈ Finset.range n, X a ω i - n * ∫ ω, X 0 ω i ∂μ| = n * |(∑ a ∈ Finset.range n, X a ω i) / n - ∫ ω, X 0 ω i ∂μ| := by
      rw [← abs_of_pos hn', ← abs_mul, abs_of_pos hn']
      congr 1
      field_simp
    rw [h3]
    exact mul_le_mul_of_nonneg_left h2 hn'.le
  · rw [mul_pow, Real.sq_sqrt (by positivity)]
    field_simp
    rw [Real.sq_sqrt hn'.le, mul_comm]

/-- The scaled errors of sample variances converge in distribution to a Gaussian distribution. -/
theorem var_clt (h : Iid μ X S) (i : Fin p) (h4 : MemLp (fun ω => X 0 ω i) 4 μ) :
    TendstoInDistribution (fun (n : ℕ) ω => √n * (npCov (rowsOf X (List.range n) ω) i i - S i i)) atTop id (fun _ => μ)
      (gaussianReal 0 (sqVar μ fun ω => X 0 ω i).toNNReal) := by
  set a := ∫ ω, X 0 ω i ∂μ with ha
  have hmeasZ : Measurable fun x : Fin p → ℝ => (x i - a) ^ 2 := ((measurable_pi_apply i).sub_const _).pow_const _
  have hZ : MemLp (fun ω => (X 0 ω i - a) ^ 2) 2 μ := by
    have h1 : MemLp (fun ω => X 0 ω i - a) 4 μ := h4.sub (memLp_const a)
    have h2 := MemLp.mul (p := 4) (q := 4) (r := 2) h1 h1 (hpqr := ⟨by
      rw [show (4 : ENNReal) = 2 * 2 by norm_num, ENNReal.mul_inv (by simp) (by simp), ← mul_add, ENNReal.inv_two_add_inv_two, mul_one]⟩)
    refine h2.ae_eq (Eventually.of_forall fun ω => ?_)
    simp [pow_two]
  have hmean : ∫ ω, (X 0 ω i - a) ^ 2 ∂μ = S i i := by
    rw [← h.cov i i, covariance_self (h.mem i).aemeasurable, variance_eq_integral (h.mem i).aemeasurable]
  have hclt := tendstoInDistribution_inv_sqrt_mul_sum_sub (Y := id) (P' := gaussianReal 0 (sqVar μ fun ω => X 0 ω i).toNNReal)
    (X := fun b ω => (X b ω i - a) ^ 2) (P := μ) (HasLaw.id) hZ (h.indep.comp _ fun _ => hmeasZ) (fun b => (h.ident b).comp hmeasZ)
  have hmeas : ∀ n : ℕ, Measurable fun ω => √(n : ℝ) * (npCov (rowsOf X (List.range n) ω) i i - S i i) := by
    intro n
    refine Measurable.const_mul (Measurable.sub_const ?_ _) _
    have : (fun ω => npCov (rowsOf X (List.range n) ω) i i) = (fun x : Fin n → Fin p → ℝ => npCov (List.ofFn x) i i) ∘ fun ω a => X a ω := by
      funext ω
      simp only [Function.comp_apply, rows_range]
    rw [this]
    exact (npCov_measurable n i i).comp (measurable_pi_lambda _ fun a => h.meas _)
  refine tendstoInDistribution_of_tendstoInMeasure_sub _ _ hclt ?_ fun n => (hmeas n).aemeasurable
  -- the difference
  have hsl := average_ae h hmeasZ (hZ.integrable one_le_two)
  have hd1 : TendstoInMeasure μ (fun (n : ℕ) ω => √(n : ℝ) / (n - 1) * ((∑ b ∈ Finset.range n, (X b ω i - a) ^ 2) / n - S i i) + √(n : ℝ) / (n - 1) * S i i)
      atTop fun _ => 0 := by
    refine tendstoInMeasure_of_tendsto_ae (fun n => ?_) ?_
    · refine Measurable.aestronglyMeasurable ?_
      exact (((Finset.measurable_sum _ fun b _ => hmeasZ.comp (h.meas b)).div_const _).sub_const _).const_mul _ |>.add_const _
    · filter_upwards [hsl] with ω hω
      rw [hmean] at hω
      have := (tendsto_sqrt_ratio.mul (hω.sub_const (S i i))).add (tendsto_sqrt_ratio.mul_const (S i i))
      simpa using this
  have hd2 := mean_error h i
  rw [tendstoInMeasure_iff_dist] at hd1 hd2 ⊢
  intro ε hε
  have e1 := hd1 (ε / 2) (by positivity)
  have e2 := hd2 (ε / 4) (by positivity)
  have hsum := e1.add e2
  rw [add_zero] at hsum
  refine tendsto_of_tendsto_of_tendsto_of_le_of_le' tendsto_const_nhds hsum (Eventually.of_forall fun _ => zero_le) ?_
  filter_upwards [eventually_ge_atTop 2] with n hn
  refine le_trans (measure_mono fun ω hω => ?_) (measure_union_le _ _)
  by_contra hcon
  simp only [Set.mem_union, Set.mem_ofPred_eq, not_or, not_le, Real.dist_eq, Pi.zero_apply, sub_zero] at hcon hω
  have hlen : (rowsOf X (List.range n) ω).length = n := by simp [rowsOf]
  have hshift := npCov_shift (rowsOf X (List.range n) ω) (by rw [hlen]; exact hn) i a
  rw [hlen, map_range_sum, map_range_sum] at hshift
  have hr : (n : ℝ) / (n - 1) ≤ 2 ∧ 0 ≤ (n : ℝ) / (n - 1) := by
    have h2 : (2 : ℝ) ≤ n := by exact_mod_cast hn
    constructor
    · rw [div_le_iff₀ (by linarith)]
      linarith
    · exact div_nonneg (by linarith) (by linarith)
  simp only [Pi.sub_apply] at hω
  rw [hshift, hmean, sqrt_scaled n hn] at hω
  have hq : 0 ≤ √(n : ℝ) * ((∑ a ∈ Finset.range n, X a ω i) / n - a) ^ 2 := by positivity
  rw [abs_of_nonneg hq] at hcon
  obtain ⟨c1, c2⟩ := hcon
  have h3 : (n : ℝ) / (n - 1) * (√(n : ℝ) * ((∑ a ∈ Finset.range n, X a ω i) / n - a) ^ 2) ≤ 2 * (ε / 4) :=
    mul_le_mul hr.1 c2.le hq (by norm_num)
  have h4' : 0 ≤ (n : ℝ) / (n - 1) * (√(n : ℝ) * ((∑ a ∈ Finset.range n, X a ω i) / n - a) ^ 2) := mul_nonneg hr.2 hq
  rw [abs_lt] at c1
  rcases le_abs.1 hω with h5 | h5 <;> linarith [c1.1, c1.2]

/-- The same for rows that are chosen beforehand: in the limit the probability of an open set is at least that of the Gaussian distribution. -/
theorem rows_open (h : Iid μ X S) (i : Fin p) (h4 : MemLp (fun ω => X 0 ω i) 4 μ) (J : ℕ → List ℕ) (hJ : ∀ n, (J n).Nodup)
    (hlen : Tendsto (fun n => (J n).length) atTop atTop) {U : Set ℝ} (hU : IsOpen U) {c : ENNReal}
    (hc : c < gaussianReal 0 (sqVar μ fun ω => X 0 ω i).toNNReal U) :
    ∀ᶠ n in atTop, c < μ {ω | √((J n).length : ℝ) * (npCov (rowsOf X (J n) ω) i i - S i i) ∈ U} := by
  have hclt := var_clt h i h4
  have hlim := ProbabilityMeasure.le_liminf_measure_open_of_tendsto hclt.tendsto hU
  have hev := eventually_lt_of_lt_liminf (lt_of_lt_of_le (by simpa using hc) hlim)
  have hev' := hlen.eventually hev
  filter_upwards [hev'] with n hn
  have hT : MeasurableSet {x : Fin (J n).length → Fin p → ℝ | √((J n).length : ℝ) * (npCov (List.ofFn x) i i - S i i) ∈ U} :=
    (((npCov_measurable _ i i).sub_const _).const_mul _) hU.measurableSet
  have hlaw := rows_law h (hJ n) hT
  rw [show {ω | √((J n).length : ℝ) * (npCov (rowsOf X (J n) ω) i i - S i i) ∈ U} =
    {ω | (fun a => X ((J n).get a) ω) ∈ {x : Fin (J n).length → Fin p → ℝ | √((J n).length : ℝ) * (npCov (List.ofFn x) i i - S i i) ∈ U}} by
      simp only [rows_eq_ofFn, Set.mem_ofPred_eq], hlaw]
  simp only [ProbabilityMeasure.coe_mk] at hn
  rw [Measure.map_apply_of_aemeasurable (hclt.forall_aemeasurable _) hU.measurableSet] at hn
  refine hn.trans_le (measure_mono fun ω hω => ?_)
  simpa only [Set.mem_preimage, Set.mem_ofPred_eq, rows_range] using hω

/-- The scaled errors stay bounded, up to a small probability. -/
theorem rows_tight (h : Iid μ X S) (i : Fin p) (h4 : MemLp (fun ω => X 0 ω i) 4 μ) {c : ENNReal} (hc : c < 1) :
    ∃ K : ℝ, ∀ K' ≥ K, ∀ (J : ℕ → List ℕ), (∀ n, (J n).Nodup) → Tendsto (fun n => (J n).length) atTop atTop →
      ∀ᶠ n in atTop, c < μ {ω | √((J n).length : ℝ) * (npCov (rowsOf X (J n) ω) i i - S i i) ∈ Set.Ioo (-K') K'} := by
  have hun : ⋃ n : ℕ, Set.Ioo (-(n : ℝ)) n = Set.univ := by
    refine Set.eq_univ_of_forall fun x => Set.mem_iUnion.2 ?_
    obtain ⟨n, hn⟩ := exists_nat_gt |x|
    exact ⟨n, abs_lt.1 hn⟩
  have hmono : Monotone fun n : ℕ => Set.Ioo (-(n : ℝ)) n := by
    intro a b hab
    have : (a : ℝ) ≤ b := by exact_mod_cast hab
    exact Set.Ioo_subset_Ioo (by linarith) this
  have ht := tendsto_measure_iUnion_atTop (μ := gaussianReal 0 (sqVar μ fun ω => X 0 ω i).toNNReal) hmono
  rw [hun, measure_univ] at ht
  obtain ⟨n, hn⟩ := (ht.eventually (lt_mem_nhds hc)).exists
  refine ⟨n, fun K' hK' J hJ hlen => rows_open h i h4 J hJ hlen isOpen_Ioo (hn.trans_le (measure_mono ?_))⟩
  exact Set.Ioo_subset_Ioo (by linarith) hK'

/-- Errors of any size have a positive probability in the limit. -/
theorem rows_tail (h : Iid μ X S) (i : Fin p) (h4 : MemLp (fun ω => X 0 ω i) 4 μ) (hv : sqVar μ (fun ω => X 0 ω i) ≠ 0) (M : ℝ) :
    ∃ c : ENNReal, 0 < c ∧ ∀ (J : ℕ → List ℕ), (∀ n, (J n).Nodup) → Tendsto (fun n => (J n).length) atTop atTop →
      ∀ᶠ n in atTop, c < μ {ω | √((J n).length : ℝ) * (npCov (rowsOf X (J n) ω) i i - S i i) ∈ Set.Ioo M (M + 1)} := by
  have hv' : (sqVar μ fun ω => X 0 ω i).toNNReal ≠ 0 := by
    intro h0
    rw [Real.toNNReal_eq_zero] at h0
    exact hv (le_antisymm h0 (variance_nonneg _ _))
  have hpos : 0 < gaussianReal 0 (sqVar μ fun ω => X 0 ω i).toNNReal (Set.Ioo M (M + 1)) := by
    rw [pos_iff_ne_zero]
    intro h0
    have := gaussianReal_absolutelyContinuous' 0 hv' h0
    simp at this
  obtain ⟨c, c1, c2⟩ := exists_between hpos
  exact ⟨c, c1, fun J hJ hlen => rows_open h i h4 J hJ hlen isOpen_Ioo c2⟩

end Verif
