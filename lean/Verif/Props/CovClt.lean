import Verif.Props.Clt
import Verif.Props.Cov

/-!
# The fluctuations of sample covariances
-/

namespace Verif

open Spec Matrix MeasureTheory ProbabilityTheory Filter Topology

variable {p : Nat} {Ω : Type} [MeasurableSpace Ω] {μ : Measure Ω} [IsProbabilityMeasure μ] {X : ℕ → Ω → Fin p → ℝ} {S : Matrix (Fin p) (Fin p) ℝ}

/-- The variance of the product of the deviations from the means. -/
noncomputable def Spec.prodVar (μ : Measure Ω) (Y Z : Ω → ℝ) : ℝ := Var[fun ω => (Y ω - ∫ ω, Y ω ∂μ) * (Z ω - ∫ ω, Z ω ∂μ); μ]

/-- The sample covariance in terms of deviations from constants. -/
theorem npCov_shift2 (s : Sample p) (hs : 2 ≤ s.length) (i j : Fin p) (a b : ℝ) :
    npCov s i j = (s.length : ℝ) / (s.length - 1) * ((s.map fun x => (x i - a) * (x j - b)).sum / s.length -
      ((s.map fun x => x i).sum / s.length - a) * ((s.map fun x => x j).sum / s.length - b)) := by
  have hne : s ≠ [] := by rintro rfl; simp at hs
  have h0 : (s.length : ℝ) ≠ 0 := by exact_mod_cast (List.length_pos_of_ne_nil hne).ne'
  rw [npCov_eq s hne, sum_centred s i j a b]
  congr 1
  field_simp
  ring

theorem sqrt_scaled2 (n : ℕ) (hn : 2 ≤ n) (z q v : ℝ) :
    √n * ((n : ℝ) / (n - 1) * (z / n - q) - v) - (√n)⁻¹ * (z - n * v) =
      √n / (n - 1) * (z / n - v) - (n : ℝ) / (n - 1) * (√n * q) + √n / (n - 1) * v := by
  have h2 : (2 : ℝ) ≤ n := by exact_mod_cast hn
  have h1 : (n : ℝ) - 1 ≠ 0 := by linarith
  have h0 : (n : ℝ) ≠ 0 := by linarith
  have hs : (√(n : ℝ)) ≠ 0 := (Real.sqrt_pos.2 (by linarith)).ne'
  have hinv : (√(n : ℝ))⁻¹ = √n / n := by
    rw [eq_div_iff h0]
    nth_rewrite 2 [← Real.mul_self_sqrt (show (0 : ℝ) ≤ n by linarith)]
    field_simp
  rw [hinv]
  field_simp
  ring

theorem memLp_mul4 {f g : Ω → ℝ} (hf : MemLp f 4 μ) (hg : MemLp g 4 μ) : MemLp (fun ω => f ω * g ω) 2 μ := by
  have h2 := MemLp.mul (p := 4) (q := 4) (r := 2) hf hg (hpqr := ⟨by
    rw [show (4 : ENNReal) = 2 * 2 by norm_num, ENNReal.mul_inv (by simp) (by simp), ← mul_add, ENNReal.inv_two_add_inv_two, mul_one]⟩)
  exact h2.ae_eq (Eventually.of_forall fun ω => by simp [mul_comm])

/-- The scaled errors of sample covariances converge in distribution to a Gaussian distribution. -/
theorem cov_clt (h : Iid μ X S) (i j : Fin p) (hi4 : MemLp (fun ω => X 0 ω i) 4 μ) (hj4 : MemLp (fun ω => X 0 ω j) 4 μ) :
    TendstoInDistribution (fun (n : ℕ) ω => √n * (npCov (rowsOf X (List.range n) ω) i j - S i j)) atTop id (fun _ => μ)
      (gaussianReal 0 (prodVar μ (fun ω => X 0 ω i) (fun ω => X 0 ω j)).toNNReal) := by
  set a := ∫ ω, X 0 ω i ∂μ with ha
  set b := ∫ ω, X 0 ω j ∂μ with hb
  have hmeasZ : Measurable fun x : Fin p → ℝ => (x i - a) * (x j - b) := ((measurable_pi_apply i).sub_const _).mul ((measurable_pi_apply j).sub_const _)
  have hZ : MemLp (fun ω => (X 0 ω i - a) * (X 0 ω j - b)) 2 μ := memLp_mul4 (hi4.sub (memLp_const a)) (hj4.sub (memLp_const b))
  have hmean : ∫ ω, (X 0 ω i - a) * (X 0 ω j - b) ∂μ = S i j := by
    rw [← h.cov i j]
    rfl
  have hclt := tendstoInDistribution_inv_sqrt_mul_sum_sub (Y := id) (P' := gaussianReal 0 (prodVar μ (fun ω => X 0 ω i) (fun ω => X 0 ω j)).toNNReal)
    (X := fun c ω => (X c ω i - a) * (X c ω j - b)) (P := μ) (HasLaw.id) hZ (h.indep.comp _ fun _ => hmeasZ) (fun c => (h.ident c).comp hmeasZ)
  have hmeas : ∀ n : ℕ, Measurable fun ω => √(n : ℝ) * (npCov (rowsOf X (List.range n) ω) i j - S i j) := by
    intro n
    refine Measurable.const_mul (Measurable.sub_const ?_ _) _
    have : (fun ω => npCov (rowsOf X (List.range n) ω) i j) = (fun x : Fin n → Fin p → ℝ => npCov (List.ofFn x) i j) ∘ fun ω a => X a ω := by
      funext ω
      simp only [Function.comp_apply, rows_range]
    rw [this]
    exact (npCov_measurable n i j).comp (measurable_pi_lambda _ fun a => h.meas _)
  refine tendstoInDistribution_of_tendstoInMeasure_sub _ _ hclt ?_ fun n => (hmeas n).aemeasurable
  -- the difference
  have hsl := average_ae h hmeasZ (hZ.integrable one_le_two)
  have hd1 : TendstoInMeasure μ (fun (n : ℕ) ω => √(n : ℝ) / (n - 1) * ((∑ c ∈ Finset.range n, (X c ω i - a) * (X c ω j - b)) / n - S i j) + √(n : ℝ) / (n - 1) * S i j)
      atTop fun _ => 0 := by
    refine tendstoInMeasure_of_tendsto_ae (fun n => ?_) ?_
    · refine Measurable.aestronglyMeasurable ?_
      exact (((Finset.measurable_sum _ fun c _ => hmeasZ.comp (h.meas c)).div_const _).sub_const _).const_mul _ |>.add_const _
    · filter_upwards [hsl] with ω hω
      rw [hmean] at hω
      have := (tendsto_sqrt_ratio.mul (hω.sub_const (S i j))).add (tendsto_sqrt_ratio.mul_const (S i j))
      simpa using this
  have hd2 := mean_error h i
  have hd3 := mean_error h j
  rw [tendstoInMeasure_iff_dist] at hd1 hd2 hd3 ⊢
  intro ε hε
  have e1 := hd1 (ε / 2) (by positivity)
  have e2 := hd2 (ε / 4) (by positivity)
  have e3 := hd3 (ε / 4) (by positivity)
  have hsum := (e1.add e2).add e3
  rw [add_zero, add_zero] at hsum
  refine tendsto_of_tendsto_of_tendsto_of_le_of_le' tendsto_const_nhds hsum (Eventually.of_forall fun _ => zero_le) ?_
  filter_upwards [eventually_ge_atTop 2] with n hn
  refine le_trans (measure_mono fun ω hω => ?_) ((measure_union_le _ _).trans (add_le_add (measure_union_le _ _) le_rfl))
  by_contra hcon
  simp only [Set.mem_union, Set.mem_ofPred_eq, not_or, not_le, Real.dist_eq, Pi.zero_apply, sub_zero] at hcon hω
  have hlen : (rowsOf X (List.range n) ω).length = n := by simp [rowsOf]
  have hshift := npCov_shift2 (rowsOf X (List.range n) ω) (by rw [hlen]; exact hn) i j a b
  rw [hlen, map_range_sum, map_range_sum, map_range_sum] at hshift
  have hr : (n : ℝ) / (n - 1) ≤ 2 ∧ 0 ≤ (n : ℝ) / (n - 1) := by
    have h2 : (2 : ℝ) ≤ n := by exact_mod_cast hn
    constructor
    · rw [div_le_iff₀ (by linarith)]
      linarith
    · exact div_nonneg (by linarith) (by linarith)
  simp only [Pi.sub_apply] at hω
  rw [hshift, hmean, sqrt_scaled2 n hn] at hω
  obtain ⟨⟨c1, c2⟩, c3⟩ := hcon
  have hq2 : 0 ≤ √(n : ℝ) * ((∑ a ∈ Finset.range n, X a ω i) / n - a) ^ 2 := by positivity
  have hq3 : 0 ≤ √(n : ℝ) * ((∑ a ∈ Finset.range n, X a ω j) / n - b) ^ 2 := by positivity
  rw [abs_of_nonneg hq2] at c2
  rw [abs_of_nonneg hq3] at c3
  set y := (∑ a ∈ Finset.range n, X a ω i) / (n : ℝ) - a
  set z := (∑ a ∈ Finset.range n, X a ω j) / (n : ℝ) - b
  have hs0 : 0 ≤ √(n : ℝ) := Real.sqrt_nonneg _
  have hyz : |√(n : ℝ) * (y * z)| ≤ ε / 4 := by
    have k1 : |y * z| ≤ (y ^ 2 + z ^ 2) / 2 := by
      rw [abs_le]
      constructor <;> nlinarith [sq_nonneg (y + z), sq_nonneg (y - z)]
    rw [abs_mul, abs_of_nonneg hs0]
    have k2 := mul_le_mul_of_nonneg_left k1 hs0
    nlinarith
  have h3 : |(n : ℝ) / (n - 1) * (√(n : ℝ) * (y * z))| ≤ 2 * (ε / 4) := by
    rw [abs_mul, abs_of_nonneg hr.2]
    exact mul_le_mul hr.1 hyz (abs_nonneg _) (by norm_num)
  rw [abs_lt] at c1
  rw [abs_le] at h3
  rcases le_abs.1 hω with h5 | h5 <;> linarith [c1.1, c1.2, h3.1, h3.2]

/-- The same for rows that are chosen beforehand: in the limit the probability of an open set is at least that of the Gaussian distribution. -/
theorem rows_open2 (h : Iid μ X S) (i j : Fin p) (hi4 : MemLp (fun ω => X 0 ω i) 4 μ) (hj4 : MemLp (fun ω => X 0 ω j) 4 μ) (J : ℕ → List ℕ)
    (hJ : ∀ n, (J n).Nodup) (hlen : Tendsto (fun n => (J n).length) atTop atTop) {U : Set ℝ} (hU : IsOpen U) {c : ENNReal}
    (hc : c < gaussianReal 0 (prodVar μ (fun ω => X 0 ω i) (fun ω => X 0 ω j)).toNNReal U) :
    ∀ᶠ n in atTop, c < μ {ω | √((J n).length : ℝ) * (npCov (rowsOf X (J n) ω) i j - S i j) ∈ U} := by
  have hclt := cov_clt h i j hi4 hj4
  have hlim := ProbabilityMeasure.le_liminf_measure_open_of_tendsto hclt.tendsto hU
  have hev := eventually_lt_of_lt_liminf (lt_of_lt_of_le (by simpa using hc) hlim)
  have hev' := hlen.eventually hev
  filter_upwards [hev'] with n hn
  have hT : MeasurableSet {x : Fin (J n).length → Fin p → ℝ | √((J n).length : ℝ) * (npCov (List.ofFn x) i j - S i j) ∈ U} :=
    (((npCov_measurable _ i j).sub_const _).const_mul _) hU.measurableSet
  have hlaw := rows_law h (hJ n) hT
  rw [show {ω | √((J n).length : ℝ) * (npCov (rowsOf X (J n) ω) i j - S i j) ∈ U} =
    {ω | (fun a => X ((J n).get a) ω) ∈ {x : Fin (J n).length → Fin p → ℝ | √((J n).length : ℝ) * (npCov (List.ofFn x) i j - S i j) ∈ U}} by
      simp only [rows_eq_ofFn, Set.mem_ofPred_eq], hlaw]
  simp only [ProbabilityMeasure.coe_mk] at hn
  rw [Measure.map_apply_of_aemeasurable (hclt.forall_aemeasurable _) hU.measurableSet] at hn
  refine hn.trans_le (measure_mono fun ω hω => ?_)
  simpa only [Set.mem_preimage, Set.mem_ofPred_eq, rows_range] using hω

/-- The scaled errors stay bounded, up to a small probability. -/
theorem rows_tight2 (h : Iid μ X S) (i j : Fin p) (hi4 : MemLp (fun ω => X 0 ω i) 4 μ) (hj4 : MemLp (fun ω => X 0 ω j) 4 μ) {c : ENNReal} (hc : c < 1) :
    ∃ K : ℝ, ∀ K' ≥ K, ∀ (J : ℕ → List ℕ), (∀ n, (J n).Nodup) → Tendsto (fun n => (J n).length) atTop atTop →
      ∀ᶠ n in atTop, c < μ {ω | √((J n).length : ℝ) * (npCov (rowsOf X (J n) ω) i j - S i j) ∈ Set.Ioo (-K') K'} := by
  have hun : ⋃ n : ℕ, Set.Ioo (-(n : ℝ)) n = Set.univ := by
    refine Set.eq_univ_of_forall fun x => Set.mem_iUnion.2 ?_
    obtain ⟨n, hn⟩ := exists_nat_gt |x|
    exact ⟨n, abs_lt.1 hn⟩
  have hmono : Monotone fun n : ℕ => Set.Ioo (-(n : ℝ)) n := by
    intro a b hab
    have : (a : ℝ) ≤ b := by exact_mod_cast hab
    exact Set.Ioo_subset_Ioo (by linarith) this
  have ht := tendsto_measure_iUnion_atTop (μ := gaussianReal 0 (prodVar μ (fun ω => X 0 ω i) (fun ω => X 0 ω j)).toNNReal) hmono
  rw [hun, measure_univ] at ht
  obtain ⟨n, hn⟩ := (ht.eventually (lt_mem_nhds hc)).exists
  refine ⟨n, fun K' hK' J hJ hlen => rows_open2 h i j hi4 hj4 J hJ hlen isOpen_Ioo (hn.trans_le (measure_mono ?_))⟩
  exact Set.Ioo_subset_Ioo (by linarith) hK'

/-- Errors of any size have a positive probability in the limit. -/
theorem rows_tail2 (h : Iid μ X S) (i j : Fin p) (hi4 : MemLp (fun ω => X 0 ω i) 4 μ) (hj4 : MemLp (fun ω => X 0 ω j) 4 μ)
    (hv : prodVar μ (fun ω => X 0 ω i) (fun ω => X 0 ω j) ≠ 0) (M : ℝ) :
    ∃ c : ENNReal, 0 < c ∧ ∀ (J : ℕ → List ℕ), (∀ n, (J n).Nodup) → Tendsto (fun n => (J n).length) atTop atTop →
      ∀ᶠ n in atTop, c < μ {ω | √((J n).length : ℝ) * (npCov (rowsOf X (J n) ω) i j - S i j) ∈ Set.Ioo M (M + 1)} := by
  have hv' : (prodVar μ (fun ω => X 0 ω i) (fun ω => X 0 ω j)).toNNReal ≠ 0 := by
    intro h0
    rw [Real.toNNReal_eq_zero] at h0
    exact hv (le_antisymm h0 (variance_nonneg _ _))
  have hpos : 0 < gaussianReal 0 (prodVar μ (fun ω => X 0 ω i) (fun ω => X 0 ω j)).toNNReal (Set.Ioo M (M + 1)) := by
    rw [pos_iff_ne_zero]
    intro h0
    have := gaussianReal_absolutelyContinuous' 0 hv' h0
    simp at this
  obtain ⟨c, c1, c2⟩ := exists_between hpos
  exact ⟨c, c1, fun J hJ hlen => rows_open2 h i j hi4 hj4 J hJ hlen isOpen_Ioo c2⟩

/-! ## Linear combinations -/

/-- Linear combinations of the variables, one for every row of `M`. -/
def Spec.mix {q : Nat} (M : Fin q → Fin p → ℝ) (x : Fin p → ℝ) : Fin q → ℝ := fun a => M a ⬝ᵥ x

theorem mix_measurable {q : Nat} (M : Fin q → Fin p → ℝ) : Measurable (mix M) := by
  refine measurable_pi_lambda _ fun a => ?_
  unfold mix dotProduct
  exact Finset.measurable_sum _ fun i _ => (measurable_pi_apply i).const_mul _

/-- Linear combinations of independent observations are independent observations. -/
theorem iid_mix {q : Nat} (h : Iid μ X S) (M : Fin q → Fin p → ℝ) : Iid μ (fun n ω => mix M (X n ω)) (fun a b => M a ⬝ᵥ (S *ᵥ M b)) := by
  have hm : ∀ a, MemLp (fun ω => mix M (X 0 ω) a) 2 μ := by
    intro a
    unfold mix dotProduct
    exact memLp_finsetSum _ fun i _ => (h.mem i).const_mul _
  refine ⟨fun n => (mix_measurable M).comp (h.meas n), h.indep.comp _ fun _ => mix_measurable M, fun n => (h.ident n).comp (mix_measurable M), hm, fun a b => ?_⟩
  unfold mix dotProduct
  have hsum : ∀ a, (fun ω => ∑ i, M a i * X 0 ω i) = ∑ i, fun ω => M a i * X 0 ω i := fun a => by
    funext ω
    simp
  rw [hsum, hsum, covariance_sum_sum (fun i => (h.mem i).const_mul _) (fun i => (h.mem i).const_mul _)]
  refine Finset.sum_congr rfl fun i _ => ?_
  rw [Matrix.mulVec, dotProduct, Finset.mul_sum]
  refine Finset.sum_congr rfl fun j _ => ?_
  rw [covariance_const_mul_left, covariance_const_mul_right, h.cov]
  ring

/-- The sample covariances of linear combinations. -/
theorem npCov_mix {q : Nat} (s : Sample p) (M : Fin q → Fin p → ℝ) (a b : Fin q) : npCov (s.map (mix M)) a b = M a ⬝ᵥ (npCov s *ᵥ M b) := by
  have hsum : ∀ c, ((s.map (mix M)).map fun x => x c).sum = ∑ i, M c i * (s.map fun x => x i).sum := by
    intro c
    induction s with
    | nil => simp
    | cons x s ih =>
      simp only [List.map_cons, List.sum_cons, ih, mul_add, Finset.sum_add_distrib]
      rfl
  have hmean : ∀ c, colMean (s.map (mix M)) c = ∑ i, M c i * colMean s i := by
    intro c
    unfold colMean
    rw [hsum, List.length_map, Finset.sum_div]
    exact Finset.sum_congr rfl fun i _ => by ring
  unfold npCov
  rw [List.length_map, List.map_map]
  have hterm : ∀ x : Fin p → ℝ, ((fun x => (x a - colMean (s.map (mix M)) a) * (x b - colMean (s.map (mix M)) b)) ∘ mix M) x =
      ∑ i, ∑ j, M a i * M b j * ((x i - colMean s i) * (x j - colMean s j)) := by
    intro x
    simp only [Function.comp_apply, hmean]
    have : ∀ c, mix M x c - ∑ i, M c i * colMean s i = ∑ i, M c i * (x i - colMean s i) := by
      intro c
      unfold mix dotProduct
      rw [← Finset.sum_sub_distrib]
      exact Finset.sum_congr rfl fun i _ => by ring
    rw [this, this, Finset.sum_mul_sum]
    exact Finset.sum_congr rfl fun i _ => Finset.sum_congr rfl fun j _ => by ring
  rw [List.map_congr_left fun x _ => hterm x]
  have hswap : ∀ l : Sample p, (l.map fun x => ∑ i, ∑ j, M a i * M b j * ((x i - colMean s i) * (x j - colMean s j))).sum =
      ∑ i, ∑ j, M a i * M b j * (l.map fun x => (x i - colMean s i) * (x j - colMean s j)).sum := by
    intro l
    induction l with
    | nil => simp
    | cons x l ih =>
      simp only [List.map_cons, List.sum_cons, ih, mul_add, Finset.sum_add_distrib]
  rw [hswap]
  simp only [dotProduct, Matrix.mulVec, Finset.mul_sum, Finset.sum_div]
  exact Finset.sum_congr rfl fun i _ => Finset.sum_congr rfl fun j _ => by ring

theorem rowsOf_mix {q : Nat} (M : Fin q → Fin p → ℝ) (J : List ℕ) (ω : Ω) : rowsOf (fun n ω => mix M (X n ω)) J ω = (rowsOf X J ω).map (mix M) := by
  unfold rowsOf
  rw [List.map_map]
  rfl

theorem memLp_mix {q : Nat} (M : Fin q → Fin p → ℝ) (h4 : ∀ i, MemLp (fun ω => X 0 ω i) 4 μ) (a : Fin q) : MemLp (fun ω => mix M (X 0 ω) a) 4 μ := by
  unfold mix dotProduct
  exact memLp_finsetSum _ fun i _ => (h4 i).const_mul _

end Verif
