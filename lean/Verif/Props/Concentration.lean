import Mathlib.Probability.Moments.MGFAnalytic
import Verif.Props.Clt
import Verif.Props.FoldRows

/-!
# C132: the sample covariances of the folds are exponentially close to the truth

When the squares of the observations have some exponential moment, as those of normal observations have, the probability that a sample covariance
of `n` observations is not within `δ` of the truth is at most `K * exp (-c * n)`.
-/

namespace Verif

open Spec Matrix MeasureTheory ProbabilityTheory Filter Topology

variable {p : Nat} {Ω : Type} [MeasurableSpace Ω] {μ : Measure Ω} {X : ℕ → Ω → Fin p → ℝ} {S : Matrix (Fin p) (Fin p) ℝ}

/-- The squares of the observations have an exponential moment. -/
def Spec.ExpSquares (μ : Measure Ω) (Y : Ω → Fin p → ℝ) : Prop := ∃ t > 0, ∀ i, Integrable (fun ω => Real.exp (t * Y ω i ^ 2)) μ

omit [MeasurableSpace Ω] in
theorem rows_sum (X : ℕ → Ω → Fin p → ℝ) {J : List ℕ} (hJ : J.Nodup) (ω : Ω) (f : (Fin p → ℝ) → ℝ) :
    ((rowsOf X J ω).map f).sum = ∑ a ∈ J.toFinset, f (X a ω) := by
  unfold rowsOf
  rw [List.map_map, List.sum_toFinset _ hJ]
  rfl

/-- One tail: a function of the observations with exponential moments. -/
theorem upper_tail [IsProbabilityMeasure μ] (h : Iid μ X S) {f : (Fin p → ℝ) → ℝ} (hf : Measurable f)
    (h0 : (0 : ℝ) ∈ interior (integrableExpSet (fun ω => f (X 0 ω)) μ)) {δ : ℝ} (hδ : 0 < δ) :
    ∃ c : ℝ, 0 < c ∧ ∀ J : List ℕ, J.Nodup → μ.real {ω | J.length * ((∫ ω, f (X 0 ω) ∂μ) + δ) ≤ ((rowsOf X J ω).map f).sum} ≤ Real.exp (-c * J.length) := by
  set m := ∫ ω, f (X 0 ω) ∂μ with hm
  have hd : HasDerivAt (fun t : ℝ => Real.exp (-t * (m + δ)) * mgf (fun ω => f (X 0 ω)) μ t) (-δ) 0 := by
    have h1 := hasDerivAt_mgf h0
    have h2 : HasDerivAt (fun t : ℝ => Real.exp (-t * (m + δ))) (Real.exp (-0 * (m + δ)) * (-1 * (m + δ))) 0 :=
      (((hasDerivAt_id (0 : ℝ)).neg).mul_const (m + δ)).exp
    have h3 := h2.mul h1
    convert! h3 using 1
    simp [← hm]
  have hs := hasDerivAt_iff_tendsto_slope.1 hd
  have hs' : ∀ᶠ t in 𝓝[>] (0 : ℝ), slope (fun t : ℝ => Real.exp (-t * (m + δ)) * mgf (fun ω => f (X 0 ω)) μ t) 0 t < 0 :=
    (hs.mono_left (nhdsWithin_mono _ fun x hx => ne_of_gt hx)).eventually (gt_mem_nhds (by linarith))
  have hi : ∀ᶠ t in 𝓝[>] (0 : ℝ), t ∈ integrableExpSet (fun ω => f (X 0 ω)) μ := by
    refine (Filter.Eventually.filter_mono nhdsWithin_le_nhds ?_)
    exact mem_interior_iff_mem_nhds.1 h0
  obtain ⟨t, ht1, ht2, ht3⟩ := (hs'.and (hi.and self_mem_nhdsWithin)).exists
  have ht : (0 : ℝ) < t := ht3
  set g := Real.exp (-t * (m + δ)) * mgf (fun ω => f (X 0 ω)) μ t with hg
  have hint : Integrable (fun ω => Real.exp (t * f (X 0 ω))) μ := ht2
  have hg0 : 0 < g := mul_pos (Real.exp_pos _) (mgf_pos hint)
  have hg1 : g < 1 := by
    rw [slope_def_field] at ht1
    have := (div_neg_iff.1 ht1).resolve_left (fun hh => by linarith [hh.2])
    simp at this
    have h2 := this.1
    rw [hg]
    simpa using h2
  refine ⟨-Real.log g, by linarith [Real.log_neg hg0 hg1], fun J hJ => ?_⟩
  have hmeas : ∀ a, Measurable fun ω => f (X a ω) := fun a => hf.comp (h.meas a)
  have hind : iIndepFun (fun a ω => f (X a ω)) μ := h.indep.comp (fun _ => f) fun _ => hf
  have hmgf : ∀ a, mgf (fun ω => f (X a ω)) μ = mgf (fun ω => f (X 0 ω)) μ := fun a => mgf_congr_identDistrib ((h.ident a).comp hf)
  have hint' : ∀ a ∈ J.toFinset, Integrable (fun ω => Real.exp (t * f (X a ω))) μ := fun a _ =>
    (((h.ident a).comp (hf.const_mul t).exp).integrable_iff).2 hint
  have hch := measure_ge_le_exp_mul_mgf (μ := μ) (X := ∑ a ∈ J.toFinset, fun ω => f (X a ω)) (J.length * (m + δ)) ht.le
    (hind.integrable_exp_mul_sum hmeas hint')
  have hset : {ω | J.length * (m + δ) ≤ ((rowsOf X J ω).map f).sum} = {ω | J.length * (m + δ) ≤ (∑ a ∈ J.toFinset, fun ω => f (X a ω)) ω} := by
    ext ω
    simp only [Set.mem_ofPred_eq, rows_sum X hJ, Finset.sum_apply]
  rw [hset]
  refine hch.trans (le_of_eq ?_)
  rw [hind.mgf_sum hmeas, Finset.prod_congr rfl fun a _ => by rw [hmgf a], Finset.prod_const, List.toFinset_card_of_nodup hJ, neg_neg,
    mul_comm (Real.log g), Real.exp_nat_mul, Real.exp_log hg0, hg, mul_pow, ← Real.exp_nat_mul]
  congr 2
  ring

/-- Both tails. -/
theorem average_tail [IsProbabilityMeasure μ] (h : Iid μ X S) {f : (Fin p → ℝ) → ℝ} (hf : Measurable f)
    (h0 : (0 : ℝ) ∈ interior (integrableExpSet (fun ω => f (X 0 ω)) μ)) {δ : ℝ} (hδ : 0 < δ) :
    ∃ c : ℝ, 0 < c ∧ ∀ J : List ℕ, J.Nodup → J ≠ [] →
      μ.real {ω | ¬ |((rowsOf X J ω).map f).sum / J.length - ∫ ω, f (X 0 ω) ∂μ| < δ} ≤ 2 * Real.exp (-c * J.length) := by
  have hneg : (0 : ℝ) ∈ interior (integrableExpSet (fun ω => (fun x => -f x) (X 0 ω)) μ) := by
    rw [mem_interior_iff_mem_nhds, ← neg_zero] at h0
    rw [mem_interior_iff_mem_nhds]
    have := (continuous_neg (G := ℝ)).continuousAt.preimage_mem_nhds (x := (0 : ℝ)) h0
    filter_upwards [this] with t ht
    have ht' : Integrable (fun ω => Real.exp (-t * f (X 0 ω))) μ := ht
    show Integrable (fun ω => Real.exp (t * -f (X 0 ω))) μ
    simpa only [neg_mul, mul_neg] using ht'
  obtain ⟨c1, hc1, u1⟩ := upper_tail h hf h0 hδ
  obtain ⟨c2, hc2, u2⟩ := upper_tail h hf.neg hneg hδ
  refine ⟨min c1 c2, lt_min hc1 hc2, fun J hJ hne => ?_⟩
  have hlen : (0 : ℝ) < J.length := by exact_mod_cast List.length_pos_of_ne_nil hne
  have hsub : {ω | ¬ |((rowsOf X J ω).map f).sum / J.length - ∫ ω, f (X 0 ω) ∂μ| < δ} ⊆
      {ω | J.length * ((∫ ω, f (X 0 ω) ∂μ) + δ) ≤ ((rowsOf X J ω).map f).sum} ∪
      {ω | J.length * ((∫ ω, (fun x => -f x) (X 0 ω) ∂μ) + δ) ≤ ((rowsOf X J ω).map fun x => -f x).sum} := by
    intro ω hω
    simp only [Set.mem_ofPred_eq, Set.mem_union, not_lt, le_abs] at hω ⊢
    have hn : ((rowsOf X J ω).map fun x => -f x).sum = -((rowsOf X J ω).map f).sum := by
      rw [rows_sum X hJ, rows_sum X hJ, Finset.sum_neg_distrib]
    rw [hn, integral_neg]
    have hq : ((rowsOf X J ω).map f).sum = J.length * (((rowsOf X J ω).map f).sum / J.length) := by field_simp
    rcases hω with h | h
    · left
      rw [hq]
      exact mul_le_mul_of_nonneg_left (by linarith) hlen.le
    · right
      rw [hq, ← mul_neg]
      exact mul_le_mul_of_nonneg_left (by linarith) hlen.le
  have he : ∀ c, min c1 c2 ≤ c → Real.exp (-c * J.length) ≤ Real.exp (-min c1 c2 * J.length) := fun c hc =>
    Real.exp_le_exp.2 (mul_le_mul_of_nonneg_right (neg_le_neg hc) hlen.le)
  calc _ ≤ _ := measureReal_mono hsub (measure_ne_top _ _)
    _ ≤ _ := measureReal_union_le _ _
    _ ≤ Real.exp (-c1 * J.length) + Real.exp (-c2 * J.length) := add_le_add (u1 J hJ) (u2 J hJ)
    _ ≤ _ := by linarith [he c1 (min_le_left _ _), he c2 (min_le_right _ _)]

/-- Functions of at most quadratic growth have exponential moments. -/
theorem exp_moment [IsProbabilityMeasure μ] {Y : Ω → Fin p → ℝ} (hY : Measurable Y) (hexp : ExpSquares μ Y) {f : (Fin p → ℝ) → ℝ} (hf : Measurable f) {i j : Fin p}
    (hle : ∀ x, |f x| ≤ (x i ^ 2 + x j ^ 2) / 2 + 1) : (0 : ℝ) ∈ interior (integrableExpSet (fun ω => f (Y ω)) μ) := by
  obtain ⟨t, ht, hint⟩ := hexp
  have hb : Integrable (fun ω => Real.exp t * (Real.exp (t * Y ω i ^ 2) + Real.exp (t * Y ω j ^ 2))) μ := ((hint i).add (hint j)).const_mul _
  have hmem : ∀ s, |s| ≤ t → s ∈ integrableExpSet (fun ω => f (Y ω)) μ := by
    intro s hs
    refine hb.mono' ((((hf.comp hY).const_mul s).exp).aestronglyMeasurable) (Eventually.of_forall fun ω => ?_)
    rw [Real.norm_eq_abs, abs_of_pos (Real.exp_pos _)]
    have h1 : s * f (Y ω) ≤ t * ((Y ω i ^ 2 + Y ω j ^ 2) / 2 + 1) :=
      (le_abs_self _).trans ((abs_mul _ _).le.trans (mul_le_mul hs (hle _) (abs_nonneg _) ht.le))
    have h2 : t * ((Y ω i ^ 2 + Y ω j ^ 2) / 2 + 1) ≤ t + max (t * Y ω i ^ 2) (t * Y ω j ^ 2) := by
      have := le_max_left (t * Y ω i ^ 2) (t * Y ω j ^ 2)
      have := le_max_right (t * Y ω i ^ 2) (t * Y ω j ^ 2)
      nlinarith
    refine (Real.exp_le_exp.2 (h1.trans h2)).trans ?_
    rw [Real.exp_add]
    refine mul_le_mul_of_nonneg_left ?_ (Real.exp_pos _).le
    rcases max_cases (t * Y ω i ^ 2) (t * Y ω j ^ 2) with ⟨e, -⟩ | ⟨e, -⟩ <;> rw [e]
    · linarith [Real.exp_pos (t * Y ω j ^ 2)]
    · linarith [Real.exp_pos (t * Y ω i ^ 2)]
  rw [mem_interior_iff_mem_nhds]
  filter_upwards [Metric.ball_mem_nhds (0 : ℝ) ht] with s hs
  refine hmem s ?_
  rw [Metric.mem_ball, Real.dist_eq, sub_zero] at hs
  exact hs.le

/-- The sample covariance is close to the truth when the averages are and there are enough observations. -/
theorem npCov_close (u v w : ℝ) {δ : ℝ} (hδ : 0 < δ) : ∃ η : ℝ, 0 < η ∧ ∃ m0 : ℕ, ∀ (s : Sample p) (i j : Fin p), m0 + 1 ≤ s.length →
    |(s.map fun x => x i * x j).sum / s.length - u| < η → |(s.map fun x => x i).sum / s.length - v| < η → |(s.map fun x => x j).sum / s.length - w| < η →
    |npCov s i j - (u - v * w)| < δ := by
  have hcont : ContinuousAt (fun z : ℝ × ℝ × ℝ × ℝ => z.1 * (z.2.1 - z.2.2.1 * z.2.2.2)) (1, u, v, w) := by fun_prop
  obtain ⟨η, hη, hcl⟩ := Metric.continuousAt_iff.1 hcont δ hδ
  obtain ⟨m0, hm0⟩ := Metric.tendsto_atTop.1 tendsto_ratio η hη
  refine ⟨η, hη, m0, fun s i j hs h1 h2 h3 => ?_⟩
  rw [npCov_eq _ (by rintro rfl; simp at hs)]
  have := hcl (x := ((s.length : ℝ) / (s.length - 1), (s.map fun x => x i * x j).sum / s.length,
    (s.map fun x => x i).sum / s.length, (s.map fun x => x j).sum / s.length)) (by
      simp only [Prod.dist_eq, max_lt_iff, Real.dist_eq]
      refine ⟨?_, h1, h2, h3⟩
      have := hm0 s.length (by omega)
      rwa [Real.dist_eq] at this)
  rwa [Real.dist_eq, one_mul] at this

theorem three_tails [IsProbabilityMeasure μ] {P Q R : Set Ω} {c c1 c2 c3 L : ℝ} (hL : 0 ≤ L) (h1 : μ.real P ≤ 2 * Real.exp (-c1 * L)) (h2 : μ.real Q ≤ 2 * Real.exp (-c2 * L))
    (h3 : μ.real R ≤ 2 * Real.exp (-c3 * L)) (hc1 : c ≤ c1) (hc2 : c ≤ c2) (hc3 : c ≤ c3) {W : Set Ω} (hW : W ⊆ P ∪ Q ∪ R) : μ.real W ≤ 6 * Real.exp (-c * L) := by
  have he : ∀ c', c ≤ c' → Real.exp (-c' * L) ≤ Real.exp (-c * L) := fun c' hc' =>
    Real.exp_le_exp.2 (mul_le_mul_of_nonneg_right (neg_le_neg hc') hL)
  have h4 := (measureReal_mono hW (measure_ne_top μ _)).trans ((measureReal_union_le _ _).trans (add_le_add (measureReal_union_le _ _) le_rfl))
  linarith [he c1 hc1, he c2 hc2, he c3 hc3]

/-- One entry of the sample covariance. -/
theorem entry_tail [IsProbabilityMeasure μ] (h : Iid μ X S) (hexp : ExpSquares μ (X 0)) (i j : Fin p) {δ : ℝ} (hδ : 0 < δ) :
    ∃ K : ℝ, 0 < K ∧ ∃ c : ℝ, 0 < c ∧ ∀ J : List ℕ, J.Nodup → μ.real {ω | ¬ |npCov (rowsOf X J ω) i j - S i j| < δ} ≤ K * Real.exp (-c * J.length) := by
  have m1 : ∀ i, Measurable fun x : Fin p → ℝ => x i := fun i => measurable_pi_apply i
  have m2 : Measurable fun x : Fin p → ℝ => x i * x j := (m1 i).mul (m1 j)
  have hS : S i j = (∫ ω, X 0 ω i * X 0 ω j ∂μ) - (∫ ω, X 0 ω i ∂μ) * ∫ ω, X 0 ω j ∂μ := by
    rw [← h.cov i j, covariance_eq_sub (h.mem i) (h.mem j)]
    rfl
  obtain ⟨η, hη, m0, hcl⟩ := npCov_close (p := p) (∫ ω, X 0 ω i * X 0 ω j ∂μ) (∫ ω, X 0 ω i ∂μ) (∫ ω, X 0 ω j ∂μ) hδ
  have q2 : ∀ x : Fin p → ℝ, |x i * x j| ≤ (x i ^ 2 + x j ^ 2) / 2 + 1 := fun x => by
    rw [abs_mul]
    nlinarith [sq_nonneg (|x i| - |x j|), sq_abs (x i), sq_abs (x j)]
  have q1 : ∀ (i : Fin p) (x : Fin p → ℝ), |x i| ≤ (x i ^ 2 + x i ^ 2) / 2 + 1 := fun i x => by nlinarith [sq_nonneg (|x i| - 1), sq_abs (x i)]
  have l2 := exp_moment (f := fun x => x i * x j) (h.meas 0) hexp m2 q2
  have l1 : ∀ i, (0 : ℝ) ∈ interior (integrableExpSet (fun ω => X 0 ω i) μ) := fun i => exp_moment (f := fun x => x i) (h.meas 0) hexp (m1 i) (q1 i)
  obtain ⟨c1, h1, t1⟩ := average_tail (f := fun x => x i * x j) h m2 l2 hη
  obtain ⟨c2, h2, t2⟩ := average_tail (f := fun x => x i) h (m1 i) (l1 i) hη
  obtain ⟨c3, h3, t3⟩ := average_tail (f := fun x => x j) h (m1 j) (l1 j) hη
  refine ⟨max 6 (Real.exp (min (min c1 c2) c3 * (m0 + 1))), lt_max_of_lt_left (by norm_num), min (min c1 c2) c3, lt_min (lt_min h1 h2) h3, fun J hJ => ?_⟩
  have hcpos : 0 < min (min c1 c2) c3 := lt_min (lt_min h1 h2) h3
  by_cases hlen : m0 + 1 ≤ J.length
  · have hne : J ≠ [] := by rintro rfl; simp at hlen
    refine (three_tails (Nat.cast_nonneg _) (t1 J hJ hne) (t2 J hJ hne) (t3 J hJ hne) ((min_le_left _ _).trans (min_le_left _ _))
      ((min_le_left _ _).trans (min_le_right _ _)) (min_le_right _ _) ?_).trans (mul_le_mul_of_nonneg_right (le_max_left _ _) (Real.exp_pos _).le)
    intro ω hω
    by_contra hcon
    simp only [Set.mem_union, Set.mem_ofPred_eq, not_or, not_not] at hcon hω
    have hrl : (rowsOf X J ω).length = J.length := by simp [rowsOf]
    apply hω
    rw [hS]
    refine hcl (rowsOf X J ω) i j (by rw [hrl]; exact hlen) ?_ ?_ ?_ <;> rw [hrl]
    · exact hcon.1.1
    · exact hcon.1.2
    · exact hcon.2
  · refine (measureReal_le_one).trans ?_
    refine le_trans ?_ (mul_le_mul_of_nonneg_right (le_max_right _ _) (Real.exp_pos _).le)
    rw [← Real.exp_add]
    refine Real.one_le_exp ?_
    have : (J.length : ℝ) ≤ m0 + 1 := by exact_mod_cast (not_le.1 hlen).le
    nlinarith

/-- C132: the probability that the sample covariance of any rows, chosen beforehand and without repetition, is not within `δ` of the covariance matrix
decreases exponentially with the number of rows. -/
theorem C132_covariance [IsProbabilityMeasure μ] (h : Iid μ X S) (hexp : ExpSquares μ (X 0)) {δ : ℝ} (hδ : 0 < δ) :
    ∃ K : ℝ, 0 < K ∧ ∃ c : ℝ, 0 < c ∧ ∀ J : List ℕ, J.Nodup → μ.real {ω | ¬ ∀ i j, |npCov (rowsOf X J ω) i j - S i j| < δ} ≤ K * Real.exp (-c * J.length) := by
  choose K hK c hc ht using fun z : Fin p × Fin p => entry_tail h hexp z.1 z.2 hδ
  obtain ⟨c0, hc0, hle⟩ : ∃ c0 > 0, ∀ z, c0 ≤ c z := by
    rcases isEmpty_or_nonempty (Fin p × Fin p) with he | he
    · exact ⟨1, one_pos, fun z => he.elim z⟩
    · obtain ⟨z, hz⟩ := Finite.exists_min c
      exact ⟨c z, hc z, hz⟩
  refine ⟨∑ z, K z + 1, add_pos_of_nonneg_of_pos (Finset.sum_nonneg fun z _ => (hK z).le) one_pos, c0, hc0, fun J hJ => ?_⟩
  have hsub : {ω | ¬ ∀ i j, |npCov (rowsOf X J ω) i j - S i j| < δ} ⊆ ⋃ z : Fin p × Fin p, {ω | ¬ |npCov (rowsOf X J ω) z.1 z.2 - S z.1 z.2| < δ} := by
    intro ω hω
    by_contra hcon
    simp only [Set.mem_iUnion, Set.mem_ofPred_eq, not_exists, not_not] at hcon
    exact hω fun i j => hcon (i, j)
  refine (measureReal_mono hsub (measure_ne_top _ _)).trans ((measureReal_iUnion_fintype_le _).trans ?_)
  have hz : ∀ z ∈ Finset.univ, μ.real {ω | ¬ |npCov (rowsOf X J ω) z.1 z.2 - S z.1 z.2| < δ} ≤ K z * Real.exp (-c0 * J.length) := fun z _ => (ht z J hJ).trans
    (mul_le_mul_of_nonneg_left (Real.exp_le_exp.2 (mul_le_mul_of_nonneg_right (neg_le_neg (hle z)) (Nat.cast_nonneg _))) (hK z).le)
  refine (Finset.sum_le_sum hz).trans ?_
  rw [← Finset.sum_mul]
  exact mul_le_mul_of_nonneg_right (by linarith) (Real.exp_pos _).le

end Verif
