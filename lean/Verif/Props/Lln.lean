import Mathlib.Probability.StrongLaw
import Mathlib.MeasureTheory.Function.ConvergenceInMeasure
import Mathlib.Analysis.Matrix.Order
import Verif.Props.Prob
import Verif.Props.Robust

/-!
# C120: the sample covariances of the folds converge in probability
-/

namespace Verif

open Spec Matrix MeasureTheory ProbabilityTheory Filter Topology

variable {p : Nat}

/-- Independent observations of the same distribution, with covariance matrix `S`. -/
structure Spec.Iid {Ω : Type} [MeasurableSpace Ω] (μ : Measure Ω) (X : ℕ → Ω → Fin p → ℝ) (S : Matrix (Fin p) (Fin p) ℝ) : Prop where
  meas : ∀ a, Measurable (X a)
  indep : iIndepFun X μ
  ident : ∀ a, IdentDistrib (X a) (X 0) μ μ
  mem : ∀ i, MemLp (fun ω => X 0 ω i) 2 μ
  cov : ∀ i j, cov[fun ω => X 0 ω i, fun ω => X 0 ω j; μ] = S i j

/-- The observations with the given numbers. -/
def Spec.rowsOf {Ω : Type} (X : ℕ → Ω → Fin p → ℝ) (J : List ℕ) (ω : Ω) : Sample p := J.map fun a => X a ω

theorem sum_centred (s : Sample p) (i j : Fin p) (a b : ℝ) :
    (s.map fun x => (x i - a) * (x j - b)).sum = (s.map fun x => x i * x j).sum - a * (s.map fun x => x j).sum - b * (s.map fun x => x i).sum +
      s.length * a * b := by
  induction s with
  | nil => simp
  | cons x s ih =>
    simp only [List.map_cons, List.sum_cons, List.length_cons, ih]
    push_cast
    ring

theorem npCov_eq (s : Sample p) (hs : s ≠ []) (i j : Fin p) :
    npCov s i j = (s.length : ℝ) / (s.length - 1) * ((s.map fun x => x i * x j).sum / s.length - (s.map fun x => x i).sum / s.length *
      ((s.map fun x => x j).sum / s.length)) := by
  have h0 : (s.length : ℝ) ≠ 0 := by exact_mod_cast (List.length_pos_of_ne_nil hs).ne'
  unfold npCov colMean
  rw [sum_centred]
  field_simp
  ring

theorem map_range_sum {Ω : Type} (X : ℕ → Ω → Fin p → ℝ) (m : ℕ) (ω : Ω) (f : (Fin p → ℝ) → ℝ) :
    ((rowsOf X (List.range m) ω).map f).sum = ∑ a ∈ Finset.range m, f (X a ω) := by
  unfold rowsOf
  rw [List.map_map]
  induction m with
  | zero => simp
  | succ m ih => rw [List.range_succ, List.map_append, List.sum_append, ih, Finset.sum_range_succ]; simp

variable {Ω : Type} [MeasurableSpace Ω] {μ : Measure Ω} [IsProbabilityMeasure μ] {X : ℕ → Ω → Fin p → ℝ} {S : Matrix (Fin p) (Fin p) ℝ}

omit [IsProbabilityMeasure μ] in
/-- The averages of a function of the observations converge almost surely. -/
theorem average_ae (h : Iid μ X S) {f : (Fin p → ℝ) → ℝ} (hf : Measurable f) (hint : Integrable (fun ω => f (X 0 ω)) μ) :
    ∀ᵐ ω ∂μ, Tendsto (fun m : ℕ => (∑ a ∈ Finset.range m, f (X a ω)) / m) atTop (𝓝 (∫ ω, f (X 0 ω) ∂μ)) := by
  refine strong_law_ae_real (fun a ω => f (X a ω)) hint ?_ ?_
  · intro a b hab
    exact (h.indep.indepFun hab).comp hf hf
  · intro a
    exact (h.ident a).comp hf

/-- C120: the sample covariance of the first observations converges almost surely to the covariance matrix. -/
theorem C120_strong_law (h : Iid μ X S) :
    ∀ᵐ ω ∂μ, ∀ i j, Tendsto (fun m : ℕ => npCov (rowsOf X (List.range m) ω) i j) atTop (𝓝 (S i j)) := by
  rw [ae_all_iff]; intro i
  rw [ae_all_iff]; intro j
  have m1 : ∀ i, Measurable fun x : Fin p → ℝ => x i := fun i => measurable_pi_apply i
  have a1 := average_ae h ((m1 i).mul (m1 j)) ((h.mem i).integrable_mul (h.mem j))
  have a2 := average_ae h (m1 i) ((h.mem i).integrable one_le_two)
  have a3 := average_ae h (m1 j) ((h.mem j).integrable one_le_two)
  filter_upwards [a1, a2, a3] with ω b1 b2 b3
  have hc : S i j = 1 * ((∫ ω, ((fun x : Fin p → ℝ => x i) * fun x : Fin p → ℝ => x j) (X 0 ω) ∂μ) - (∫ ω, X 0 ω i ∂μ) * ∫ ω, X 0 ω j ∂μ) := by
    rw [← h.cov i j, covariance_eq_sub (h.mem i) (h.mem j), one_mul]
    rfl
  rw [hc]
  have hlim : Tendsto (fun m : ℕ => (m : ℝ) / (m - 1)) atTop (𝓝 1) := by
    have h1 : Tendsto (fun m : ℕ => 1 + ((m : ℝ) - 1)⁻¹) atTop (𝓝 (1 + 0)) :=
      tendsto_const_nhds.add (tendsto_inv_atTop_zero.comp (tendsto_atTop_add_const_right _ _ tendsto_natCast_atTop_atTop))
    rw [add_zero] at h1
    refine h1.congr' ?_
    filter_upwards [eventually_ge_atTop 2] with m hm
    have : (m : ℝ) - 1 ≠ 0 := by
      have : (2 : ℝ) ≤ m := by exact_mod_cast hm
      linarith
    field_simp
    ring
  refine (hlim.mul (b1.sub (b2.mul b3))).congr' ?_
  filter_upwards [eventually_ge_atTop 1] with m hm
  have hne : rowsOf X (List.range m) ω ≠ [] := by
    unfold rowsOf
    simp
    omega
  have hlen : (rowsOf X (List.range m) ω).length = m := by simp [rowsOf]
  rw [npCov_eq _ hne, map_range_sum, map_range_sum, map_range_sum, hlen]
  rfl

/-- The sample covariance as a function of an array of observations is measurable. -/
theorem npCov_measurable (m : ℕ) (i j : Fin p) : Measurable fun x : Fin m → Fin p → ℝ => npCov (List.ofFn x) i j := by
  have hsum : ∀ f : (Fin p → ℝ) → ℝ, Measurable f → Measurable fun x : Fin m → Fin p → ℝ => ((List.ofFn x).map f).sum := by
    intro f hf
    have : (fun x : Fin m → Fin p → ℝ => ((List.ofFn x).map f).sum) = fun x => ∑ a, f (x a) := by
      funext x
      rw [List.map_ofFn, List.sum_ofFn]
      rfl
    rw [this]
    exact Finset.measurable_sum _ fun a _ => hf.comp (measurable_pi_apply a)
  rcases Nat.eq_zero_or_pos m with rfl | hm
  · have : (fun x : Fin 0 → Fin p → ℝ => npCov (List.ofFn x) i j) = fun _ => npCov [] i j := by
      funext x
      rw [List.ofFn_zero]
    rw [this]
    exact measurable_const
  · have : (fun x : Fin m → Fin p → ℝ => npCov (List.ofFn x) i j) = fun x => (m : ℝ) / (m - 1) * (((List.ofFn x).map fun x => x i * x j).sum / m -
        ((List.ofFn x).map fun x => x i).sum / m * (((List.ofFn x).map fun x => x j).sum / m)) := by
      funext x
      rw [npCov_eq _ (by simp; omega), List.length_ofFn]
    rw [this]
    have m1 : ∀ i, Measurable fun x : Fin p → ℝ => x i := fun i => measurable_pi_apply i
    exact (((hsum _ ((m1 i).mul (m1 j))).div_const _).sub (((hsum _ (m1 i)).div_const _).mul ((hsum _ (m1 j)).div_const _))).const_mul _

omit [MeasurableSpace Ω] in
theorem rows_range (X : ℕ → Ω → Fin p → ℝ) (m : ℕ) (ω : Ω) : rowsOf X (List.range m) ω = List.ofFn fun a : Fin m => X a ω := by
  unfold rowsOf
  apply List.ext_getElem
  · simp
  · intro n h1 h2
    simp

omit [MeasurableSpace Ω] in
theorem rows_eq_ofFn (X : ℕ → Ω → Fin p → ℝ) (J : List ℕ) (ω : Ω) : rowsOf X J ω = List.ofFn fun a : Fin J.length => X (J.get a) ω := by
  unfold rowsOf
  conv_lhs => rw [← List.ofFn_get J]
  rw [List.map_ofFn]
  rfl

/-- Rows chosen beforehand, without repetition, have the distribution of the first rows. -/
theorem rows_law (h : Iid μ X S) {J : List ℕ} (hJ : J.Nodup) {T : Set (Fin J.length → Fin p → ℝ)} (hT : MeasurableSet T) :
    μ {ω | (fun a => X (J.get a) ω) ∈ T} = μ {ω | (fun a : Fin J.length => X a ω) ∈ T} := by
  have hm : ∀ g : Fin J.length → ℕ, Measurable fun ω => fun a => X (g a) ω := fun g => measurable_pi_lambda _ fun a => h.meas _
  have hlaw : ∀ g : Fin J.length → ℕ, Function.Injective g → μ.map (fun ω a => X (g a) ω) = Measure.pi fun _ : Fin J.length => μ.map (X 0) := by
    intro g hg
    rw [(iIndepFun_iff_map_fun_eq_pi_map (fun a => (h.meas (g a)).aemeasurable)).1 (h.indep.precomp hg)]
    congr 1
    funext a
    exact (h.ident (g a)).map_eq
  have h1 := hlaw J.get (List.nodup_iff_injective_get.1 hJ)
  have h2 := hlaw (fun a => a.val) Fin.val_injective
  rw [← h2] at h1
  have := congrArg (fun ν => ν T) h1
  simp only [Measure.map_apply (hm _) hT] at this
  exact this

/-- C120: for any rows that are chosen beforehand, more and more of them and without repetition, the sample covariance converges in probability to the
covariance matrix. -/
theorem C120_in_probability (h : Iid μ X S) (J : ℕ → List ℕ) (hJ : ∀ n, (J n).Nodup) (hlen : Tendsto (fun n => (J n).length) atTop atTop) {δ : ℝ} (hδ : 0 < δ) :
    Tendsto (fun n => μ {ω | ¬ ∀ i j, |npCov (rowsOf X (J n) ω) i j - S i j| < δ}) atTop (𝓝 0) := by
  -- the first rows
  have hmeas : ∀ m, Measurable fun ω => fun i j => npCov (rowsOf X (List.range m) ω) i j := by
    intro m
    refine measurable_pi_lambda _ fun i => measurable_pi_lambda _ fun j => ?_
    have : (fun ω => npCov (rowsOf X (List.range m) ω) i j) = (fun x : Fin m → Fin p → ℝ => npCov (List.ofFn x) i j) ∘ fun ω a => X a ω := by
      funext ω
      simp only [Function.comp_apply, rows_range]
    rw [this]
    exact (npCov_measurable m i j).comp (measurable_pi_lambda _ fun a => h.meas _)
  have hae : ∀ᵐ ω ∂μ, Tendsto (fun m : ℕ => fun i j => npCov (rowsOf X (List.range m) ω) i j) atTop (𝓝 (fun i j => S i j)) := by
    filter_upwards [C120_strong_law h] with ω hω
    exact tendsto_pi_nhds.2 fun i => tendsto_pi_nhds.2 fun j => hω i j
  have him := tendstoInMeasure_of_tendsto_ae (fun m => (hmeas m).aestronglyMeasurable) hae
  have h0 := him (ENNReal.ofReal δ) (by simpa using hδ)
  have hfirst : Tendsto (fun m => μ {ω | ¬ ∀ i j, |npCov (rowsOf X (List.range m) ω) i j - S i j| < δ}) atTop (𝓝 0) := by
    refine tendsto_of_tendsto_of_tendsto_of_le_of_le tendsto_const_nhds h0 (fun _ => zero_le) (fun m => measure_mono ?_)
    intro ω hω
    simp only [Set.mem_ofPred_eq] at hω ⊢
    by_contra hc
    apply hω
    rw [not_le, edist_lt_ofReal] at hc
    intro i j
    have := (dist_pi_lt_iff hδ).1 ((dist_pi_lt_iff hδ).1 hc i) j
    rwa [Real.dist_eq] at this
  refine (hfirst.comp hlen).congr fun n => ?_
  -- the law of the rows
  have hT : MeasurableSet {x : Fin (J n).length → Fin p → ℝ | ¬ ∀ i j, |npCov (List.ofFn x) i j - S i j| < δ} := by
    refine MeasurableSet.compl (s := {x : Fin (J n).length → Fin p → ℝ | ∀ i j, |npCov (List.ofFn x) i j - S i j| < δ}) ?_
    have : {x : Fin (J n).length → Fin p → ℝ | ∀ i j, |npCov (List.ofFn x) i j - S i j| < δ} = ⋂ i, ⋂ j, {x | |npCov (List.ofFn x) i j - S i j| < δ} := by
      ext x
      simp
    rw [this]
    refine MeasurableSet.iInter fun i => MeasurableSet.iInter fun j => ?_
    exact measurableSet_lt (((npCov_measurable _ i j).sub_const _).abs) measurable_const
  have := rows_law h (hJ n) hT
  simp only [Function.comp_apply]
  simp only [Set.mem_ofPred_eq] at this
  rw [show {ω | ¬ ∀ i j, |npCov (rowsOf X (J n) ω) i j - S i j| < δ} =
    {ω | ¬ ∀ i j, |npCov (List.ofFn fun a => X ((J n).get a) ω) i j - S i j| < δ} by simp only [rows_eq_ofFn], this]
  congr 1
  ext ω
  simp only [Set.mem_ofPred_eq]
  rw [rows_range]

end Verif
