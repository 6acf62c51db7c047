import Verif.Props.Cov
import Verif.Props.Gradients
import Mathlib.Probability.Moments.Covariance
import Mathlib.Probability.Distributions.Gaussian.Real
import Mathlib.Probability.Independence.Basic

/-!
# C100: random variables

What the covariances of a model are covariances of, and what sample covariances and scores estimate.
-/

namespace Verif

open Spec Matrix MeasureTheory ProbabilityTheory

variable {p l e : Nat}

/-- The random variables `X` follow the linear model with weights `B`, latent effects `gamma` and uncorrelated latents `H` and noise `N` of
variances `psi` and `omega`. -/
structure Spec.Follows {Ω : Type} [MeasurableSpace Ω] (μ : Measure Ω) (B : Matrix (Fin p) (Fin p) ℝ) (gamma : Matrix (Fin l) (Fin p) ℝ)
    (psi : Fin l → ℝ) (omega : Fin p → ℝ) (X : Fin p → Ω → ℝ) (H : Fin l → Ω → ℝ) (N : Fin p → Ω → ℝ) : Prop where
  memX : ∀ j, MemLp (X j) 2 μ
  memH : ∀ k, MemLp (H k) 2 μ
  memN : ∀ j, MemLp (N j) 2 μ
  eqn : ∀ j, ∀ᵐ ω ∂μ, X j ω = (∑ i, B i j * X i ω) + (∑ k, gamma k j * H k ω) + N j ω
  covH : ∀ k k', cov[H k, H k'; μ] = if k = k' then psi k else 0
  covN : ∀ i j, cov[N i, N j; μ] = if i = j then omega i else 0
  covHN : ∀ k j, cov[H k, N j; μ] = 0

theorem cov_congr {Ω : Type} [MeasurableSpace Ω] {μ : Measure Ω} {X X' Y Y' : Ω → ℝ} (h1 : X =ᵐ[μ] X') (h2 : Y =ᵐ[μ] Y') :
    cov[X, Y; μ] = cov[X', Y'; μ] := by
  unfold covariance
  rw [integral_congr_ae h1, integral_congr_ae h2]
  refine integral_congr_ae ?_
  filter_upwards [h1, h2] with ω e1 e2
  rw [e1, e2]

/-- Covariance of linear combinations. -/
theorem cov_sum_sum {Ω ι κ : Type} [Fintype ι] [Fintype κ] [MeasurableSpace Ω] {μ : Measure Ω} [IsProbabilityMeasure μ] {X : ι → Ω → ℝ} {Y : κ → Ω → ℝ}
    (hX : ∀ i, MemLp (X i) 2 μ) (hY : ∀ j, MemLp (Y j) 2 μ) (a : ι → ℝ) (b : κ → ℝ) :
    cov[fun ω => ∑ i, a i * X i ω, fun ω => ∑ j, b j * Y j ω; μ] = ∑ i, ∑ j, a i * b j * cov[X i, Y j; μ] := by
  rw [covariance_fun_sum_fun_sum (X := fun i ω => a i * X i ω) (Y := fun j ω => b j * Y j ω) (fun i => (hX i).const_mul _) (fun j => (hY j).const_mul _)]
  refine Finset.sum_congr rfl fun i _ => Finset.sum_congr rfl fun j _ => ?_
  rw [covariance_const_mul_left, covariance_const_mul_right]
  ring

theorem memLp_comb {Ω ι : Type} [Fintype ι] [MeasurableSpace Ω] {μ : Measure Ω} {X : ι → Ω → ℝ} (hX : ∀ i, MemLp (X i) 2 μ) (a : ι → ℝ) :
    MemLp (fun ω => ∑ i, a i * X i ω) 2 μ := memLp_finsetSum _ fun i _ => (hX i).const_mul _

/-- The covariance of the latents' effects plus noise is `noiseCov`. -/
theorem follows_cov_noise {Ω : Type} [MeasurableSpace Ω] {μ : Measure Ω} [IsProbabilityMeasure μ] {B : Matrix (Fin p) (Fin p) ℝ}
    {gamma : Matrix (Fin l) (Fin p) ℝ} {psi : Fin l → ℝ} {omega : Fin p → ℝ} {X : Fin p → Ω → ℝ} {H : Fin l → Ω → ℝ} {N : Fin p → Ω → ℝ}
    (h : Follows μ B gamma psi omega X H N) (i j : Fin p) :
    cov[fun ω => (∑ k, gamma k i * H k ω) + N i ω, fun ω => (∑ k, gamma k j * H k ω) + N j ω; μ] = noiseCov gamma psi omega i j := by
  have m1 := fun i => memLp_comb h.memH (fun k => gamma k i)
  have e : ∀ i, (fun ω => (∑ k, gamma k i * H k ω) + N i ω) = (fun ω => ∑ k, gamma k i * H k ω) + N i := fun i => rfl
  rw [e, e, covariance_add_left (m1 i) (h.memN i) ((m1 j).add (h.memN j)), covariance_add_right (m1 i) (m1 j) (h.memN j),
    covariance_add_right (h.memN i) (m1 j) (h.memN j), cov_sum_sum h.memH h.memH, h.covN]
  have z1 : cov[fun ω => ∑ k, gamma k i * H k ω, N j; μ] = 0 := by
    rw [covariance_fun_sum_left (X := fun k ω => gamma k i * H k ω) (fun k => (h.memH k).const_mul _) (h.memN j)]
    refine Finset.sum_eq_zero fun k _ => ?_
    rw [covariance_const_mul_left, h.covHN, mul_zero]
  have z2 : cov[N i, fun ω => ∑ k, gamma k j * H k ω; μ] = 0 := by
    rw [covariance_comm, covariance_fun_sum_left (X := fun k ω => gamma k j * H k ω) (fun k => (h.memH k).const_mul _) (h.memN i)]
    refine Finset.sum_eq_zero fun k _ => ?_
    rw [covariance_const_mul_left, h.covHN, mul_zero]
  rw [z1, z2]
  unfold noiseCov
  simp only [h.covH, mul_ite, mul_zero, Finset.sum_ite_eq, Finset.mem_univ, if_true, add_zero, zero_add]
  congr 1
  refine Finset.sum_congr rfl fun k _ => ?_
  ring

/-- C100: the covariances of a model are those of any random variables that follow it: `covariances()[k]` is the covariance matrix of the
observed variables in environment `k`. -/
theorem C100_covariances {Ω : Type} [MeasurableSpace Ω] (μ : Measure Ω) [IsProbabilityMeasure μ] (it : SetIter p) (A : Adj p) (hA : Nonneg A)
    (B : Matrix (Fin p) (Fin p) ℝ) (gamma : Matrix (Fin l) (Fin p) ℝ) (omegas : Matrix (Fin e) (Fin p) ℝ) (psis : Matrix (Fin e) (Fin l) ℝ)
    (m : LModel p l e) (hm : mkModel it A B gamma omegas psis = .ok m) (C : Fin e → Matrix (Fin p) (Fin p) ℝ) (hC : m.covariances = .ok C)
    (k : Fin e) (X : Fin p → Ω → ℝ) (H : Fin l → Ω → ℝ) (N : Fin p → Ω → ℝ) (h : Follows μ B gamma (psis k) (omegas k) X H N) (i j : Fin p) :
    cov[X i, X j; μ] = C k i j := by
  obtain ⟨-, C', h1, h2⟩ := C35_covariances it A hA B gamma omegas psis m hm
  rw [hC] at h1
  cases h1
  have hS : Matrix.of (fun i j => cov[X i, X j; μ]) = C k := by
    apply (h2 k).2
    unfold Entails
    ext i j
    have hres : ∀ i, (fun ω => ∑ a, (1 - Bᵀ) i a * X a ω) =ᵐ[μ] fun ω => (∑ k, gamma k i * H k ω) + N i ω := by
      intro i
      filter_upwards [h.eqn i] with ω hω
      have : ∑ a, (1 - Bᵀ) i a * X a ω = X i ω - ∑ a, B a i * X a ω := by
        simp only [Matrix.sub_apply, Matrix.transpose_apply, sub_mul, Finset.sum_sub_distrib]
        congr 1
        simp [Matrix.one_apply]
      rw [this, hω]
      ring
    rw [← follows_cov_noise h i j, ← cov_congr (hres i) (hres j), cov_sum_sum h.memX h.memX]
    rw [Matrix.mul_apply, Finset.sum_comm]
    refine Finset.sum_congr rfl fun b _ => ?_
    rw [Matrix.mul_apply, Finset.sum_mul, Matrix.transpose_apply]
    refine Finset.sum_congr rfl fun a _ => ?_
    rw [Matrix.of_apply]
    ring
  rw [← hS, Matrix.of_apply]

/-! ## Existence -/

/-- Independent Gaussian latents and noise terms. -/
noncomputable def gaussSpace (psi : Fin l → ℝ) (omega : Fin p → ℝ) : Measure (Fin l ⊕ Fin p → ℝ) :=
  Measure.pi (fun s => gaussianReal 0 (Sum.elim psi omega s).toNNReal)

instance (psi : Fin l → ℝ) (omega : Fin p → ℝ) : IsProbabilityMeasure (gaussSpace psi omega) := by
  unfold gaussSpace
  infer_instance

theorem gaussSpace_memLp (psi : Fin l → ℝ) (omega : Fin p → ℝ) (s : Fin l ⊕ Fin p) : MemLp (fun x => x s) 2 (gaussSpace psi omega) := by
  have h : MeasurePreserving (fun x : Fin l ⊕ Fin p → ℝ => x s) (gaussSpace psi omega) (gaussianReal 0 (Sum.elim psi omega s).toNNReal) :=
    measurePreserving_eval (fun s => gaussianReal 0 (Sum.elim psi omega s).toNNReal) s
  exact (memLp_id_gaussianReal (μ := 0) (v := (Sum.elim psi omega s).toNNReal) 2).comp_measurePreserving h

theorem gaussSpace_cov {psi : Fin l → ℝ} {omega : Fin p → ℝ} (hp : ∀ k, 0 ≤ psi k) (ho : ∀ i, 0 ≤ omega i) (s t : Fin l ⊕ Fin p) :
    cov[fun x => x s, fun x => x t; gaussSpace psi omega] = if s = t then Sum.elim psi omega s else 0 := by
  split_ifs with hst
  · subst hst
    have hm : AEMeasurable (fun x : Fin l ⊕ Fin p → ℝ => x s) (gaussSpace psi omega) := (measurable_pi_apply s).aemeasurable
    rw [covariance_self hm]
    have h : MeasurePreserving (fun x : Fin l ⊕ Fin p → ℝ => x s) (gaussSpace psi omega) (gaussianReal 0 (Sum.elim psi omega s).toNNReal) :=
      measurePreserving_eval (fun s => gaussianReal 0 (Sum.elim psi omega s).toNNReal) s
    have := h.variance_fun_comp (f := id) aemeasurable_id
    simp only [id] at this
    rw [this, variance_id_gaussianReal]
    have h0 : 0 ≤ Sum.elim psi omega s := by cases s <;> simp [hp, ho]
    exact Real.coe_toNNReal _ h0
  · have hi := iIndepFun_pi (μ := fun s => gaussianReal 0 (Sum.elim psi omega s).toNNReal) (X := fun _ => (id : ℝ → ℝ))
      (fun _ => aemeasurable_id)
    exact (hi.indepFun hst).covariance_eq_zero (gaussSpace_memLp psi omega s) (gaussSpace_memLp psi omega t)

/-- C100: such random variables exist for every model and environment, with independent Gaussian latents and noise. -/
theorem C100_exists (it : SetIter p) (A : Adj p) (hA : Nonneg A) (B : Matrix (Fin p) (Fin p) ℝ) (gamma : Matrix (Fin l) (Fin p) ℝ)
    (omegas : Matrix (Fin e) (Fin p) ℝ) (psis : Matrix (Fin e) (Fin l) ℝ) (m : LModel p l e) (hm : mkModel it A B gamma omegas psis = .ok m)
    (ho : ∀ k i, 0 ≤ omegas k i) (hp : ∀ k i, 0 ≤ psis k i) (k : Fin e) :
    ∃ X : Fin p → (Fin l ⊕ Fin p → ℝ) → ℝ,
      Follows (gaussSpace (psis k) (omegas k)) B gamma (psis k) (omegas k) X (fun a x => x (Sum.inl a)) (fun i x => x (Sum.inr i)) := by
  obtain ⟨hdet, -⟩ := C35_covariances it A hA B gamma omegas psis m hm
  have hu : IsUnit (1 - Bᵀ).det := by rw [hdet]; exact isUnit_one
  set R : Fin p → (Fin l ⊕ Fin p → ℝ) → ℝ := fun j x => (∑ a, gamma a j * x (Sum.inl a)) + x (Sum.inr j) with hR
  have mR : ∀ j, MemLp (R j) 2 (gaussSpace (psis k) (omegas k)) := fun j =>
    (memLp_comb (X := fun a (x : Fin l ⊕ Fin p → ℝ) => x (Sum.inl a)) (fun a => gaussSpace_memLp _ _ (Sum.inl a)) (fun a => gamma a j)).add (gaussSpace_memLp _ _ (Sum.inr j))
  refine ⟨fun j x => ∑ i, (1 - Bᵀ)⁻¹ j i * R i x, ?_⟩
  refine ⟨fun j => memLp_comb mR _, fun a => gaussSpace_memLp _ _ _, fun j => gaussSpace_memLp _ _ _, fun j => ?_, fun a b => ?_, fun i j => ?_,
    fun a j => ?_⟩
  · refine Filter.Eventually.of_forall fun x => ?_
    have h1 : ((1 - Bᵀ) *ᵥ ((1 - Bᵀ)⁻¹ *ᵥ (fun i => R i x))) j = R j x := by
      rw [Matrix.mulVec_mulVec, Matrix.mul_nonsing_inv _ hu, Matrix.one_mulVec]
    rw [Matrix.sub_mulVec, Matrix.one_mulVec, Pi.sub_apply] at h1
    have h2 : (Bᵀ *ᵥ ((1 - Bᵀ)⁻¹ *ᵥ (fun i => R i x))) j = ∑ i, B i j * ∑ a, (1 - Bᵀ)⁻¹ i a * R a x := rfl
    rw [h2] at h1
    have h3 : ((1 - Bᵀ)⁻¹ *ᵥ (fun i => R i x)) j = ∑ i, (1 - Bᵀ)⁻¹ j i * R i x := rfl
    rw [h3] at h1
    have h4 : R j x = (∑ a, gamma a j * x (Sum.inl a)) + x (Sum.inr j) := rfl
    linarith
  · rw [gaussSpace_cov (hp k) (ho k)]
    simp
  · rw [gaussSpace_cov (hp k) (ho k)]
    simp
  · rw [gaussSpace_cov (hp k) (ho k)]
    simp

/-! ## Estimation -/

/-- Observations `X a` (`a = 1..n`) with equal means and covariance `S`, uncorrelated with each other. -/
structure Spec.Uncorrelated {Ω : Type} [MeasurableSpace Ω] (μ : Measure Ω) {n : Nat} (X : Fin n → Fin p → Ω → ℝ) (S : Matrix (Fin p) (Fin p) ℝ) :
    Prop where
  mem : ∀ a i, MemLp (X a i) 2 μ
  mean : ∀ a b i, μ[X a i] = μ[X b i]
  cov : ∀ a b i j, cov[X a i, X b j; μ] = if a = b then S i j else 0

theorem npCov_ofFn {n : Nat} (x : Fin n → Fin p → ℝ) (i j : Fin p) :
    npCov (List.ofFn x) i j = ((∑ a, x a i * x a j) - (∑ a, ∑ b, x a i * x b j) / n) / ((n : ℝ) - 1) := by
  unfold npCov colMean
  simp only [List.map_ofFn, List.sum_ofFn, List.length_ofFn, Function.comp_apply]
  rcases Nat.eq_zero_or_pos n with rfl | hn
  · simp
  have hn' : (n : ℝ) ≠ 0 := by positivity
  congr 1
  simp only [sub_mul, mul_sub, Finset.sum_sub_distrib, ← Finset.sum_mul, ← Finset.mul_sum, Finset.sum_const, Finset.card_univ, Fintype.card_fin,
    nsmul_eq_mul]
  field_simp
  ring

/-- C100: the sample covariance is an unbiased estimate. -/
theorem C100_unbiased {Ω : Type} [MeasurableSpace Ω] (μ : Measure Ω) [IsProbabilityMeasure μ] {n : Nat} (hn : 2 ≤ n) (X : Fin n → Fin p → Ω → ℝ)
    (S : Matrix (Fin p) (Fin p) ℝ) (h : Uncorrelated μ X S) (i j : Fin p) :
    Integrable (fun ω => npCov (List.ofFn (fun a i => X a i ω)) i j) μ ∧ ∫ ω, npCov (List.ofFn (fun a i => X a i ω)) i j ∂μ = S i j := by
  have hn1 : (n : ℝ) - 1 ≠ 0 := by
    have : (2 : ℝ) ≤ n := by exact_mod_cast hn
    linarith
  have hn0 : (n : ℝ) ≠ 0 := by
    have : (2 : ℝ) ≤ n := by exact_mod_cast hn
    linarith
  have hint : ∀ a b, Integrable (fun ω => X a i ω * X b j ω) μ := fun a b => (h.mem a i).integrable_mul (h.mem b j)
  have h1 : ∀ a b, ∫ ω, X a i ω * X b j ω ∂μ = (if a = b then S i j else 0) + μ[X a i] * μ[X b j] := by
    intro a b
    have := covariance_eq_sub (h.mem a i) (h.mem b j)
    rw [h.cov] at this
    have e : μ[X a i * X b j] = ∫ ω, X a i ω * X b j ω ∂μ := rfl
    rw [e] at this
    linarith
  simp only [npCov_ofFn]
  have i1 : Integrable (fun ω => ∑ a, X a i ω * X a j ω) μ := integrable_finsetSum _ fun a _ => hint a a
  have i2 : Integrable (fun ω => ∑ a, ∑ b, X a i ω * X b j ω) μ := integrable_finsetSum _ fun a _ => integrable_finsetSum _ fun b _ => hint a b
  refine ⟨(i1.sub (i2.div_const _)).div_const _, ?_⟩
  rw [integral_div, integral_sub i1 (i2.div_const _), integral_div, integral_finsetSum _ (fun a _ => hint a a),
    integral_finsetSum _ (fun a _ => integrable_finsetSum _ fun b _ => hint a b)]
  simp only [integral_finsetSum _ (fun b _ => hint _ b), h1, if_true, Finset.sum_add_distrib, Finset.sum_ite_eq, Finset.mem_univ,
    Finset.sum_const, Finset.card_univ, Fintype.card_fin, nsmul_eq_mul]
  have z : (⟨0, by omega⟩ : Fin n) = ⟨0, by omega⟩ := rfl
  have hmean : ∀ a, μ[X a i] = μ[X ⟨0, by omega⟩ i] := fun a => h.mean _ _ _
  have hmean' : ∀ a, μ[X a j] = μ[X ⟨0, by omega⟩ j] := fun a => h.mean _ _ _
  simp only [hmean, hmean', Finset.sum_const, Finset.card_univ, Fintype.card_fin, nsmul_eq_mul]
  field_simp
  ring

/-- C100: so the score of a given model on new data has as its expectation the score of the model on the true covariances. -/
theorem C100_expected_score {Ω : Type} [MeasurableSpace Ω] (μ : Measure Ω) [IsProbabilityMeasure μ] (it : SetIter p) (A : Adj p) (hA : Nonneg A)
    (B : Matrix (Fin p) (Fin p) ℝ) (gamma : Matrix (Fin l) (Fin p) ℝ) (omegas : Matrix (Fin e) (Fin p) ℝ) (psis : Matrix (Fin e) (Fin l) ℝ)
    (m : LModel p l e) (hm : mkModel it A B gamma omegas psis = .ok m) (ho : ∀ k i, 0 < omegas k i) (hp : ∀ k i, 0 ≤ psis k i)
    (he : 0 < e) (n : Fin e → Nat) (hn : ∀ k, 2 ≤ n k) (X : (k : Fin e) → Fin (n k) → Fin p → Ω → ℝ) (S : Fin e → Matrix (Fin p) (Fin p) ℝ)
    (h : ∀ k, Uncorrelated μ (X k) (S k)) :
    ∃ f : Ω → ℝ, (∀ ω, m.score (List.ofFn (fun k => npCov (List.ofFn (fun a i => X k a i ω)))) (List.ofFn n) = .ok (some (f ω))) ∧
      Integrable f μ ∧ m.score (List.ofFn S) (List.ofFn n) = .ok (some (∫ ω, f ω ∂μ)) := by
  obtain ⟨-, C, hC, -⟩ := C35_covariances it A hA B gamma omegas psis m hm
  have hsum : ∑ k, n k ≠ 0 := by
    have : n ⟨0, he⟩ ≤ ∑ k, n k := Finset.single_le_sum (fun _ _ => Nat.zero_le _) (Finset.mem_univ _)
    have := hn ⟨0, he⟩
    omega
  have hsc := fun S => C37_actual_score it A hA B gamma omegas psis m hm ho hp n hsum S C hC
  have htr : ∀ k ω, gaussNLL (C k) (npCov (List.ofFn (fun a i => X k a i ω))) =
      Real.log (C k).det + ∑ i, ∑ j, (C k)⁻¹ i j * npCov (List.ofFn (fun a i => X k a i ω)) j i := by
    intro k ω
    rfl
  have hub := fun k => C100_unbiased μ (hn k) (X k) (S k) (h k)
  have hin : ∀ k, Integrable (fun ω => gaussNLL (C k) (npCov (List.ofFn (fun a i => X k a i ω)))) μ := by
    intro k
    simp only [htr]
    exact (integrable_const _).add (integrable_finsetSum _ fun i _ => integrable_finsetSum _ fun j _ => ((hub k j i).1).const_mul _)
  have hex : ∀ k, ∫ ω, gaussNLL (C k) (npCov (List.ofFn (fun a i => X k a i ω))) ∂μ = gaussNLL (C k) (S k) := by
    intro k
    simp only [htr]
    have i1 : ∀ i, Integrable (fun ω => ∑ j, (C k)⁻¹ i j * npCov (List.ofFn (fun a i => X k a i ω)) j i) μ := fun i =>
      integrable_finsetSum _ fun j _ => ((hub k j i).1).const_mul _
    have i2 : Integrable (fun ω => ∑ i, ∑ j, (C k)⁻¹ i j * npCov (List.ofFn (fun a i => X k a i ω)) j i) μ :=
      integrable_finsetSum _ fun i _ => i1 i
    rw [integral_add (integrable_const _) i2, integral_finsetSum _ (fun i _ => i1 i)]
    have : ∀ i, ∫ ω, ∑ j, (C k)⁻¹ i j * npCov (List.ofFn (fun a i => X k a i ω)) j i ∂μ = ∑ j, (C k)⁻¹ i j * S k j i := by
      intro i
      rw [integral_finsetSum _ (fun j _ => ((hub k j i).1).const_mul _)]
      refine Finset.sum_congr rfl fun j _ => ?_
      rw [integral_const_mul, (hub k j i).2]
    simp only [this, integral_const, probReal_univ, smul_eq_mul, one_mul]
    rfl
  refine ⟨_, fun ω => hsc _, integrable_finsetSum _ fun k _ => ((hin k).const_mul _).div_const _, ?_⟩
  rw [hsc S, integral_finsetSum _ (fun k _ => ((hin k).const_mul _).div_const _)]
  simp only [integral_div, integral_const_mul, hex]

/-- Independent copies of square integrable random variables are uncorrelated observations of them. -/
theorem uncorrelated_copies {Ω : Type} [MeasurableSpace Ω] (μ : Measure Ω) [IsProbabilityMeasure μ] (n : Nat) (Y : Fin p → Ω → ℝ)
    (hY : ∀ i, MemLp (Y i) 2 μ) :
    Uncorrelated (Measure.pi (fun _ : Fin n => μ)) (fun a i x => Y i (x a)) (Matrix.of fun i j => cov[Y i, Y j; μ]) := by
  have hmp : ∀ a, MeasurePreserving (fun x : Fin n → Ω => x a) (Measure.pi (fun _ : Fin n => μ)) μ := fun a => measurePreserving_eval (fun _ => μ) a
  have hmem : ∀ a i, MemLp (fun x : Fin n → Ω => Y i (x a)) 2 (Measure.pi (fun _ : Fin n => μ)) := fun a i => (hY i).comp_measurePreserving (hmp a)
  refine ⟨hmem, fun a b i => ?_, fun a b i j => ?_⟩
  · have h : ∀ a, ∫ x : Fin n → Ω, Y i (x a) ∂(Measure.pi (fun _ : Fin n => μ)) = ∫ y, Y i y ∂μ := fun a => by
      have := integral_map (φ := fun x : Fin n → Ω => x a) (f := Y i) (hmp a).measurable.aemeasurable (by rw [(hmp a).map_eq]; exact (hY i).1)
      rw [(hmp a).map_eq] at this
      exact this.symm
    rw [h a, h b]
  · split_ifs with hab
    · subst hab
      rw [Matrix.of_apply]
      conv_rhs => rw [← (hmp a).map_eq]
      rw [covariance_map_fun (by rw [(hmp a).map_eq]; exact (hY i).1) (by rw [(hmp a).map_eq]; exact (hY j).1) (hmp a).measurable.aemeasurable]
    · have hi := iIndepFun_pi (μ := fun _ : Fin n => μ) (X := fun _ (ω : Ω) => (fun i => Y i ω : Fin p → ℝ))
        (fun _ => aemeasurable_pi_lambda _ fun i => (hY i).1.aemeasurable)
      have h2 := (hi.indepFun hab).comp (measurable_pi_apply i) (measurable_pi_apply j)
      exact h2.covariance_eq_zero (hmem a i) (hmem b j)

/-- C100: so the expectation of the sample covariance of `n ≥ 2` independent observations of variables that follow a model is the covariance
that `covariances()` returns. -/
theorem C100_model_samples {Ω : Type} [MeasurableSpace Ω] (μ : Measure Ω) [IsProbabilityMeasure μ] (it : SetIter p) (A : Adj p) (hA : Nonneg A)
    (B : Matrix (Fin p) (Fin p) ℝ) (gamma : Matrix (Fin l) (Fin p) ℝ) (omegas : Matrix (Fin e) (Fin p) ℝ) (psis : Matrix (Fin e) (Fin l) ℝ)
    (m : LModel p l e) (hm : mkModel it A B gamma omegas psis = .ok m) (C : Fin e → Matrix (Fin p) (Fin p) ℝ) (hC : m.covariances = .ok C)
    (k : Fin e) (X : Fin p → Ω → ℝ) (H : Fin l → Ω → ℝ) (N : Fin p → Ω → ℝ) (h : Follows μ B gamma (psis k) (omegas k) X H N) (n : Nat)
    (hn : 2 ≤ n) (i j : Fin p) :
    ∫ x : Fin n → Ω, npCov (List.ofFn (fun a i => X i (x a))) i j ∂(Measure.pi (fun _ : Fin n => μ)) = C k i j := by
  have hu := uncorrelated_copies μ n X h.memX
  rw [(C100_unbiased _ hn _ _ hu i j).2, Matrix.of_apply]
  exact C100_covariances μ it A hA B gamma omegas psis m hm C hC k X H N h i j

-- non-vacuity: the hypotheses are met by the model `exModel` with one latent and two environments
example (k : Fin 2) : ∃ X, Follows (gaussSpace ((!![1; 2] : Matrix (Fin 2) (Fin 1) ℝ) k) ((!![1, 2; 1, 1] : Matrix (Fin 2) (Fin 2) ℝ) k))
    (!![0, 3; 0, 0] : Matrix (Fin 2) (Fin 2) ℝ) !![1, 1] ((!![1; 2] : Matrix (Fin 2) (Fin 1) ℝ) k)
    ((!![1, 2; 1, 1] : Matrix (Fin 2) (Fin 2) ℝ) k) X (fun a x => x (Sum.inl a)) (fun i x => x (Sum.inr i)) :=
  C100_exists (SetIter.incr 2) _ (by unfold Nonneg; decide) _ _ _ _ exModel
    (mkModel_eq_ok (by unfold Nonneg; decide) _ _ _ exModel_acyclic exModel_respects)
    (by intro k i; fin_cases k <;> fin_cases i <;> norm_num) (by intro k i; fin_cases k <;> fin_cases i <;> norm_num) k

end Verif
