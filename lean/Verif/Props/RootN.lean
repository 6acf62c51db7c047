import Verif.Props.CovClt
import Verif.Props.ConsistencyGraph
import Verif.Props.Rate
import Verif.Props.Latents

/-!
# C134: rates with one environment

For one environment and no latents the parameters that `equivalence_class` returns are within `K / √n` of the true ones, up to a small probability; the
probability of a run with a wrong graph decreases exponentially, with latents too.
-/

namespace Verif

open Spec Matrix MeasureTheory ProbabilityTheory Filter Topology

variable {p e : Nat}

/-- Near `C` the function `f` changes at most in proportion to its argument. -/
def Steady (C : Matrix (Fin p) (Fin p) ℝ) (f : Matrix (Fin p) (Fin p) ℝ → ℝ) : Prop :=
  ∃ L : ℝ, 0 < L ∧ ∃ δ₀ : ℝ, 0 < δ₀ ∧ ∀ δ ≤ δ₀, ∀ S : Matrix (Fin p) (Fin p) ℝ, S.PosDef → (∀ i j, |S i j - C i j| < δ) → |f S - f C| ≤ L * δ

variable {C : Matrix (Fin p) (Fin p) ℝ} {f g : Matrix (Fin p) (Fin p) ℝ → ℝ}

theorem steady_of_eq (h : ∀ S, f S = f C) (hp : p ≠ 0) : Steady C f := by
  refine ⟨1, one_pos, 1, one_pos, fun δ _ S _ hS => ?_⟩
  have : 0 < δ := (abs_nonneg _).trans_lt (hS ⟨0, by omega⟩ ⟨0, by omega⟩)
  rw [h S, sub_self, abs_zero, one_mul]
  exact this.le

theorem steady_entry (i j : Fin p) : Steady C fun S => S i j :=
  ⟨1, one_pos, 1, one_pos, fun δ _ S _ hS => by rw [one_mul]; exact (hS i j).le⟩

theorem Steady.add (hf : Steady C f) (hg : Steady C g) : Steady C fun S => f S + g S := by
  obtain ⟨L, hL, d, hd, h⟩ := hf
  obtain ⟨L', hL', d', hd', h'⟩ := hg
  refine ⟨L + L', by positivity, min d d', lt_min hd hd', fun δ hδ S hS hw => ?_⟩
  have h1 := h δ (hδ.trans (min_le_left _ _)) S hS hw
  have h2 := h' δ (hδ.trans (min_le_right _ _)) S hS hw
  calc |f S + g S - (f C + g C)| = |(f S - f C) + (g S - g C)| := by ring_nf
    _ ≤ |f S - f C| + |g S - g C| := abs_add_le _ _
    _ ≤ (L + L') * δ := by linarith

theorem Steady.mul (hp : p ≠ 0) (hf : Steady C f) (hg : Steady C g) : Steady C fun S => f S * g S := by
  obtain ⟨L, hL, d, hd, h⟩ := hf
  obtain ⟨L', hL', d', hd', h'⟩ := hg
  refine ⟨L * (|g C| + 1) + |f C| * L', by positivity, min (min d d') (1 / L'), lt_min (lt_min hd hd') (by positivity), fun δ hδ S hS hw => ?_⟩
  have hδ0 : 0 < δ := (abs_nonneg _).trans_lt (hw ⟨0, by omega⟩ ⟨0, by omega⟩)
  have h1 := h δ (hδ.trans ((min_le_left _ _).trans (min_le_left _ _))) S hS hw
  have h2 := h' δ (hδ.trans ((min_le_left _ _).trans (min_le_right _ _))) S hS hw
  have h3 : L' * δ ≤ 1 := by
    have := mul_le_mul_of_nonneg_left (hδ.trans (min_le_right _ _)) hL'.le
    rwa [mul_one_div_cancel hL'.ne'] at this
  have h4 : |g S| ≤ |g C| + 1 := by
    have : |g S| ≤ |g C| + |g S - g C| := by
      have := abs_add_le (g C) (g S - g C)
      rwa [add_sub_cancel] at this
    linarith
  calc |f S * g S - f C * g C| = |(f S - f C) * g S + f C * (g S - g C)| := by ring_nf
    _ ≤ |f S - f C| * |g S| + |f C| * |g S - g C| := (abs_add_le _ _).trans (by rw [abs_mul, abs_mul])
    _ ≤ (L * δ) * (|g C| + 1) + |f C| * (L' * δ) := add_le_add (mul_le_mul h1 h4 (abs_nonneg _) (by positivity)) (mul_le_mul_of_nonneg_left h2 (abs_nonneg _))
    _ = _ := by ring

theorem steady_sum (hp : p ≠ 0) {ι : Type} (s : Finset ι) {F : ι → Matrix (Fin p) (Fin p) ℝ → ℝ} (h : ∀ i ∈ s, Steady C (F i)) : Steady C fun S => ∑ i ∈ s, F i S := by
  classical
  induction s using Finset.induction_on with
  | empty => exact steady_of_eq (by simp) hp
  | insert a s ha ih =>
    have := (h a (Finset.mem_insert_self _ _)).add (ih fun i hi => h i (Finset.mem_insert_of_mem hi))
    simpa only [Finset.sum_insert ha] using this

theorem steady_uniform {ι : Type} [Fintype ι] {F : ι → Matrix (Fin p) (Fin p) ℝ → ℝ} (h : ∀ i, Steady C (F i)) :
    ∃ L : ℝ, 0 < L ∧ ∃ δ₀ : ℝ, 0 < δ₀ ∧ ∀ δ ≤ δ₀, ∀ S : Matrix (Fin p) (Fin p) ℝ, S.PosDef → 0 < δ → (∀ i j, |S i j - C i j| < δ) → ∀ x, |F x S - F x C| ≤ L * δ := by
  choose L hL d hd hF using h
  obtain ⟨d0, hd0, hle⟩ := exists_uniform (P := fun i δ => δ ≤ d i) (fun i => ⟨d i, hd i, le_rfl⟩) (fun i δ δ' _ h1 h2 => h1.trans h2)
  refine ⟨∑ x, L x + 1, add_pos_of_nonneg_of_pos (Finset.sum_nonneg fun x _ => (hL x).le) one_pos, d0, hd0, fun δ hδ S hS h0 hw x => ?_⟩
  refine (hF x δ (hδ.trans (hle x)) S hS hw).trans (mul_le_mul_of_nonneg_right ?_ h0.le)
  linarith [Finset.single_le_sum (fun x _ => (hL x).le) (Finset.mem_univ x)]

/-- Regression coefficients. -/
theorem regWeights_steady (hp : p ≠ 0) (A : Adj p) (hC : C.PosDef) (i j : Fin p) : Steady C fun S => regWeights A S i j := by
  obtain ⟨d, hd, hn⟩ := near_of_continuousAt (regWeights_continuousAt A hC) one_pos
  set M := (parentMatrix A j C)⁻¹ with hM
  have huC : IsUnit (parentMatrix A j C).det := isUnit_iff_ne_zero.2 (parentMatrix_det A j hC)
  refine ⟨∑ a, |M i a| * (1 + ∑ b, (|regWeights A C b j| + 1)) + 1, add_pos_of_nonneg_of_pos (Finset.sum_nonneg fun a _ => by positivity) one_pos, d, hd, fun δ hδ S hS hw => ?_⟩
  have hδ0 : 0 < δ := (abs_nonneg _).trans_lt (hw ⟨0, by omega⟩ ⟨0, by omega⟩)
  have huS : IsUnit (parentMatrix A j S).det := isUnit_iff_ne_zero.2 (parentMatrix_det A j hS)
  set r := fun b => regWeights A S b j with hr
  set c := fun b => regWeights A C b j with hc
  have eS : parentMatrix A j S *ᵥ r = parentVector A j S := by
    change parentMatrix A j S *ᵥ ((parentMatrix A j S)⁻¹ *ᵥ parentVector A j S) = _
    rw [mulVec_mulVec, mul_nonsing_inv _ huS, one_mulVec]
  have eC : parentMatrix A j C *ᵥ c = parentVector A j C := by
    change parentMatrix A j C *ᵥ ((parentMatrix A j C)⁻¹ *ᵥ parentVector A j C) = _
    rw [mulVec_mulVec, mul_nonsing_inv _ huC, one_mulVec]
  have key : r - c = M *ᵥ ((parentVector A j S - parentVector A j C) - (parentMatrix A j S - parentMatrix A j C) *ᵥ r) := by
    rw [sub_mulVec, eS]
    have : parentVector A j S - parentVector A j C - (parentVector A j S - parentMatrix A j C *ᵥ r) = parentMatrix A j C *ᵥ (r - c) := by
      rw [mulVec_sub, eC]
      abel
    rw [this, mulVec_mulVec, hM, nonsing_inv_mul _ huC, one_mulVec]
  have hrb : ∀ b, |r b| ≤ |regWeights A C b j| + 1 := by
    intro b
    have h1 := hn S (fun i j => (hw i j).trans_le hδ) b j
    have h2 := abs_add_le (regWeights A C b j) (regWeights A S b j - regWeights A C b j)
    rw [add_sub_cancel] at h2
    change |regWeights A S b j| ≤ _
    linarith
  have hV : ∀ a, |parentVector A j S a - parentVector A j C a| ≤ δ := by
    intro a
    unfold parentVector
    split_ifs
    · exact (hw _ _).le
    · simpa using hδ0.le
  have hMd : ∀ a b, |parentMatrix A j S a b - parentMatrix A j C a b| ≤ δ := by
    intro a b
    unfold parentMatrix
    simp only [of_apply]
    split_ifs
    · exact (hw _ _).le
    · simpa using hδ0.le
    · simpa using hδ0.le
  have hrow : ∀ a, |((parentVector A j S - parentVector A j C) - (parentMatrix A j S - parentMatrix A j C) *ᵥ r) a| ≤
      (1 + ∑ b, (|regWeights A C b j| + 1)) * δ := by
    intro a
    rw [Pi.sub_apply, Pi.sub_apply]
    refine (abs_sub _ _).trans ?_
    rw [add_mul, one_mul]
    refine add_le_add (hV a) ?_
    unfold mulVec dotProduct
    refine (Finset.abs_sum_le_sum_abs _ _).trans ?_
    rw [Finset.sum_mul]
    refine Finset.sum_le_sum fun b _ => ?_
    rw [abs_mul, mul_comm]
    exact mul_le_mul (hrb b) (hMd a b) (abs_nonneg _) (by positivity)
  have := congrFun key i
  rw [Pi.sub_apply] at this
  change |r i - c i| ≤ _
  rw [this]
  unfold mulVec dotProduct
  refine (Finset.abs_sum_le_sum_abs _ _).trans ?_
  refine le_trans (Finset.sum_le_sum fun a _ => ?_) (le_trans (le_of_eq (Finset.sum_mul _ _ _).symm) (mul_le_mul_of_nonneg_right (by linarith) hδ0.le))
  rw [abs_mul, mul_assoc]
  exact mul_le_mul_of_nonneg_left (hrow a) (abs_nonneg _)

/-- Residual variances. -/
theorem resCov_steady (hp : p ≠ 0) (A : Adj p) (hC : C.PosDef) (i j : Fin p) : Steady C fun S => resCov A S i j := by
  have h1 : ∀ a b, Steady C fun S => (1 - (regWeights A S)ᵀ) a b := by
    intro a b
    have h2 := (steady_of_eq (C := C) (f := fun _ => (1 : Matrix (Fin p) (Fin p) ℝ) a b) (fun _ => rfl) hp).add
      ((steady_of_eq (C := C) (f := fun _ => (-1 : ℝ)) (fun _ => rfl) hp).mul hp (regWeights_steady hp A hC b a))
    convert h2 using 2 with S
    rw [Matrix.sub_apply, transpose_apply]
    ring
  have h3 : ∀ a b, Steady C fun S => ((1 - (regWeights A S)ᵀ) * S) a b := by
    intro a b
    simp only [mul_apply]
    exact steady_sum hp _ fun k _ => (h1 a k).mul hp (steady_entry k b)
  unfold resCov
  simp only [mul_apply (M := (1 - (regWeights A _)ᵀ) * _)]
  refine steady_sum hp _ fun k _ => (h3 i k).mul hp ?_
  simp only [transpose_apply (1 - (regWeights A _)ᵀ)]
  exact h1 j k

theorem closeTo_steady (hp : p ≠ 0) {A : Adj p} (hac : Acyclic A) (hC : C.PosDef) :
    ∃ L : ℝ, 0 < L ∧ ∃ δ₀ : ℝ, 0 < δ₀ ∧ ∀ δ ≤ δ₀, 0 < δ → ∀ (S : Matrix (Fin p) (Fin p) ℝ) (m : LModel p 0 1), S.PosDef → (∀ i j, |S i j - C i j| < δ) →
      Regressions A S m → EntailedBy Finset.univ A (fun _ : Fin 1 => C) → CloseTo (L * δ) C m := by
  obtain ⟨L₁, hL₁, d₁, hd₁, n1⟩ := steady_uniform (ι := Fin p × Fin p) fun z => regWeights_steady hp A hC z.1 z.2
  obtain ⟨L₂, hL₂, d₂, hd₂, n2⟩ := steady_uniform (ι := Fin p × Fin p) fun z => resCov_steady hp A hC z.1 z.2
  refine ⟨L₁ + L₂, by positivity, min d₁ d₂, lt_min hd₁ hd₂, fun δ hδ h0 S m hS hw hr hent => ?_⟩
  obtain ⟨B, w, b1, b2, -, b4⟩ := hent
  have hsym : ∀ a b, S a b = S b a := fun a b => (congrFun (congrFun hS.1 a) b).symm
  have e1 := regWeights_of_normal hr.respects hS hr.normal
  have e2 := regWeights_eq hac b1 hC (b4 0)
  refine ⟨B, w 0, ?_, b2 0, b4 0, fun i j => ?_, fun j => ?_⟩
  · rw [hr.graph]; exact b1
  · have := n1 δ (hδ.trans (min_le_left _ _)) S hS h0 hw (i, j)
    simp only [e1, e2] at this
    exact this.trans_lt (mul_lt_mul_of_pos_right (by linarith) h0)
  · have := n2 δ (hδ.trans (min_le_right _ _)) S hS h0 hw (j, j)
    simp only [resCov] at this
    rw [e1, e2, residual_diag m.B S hsym, ← hr.var, show (1 - Bᵀ) * C * (1 - Bᵀ)ᵀ = Matrix.diagonal (w 0) from b4 0, Matrix.diagonal_apply_eq] at this
    exact this.trans_lt (mul_lt_mul_of_pos_right (by linarith) h0)

/-- C134: for one environment the errors of the parameters are at most proportional to the errors of the covariances of the training data, once the
covariances of all folds are close enough to select a right graph. -/
theorem C134_errors (candidates : List (Adj p)) (hG : ∀ G ∈ candidates, Nonneg G ∧ Acyclic G) (C : Matrix (Fin p) (Fin p) ℝ) (hC : C.PosDef)
    (hp : p ≠ 0) (G : Adj p) (hGm : G ∈ candidates) (hent : EntailedBy Finset.univ G fun _ : Fin 1 => C) :
    ∃ L : ℝ, 0 < L ∧ ∃ δ₀ : ℝ, 0 < δ₀ ∧ ∀ δ ≤ δ₀, 0 < δ → ∀ (E : FitEnv p 1) (data : Fin 1 → Sample p) (folds : List Rat) (rs : Int)
      (training testG testI : List (Sample p)), CodeEnv E →
      splitData (E.rng 42) (List.ofFn data) folds = .ok [training, testG, testI] → (∀ s ∈ training, s.length ≠ 1) →
      (∀ f ∈ [training, testG, testI], f.getD 0 [] ≠ [] ∧ ∀ i j, |npCov (f.getD 0 []) i j - C i j| < δ₀) →
      (∀ i j, |npCov (training.getD 0 []) i j - C i j| < δ) →
      GoodRun (L * δ) candidates C (equivalenceClass E candidates data true false (some [0]) folds rs) := by
  obtain ⟨δ₁, h1, r1⟩ := run_regressions candidates hG C hC hp G hGm hent
  choose L hL d hd hcl using fun a : Fin candidates.length => closeTo_steady hp (hG _ (List.get_mem candidates a)).2 hC
  obtain ⟨d0, hd0, hle⟩ := exists_uniform (P := fun a δ => δ ≤ d a) (fun a => ⟨d a, hd a, le_rfl⟩) (fun a δ δ' _ h1 h2 => h1.trans h2)
  refine ⟨∑ a, L a + 1, add_pos_of_nonneg_of_pos (Finset.sum_nonneg fun x _ => (hL x).le) one_pos, min δ₁ d0, lt_min h1 hd0, ?_⟩
  intro δ hδ h0 E data folds rs training testG testI hE hsplit hsize hfolds htr
  obtain ⟨P, m, q1, q2, q3, q4, q5, q6⟩ := r1 E data folds rs training testG testI hE hsplit hsize fun f hf =>
    ⟨(hfolds f hf).1, fun i j => ((hfolds f hf).2 i j).trans_le (min_le_left _ _)⟩
  obtain ⟨a, ha⟩ := List.get_of_mem q2
  obtain ⟨B, w, b1, b2, b3, b4, b5⟩ := hcl a δ (hδ.trans ((min_le_right _ _).trans (hle a))) h0 (npCov (training.getD 0 [])) m q4 htr (by rw [ha]; exact q3) (by rw [ha]; exact q5)
  have hLa : L a * δ ≤ (∑ a, L a + 1) * δ := mul_le_mul_of_nonneg_right (by linarith [Finset.single_le_sum (fun x _ => (hL x).le) (Finset.mem_univ a)]) h0.le
  exact ⟨P, m, q1, q2, ⟨B, w, b1, b2, b3, fun i j => (b4 i j).trans_le hLa, fun j => (b5 j).trans_le hLa⟩, q6⟩

/-! ## In probability -/

variable {Ω : Type} [MeasurableSpace Ω] {μ : Measure Ω} {X : ℕ → Ω → Fin p → ℝ}

omit [MeasurableSpace Ω] in
theorem rowsOf_ofFn (J : List ℕ) (ω : Ω) : rowsOf X J ω = List.ofFn fun a : Fin J.length => X (J.get a) ω := by
  unfold rowsOf
  conv_lhs => rw [← List.ofFn_get J]
  rw [List.map_ofFn]
  rfl

theorem npCov_rows_measurable2 (hX : ∀ a, Measurable (X a)) (J : List ℕ) (i j : Fin p) : Measurable fun ω => npCov (rowsOf X J ω) i j := by
  have : (fun ω => npCov (rowsOf X J ω) i j) = (fun x : Fin J.length → Fin p → ℝ => npCov (List.ofFn x) i j) ∘ fun ω a => X (J.get a) ω := by
    funext ω
    simp only [Function.comp_apply, rowsOf_ofFn]
  rw [this]
  exact (npCov_measurable _ i j).comp (measurable_pi_lambda _ fun a => hX _)

/-- One entry. -/
theorem entry_tight [IsProbabilityMeasure μ] (h : Iid μ X C) (J : List ℕ) (i j : Fin p) {θ K : ℝ}
    (hn : ENNReal.ofReal (1 - θ) < μ {ω | √(J.length : ℝ) * (npCov (rowsOf X J ω) i j - C i j) ∈ Set.Ioo (-K) K}) :
    μ.real {ω | ¬ √(J.length : ℝ) * |npCov (rowsOf X J ω) i j - C i j| < K} ≤ θ := by
  have hms : MeasurableSet {ω | √(J.length : ℝ) * (npCov (rowsOf X J ω) i j - C i j) ∈ Set.Ioo (-K) K} :=
    (((npCov_rows_measurable2 h.meas J i j).sub_const _).const_mul _) measurableSet_Ioo
  have h1 := probReal_compl_eq_one_sub (μ := μ) hms
  have h2 := ENNReal.toReal_mono (measure_ne_top _ _) hn.le
  have h3 : 1 - θ ≤ (ENNReal.ofReal (1 - θ)).toReal := by
    rw [ENNReal.toReal_ofReal']
    exact le_max_left _ _
  have h4 : μ.real {ω | √(J.length : ℝ) * (npCov (rowsOf X J ω) i j - C i j) ∈ Set.Ioo (-K) K}ᶜ ≤ θ := by
    rw [h1]
    have : 1 - θ ≤ μ.real {ω | √(J.length : ℝ) * (npCov (rowsOf X J ω) i j - C i j) ∈ Set.Ioo (-K) K} := h3.trans h2
    linarith
  refine le_trans (le_of_eq ?_) h4
  congr 1
  ext ω
  simp only [Set.mem_compl_iff, Set.mem_ofPred_eq, Set.mem_Ioo, ← abs_lt, abs_mul, abs_of_nonneg (Real.sqrt_nonneg _)]

theorem rows_tight_all [IsProbabilityMeasure μ] (h : Iid μ X C) (h4 : ∀ i, MemLp (fun ω => X 0 ω i) 4 μ) {η : ℝ} (hη : 0 < η) :
    ∃ K : ℝ, 0 < K ∧ ∀ J : ℕ → List ℕ, (∀ n, (J n).Nodup) → Tendsto (fun n => (J n).length) atTop atTop →
      ∀ᶠ n in atTop, μ.real {ω | ¬ ∀ i j, √((J n).length : ℝ) * |npCov (rowsOf X (J n) ω) i j - C i j| < K} ≤ η := by
  set θ := η / (p * p + 1) with hθ
  have hθ0 : 0 < θ := by positivity
  have hc : ENNReal.ofReal (1 - θ) < 1 := by
    rw [← ENNReal.ofReal_one]
    exact (ENNReal.ofReal_lt_ofReal_iff one_pos).2 (by linarith)
  choose K hK using fun z : Fin p × Fin p => rows_tight2 h z.1 z.2 (h4 z.1) (h4 z.2) hc
  refine ⟨∑ z, |K z| + 1, add_pos_of_nonneg_of_pos (Finset.sum_nonneg fun z _ => abs_nonneg _) one_pos, fun J hJ hlen => ?_⟩
  have hle : ∀ z, K z ≤ ∑ z, |K z| + 1 := fun z => by
    linarith [le_abs_self (K z), Finset.single_le_sum (fun z _ => abs_nonneg (K z)) (Finset.mem_univ z)]
  have hall : ∀ᶠ n in atTop, ∀ z : Fin p × Fin p, ENNReal.ofReal (1 - θ) <
      μ {ω | √((J n).length : ℝ) * (npCov (rowsOf X (J n) ω) z.1 z.2 - C z.1 z.2) ∈ Set.Ioo (-(∑ z, |K z| + 1)) (∑ z, |K z| + 1)} :=
    eventually_all.2 fun z => hK z _ (hle z) J hJ hlen
  filter_upwards [hall] with n hn
  have hz : ∀ z : Fin p × Fin p, μ.real {ω | ¬ √((J n).length : ℝ) * |npCov (rowsOf X (J n) ω) z.1 z.2 - C z.1 z.2| < ∑ z, |K z| + 1} ≤ θ :=
    fun z => entry_tight h (J n) z.1 z.2 (hn z)
  have hsub : {ω | ¬ ∀ i j, √((J n).length : ℝ) * |npCov (rowsOf X (J n) ω) i j - C i j| < ∑ z, |K z| + 1} ⊆
      ⋃ z : Fin p × Fin p, {ω | ¬ √((J n).length : ℝ) * |npCov (rowsOf X (J n) ω) z.1 z.2 - C z.1 z.2| < ∑ z, |K z| + 1} := by
    intro ω hω
    by_contra hcon
    simp only [Set.mem_iUnion, Set.mem_ofPred_eq, not_exists, not_not] at hcon
    exact hω fun i j => hcon (i, j)
  refine (measureReal_mono hsub (measure_ne_top _ _)).trans ((measureReal_iUnion_fintype_le _).trans ((Finset.sum_le_sum fun z _ => hz z).trans ?_))
  rw [Finset.sum_const, nsmul_eq_mul, Finset.card_univ, Fintype.card_prod, Fintype.card_fin, hθ]
  push_cast
  rw [← mul_div_assoc, div_le_iff₀ (by positivity)]
  nlinarith

/-- C134: one environment, no latents, observations with fourth moments.  Up to an arbitrarily small probability, the graph that is returned can entail
the true covariance and the parameters are within `K / √n` of the true ones. -/
theorem C134_root_n [IsProbabilityMeasure μ] (hX : Iid μ X C) (h4 : ∀ i, MemLp (fun ω => X 0 ω i) 4 μ) (hC : C.PosDef) (hp : p ≠ 0)
    (candidates : List (Adj p)) (hG : ∀ G ∈ candidates, Nonneg G ∧ Acyclic G) (G : Adj p) (hGm : G ∈ candidates)
    (hent : EntailedBy Finset.univ G fun _ : Fin 1 => C) {a b c : Rat} (ha : 0 < a) (hb : 0 < b) (hc : 0 < c) (hs : a + b + c = 1) {η : ℝ} (hη : 0 < η) :
    ∃ K : ℝ, 0 < K ∧ ∀ (E : FitEnv p 1) (rs : Int), CodeEnv E → (∀ k, Blind (E.rng 42 k)) →
      ∀ᶠ n : ℕ in atTop, μ.real {ω | ¬ GoodRun (K / √n) candidates C
        (equivalenceClass E candidates (fun _ => rowsOf X (List.range n) ω) true false (some [0]) [a, b, c] rs)} ≤ η := by
  obtain ⟨L, hL, δ₀, hδ₀, h⟩ := C134_errors candidates hG C hC hp G hGm hent
  obtain ⟨K, hK, ht⟩ := rows_tight_all hX h4 (half_pos hη)
  have haR : (0 : ℝ) < a := by exact_mod_cast ha
  refine ⟨L * (K / √(a / 2)), by positivity, fun E rs hE hblind => ?_⟩
  have hlen := foldRows_tendsto (fun _ => E.rng 42 0) ha hb hc hs tendsto_id
  have hcl := folds_close (X := fun _ : Fin 1 => X) (C := fun _ => C) (fun _ => hX) (E.rng 42) ha hb hc hs (N := fun n _ => n) (fun _ => tendsto_id) hδ₀
  have hcl' : ∀ᶠ n : ℕ in atTop, μ.real {ω | ¬ ∀ (i : Fin 3) (k : Fin 1) (x y : Fin p),
      |npCov (rowsOf X (foldRows (E.rng 42 k) a b c n i) ω) x y - C x y| < δ₀} ≤ η / 2 := by
    have := (ENNReal.tendsto_toReal ENNReal.zero_ne_top).comp hcl
    rw [ENNReal.toReal_zero] at this
    exact this.eventually (Iic_mem_nhds (half_pos hη))
  have hsq : Tendsto (fun n : ℕ => K / √(a / 2) / √(n : ℝ)) atTop (𝓝 0) :=
    (Real.tendsto_sqrt_atTop.comp tendsto_natCast_atTop_atTop).const_div_atTop _
  have hbig : ∀ᶠ n : ℕ in atTop, 2 / (a : ℝ) ≤ n := tendsto_natCast_atTop_atTop.eventually_ge_atTop _
  filter_upwards [hcl', ht _ (fun n => foldRows_nodup (E.rng 42 0) a b c n 0) (hlen 0 (by norm_num)), hsq.eventually (Iic_mem_nhds hδ₀), hbig,
    eventually_ge_atTop 1, (hlen 0 (by norm_num)).eventually_ge_atTop 2, (hlen 1 (by norm_num)).eventually_ge_atTop 2,
    (hlen 2 (by norm_num)).eventually_ge_atTop 2] with n hn1 hn2 hn3 hn4 hn5 l0 l1 l2
  have hn0 : (0 : ℝ) < n := by exact_mod_cast hn5
  have hsn : 0 < √(n : ℝ) := Real.sqrt_pos.2 hn0
  have hlower : (a / 2 : ℝ) * n ≤ (foldRows (E.rng 42 0) a b c n 0).length := by
    have h1 := (foldRows_length (E.rng 42 0) ha.le hb.le hc.le hs n).1
    have h2 : (n : ℝ) * a - 1 ≤ (foldRows (E.rng 42 0) a b c n 0).length := by exact_mod_cast h1
    rw [div_le_iff₀ haR] at hn4
    linarith
  refine le_trans (measureReal_mono (fun ω hω => ?_) (measure_ne_top _ _)) ((measureReal_union_le _ _).trans ((add_le_add hn1 hn2).trans (le_of_eq (add_halves η))))
  by_contra hcon
  simp only [Set.mem_union, Set.mem_ofPred_eq, not_or, not_not] at hcon
  obtain ⟨c1, c2⟩ := hcon
  refine hω ?_
  rw [mul_div_assoc]
  refine h _ hn3 (by positivity) E _ _ rs _ _ _ hE (splitData_rows (E.rng 42) hblind ha.le hb.le hc.le hs (fun _ : Fin 1 => X) (fun _ => n) ω) ?_ ?_ ?_
  · simp only [id] at l0
    simp [rowsOf]
    omega
  · simp only [List.mem_cons, List.not_mem_nil, or_false, forall_eq_or_imp, forall_eq]
    refine ⟨⟨?_, ?_⟩, ⟨?_, ?_⟩, ⟨?_, ?_⟩⟩
    · simp [rowsOf, ← List.length_pos_iff]; simp at l0; omega
    · simpa using c1 0 0
    · simp [rowsOf, ← List.length_pos_iff]; simp at l1; omega
    · simpa using c1 1 0
    · simp [rowsOf, ← List.length_pos_iff]; simp at l2; omega
    · simpa using c1 2 0
  · intro i j
    have h1 := c2 i j
    have h2 : √(a / 2 : ℝ) * √(n : ℝ) ≤ √((foldRows (E.rng 42 0) a b c n 0).length : ℝ) := by
      rw [← Real.sqrt_mul (by positivity)]
      exact Real.sqrt_le_sqrt hlower
    have h3 : √(a / 2 : ℝ) * √(n : ℝ) * |npCov (rowsOf X (foldRows (E.rng 42 0) a b c n 0) ω) i j - C i j| < K :=
      (mul_le_mul_of_nonneg_right h2 (abs_nonneg _)).trans_lt h1
    have h4 : 0 < √(a / 2 : ℝ) := Real.sqrt_pos.2 (by positivity)
    rw [div_div, lt_div_iff₀ (by positivity), mul_comm]
    simpa using h3

/-! ## Exponential rates -/

/-- C134: the probability that a run with one environment does not return, or returns something else than a candidate that can entail `C` with parameters
within `ε` of those that do, decreases exponentially with the number of observations. -/
theorem C134_one_environment [IsProbabilityMeasure μ] (hX : Iid μ X C) (hexp : ExpSquares μ (X 0)) (hC : C.PosDef) (hp : p ≠ 0)
    (candidates : List (Adj p)) (hG : ∀ G ∈ candidates, Nonneg G ∧ Acyclic G) (G : Adj p) (hGm : G ∈ candidates)
    (hent : EntailedBy Finset.univ G fun _ : Fin 1 => C) {a b c : Rat} (ha : 0 < a) (hb : 0 < b) (hc : 0 < c) (hs : a + b + c = 1) {ε : ℝ} (hε : 0 < ε) :
    ∃ K : ℝ, 0 < K ∧ ∃ z : ℝ, 0 < z ∧ ∀ (E : FitEnv p 1) (n : ℕ) (rs : Int), CodeEnv E → (∀ k, Blind (E.rng 42 k)) →
      μ.real {ω | ¬ GoodRun ε candidates C (equivalenceClass E candidates (fun _ => rowsOf X (List.range n) ω) true false (some [0]) [a, b, c] rs)} ≤
        K * Real.exp (-z * n) := by
  obtain ⟨δ, hδ, h⟩ := C120_small_errors candidates hG C hC hp G hGm hent hε
  obtain ⟨K, hK, z, hz, hr⟩ := runs_rate (X := fun _ : Fin 1 => X) (C := fun _ => C) (fun _ => hX) (fun _ => hexp) (fun _ => hC) ha hb hc hs one_pos 0 hδ
  refine ⟨K, hK, z, hz, fun E n rs hE hblind => ?_⟩
  have := hr (E.rng 42) (fun _ => n) (fun ω => GoodRun ε candidates C (equivalenceClass E candidates (fun _ => rowsOf X (List.range n) ω) true false (some [0]) [a, b, c] rs))
    hblind (by simp) fun ω training testG testI q1 q2 q3 q4 q5 q6 q7 => h E _ _ rs training testG testI hE q1 q2 fun f hf =>
      ⟨List.ne_nil_of_length_pos (q3 f hf 0), fun i j => (q7 f hf).2 0 i j⟩
  simpa using this

/-- C134: with observations that keep arriving, almost surely the returned graphs are right and the parameters converge to the true ones. -/
theorem C134_strongly_consistent [IsProbabilityMeasure μ] (hX : Iid μ X C) (hexp : ExpSquares μ (X 0)) (hC : C.PosDef) (hp : p ≠ 0)
    (candidates : List (Adj p)) (hG : ∀ G ∈ candidates, Nonneg G ∧ Acyclic G) (G : Adj p) (hGm : G ∈ candidates)
    (hent : EntailedBy Finset.univ G fun _ : Fin 1 => C) {a b c : Rat} (ha : 0 < a) (hb : 0 < b) (hc : 0 < c) (hs : a + b + c = 1)
    (E : ℕ → FitEnv p 1) (hE : ∀ n, CodeEnv (E n)) (hblind : ∀ n k, Blind ((E n).rng 42 k)) (rs : ℕ → Int) :
    ∀ᵐ ω ∂μ, ∀ ε > 0, ∀ᶠ n : ℕ in atTop, GoodRun ε candidates C
      (equivalenceClass (E n) candidates (fun _ => rowsOf X (List.range n) ω) true false (some [0]) [a, b, c] (rs n)) := by
  have h1 : ∀ q : ℕ, ∀ᵐ ω ∂μ, ∀ᶠ n : ℕ in atTop, GoodRun (1 / (q + 1)) candidates C
      (equivalenceClass (E n) candidates (fun _ => rowsOf X (List.range n) ω) true false (some [0]) [a, b, c] (rs n)) := by
    intro q
    obtain ⟨K, hK, z, hz, h⟩ := C134_one_environment hX hexp hC hp candidates hG G hGm hent ha hb hc hs (ε := 1 / (q + 1)) (by positivity)
    have h' := eventually_of_rate (e := 1) (μ := μ) (N := fun n _ => n) (K := K) hz (fun n _ => le_rfl) (fun n => by
      have := h (E n) n (rs n) (hE n) (hblind n)
      rwa [← Fin.sum_univ_one (fun _ : Fin 1 => Real.exp (-z * n))] at this)
    filter_upwards [h'] with ω hω
    filter_upwards [hω] with n hn
    simpa only [Set.mem_ofPred_eq, not_not] using hn
  filter_upwards [ae_all_iff.2 h1] with ω hω ε hε
  obtain ⟨q, hq⟩ := exists_nat_one_div_lt hε
  filter_upwards [hω q] with n hn
  obtain ⟨P, m, h1, h2, ⟨B, w, b1, b2, b3, b4, b5⟩, h4⟩ := hn
  exact ⟨P, m, h1, h2, ⟨B, w, b1, b2, b3, fun i j => (b4 i j).trans hq, fun j => (b5 j).trans hq⟩, h4⟩

/-- C134: with latents, too, the probability of a wrong class decreases exponentially: one environment, any numbers of latents, fits that are within `δ` of
the best documented score, however they are found, with or without pruning. -/
theorem C134_latents (candidates : List (Adj p)) (hG : ∀ G ∈ candidates, Nonneg G) (ns : List Nat) (C : Matrix (Fin p) (Fin p) ℝ) (hC : C.PosDef)
    (G : Adj p) (hGm : G ∈ candidates) (h0 : Nat) (hh0 : h0 ∈ ns) (happ : Approximates h0 Finset.univ G fun _ : Fin 1 => C) :
    ∃ δ > 0, ∀ {a b c : Rat}, 0 < a → 0 < b → 0 < c → a + b + c = 1 → ∀ {Ω : Type} [MeasurableSpace Ω] (μ : Measure Ω) [IsProbabilityMeasure μ]
      (X : ℕ → Ω → Fin p → ℝ), Iid μ X C → ExpSquares μ (X 0) →
      ∃ K : ℝ, 0 < K ∧ ∃ z : ℝ, 0 < z ∧ ∀ (E : FitEnv p 1) (solverKnown pruneEdges : Bool) (rs : Int) (n : ℕ), E.cov = npCov → (∀ d h, GoodFit (E.fit d h)) →
        (∀ d h n A I m s, E.fit d h n A I = .ok (m, s) → m.1 = h) → (∀ f, IsArgsort f (E.argsort f)) → (∀ k, Blind (E.rng 42 k)) →
        (∀ d h, GoodData d → AlmostOptimal δ E.it h d (E.fit d h)) →
        μ.real {ω | ∃ P I m, equivalenceClass E candidates (fun _ => rowsOf X (List.range n) ω) solverKnown pruneEdges (some ns) [a, b, c] rs =
          .ok (P, I, m) ∧ ¬ Approximates m.1 I m.A fun _ : Fin 1 => C} ≤ K * Real.exp (-z * n) := by
  obtain ⟨δ, hδ, h1⟩ := returned_balanced candidates hG ns (fun _ : Fin 1 => C) (fun _ => hC) one_pos (ρ := 1) one_pos
  refine ⟨δ, hδ, ?_⟩
  intro a b c ha hb hc hs Ω _ μ _ X hX hexp
  obtain ⟨K, hK, z, hz, hr⟩ := runs_rate (X := fun _ : Fin 1 => X) (C := fun _ => C) (fun _ => hX) (fun _ => hexp) (fun _ => hC) ha hb hc hs one_pos 0 hδ
  refine ⟨K, hK, z, hz, ?_⟩
  intro E solverKnown pruneEdges rs n hcov hfit hlat harg hblind hopt
  have key := hr (E.rng 42) (fun _ => n) (fun ω => ∀ P I m, equivalenceClass E candidates (fun _ => rowsOf X (List.range n) ω) solverKnown pruneEdges (some ns) [a, b, c] rs =
        .ok (P, I, m) → Approximates m.1 I m.A fun _ : Fin 1 => C) hblind (by simp) ?_
  · simpa only [not_forall, exists_prop, Finset.univ_unique, Finset.sum_singleton] using key
  · intro ω training testG testI hsplit _ hpos _ _ _ hcl P I m hr
    refine h1 E _ solverKnown pruneEdges _ rs training testG testI G h0 P I m hfit hlat harg hsplit (fun f hf => balanced_one (hpos f hf 0))
      (fun f hf => by rw [hcov]; exact hcl f hf) (fun h _ => hopt _ h ⟨fun k => ?_, fun k => hpos training (by simp) k, one_pos⟩) hGm hh0 happ hr
    change (E.cov (training.getD k [])).PosDef
    rw [hcov]
    exact (hcl training (by simp)).1 k

end Verif
