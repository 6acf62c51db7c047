import Verif.Props.OneEnv
import Verif.Props.FoldRows
import Verif.Props.RobustClosed

/-!
# C120: with one environment and no latents the selected graph and the parameters are consistent
-/

namespace Verif

open Spec Matrix MeasureTheory ProbabilityTheory Filter Topology

variable {p : Nat}

/-! ## Small errors, for all sample sizes -/

theorem balanced_one {n : Fin 1 → Nat} (hn : 0 < n 0) : Balanced 1 n := by
  have h0 : (n 0 : ℝ) ≠ 0 := by exact_mod_cast hn.ne'
  refine ⟨fun k => by rw [Subsingleton.elim k 0]; exact hn, fun k => ?_, fun k => ?_⟩
  · rw [Subsingleton.elim k 0, Fin.sum_univ_one, one_mul]
  · rw [Subsingleton.elim k 0, Fin.sum_univ_one, one_mul]

/-- Weights that solve the normal equations are those of the regressions. -/
theorem regWeights_of_normal {A : Adj p} {B S : Matrix (Fin p) (Fin p) ℝ} (hB : Respects A B) (hS : S.PosDef)
    (hreg : ∀ i j, A i j ≠ 0 → ∑ k, S i k * B k j = S j i) : regWeights A S = B := by
  ext i j
  unfold regWeights
  rw [Matrix.of_apply]
  have hu : IsUnit (parentMatrix A j S).det := isUnit_iff_ne_zero.2 (parentMatrix_det A j hS)
  have hv : parentMatrix A j S *ᵥ (fun i => B i j) = parentVector A j S := by
    funext i
    rw [parentMatrix_row]
    unfold parentVector
    split_ifs with hi
    · rw [← hreg i j hi]
      refine Finset.sum_congr rfl fun k _ => ?_
      split_ifs with hk
      · rfl
      · rw [hB k j (not_not.1 hk), mul_zero]
    · exact hB i j (not_not.1 hi)
  rw [← hv, Matrix.mulVec_mulVec, Matrix.nonsing_inv_mul _ hu, Matrix.one_mulVec]

/-- The covariance of the residuals of the regressions. -/
noncomputable def resCov (A : Adj p) (D : Matrix (Fin p) (Fin p) ℝ) : Matrix (Fin p) (Fin p) ℝ := (1 - (regWeights A D)ᵀ) * D * (1 - (regWeights A D)ᵀ)ᵀ

theorem resCov_continuousAt (A : Adj p) {C : Matrix (Fin p) (Fin p) ℝ} (hC : C.PosDef) : ContinuousAt (resCov A) C := by
  have h1 : ContinuousAt (fun D : Matrix (Fin p) (Fin p) ℝ => (1 - (regWeights A D)ᵀ)) C := by
    refine ContinuousAt.sub continuousAt_const ?_
    have ht : Continuous fun X : Matrix (Fin p) (Fin p) ℝ => Xᵀ := continuous_id.matrix_transpose
    exact ht.continuousAt.comp (regWeights_continuousAt A hC)
  have hcont : Continuous fun x : Matrix (Fin p) (Fin p) ℝ × Matrix (Fin p) (Fin p) ℝ => x.1 * x.2 * x.1ᵀ :=
    ((continuous_fst.matrix_mul continuous_snd).matrix_mul continuous_fst.matrix_transpose)
  exact ContinuousAt.comp (x := C) (f := fun D : Matrix (Fin p) (Fin p) ℝ => ((1 - (regWeights A D)ᵀ), D)) hcont.continuousAt (h1.prodMk continuousAt_id)

/-- A continuous function of the entries changes little. -/
theorem near_of_continuousAt {F : Matrix (Fin p) (Fin p) ℝ → Matrix (Fin p) (Fin p) ℝ} {C : Matrix (Fin p) (Fin p) ℝ} (hF : ContinuousAt F C) {ε : ℝ} (hε : 0 < ε) :
    ∃ δ > 0, ∀ S : Matrix (Fin p) (Fin p) ℝ, (∀ i j, |S i j - C i j| < δ) → ∀ i j, |F S i j - F C i j| < ε := by
  obtain ⟨δ, hδ, h⟩ := (Metric.continuousAt_iff (α := Fin p → Fin p → ℝ) (β := Fin p → Fin p → ℝ)).1 hF ε hε
  refine ⟨δ, hδ, fun S hS i j => ?_⟩
  have h1 := @h S ((dist_pi_lt_iff hδ).2 fun i => (dist_pi_lt_iff hδ).2 fun j => by rw [Real.dist_eq]; exact hS i j)
  have h2 := (dist_pi_lt_iff hε).1 ((dist_pi_lt_iff hε).1 h1 i) j
  rwa [Real.dist_eq] at h2

/-- Positive semidefinite matrices close to a positive definite one are positive definite. -/
theorem posDef_near {C : Matrix (Fin p) (Fin p) ℝ} (hC : C.PosDef) :
    ∃ δ > 0, ∀ S : Matrix (Fin p) (Fin p) ℝ, S.PosSemidef → (∀ i j, |S i j - C i j| < δ) → S.PosDef := by
  have hcont : Continuous fun S : Matrix (Fin p) (Fin p) ℝ => S.det := Continuous.matrix_det continuous_id
  obtain ⟨δ, hδ, h⟩ := (Metric.continuousAt_iff (α := Fin p → Fin p → ℝ)).1 (hcont.continuousAt (x := C)) C.det hC.det_pos
  refine ⟨δ, hδ, fun S hS hw => hS.posDef_iff_det_ne_zero.2 fun h0 => ?_⟩
  have h1 := @h S ((dist_pi_lt_iff hδ).2 fun i => (dist_pi_lt_iff hδ).2 fun j => by rw [Real.dist_eq]; exact hw i j)
  rw [h0, Real.dist_eq, zero_sub, abs_neg, abs_of_pos hC.det_pos] at h1
  exact lt_irrefl _ h1

/-- The parameters of a model are close to those of a model over its graph that entails `C`. -/
def Spec.CloseTo (ε : ℝ) (C : Matrix (Fin p) (Fin p) ℝ) (m : LModel p 0 1) : Prop :=
  ∃ (B : Matrix (Fin p) (Fin p) ℝ) (w : Fin p → ℝ), Respects m.A B ∧ (∀ j, 0 < w j) ∧ Entails B (Matrix.diagonal w) C ∧
    (∀ i j, |m.B i j - B i j| < ε) ∧ ∀ j, |m.omegas 0 j - w j| < ε

theorem closeTo_near {A : Adj p} (hac : Acyclic A) {C : Matrix (Fin p) (Fin p) ℝ} (hC : C.PosDef) {ε : ℝ} (hε : 0 < ε) :
    ∃ δ > 0, ∀ (S : Matrix (Fin p) (Fin p) ℝ) (m : LModel p 0 1), S.PosDef → (∀ i j, |S i j - C i j| < δ) → Regressions A S m →
      EntailedBy Finset.univ A (fun _ : Fin 1 => C) → CloseTo ε C m := by
  obtain ⟨δ₁, h1, n1⟩ := near_of_continuousAt (regWeights_continuousAt A hC) hε
  obtain ⟨δ₂, h2, n2⟩ := near_of_continuousAt (resCov_continuousAt A hC) hε
  refine ⟨min δ₁ δ₂, lt_min h1 h2, fun S m hS hw hr hent => ?_⟩
  obtain ⟨B, w, b1, b2, -, b4⟩ := hent
  have hsym : ∀ a b, S a b = S b a := fun a b => (congrFun (congrFun hS.1 a) b).symm
  have e1 := regWeights_of_normal hr.respects hS hr.normal
  have e2 := regWeights_eq hac b1 hC (b4 0)
  refine ⟨B, w 0, ?_, b2 0, b4 0, fun i j => ?_, fun j => ?_⟩
  · rw [hr.graph]; exact b1
  · have := n1 S (fun i j => (hw i j).trans_le (min_le_left _ _)) i j
    rwa [e1, e2] at this
  · have := n2 S (fun i j => (hw i j).trans_le (min_le_right _ _)) j j
    unfold resCov at this
    rw [e1, e2, residual_diag m.B S hsym, ← hr.var, show (1 - Bᵀ) * C * (1 - Bᵀ)ᵀ = Matrix.diagonal (w 0) from b4 0, Matrix.diagonal_apply_eq] at this
    exact this

/-- The libraries, and the configuration, for which the fits are the maxima of the likelihood. -/
structure Spec.CodeEnv (E : FitEnv p 1) : Prop where
  cov : E.cov = npCov
  argsort : ∀ f, IsArgsort f (E.argsort f)
  fit : ∃ (svd : Matrix (Fin p) (Fin p) ℝ → Matrix (Fin p) (Fin p) ℝ × (Fin p → ℝ)) (num : NumLib p 1) (cfg : ScoreCfg)
    (u v : Nat → Nat → Nat → Fin (p * p) → ℝ), E.fit = codeFit E.it svd num cfg u v ∧ (∀ d, ExactLibs num cfg d) ∧ 0 < cfg.thresholdScore ∧
      (∀ x, cfg.psiMax = some x → 1 < x) ∧ 0 < cfg.stop.maxIter ∧ 0 < cfg.stop.maxFluctuations

/-- The result of a run that is wanted: all variables as targets, a candidate that can entail `C`, and parameters within `ε` of those of the model
over it that entails `C`. -/
def Spec.GoodRun (ε : ℝ) (candidates : List (Adj p)) (C : Matrix (Fin p) (Fin p) ℝ) (r : Except Err (Adj p × Finset (Fin p) × AnyModel p 1)) : Prop :=
  ∃ (P : Adj p) (m : LModel p 0 1), r = .ok (P, Finset.univ, ⟨0, m⟩) ∧ m.A ∈ candidates ∧ CloseTo ε C m ∧ ∀ i j, P i j = if m.A i j ≠ 0 then 1 else 0

/-- For one environment a bound on the errors of the sample covariances is enough for a run that selects a candidate that can entail `C`, and fits it by
regressions on the training data. -/
theorem run_regressions (candidates : List (Adj p)) (hG : ∀ G ∈ candidates, Nonneg G ∧ Acyclic G) (C : Matrix (Fin p) (Fin p) ℝ) (hC : C.PosDef)
    (hp : p ≠ 0) (G : Adj p) (hGm : G ∈ candidates) (hent : EntailedBy Finset.univ G fun _ : Fin 1 => C) :
    ∃ δ > 0, ∀ (E : FitEnv p 1) (data : Fin 1 → Sample p) (folds : List Rat) (rs : Int) (training testG testI : List (Sample p)), CodeEnv E →
      splitData (E.rng 42) (List.ofFn data) folds = .ok [training, testG, testI] → (∀ s ∈ training, s.length ≠ 1) →
      (∀ f ∈ [training, testG, testI], f.getD 0 [] ≠ [] ∧ ∀ i j, |npCov (f.getD 0 []) i j - C i j| < δ) →
      ∃ (P : Adj p) (m : LModel p 0 1), equivalenceClass E candidates data true false (some [0]) folds rs = .ok (P, Finset.univ, ⟨0, m⟩) ∧ m.A ∈ candidates ∧
        Regressions m.A (npCov (training.getD 0 [])) m ∧ (npCov (training.getD 0 [])).PosDef ∧ EntailedBy Finset.univ m.A (fun _ : Fin 1 => C) ∧
        ∀ i j, P i j = if m.A i j ≠ 0 then 1 else 0 := by
  obtain ⟨δ₁, h1, r1⟩ := returned_balanced candidates (fun G h => (hG G h).1) [0] (fun _ : Fin 1 => C) (fun _ => hC) one_pos (ρ := 1) one_pos
  obtain ⟨δ₂, h2, r2⟩ := posDef_near hC
  refine ⟨min δ₁ δ₂, lt_min h1 h2, ?_⟩
  intro E data folds rs training testG testI hE hsplit hsize hfolds
  obtain ⟨hcov, harg, svd, num, cfg, u, v, hfit, hlib, hthr, hpsi, hit, hfl⟩ := hE
  have hpd : ∀ f ∈ [training, testG, testI], (npCov (f.getD 0 [])).PosDef := fun f hf =>
    r2 _ (C97_posSemidef _ (List.length_pos_of_ne_nil (hfolds f hf).1)) fun i j => ((hfolds f hf).2 i j).trans_le (min_le_right _ _)
  have hgood : ∀ f ∈ [training, testG, testI], GoodData (foldData E.cov f 1) := fun f hf =>
    ⟨fun k => by rw [Subsingleton.elim k 0, hcov]; exact hpd f hf, fun k => by rw [Subsingleton.elim k 0]; exact List.length_pos_of_ne_nil (hfolds f hf).1, one_pos⟩
  have hd := hgood training (by simp)
  have hl := hlib (foldData E.cov training 1)
  have hgf : ∀ d h, GoodFit (E.fit d h) := fun d h => by
    rw [hfit]
    exact codeFit_good _ _ _ _ _ _ _ _ (fun hc => by rw [hl.cvx] at hc; simp at hc)
  have hlat : ∀ d h n A I m s, E.fit d h n A I = .ok (m, s) → m.1 = h := by
    intro d h n A I m s hm
    rw [hfit] at hm
    exact codeFit_latents hm
  obtain ⟨⟨P, I, m⟩, hr⟩ := C72_cvx E svd num cfg u v hfit hp candidates (List.ne_nil_of_mem hGm) hG data false [0] (by simp) (by simp)
    folds rs training testG testI hsplit hsize hgood harg hl.cvx (fun A => cvxFeasible_of_optimal (hl.opt A)) hthr hpsi hit hfl (by simp)
  have happ := r1 E data true false folds rs training testG testI G 0 P I m hgf hlat harg hsplit
    (fun f hf => balanced_one (List.length_pos_of_ne_nil (hfolds f hf).1))
    (fun f hf => ⟨fun k => (hgood f hf).posDef k, fun k i j => by
      rw [Subsingleton.elim k 0]
      change |E.cov (f.getD 0 []) i j - C i j| < δ₁
      rw [hcov]
      exact ((hfolds f hf).2 i j).trans_le (min_le_left _ _)⟩)
    (fun h hh => by
      obtain rfl := List.mem_singleton.1 hh
      rw [hfit]
      exact C119_almost_optimal hd hl h1.le)
    hGm (by simp) (entailedWith_zero.2 ⟨(hG G hGm).2, hent⟩).approximates hr
  obtain ⟨s, hmain⟩ : ∃ s, fitMain E data true (some [0]) false folds none none (some candidates) 42 = .ok (m, I, s) := by
    unfold equivalenceClass withIcpdag at hr
    split at hr
    · simp at hr
    · rename_i m' I' s' hm'
      split at hr
      · simp at hr
      · cases hr
        exact ⟨_, hm'⟩
  obtain ⟨_, _, _, graphs, ns', z1, z2, z3, z4⟩ := fitMain_spec hgf hlat harg hmain
  rw [hsplit] at z1
  cases z1
  cases z2
  cases z3
  obtain ⟨q1, ⟨G', g1, -, g3⟩, hac, -, -, ⟨-, -, -, -, -, -, -, ⟨sf, q7⟩, -⟩⟩ := z4 (fun G h => (hG G h).1)
  obtain rfl := g3 rfl
  have hm0 : m.1 = 0 := List.mem_singleton.1 q1
  obtain ⟨hI, hP⟩ := C119_all_targets E svd num cfg u v hfit harg candidates (fun G h => (hG G h).1) data true false (some [0]) folds rs training testG testI
    hsplit hd hl P I m hr hm0
  rw [hfit, hm0] at q7
  obtain ⟨-, m', e1, e2, -⟩ := fitted_regressions (hG _ g1).1 hd hl q7
  subst e1
  subst hI
  refine ⟨P, m', hr, g1, ?_, hpd _ (by simp), ?_, hP⟩
  · have := e2
    change Regressions _ (E.cov (training.getD 0 [])) m' at this
    rwa [hcov] at this
  · exact (entailedWith_zero.1 ((C113_closed fun _ => hC).1 happ)).2

/-- C120: for one environment a bound on the errors of the sample covariances works for all sample sizes (compare `C113_sizes_matter`). -/
theorem C120_small_errors (candidates : List (Adj p)) (hG : ∀ G ∈ candidates, Nonneg G ∧ Acyclic G) (C : Matrix (Fin p) (Fin p) ℝ) (hC : C.PosDef)
    (hp : p ≠ 0) (G : Adj p) (hGm : G ∈ candidates) (hent : EntailedBy Finset.univ G fun _ : Fin 1 => C) {ε : ℝ} (hε : 0 < ε) :
    ∃ δ > 0, ∀ (E : FitEnv p 1) (data : Fin 1 → Sample p) (folds : List Rat) (rs : Int) (training testG testI : List (Sample p)), CodeEnv E →
      splitData (E.rng 42) (List.ofFn data) folds = .ok [training, testG, testI] → (∀ s ∈ training, s.length ≠ 1) →
      (∀ f ∈ [training, testG, testI], f.getD 0 [] ≠ [] ∧ ∀ i j, |npCov (f.getD 0 []) i j - C i j| < δ) →
      GoodRun ε candidates C (equivalenceClass E candidates data true false (some [0]) folds rs) := by
  obtain ⟨δ₁, h1, r1⟩ := run_regressions candidates hG C hC hp G hGm hent
  obtain ⟨δ₃, h3, r3⟩ := exists_uniform (ι := Fin candidates.length)
    (P := fun a δ => ∀ (S : Matrix (Fin p) (Fin p) ℝ) (m : LModel p 0 1), S.PosDef → (∀ i j, |S i j - C i j| < δ) → Regressions (candidates.get a) S m →
      EntailedBy Finset.univ (candidates.get a) (fun _ : Fin 1 => C) → CloseTo ε C m)
    (fun a => closeTo_near (hG _ (List.get_mem _ _)).2 hC hε)
    (fun a δ δ' _ hle h S m hS hw => h S m hS fun i j => (hw i j).trans_le hle)
  refine ⟨min δ₁ δ₃, lt_min h1 h3, ?_⟩
  intro E data folds rs training testG testI hE hsplit hsize hfolds
  obtain ⟨P, m, q1, q2, q3, q4, q5, q6⟩ := r1 E data folds rs training testG testI hE hsplit hsize fun f hf =>
    ⟨(hfolds f hf).1, fun i j => ((hfolds f hf).2 i j).trans_le (min_le_left _ _)⟩
  obtain ⟨a, ha⟩ := List.get_of_mem q2
  refine ⟨P, m, q1, q2, r3 a (npCov (training.getD 0 [])) m q4 (fun i j => ?_) (by rw [ha]; exact q3) (by rw [ha]; exact q5), q6⟩
  exact ((hfolds training (by simp)).2 i j).trans_le (min_le_right _ _)

/-! ## In probability -/

variable {Ω : Type} [MeasurableSpace Ω] {μ : Measure Ω}

/-- C120: with independent observations from a distribution with covariance matrix `C` the probability that the run does not return, or returns something
else than a candidate that can entail `C` with parameters within `ε` of those that do, tends to zero with the number of observations. -/
theorem C120_consistent [IsProbabilityMeasure μ] {X : ℕ → Ω → Fin p → ℝ} {C : Matrix (Fin p) (Fin p) ℝ} (hX : Iid μ X C) (hC : C.PosDef) (hp : p ≠ 0)
    (candidates : List (Adj p)) (hG : ∀ G ∈ candidates, Nonneg G ∧ Acyclic G) (G : Adj p) (hGm : G ∈ candidates)
    (hent : EntailedBy Finset.univ G fun _ : Fin 1 => C) (E : FitEnv p 1) (hE : CodeEnv E) (hblind : ∀ k, Blind (E.rng 42 k)) {a b c : Rat} (ha : 0 < a)
    (hb : 0 < b) (hc : 0 < c) (hs : a + b + c = 1) (rs : Int) {ε : ℝ} (hε : 0 < ε) :
    Tendsto (fun n => μ {ω | ¬ GoodRun ε candidates C
      (equivalenceClass E candidates (fun _ => rowsOf X (List.range n) ω) true false (some [0]) [a, b, c] rs)}) atTop (𝓝 0) := by
  obtain ⟨δ, hδ, h⟩ := C120_small_errors candidates hG C hC hp G hGm hent hε
  have hlen := foldRows_tendsto (fun _ => E.rng 42 0) ha hb hc hs tendsto_id
  have hpr : ∀ i < 3, Tendsto (fun n => μ {ω | ¬ ∀ x y, |npCov (rowsOf X (foldRows (E.rng 42 0) a b c n i) ω) x y - C x y| < δ}) atTop (𝓝 0) :=
    fun i hi => C120_in_probability hX (fun n => foldRows (E.rng 42 0) a b c n i) (fun n => foldRows_nodup _ _ _ _ _ _) (hlen i hi) hδ
  have hsum := ((hpr 0 (by norm_num)).add (hpr 1 (by norm_num))).add (hpr 2 (by norm_num))
  rw [add_zero, add_zero] at hsum
  refine tendsto_of_tendsto_of_tendsto_of_le_of_le' tendsto_const_nhds hsum (Eventually.of_forall fun _ => zero_le) ?_
  filter_upwards [(hlen 0 (by norm_num)).eventually_ge_atTop 2, (hlen 1 (by norm_num)).eventually_ge_atTop 2,
    (hlen 2 (by norm_num)).eventually_ge_atTop 2] with n n0 n1 n2
  refine le_trans (measure_mono fun ω hω => ?_) ((measure_union_le _ _).trans (add_le_add (measure_union_le _ _) le_rfl))
  by_contra hcon
  simp only [Set.mem_union, Set.mem_ofPred_eq, not_or, not_not] at hcon
  refine hω (h E _ _ rs _ _ _ hE (splitData_rows (E.rng 42) hblind ha.le hb.le hc.le hs (fun _ : Fin 1 => X) (fun _ => n) ω) ?_ ?_)
  · simp only [id] at n0
    simp [rowsOf]
    omega
  · simp only [List.mem_cons, List.not_mem_nil, or_false, forall_eq_or_imp, forall_eq]
    refine ⟨⟨?_, ?_⟩, ⟨?_, ?_⟩, ⟨?_, ?_⟩⟩
    · simp [rowsOf, ← List.length_pos_iff]; simp at n0; omega
    · simpa using hcon.1.1
    · simp [rowsOf, ← List.length_pos_iff]; simp at n1; omega
    · simpa using hcon.1.2
    · simp [rowsOf, ← List.length_pos_iff]; simp at n2; omega
    · simpa using hcon.2

end Verif
