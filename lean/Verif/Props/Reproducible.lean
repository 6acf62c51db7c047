import Verif.Props.Threshold

/-!
# C108: whether a call can be repeated

The documentation of `random_state` says that successive calls with the same random state have the same result.  Besides the generator that
splits the data, the solvers `grad` (the default) and `adaptive` draw their starting points from the global generator of numpy.
-/

namespace Verif

open Matrix Spec

variable {p l e : Nat}

/-- C108: with the convex solver no fit depends on the global random generator. -/
theorem C108_cvx_fit (it : SetIter p) (svd : Matrix (Fin p) (Fin p) ℝ → Matrix (Fin p) (Fin p) ℝ × (Fin p → ℝ)) (num : NumLib p e)
    (cfg : ScoreCfg) (hcvx : cfg.solver = .cvx) (u v u' v' : Nat → Nat → Nat → Fin (p * p) → ℝ) :
    codeFit it svd num cfg u v = codeFit it svd num cfg u' v' := by
  have h : ∀ {l : Nat} (d : Data p e) (x y x' y' : Nat → Fin (p * p) → ℝ) (I : Finset (Fin p)),
      (codeSolvers it num cfg d x y I : Solvers p l e) = codeSolvers it num cfg d x' y' I := by
    intro l d x y x' y' I
    simp only [codeSolvers, hcvx]
  funext d h' n A I
  unfold codeFit
  simp only [h d (u h' n) (v h' n) (u' h' n) (v' h' n)]

/-- C108: with the convex solver, what `equivalence_class` returns is determined by the arguments: it does not depend on the state of the
global random generator, nor on `random_state` (C60). -/
theorem C108_cvx (E : FitEnv p e) (svd : Matrix (Fin p) (Fin p) ℝ → Matrix (Fin p) (Fin p) ℝ × (Fin p → ℝ)) (num : NumLib p e)
    (cfg : ScoreCfg) (hcvx : cfg.solver = .cvx) (u v u' v' : Nat → Nat → Nat → Fin (p * p) → ℝ) (candidates : List (Adj p))
    (data : Fin e → Sample p) (known prune : Bool) (ns : Option (List Nat)) (folds : List Rat) (rs rs' : Int) :
    equivalenceClass { E with fit := codeFit E.it svd num cfg u v } candidates data known prune ns folds rs =
        equivalenceClass { E with fit := codeFit E.it svd num cfg u' v' } candidates data known prune ns folds rs' ∧
      equivalenceClassGes { E with fit := codeFit E.it svd num cfg u v } data known ns folds rs =
        equivalenceClassGes { E with fit := codeFit E.it svd num cfg u' v' } data known ns folds rs' := by
  rw [C108_cvx_fit E.it svd num cfg hcvx u v u' v']
  exact ⟨rfl, rfl⟩

namespace ReproExample

open BSolversExample

/-- The sample covariances are `c` times the identity in both environments. -/
noncomputable def data (c : ℝ) (n : Fin 2 → ℕ) : Data 2 2 := ⟨fun _ => Matrix.diagonal fun _ => c, n⟩

theorem data_posSemidef {c : ℝ} (hc : 0 ≤ c) (n : Fin 2 → ℕ) (k : Fin 2) : ((data c n).covs k).PosSemidef :=
  Matrix.PosSemidef.diagonal (fun _ => hc)

theorem maskVec_draw (x : Fin (2 * 2) → ℝ) : maskVec graph x = vecM (1 - !![0, -x (finProdFinEquiv (0, 1)); 0, 0]ᵀ) := by
  funext k
  rw [← pair_div_mod k, maskVec_pair, vecM_pair]
  generalize k.divNat = i
  generalize k.modNat = j
  fin_cases i <;> fin_cases j <;> simp [graph]

theorem step_draw {num : NumLib 2 2} (hs : GoodSqrt num.sqrtm) {c : ℝ} (hc : 0 ≤ c) (n : Fin 2 → ℕ) (lr : ℝ) (x : Fin (2 * 2) → ℝ) :
    x - lr • (nMatrix num (data c n) (fun k => ((model 0).noise k)⁻¹) *ᵥ x) = (1 - lr * (2 * c)) • x := by
  have hx : x = vecM (1 - (unflattenB x)ᵀ) := (vecM_unflattenB x).symm
  generalize (1 - (unflattenB x)ᵀ) = Q at hx
  subst hx
  rw [nMatrix_mulVec hs (data_posSemidef hc n) (fun k => by rw [noise_eq_one, inv_one]; exact Matrix.PosSemidef.one)]
  funext k
  simp only [noise_eq_one, inv_one, Matrix.one_mul, Fin.sum_univ_two, Pi.sub_apply, Pi.smul_apply, smul_eq_mul, vecM, data,
    Matrix.add_apply, Matrix.mul_diagonal]
  ring

theorem step_scale {num : NumLib 2 2} (hs : GoodSqrt num.sqrtm) {c : ℝ} (hc : 0 ≤ c) (n : Fin 2 → ℕ) (lr b : ℝ) :
    maskVec graph (vecM (1 - !![0, b; 0, 0]ᵀ) - lr • (nMatrix num (data c n) (fun k => ((model 0).noise k)⁻¹) *ᵥ
      vecM (1 - !![0, b; 0, 0]ᵀ))) = vecM (1 - !![0, (1 - lr * (2 * c)) * b; 0, 0]ᵀ) := by
  rw [step_draw hs hc, maskVec_draw, Pi.smul_apply, vecM_pair]
  simp

theorem vec_diff (b b' : ℝ) (k : Fin (2 * 2)) :
    |vecM (1 - !![0, b; 0, 0]ᵀ) k - vecM (1 - !![0, b'; 0, 0]ᵀ) k| = if k = finProdFinEquiv (0, 1) then |b - b'| else 0 := by
  rw [← pair_div_mod k, vecM_pair, vecM_pair]
  generalize k.divNat = i
  generalize k.modNat = j
  simp only [EmbeddingLike.apply_eq_iff_eq]
  fin_cases i <;> fin_cases j <;> simp
  rw [← abs_neg]
  congr 1
  ring

end ReproExample

open BSolversExample ReproExample in
/-- C108, violation for the default solver: what `_solve_for_B_grad` returns depends on the draw from the global generator.  With the graph
`0 → 1`, unit noise variances and both sample covariances `50` times the identity, a draw between `9 / 10` and `1` gives the weight
`- draw / 2 ^ 34`, so any two different draws give different weights. -/
theorem C108_grad_depends (it : SetIter 2) (num : NumLib 2 2) (hs : GoodSqrt num.sqrtm) (hfin : ∀ x, num.finite x = true) (n : Fin 2 → ℕ)
    (x y : Fin (2 * 2) → ℝ) (h1 : 9 / 10 ≤ x (finProdFinEquiv (0, 1))) (h2 : x (finProdFinEquiv (0, 1)) < 1) :
    solveForBGrad it num (data 50 n) x y (model 0) = .ok !![0, -(x (finProdFinEquiv (0, 1)) / 2 ^ 34); 0, 0] := by
  obtain ⟨u, hu⟩ : ∃ u, u = x (finProdFinEquiv (0, 1)) := ⟨_, rfl⟩
  rw [← hu] at h1 h2 ⊢
  obtain ⟨N, hN⟩ : ∃ N, N = nMatrix num (data 50 n) (fun k => ((model 0).noise k)⁻¹) := ⟨_, rfl⟩
  have hstep : ∀ b : ℝ, maskVec graph (vecM (1 - !![0, b; 0, 0]ᵀ) - (5 / 1000 : ℝ) • (N *ᵥ vecM (1 - !![0, b; 0, 0]ᵀ))) =
      vecM (1 - !![0, b / 2; 0, 0]ᵀ) := by
    intro b
    rw [hN, step_scale hs (by norm_num) n]
    congr 6
    norm_num
    ring
  have hloop : ∀ k : Nat, runLoop (gradStep num graph N x)
      { B := vecM (1 - !![0, -(u / 2 ^ 34) * 2 ^ (k + 1); 0, 0]ᵀ), Bnew := vecM (1 - !![0, -(u / 2 ^ 34) * 2 ^ k; 0, 0]ᵀ), lr := 5 / 1000 } =
      .ok { B := vecM (1 - !![0, -(u / 2 ^ 34) * 2 ^ 1; 0, 0]ᵀ), Bnew := vecM (1 - !![0, -(u / 2 ^ 34) * 2 ^ 0; 0, 0]ᵀ), lr := 5 / 1000 } := by
    intro k
    have hd : ∀ k : Nat, |-(u / 2 ^ 34) * 2 ^ (k + 1) - -(u / 2 ^ 34) * 2 ^ k| = u / 2 ^ 34 * 2 ^ k := by
      intro k
      rw [show -(u / 2 ^ 34) * 2 ^ (k + 1) - -(u / 2 ^ 34) * 2 ^ k = -(u / 2 ^ 34 * 2 ^ k) by ring, abs_neg, abs_of_nonneg]
      positivity
    induction k with
    | zero =>
      rw [runLoop_unfold]
      unfold gradStep
      rw [if_neg (by norm_num), if_pos]
      push Not
      intro k
      rw [vec_diff, hd]
      split_ifs
      · norm_num
        linarith
      · norm_num
    | succ k ih =>
      rw [runLoop_unfold]
      unfold gradStep
      rw [if_neg (by norm_num), if_neg]
      · simp only
        rw [if_neg (by norm_num), if_neg (by simp [hfin]), hstep]
        simp only
        rw [show -(u / 2 ^ 34) * 2 ^ (k + 1) / 2 = -(u / 2 ^ 34) * 2 ^ k by ring]
        exact ih
      · push Not
        refine ⟨finProdFinEquiv (0, 1), ?_⟩
        rw [vec_diff, if_pos rfl, hd]
        have h3 : (1 : ℝ) ≤ 2 ^ k := one_le_pow₀ (by norm_num)
        have h4 : (1 : ℝ) / 10 ^ 10 < u / 2 ^ 34 * 2 := by
          norm_num
          linarith
        refine lt_of_lt_of_le h4 (mul_le_mul_of_nonneg_left ?_ (by positivity))
        rw [pow_succ]
        linarith
  unfold solveForBGrad
  rw [invNoise_ok_of_pos _ (fun _ _ => one_pos) (fun _ i => i.elim0)]
  simp only
  rw [show (model 0).A = graph from rfl, ← hN]
  have hs1 : gradStep num graph N x { B := 0, Bnew := x, lr := 5 / 1000 } =
      .ok (.inl { B := x, Bnew := vecM (1 - !![0, -(u / 2); 0, 0]ᵀ), lr := 5 / 1000 }) := by
    unfold gradStep
    rw [if_neg (by norm_num), if_neg]
    · simp only
      rw [if_neg (by norm_num), if_neg (by simp [hfin]), hN, step_draw hs (by norm_num), maskVec_draw, Pi.smul_apply, ← hu]
      congr 10
      norm_num
      ring
    · push Not
      refine ⟨finProdFinEquiv (0, 1), ?_⟩
      simp only
      rw [Pi.zero_apply, zero_sub, abs_neg, ← hu, abs_of_pos (by linarith)]
      norm_num
      linarith
  have hs2 : gradStep num graph N x { B := x, Bnew := vecM (1 - !![0, -(u / 2); 0, 0]ᵀ), lr := 5 / 1000 } =
      .ok (.inl { B := vecM (1 - !![0, -(u / 2); 0, 0]ᵀ), Bnew := vecM (1 - !![0, -(u / 2) / 2; 0, 0]ᵀ), lr := 5 / 1000 }) := by
    unfold gradStep
    rw [if_neg (by norm_num), if_neg]
    · simp only
      rw [if_neg (by norm_num), if_neg (by simp [hfin]), hstep]
    · push Not
      refine ⟨finProdFinEquiv (0, 1), ?_⟩
      simp only
      rw [vecM_pair, ← hu]
      have : u - (1 - !![0, -(u / 2); 0, 0]ᵀ : Matrix (Fin 2) (Fin 2) ℝ) 1 0 = u / 2 := by
        simp
        ring
      rw [this, abs_of_pos (by linarith)]
      norm_num
      linarith
  rw [runLoop_unfold, hs1]
  simp only
  rw [runLoop_unfold, hs2]
  simp only
  have h33 : -(u / 2) = -(u / 2 ^ 34) * 2 ^ (32 + 1) := by
    norm_num
    ring
  have h32 : -(u / 2) / 2 = -(u / 2 ^ 34) * 2 ^ 32 := by
    norm_num
    ring
  rw [h32, h33, hloop 32]
  simp only
  rw [if_pos ⟨hfin _, by norm_num⟩, unflattenB_vecM, pow_zero, mul_one]

open BSolversExample ReproExample in
/-- C108, violation for the solver `adaptive`: with both sample covariances `1 / 4` times the identity a draw between `2 / 3` and `1` gives the
weight `- draw / 2 ^ 16`. -/
theorem C108_adaptive_depends (it : SetIter 2) (num : NumLib 2 2) (hs : GoodSqrt num.sqrtm) (hfin : ∀ x, num.finite x = true) (n : Fin 2 → ℕ)
    (hn : ∑ k, n k ≠ 0) (x : Fin (2 * 2) → ℝ) (h1 : 2 / 3 ≤ x (finProdFinEquiv (0, 1))) (h2 : x (finProdFinEquiv (0, 1)) < 1) :
    solveForBAdaptive it num (data (1 / 4) n) x (model 0) = .ok !![0, -(x (finProdFinEquiv (0, 1)) / 2 ^ 16); 0, 0] := by
  obtain ⟨u, hu⟩ : ∃ u, u = x (finProdFinEquiv (0, 1)) := ⟨_, rfl⟩
  rw [← hu] at h1 h2 ⊢
  obtain ⟨N, hN⟩ : ∃ N, N = nMatrix num (data (1 / 4) n) (fun k => ((model 0).noise k)⁻¹) := ⟨_, rfl⟩
  have hstep : ∀ b : ℝ, maskVec graph (vecM (1 - !![0, b; 0, 0]ᵀ) - (1 : ℝ) • (N *ᵥ vecM (1 - !![0, b; 0, 0]ᵀ))) =
      vecM (1 - !![0, b / 2; 0, 0]ᵀ) := by
    intro b
    rw [hN, step_scale hs (by norm_num) n]
    congr 6
    norm_num
    ring
  obtain ⟨F, hF, hmono⟩ : ∃ F : ℝ → ℝ, (∀ b, likelihood it (data (1 / 4) n) (model 0) (vecM (1 - !![0, b; 0, 0]ᵀ)) = .ok (some (F b))) ∧
      ∀ b, F (b / 2) ≤ F b := by
    let w : Fin 2 → ℝ := fun k => (n k : ℝ) / (∑ k, (n k : ℝ)) ^ (2 - k.val)
    let c : ℝ := ∑ k : Fin 2, (n k : ℝ) * Real.log ((model 0).noise k).det / (∑ k, (n k : ℝ)) ^ (2 - k.val)
    refine ⟨fun b => c + traceLoss w (fun k => ((model 0).noise k)⁻¹) (data (1 / 4) n).covs !![0, b; 0, 0], fun b => ?_, fun b => ?_⟩
    · have h1 := likelihood_traceLoss it (data (1 / 4) n) (model 0) nonneg acyclic (fun _ _ => one_pos) (fun _ i => i.elim0) hn
        (vecM (1 - !![0, b; 0, 0]ᵀ)) (by rw [unflattenB_vecM]; exact (respects_iff _).2 ⟨b, rfl⟩)
      rw [unflattenB_vecM] at h1
      exact h1
    · have h1 : ∀ b : ℝ, traceLoss w (fun k => ((model 0).noise k)⁻¹) (data (1 / 4) n).covs !![0, b; 0, 0] =
          (w 0 + w 1) * (1 / 2 + b ^ 2 / 4) := by
        intro b
        simp only [noise_eq_one]
        unfold traceLoss data
        rw [Fin.sum_univ_two]
        simp [Matrix.trace, Matrix.mul_apply, Fin.sum_univ_two, Matrix.diagonal]
        ring
      simp only [h1]
      have h2 : 0 ≤ w 0 + w 1 := by positivity
      nlinarith [mul_nonneg h2 (sq_nonneg b)]
  have hnl : ∀ b, ¬ Flt.lt (some (F b)) (some (F (b / 2))) := fun b => by
    simp only [Flt.lt, not_lt]
    exact hmono b
  have hloop : ∀ k : Nat, runLoop (adaptStep it (data (1 / 4) n) (model 0) N)
      { B := vecM (1 - !![0, -(u / 2 ^ 16) * 2 ^ k; 0, 0]ᵀ), score := some (F (-(u / 2 ^ 16) * 2 ^ k)), lr := 1 } =
      .ok (vecM (1 - !![0, -(u / 2 ^ 16); 0, 0]ᵀ)) := by
    intro k
    induction k with
    | zero =>
      rw [runLoop_unfold]
      unfold adaptStep
      simp only [show (model 0).A = graph from rfl, hstep, hF]
      rw [if_neg (hnl _), if_neg (by norm_num), if_pos]
      · simp
      · intro k
        rw [vec_diff]
        split_ifs
        · rw [show -(u / 2 ^ 16) * 2 ^ 0 - -(u / 2 ^ 16) * 2 ^ 0 / 2 = -(u / 2 ^ 17) by ring, abs_neg, abs_of_nonneg (by positivity)]
          norm_num
          linarith
        · norm_num
    | succ k ih =>
      rw [runLoop_unfold]
      unfold adaptStep
      simp only [show (model 0).A = graph from rfl, hstep, hF]
      rw [if_neg (hnl _), if_neg (by norm_num), if_neg]
      · simp only
        rw [show -(u / 2 ^ 16) * 2 ^ (k + 1) / 2 = -(u / 2 ^ 16) * 2 ^ k by ring]
        exact ih
      · push Not
        refine ⟨finProdFinEquiv (0, 1), ?_⟩
        rw [vec_diff, if_pos rfl, show -(u / 2 ^ 16) * 2 ^ (k + 1) - -(u / 2 ^ 16) * 2 ^ (k + 1) / 2 = -(u / 2 ^ 16 * 2 ^ k) by ring,
          abs_neg, abs_of_nonneg (by positivity)]
        have h3 : (1 : ℝ) ≤ 2 ^ k := one_le_pow₀ (by norm_num)
        have h4 : (1 : ℝ) / 10 ^ 5 ≤ u / 2 ^ 16 * 1 := by
          norm_num
          linarith
        exact le_trans h4 (mul_le_mul_of_nonneg_left h3 (by positivity))
  unfold solveForBAdaptive
  rw [invNoise_ok_of_pos _ (fun _ _ => one_pos) (fun _ i => i.elim0)]
  simp only
  rw [show (model 0).A = graph from rfl, ← hN, maskVec_draw, ← hu, hF]
  have := hloop 16
  rw [show -(u / 2 ^ 16) * 2 ^ 16 = -u by ring] at this
  simp only
  rw [this]
  simp only
  rw [if_neg (by simp [hfin]), unflattenB_vecM]

/-! ## The whole procedure -/

/-- With the solver `adaptive` and the draw zero, uncorrelated variables are not moved from zero weights. -/
theorem adaptive_zero (it : SetIter p) (num : NumLib p e) (hs : GoodSqrt num.sqrtm) (hfin : ∀ x, num.finite x = true) (d : Data p e)
    (hn : ∑ k, d.nObs k ≠ 0) (hp : p ≠ 0) (A : Adj p) (hA : Nonneg A) (hac : Acyclic A) (w : Matrix (Fin e) (Fin p) ℝ) (hw : ∀ k i, 0 < w k i)
    (hd : ∀ k, d.covs k = Matrix.diagonal (w k)) :
    solveForBAdaptive it num d 0 (⟨A, 0, 0, w, 0, 1 - 0ᵀ⟩ : LModel p 0 e) = .ok 0 := by
  have hinit : maskVec A 0 = vecM (1 - (0 : Matrix (Fin p) (Fin p) ℝ)ᵀ) := by
    funext k
    rw [← pair_div_mod k, maskVec_pair, vecM_pair]
    simp [Matrix.one_apply, eq_comm]
  have hnoise : ∀ k, (⟨A, 0, 0, w, 0, 1 - 0ᵀ⟩ : LModel p 0 e).noise k = Matrix.diagonal (w k) := fun k => by
    rw [noise_eq, noiseCov_zero]
  have hM : ∀ k, ((⟨A, 0, 0, w, 0, 1 - 0ᵀ⟩ : LModel p 0 e).noise k)⁻¹.PosSemidef := fun k => by
    rw [hnoise]
    exact (Matrix.PosDef.diagonal (hw k)).inv.posSemidef
  have hstep : maskVec A (vecM (1 - (0 : Matrix (Fin p) (Fin p) ℝ)ᵀ) - (1 : ℝ) • (nMatrix num d
      (fun k => ((⟨A, 0, 0, w, 0, 1 - 0ᵀ⟩ : LModel p 0 e).noise k)⁻¹) *ᵥ vecM (1 - (0 : Matrix (Fin p) (Fin p) ℝ)ᵀ))) =
      vecM (1 - (0 : Matrix (Fin p) (Fin p) ℝ)ᵀ) := by
    rw [nMatrix_mulVec hs (fun k => by rw [hd]; exact Matrix.PosSemidef.diagonal (fun i => (hw k i).le)) hM]
    have : ∀ k, ((⟨A, 0, 0, w, 0, 1 - 0ᵀ⟩ : LModel p 0 e).noise k)⁻¹ * (1 - (0 : Matrix (Fin p) (Fin p) ℝ)ᵀ) * d.covs k = 1 := fun k => by
      rw [hnoise, hd, Matrix.transpose_zero, sub_zero, Matrix.mul_one]
      exact Matrix.nonsing_inv_mul _ ((Matrix.isUnit_iff_isUnit_det _).1 (Matrix.PosDef.diagonal (hw k)).isUnit)
    simp only [this]
    funext k
    rw [← pair_div_mod k, maskVec_pair, vecM_pair]
    simp only [one_smul, Pi.sub_apply, vecM_pair, Matrix.transpose_zero, sub_zero, Matrix.sum_apply, Matrix.one_apply, eq_comm]
    split_ifs with h1 h2 <;> simp
  obtain ⟨y, hy⟩ : ∃ y, likelihood it d (⟨A, 0, 0, w, 0, 1 - 0ᵀ⟩ : LModel p 0 e) (vecM (1 - (0 : Matrix (Fin p) (Fin p) ℝ)ᵀ)) = .ok (some y) :=
    ⟨_, likelihood_traceLoss it d _ hA hac hw (fun _ i => i.elim0) hn _ (by rw [unflattenB_vecM]; exact fun _ _ _ => rfl)⟩
  unfold solveForBAdaptive
  rw [invNoise_ok_of_pos _ hw (fun _ i => i.elim0)]
  simp only
  rw [hinit, hy]
  simp only
  rw [runLoop_unfold]
  unfold adaptStep
  simp only [hstep, hy]
  rw [if_neg (by simp [Flt.lt]), if_neg hp, if_pos (fun k => by rw [sub_self, abs_zero]; norm_num)]
  simp only
  rw [if_neg (by simp [hfin]), unflattenB_vecM]

/-- With the solver `adaptive` and draws zero, fitting uncorrelated variables returns zero weights. -/
theorem codeFit_zero (it : SetIter p) (svd : Matrix (Fin p) (Fin p) ℝ → Matrix (Fin p) (Fin p) ℝ × (Fin p → ℝ)) (num : NumLib p e)
    (hs : GoodSqrt num.sqrtm) (hfin : ∀ x, num.finite x = true) (cfg : ScoreCfg) (hsol : cfg.solver = .adaptive)
    (hthr : 0 < cfg.thresholdScore) (hpsi : ∀ x, cfg.psiMax = some x → 0 ≤ x) (hit : 0 < cfg.stop.maxIter)
    (hfl : 0 < cfg.stop.maxFluctuations) (hdist : 0 ≤ cfg.stop.thresholdDistB) (hp0 : p ≠ 0) (d : Data p e) (he : 0 < e)
    (hn : ∀ k, 0 < d.nObs k) (v : Nat → Nat → Nat → Fin (p * p) → ℝ) {w : Matrix (Fin e) (Fin p) ℝ} (hw : ∀ k i, 0 < w k i)
    (hd : ∀ k, d.covs k = Matrix.diagonal (w k)) : FitsTruth it (codeFit it svd num cfg (fun _ _ _ => 0) v d 0) 0 w := by
  intro n A I hA hac hB hI
  have hgd : GoodData d := ⟨fun k => by rw [hd]; exact Matrix.PosDef.diagonal (hw k), hn, he⟩
  have hmk := mkModel_eq_ok (it := it) (l := 0) hA (0 : Matrix (Fin 0) (Fin p) ℝ) w (0 : Matrix (Fin e) (Fin 0) ℝ) hac hB
  have hent : ∀ k, Entails 0 (Matrix.diagonal (w k)) (d.covs k) := fun k => by
    unfold Entails
    rw [hd]
    simp
  have hcov : (⟨A, 0, 0, w, 0, 1 - 0ᵀ⟩ : LModel p 0 e).covariances = .ok d.covs := by
    obtain ⟨-, C', hC', hent'⟩ := C35_covariances it A hA _ _ w _ _ hmk
    rw [hC']
    congr 1
    funext k
    refine ((hent' k).2 _ ?_).symm
    rw [noiseCov_zero]
    exact hent k
  have hns : ∑ k, d.nObs k ≠ 0 := (Finset.sum_pos (fun k _ => hn k) ⟨⟨0, he⟩, Finset.mem_univ _⟩).ne'
  obtain ⟨s, -, h2⟩ := fixed_point_of_solver it num cfg hthr hpsi hit hfl hdist hp0 d hgd (fun _ => 0) (v 0 n) I A hA 0 0 w 0 _ hmk hw
    (fun _ i => i.elim0) (fun _ _ _ i => i.elim0) hcov (fun i => by
      simp only [codeSolvers, hsol]
      exact adaptive_zero it num hs hfin d hns hp0 A hA hac w hw hd)
  refine ⟨some s, ?_, ?_⟩
  · unfold codeFit fitDag
    rw [if_neg (by simpa using (isDag_iff it hA).2 hac)]
    simp only [C103_initial_model it svd A hac I d hgd 0 hB w hent (fun i hi k k' => by
      by_contra hc
      exact hi (hI (by simp only [changing, Finset.mem_filter, Finset.mem_univ, true_and]; exact ⟨k, k', hc⟩))), hmk, h2]
    rfl
  · unfold AnyModel.copy truthOver
    simp only
    rw [proper_copy ⟨A, 0, 0, w, 0, hA, hmk, hw, fun _ i => i.elim0⟩]

/-- Five observations of two uncorrelated variables with unit variance. -/
def idBlock : Sample 2 := [![1, 1], ![1, -1], ![-1, 1], ![-1, -1], ![0, 0]]

theorem idBlock_cov : npCov idBlock = 1 := by
  ext i j
  fin_cases i <;> fin_cases j <;> simp [npCov, idBlock, colMean] <;> norm_num

theorem idBlock_split : splitData (fun _ => Rng.front) (List.ofFn (fun _ : Fin 2 => idBlock ++ idBlock ++ idBlock))
    [1 / 3, 1 / 3, 1 / 3] = .ok [[idBlock, idBlock], [idBlock, idBlock], [idBlock, idBlock]] := by
  have r1 : pyRound (5 : Rat) = 5 := pyRound_int 5
  have b0 : sliceBound 15 0 = 0 := by decide
  have b1 : sliceBound 15 5 = 5 := by decide
  have b2 : sliceBound 15 10 = 10 := by decide
  have b3 : sliceBound 15 15 = 15 := by decide
  have hr : List.range 3 = [0, 1, 2] := by decide
  unfold splitData
  rw [if_neg (by norm_num)]
  simp [splitSample, pySlice, List.zipIdx, Rng.front, idBlock]
  norm_num [r1, b0, b1, b2, b3, hr]

/-- The solver `adaptive`, otherwise the default settings. -/
noncomputable def adaptiveCfg : ScoreCfg := ⟨.adaptive, none, false, ⟨1000, 1 / 1000, 1 / 100000, 5⟩, 1 / 100000, 1⟩

theorem idBlock_fold : foldData npCov [idBlock, idBlock] 2 = ⟨fun _ => 1, fun _ => 5⟩ := by
  unfold foldData
  congr 1
  · funext k
    fin_cases k <;> exact idBlock_cov
  · funext k
    fin_cases k <;> rfl

theorem idBlock_good : GoodData (foldData npCov [idBlock, idBlock] 2) := by
  rw [idBlock_fold]
  exact ⟨fun _ => Matrix.PosDef.one, fun _ => by norm_num, by norm_num⟩

theorem idBlock_ctor : scoreCtor [idBlock, idBlock] true = .ok () := scoreCtor_ok (by simp [idBlock])

open BSolversExample in
theorem adaptive_fits (it : SetIter 2) (svd : Matrix (Fin 2) (Fin 2) ℝ → Matrix (Fin 2) (Fin 2) ℝ × (Fin 2 → ℝ)) (num : NumLib 2 2)
    (hs : GoodSqrt num.sqrtm) (hfin : ∀ x, num.finite x = true) (v : Nat → Nat → Nat → Fin (2 * 2) → ℝ) :
    FitsAndScores it (codeFit it svd num
      adaptiveCfg (fun _ _ _ => 0) v (foldData npCov [idBlock, idBlock] 2) 0)
      [foldData npCov [idBlock, idBlock] 2, foldData npCov [idBlock, idBlock] 2] graph := by
  have hf := codeFit_zero it svd num hs hfin adaptiveCfg rfl
    (by norm_num [adaptiveCfg]) (by simp [adaptiveCfg]) (by norm_num [adaptiveCfg]) (by norm_num [adaptiveCfg]) (by norm_num [adaptiveCfg])
    (by norm_num) (foldData npCov [idBlock, idBlock] 2) (by norm_num)
    idBlock_good.pos v (w := fun _ _ => 1) (fun _ _ => one_pos) (fun k => by rw [idBlock_fold, Matrix.diagonal_one])
  have hg := idBlock_good
  generalize foldData npCov [idBlock, idBlock] 2 = d at hf hg ⊢
  intro n H I hH hsub
  obtain ⟨s, a1, a2⟩ := hf n H I hH (subgraph_acyclic hsub acyclic) (fun _ _ _ => rfl) (fun i hi => by simp [changing] at hi)
  refine ⟨_, _, _, a1, a2, fun t ht => ?_⟩
  have ht' : t = d := by simpa using ht
  subst ht'
  have := scoreOn_ok t hg (⟨H, 0, 0, fun _ _ => 1, 0, 1 - 0ᵀ⟩ : LModel 2 0 2) (fun _ _ => one_pos) (fun _ i => i.elim0)
  exact ⟨⟨_, this⟩, ⟨_, this⟩⟩

/-- An exception in the first fit ends `equivalence_class`. -/
theorem first_fit_error (E : FitEnv p e) (G : Adj p) (Gs : List (Adj p)) (data : Fin e → Sample p) (known prune : Bool) (n : Nat)
    (ns : List Nat) (folds : List Rat) (rs : Int) (training testG testI : List (Sample p))
    (hsplit : splitData (E.rng 42) (List.ofFn data) folds = .ok [training, testG, testI]) (hctor : scoreCtor training known = .ok ())
    (err : Err) (h : E.fit (foldData E.cov training e) n 0 G Finset.univ = .error err) :
    equivalenceClass E (G :: Gs) data known prune (some (n :: ns)) folds rs = .error err := by
  unfold equivalenceClass fitMain
  rw [hsplit]
  simp only [initialGraphs, latentNumbers, latentLoop, hctor, pruneGraphs, pruneGraphsLoop, pruneGraph, ScoreObj.scoreDag, scoreDag,
    cacheRead, show cacheFind ([] : List (Entry p (AnyModel p e))) G Finset.univ = .ok none from by rfl, h, List.length_cons,
    Nat.succ_ne_zero, if_false, withIcpdag]

/-- An exception of the solver for `B` in the first iteration ends `score_dag`. -/
theorem alternate_first_error (it : SetIter p) (sv : Solvers p l e) (cfg : StopCfg) (d : Data p e) (m : LModel p l e) (err : Err) {s : Flt}
    (hit : 0 < cfg.maxIter) (hfl : 0 < cfg.maxFluctuations) (hs : m.score (List.ofFn d.covs) (List.ofFn d.nObs) = .ok s)
    (hcopy : m.copy it = .ok m) (h : sv.solveB 0 m = .error err) : alternate it sv cfg d m = .error err := by
  unfold alternate
  rw [hs]
  simp only
  rw [runLoop_unfold]
  unfold altStep
  have hgo : distGt (none : Option (Matrix (Fin p) (Fin p) ℝ)) cfg.thresholdDistB ∧ ((0 : Nat) : Int) < cfg.maxIter ∧
      ((0 : Nat) : Int) < cfg.maxFluctuations := ⟨trivial, by simpa using hit, by simpa using hfl⟩
  rw [if_neg (not_not.2 hgo)]
  unfold altBody
  simp only [hcopy, h]

open BSolversExample in
theorem adaptive_first_fit (it : SetIter 2) (svd : Matrix (Fin 2) (Fin 2) ℝ → Matrix (Fin 2) (Fin 2) ℝ × (Fin 2 → ℝ)) (num : NumLib 2 2)
    (hs : GoodSqrt num.sqrtm) (u v : Nat → Nat → Nat → Fin (2 * 2) → ℝ) (hu : 1 / (2 * 10 ^ 5) ≤ |u 0 0 0 (finProdFinEquiv (0, 1))|) :
    codeFit it svd num adaptiveCfg u v
      (foldData npCov [idBlock, idBlock] 2) 0 0 graph Finset.univ = .error .diverge := by
  have hg := idBlock_good
  rw [idBlock_fold] at hg ⊢
  have hmk : mkModel it graph !![0, 0; 0, 0] (0 : Matrix (Fin 0) (Fin 2) ℝ) (fun _ _ => 1) (0 : Matrix (Fin 2) (Fin 0) ℝ) =
      .ok (model 0) := mkModel_eq_ok nonneg _ _ _ acyclic ((respects_iff _).2 ⟨0, rfl⟩)
  have hinit : initialModel it svd (⟨fun _ => 1, fun _ => 5⟩ : Data 2 2) graph Finset.univ = .ok (model 0) := by
    rw [C103_initial_model it svd graph acyclic Finset.univ _ hg !![0, 0; 0, 0] ((respects_iff _).2 ⟨0, rfl⟩) (fun _ _ => 1)
      (fun k => by
        unfold Entails
        ext i j
        fin_cases i <;> fin_cases j <;> simp [Matrix.mul_apply, Fin.sum_univ_two]) (by simp)]
    exact hmk
  have hsc := scoreOn_ok (⟨fun _ => 1, fun _ => 5⟩ : Data 2 2) hg (model 0) (fun _ _ => one_pos) (fun _ i => i.elim0)
  have halt := alternate_first_error it (codeSolvers it num
    adaptiveCfg (⟨fun _ => 1, fun _ => 5⟩ : Data 2 2) (u 0 0) (v 0 0) Finset.univ)
    adaptiveCfg.stop ⟨fun _ => 1, fun _ => 5⟩ (model 0) .diverge (by norm_num [adaptiveCfg]) (by norm_num [adaptiveCfg]) hsc hmk
    (C79_adaptive_diverges it num hs (fun _ => 5) (by simp) _ hu)
  unfold codeFit fitDag
  rw [if_neg (by simpa using (isDag_iff it nonneg).2 acyclic)]
  simp only [hinit, halt]

open BSolversExample in
/-- C108, violation: two calls of `equivalence_class` with the same arguments, including `random_state`.  With the solver `adaptive`, two
environments of uncorrelated variables and the candidate `0 → 1`, the call returns if the global generator draws zeros and never returns if
the first draw for the edge is not almost zero. -/
theorem C108_documented_violated (E : FitEnv 2 2) (hrng : E.rng = fun _ _ => Rng.front) (hcov : E.cov = npCov)
    (harg : ∀ f, IsArgsort f (E.argsort f)) (svd : Matrix (Fin 2) (Fin 2) ℝ → Matrix (Fin 2) (Fin 2) ℝ × (Fin 2 → ℝ)) (num : NumLib 2 2)
    (hs : GoodSqrt num.sqrtm) (hfin : ∀ x, num.finite x = true) (u v : Nat → Nat → Nat → Fin (2 * 2) → ℝ)
    (hE : E.fit = codeFit E.it svd num adaptiveCfg u v) (rs : Int) :
    (u = (fun _ _ _ => 0) → ∃ r, equivalenceClass E [graph] (fun _ => idBlock ++ idBlock ++ idBlock) true false (some [0])
      [1 / 3, 1 / 3, 1 / 3] rs = .ok r) ∧
    (1 / (2 * 10 ^ 5) ≤ |u 0 0 0 (finProdFinEquiv (0, 1))| →
      equivalenceClass E [graph] (fun _ => idBlock ++ idBlock ++ idBlock) true false (some [0]) [1 / 3, 1 / 3, 1 / 3] rs = .error .diverge) := by
  have hsplit : splitData (E.rng 42) (List.ofFn (fun _ : Fin 2 => idBlock ++ idBlock ++ idBlock)) [1 / 3, 1 / 3, 1 / 3] =
      .ok [[idBlock, idBlock], [idBlock, idBlock], [idBlock, idBlock]] := by
    rw [hrng]
    exact idBlock_split
  constructor
  · intro hu
    refine C72_returns E [graph] (by simp) ?_ _ true false [0] (by simp) _ rs [idBlock, idBlock] [idBlock, idBlock] [idBlock, idBlock]
      hsplit idBlock_ctor ?_ ?_ harg ?_ (by simp)
    · intro G hG
      rw [List.mem_singleton.1 hG]
      exact nonneg
    · intro d h
      rw [hE]
      exact codeFit_good _ _ _ _ _ _ _ _ (fun hc => by simp [adaptiveCfg] at hc)
    · intro d h n A I m s hm
      rw [hE] at hm
      exact codeFit_latents hm
    · intro n hn G hG
      rw [List.mem_singleton.1 hn, List.mem_singleton.1 hG, hE, hcov, hu]
      exact adaptive_fits E.it svd num hs hfin v
  · intro hu
    refine first_fit_error E graph [] _ true false 0 [] _ rs [idBlock, idBlock] [idBlock, idBlock] [idBlock, idBlock] hsplit idBlock_ctor
      .diverge ?_
    rw [hE, hcov]
    exact adaptive_first_fit E.it svd num hs u v hu

/-- The hypotheses can be met: a library with exact square roots, and draws of both kinds. -/
example : ∃ (E₀ E₁ : FitEnv 2 2), (∃ r, equivalenceClass E₀ [BSolversExample.graph] (fun _ => idBlock ++ idBlock ++ idBlock) true false (some [0])
      [1 / 3, 1 / 3, 1 / 3] 42 = .ok r) ∧
    equivalenceClass E₁ [BSolversExample.graph] (fun _ => idBlock ++ idBlock ++ idBlock) true false (some [0]) [1 / 3, 1 / 3, 1 / 3] 42 =
      .error .diverge ∧ E₀.rng = E₁.rng ∧ E₀.it = E₁.it ∧ E₀.cov = E₁.cov ∧ E₀.argsort = E₁.argsort := by
  obtain ⟨f, hf⟩ := goodSqrt_exists (p := 2)
  have hE : ∀ u : Nat → Nat → Nat → Fin (2 * 2) → ℝ, ∃ E : FitEnv 2 2, E.rng = (fun _ _ => Rng.front) ∧ E.cov = npCov ∧ E.argsort = insArgsort ∧
      E.it = SetIter.incr 2 ∧ E.fit = codeFit E.it (fun _ => (0, 0)) ⟨f, fun _ => true, fun x => x / 2, fun _ _ _ => none⟩ adaptiveCfg u
        (fun _ _ _ => 0) := fun u =>
    ⟨⟨SetIter.incr 2, fun _ _ => Rng.front, npCov, insArgsort, fun _ => [], fun _ => fun _ _ => 0, codeFit (SetIter.incr 2) (fun _ => (0, 0))
      ⟨f, fun _ => true, fun x => x / 2, fun _ _ _ => none⟩ adaptiveCfg u (fun _ _ _ => 0)⟩, rfl, rfl, rfl, rfl, rfl⟩
  obtain ⟨E₀, a1, a2, a3, a4, a5⟩ := hE (fun _ _ _ => 0)
  obtain ⟨E₁, b1, b2, b3, b4, b5⟩ := hE (fun _ _ _ _ => 1 / 2)
  refine ⟨E₀, E₁, ?_, ?_, by rw [a1, b1], by rw [a4, b4], by rw [a2, b2], by rw [a3, b3]⟩
  · exact (C108_documented_violated E₀ a1 a2 (by rw [a3]; exact insArgsort_spec) _ _ hf (fun _ => rfl) _ _ a5 42).1 rfl
  · exact (C108_documented_violated E₁ b1 b2 (by rw [b3]; exact insArgsort_spec) _ _ hf (fun _ => rfl) _ _ b5 42).2
      (by norm_num [abs_of_pos])

end Verif
