import Verif.Props.ScoreTotal

/-!
# C52: the returned score and the weights it belongs to
-/

namespace Verif

open Spec Matrix

variable {p l e : Nat}

section Stale

variable {it : SetIter p} {svd : Matrix (Fin p) (Fin p) ℝ → Matrix (Fin p) (Fin p) ℝ × (Fin p → ℝ)} {num : NumLib p e}
  {cfg : ScoreCfg} {d : Data p e} {u v : Nat → Fin (p * p) → ℝ} {A : Adj p} {I : Finset (Fin p)}

/-- C52: the returned score is what the method `score` of the returned object gives on the data. -/
theorem C52_score_of_object (init : Option (LModel p l e)) (m : LModel p l e) (s : Flt)
    (h : fitCode it svd num cfg d u v A I init = .ok (m, s)) : m.scoreOn d = .ok s := by
  obtain ⟨-, m0, h1, -⟩ := fitDag_ok h
  obtain ⟨n, -, -, h2, -⟩ := C44_run h1
  exact h2

/-- C52: but it is not the score of the returned parameters: it is the score of a model with the weights `Bprev` from before the
last iteration and the returned remaining parameters.  If the procedure was not stopped by `max_iter` or `max_fluctuations`, then
`Bprev` and the returned `B` differ at most by `threshold_dist_B`. -/
theorem C52_stale (hA : Nonneg A) (init : Option (LModel p l e)) (m : LModel p l e) (s : Flt)
    (h : fitCode it svd num cfg d u v A I init = .ok (m, s)) :
    ∃ (n : Nat) (m0 prev fresh : LModel p l e), alternate it (codeSolvers it num cfg d u v I) cfg.stop d m0 = .ok (m, s) ∧
      iterates (altBody it (codeSolvers it num cfg d u v I)) m0 n = .ok prev ∧
      iterates (altBody it (codeSolvers it num cfg d u v I)) m0 (n + 1) = .ok m ∧
      mkModel it A prev.B m.gamma m.omegas m.psis = .ok fresh ∧ fresh.scoreOn d = .ok s ∧
      ((n + 1 : Int) < cfg.stop.maxIter → (fluctuations (altBody it (codeSolvers it num cfg d u v I)) (LModel.scoreOn d) m0
          cfg.stop.thresholdFluctuation (n + 1) : Int) < cfg.stop.maxFluctuations →
        ∀ i j, |prev.B i j - m.B i j| ≤ cfg.stop.thresholdDistB) := by
  obtain ⟨hdag, m0, h1, h0, -⟩ := fitDag_ok h
  obtain ⟨n, hn, h2, h3, -, h4⟩ := C44_run h1
  obtain ⟨j, rfl⟩ : ∃ j, n = j + 1 := ⟨n - 1, by omega⟩
  have h5 := h2
  rw [iterates] at h5
  split at h5
  · simp at h5
  · rename_i prev hprev
    obtain ⟨h6, h7, h8, -⟩ := altBody_ok h5
    have key : ∀ k m, iterates (altBody it (codeSolvers it num cfg d u v I)) m0 k = .ok m → m.A = A := by
      intro k
      induction k with
      | zero => intro m hm; simp only [iterates, Except.ok.injEq] at hm; exact hm ▸ h0
      | succ k ih =>
        intro m hm
        rw [iterates] at hm
        split at hm
        · simp at hm
        · rename_i m1 hm1
          rw [(altBody_ok hm).2.1]
          exact ih _ hm1
    have hpA := key _ _ hprev
    rw [hpA] at h6
    refine ⟨j, m0, prev, _, h1, hprev, h2, mkModel_eq_ok hA _ _ _ ((isDag_iff it hA).1 hdag) h6, ?_, ?_⟩
    · rw [← h3]
      unfold LModel.scoreOn LModel.score LModel.invNoise LModel.noise
      rw [h8]
    · intro h9 h10 a b
      by_contra hc
      push Not at hc
      refine h4 ⟨by push_cast; exact h9, h10, fun j' hj' => ?_⟩
      obtain rfl : j' = j := by omega
      exact ⟨prev, m, hprev, h2, a, b, hc⟩

/-- C52: after a call that fitted the model, the same call returns the same score and parameters in an object whose method `score`
uses the returned weights, `Model(A, B, gamma, omegas, psis)`. -/
theorem C52_hit (hA : Nonneg A) (hu : cfg.solver = .grad → GoodDraws p u) (m : LModel p l e) (s : Flt)
    (h : fitCode it svd num cfg d u v A I none = .ok (m, s)) :
    ∃ (m' : LModel p l e) (c : List (Entry p (LModel p l e))),
      mkModel it A m.B m.gamma m.omegas m.psis = .ok m' ∧
      scoreDag (LModel.copy it) (fitCode it svd num cfg d u v) (some []) A I none = .ok ((m, s), some c) ∧
      scoreDag (LModel.copy it) (fitCode it svd num cfg d u v) (some c) A I none = .ok ((m', s), some c) := by
  obtain ⟨hdag, -⟩ := fitDag_ok h
  obtain ⟨hmA, hmB, -⟩ := C45_fitted_model hu none m s h
  have hmk := mkModel_eq_ok (it := it) hA m.gamma m.omegas m.psis ((isDag_iff it hA).1 hdag) hmB
  have hcopy : m.copy it = .ok ⟨A, m.B, m.gamma, m.omegas, m.psis, 1 - m.Bᵀ⟩ := by
    unfold LModel.copy
    rw [hmA]
    exact hmk
  refine ⟨_, [⟨A, I, s, ⟨A, m.B, m.gamma, m.omegas, m.psis, 1 - m.Bᵀ⟩⟩], hmk, ?_, ?_⟩
  · unfold scoreDag
    simp [cacheRead, cacheFind, h, cacheWrite, hcopy]
  · unfold scoreDag
    simp [cacheRead, cacheFind]

end Stale

/-! ## The scores of the two objects differ -/

namespace StaleEx

/-- Identity covariance in the first environment. -/
noncomputable def data : Data 2 2 where
  covs := ![1, !![1, 1; 1, 4]]
  nObs := ![2, 2]

def graph : Adj 2 := ![![0, 1], ![0, 0]]

/-- A solver that returns the weight 5/18. -/
noncomputable def num : NumLib 2 2 where
  sqrtm := id
  finite := fun _ => true
  halve := fun x => x / 2
  cvx := fun _ _ _ => some !![0, 5 / 18; 0, 0]

noncomputable def cfg : ScoreCfg where
  solver := .cvx
  psiMax := none
  psiFixed := false
  stop := { maxIter := 1, thresholdDistB := 1 / 10 ^ 4, thresholdFluctuation := 1, maxFluctuations := 10 }
  thresholdScore := 1 / 10 ^ 5
  learningRate := 0

theorem acyclic : Acyclic graph := exModel_acyclic

theorem nonneg : Nonneg graph := by intro i j; fin_cases i <;> fin_cases j <;> simp [graph]

theorem posDef1 : (!![1, 1; 1, 4] : Matrix (Fin 2) (Fin 2) ℝ).PosDef := by
  rw [Matrix.posDef_iff_dotProduct_mulVec]
  refine ⟨by ext i j; fin_cases i <;> fin_cases j <;> simp, fun x hx => ?_⟩
  simp only [dotProduct, Fin.sum_univ_two, star_trivial, Matrix.mulVec]
  simp
  have : x 0 ≠ 0 ∨ x 1 ≠ 0 := by
    by_contra hc
    push Not at hc
    apply hx
    ext i; fin_cases i <;> simp [hc.1, hc.2]
  rcases this with h | h
  · nlinarith [sq_nonneg (x 0 + x 1), sq_nonneg (x 0 + 4 * x 1), sq_nonneg (x 1), sq_pos_of_ne_zero h]
  · nlinarith [sq_nonneg (x 0 + x 1), sq_pos_of_ne_zero h]

theorem good : GoodData data where
  posDef := by
    intro k
    fin_cases k
    · exact Matrix.PosDef.one
    · exact posDef1
  pos := by intro k; fin_cases k <;> simp [data]
  some := by norm_num

theorem feasible : CvxFeasible num graph data := by
  intro Ms
  refine ⟨_, rfl, ?_⟩
  intro i j
  fin_cases i <;> fin_cases j <;> simp [graph]

/-- With `learning_rate = 0` the gradient descents return the initial values. -/
theorem gd_rate_zero {ι : Type} {nArr : Nat} {blk : ι → Nat} {lossFun : (ι → ℝ) → Except Err Flt}
    {gradFun : (ι → ℝ) → Except Err (ι → ℝ)} {threshold : ℝ} {bounds : Option (List (EReal × EReal))} {kappaZero : ℝ}
    {Xinit X : ι → ℝ} {L : Flt}
    (h : gradientDescent nArr blk lossFun gradFun Xinit threshold 0 bounds kappaZero = .ok (X, L)) : X = Xinit :=
  gd_invariant (fun X => X = Xinit) (fun _ => True) (fun _ _ _ _ => trivial)
    (fun X g c hX _ => by rw [hX]; funext i; ring) rfl h

/-- The initial weights. -/
noncomputable def B0 : Matrix (Fin 2) (Fin 2) ℝ := !![0, 1 / 2; 0, 0]

/-- The final weights. -/
noncomputable def B1 : Matrix (Fin 2) (Fin 2) ℝ := !![0, 5 / 18; 0, 0]

/-- The variances. -/
noncomputable def om : Matrix (Fin 2) (Fin 2) ℝ := !![1, 5 / 4; 1, 13 / 4]

theorem avg : avgCov data = !![1, 1 / 2; 1 / 2, 5 / 2] := by
  unfold avgCov Data.total
  ext i j
  fin_cases i <;> fin_cases j <;> simp [data, Fin.sum_univ_two] <;> norm_num

theorem pa0 : paOf graph 0 = ∅ := by decide
theorem pa1 : paOf graph 1 = {0} := by decide

theorem initB : initializeB graph data .avg = .ok B0 := by
  unfold initializeB initCovariance regressAll
  simp only []
  rw [if_neg (by push Not; intro j; exact (covPa_posDef (avgCov_posDef data good) _).det_pos.ne'), avg]
  congr 1
  have hreg : ∀ s, s = {0} → regress 1 s (!![1, 1 / 2; 1 / 2, 5 / 2] : Matrix (Fin 2) (Fin 2) ℝ) = .ok (fun _ => 1 / 2) := by
    rintro _ rfl
    have hc : covPa (!![1, 1 / 2; 1 / 2, 5 / 2] : Matrix (Fin 2) (Fin 2) ℝ) {0} = 1 := by
      ext ⟨i, hi⟩ ⟨j, hj⟩
      simp only [Finset.mem_singleton] at hi hj
      subst hi hj
      simp [covPa]
    unfold regress
    rw [hc, if_neg (by simp)]
    congr 1
    funext i
    obtain ⟨i, hi⟩ := i
    simp only [Finset.mem_singleton] at hi
    subst hi
    simp
  ext i j
  rw [Matrix.of_apply]
  fin_cases j
  · simp only [Fin.zero_eta, pa0]
    split
    · fin_cases i <;> simp [B0]
    · fin_cases i <;> simp [B0]
  · simp only [Fin.mk_one, hreg _ pa1]
    fin_cases i <;> simp [B0, pa1]

theorem omFree (k j : Fin 2) : omegasFree B0 data k j = om k j := by
  unfold omegasFree nCov
  fin_cases k <;> fin_cases j <;>
    simp [data, B0, om, Matrix.mul_apply, Fin.sum_univ_two, Matrix.sub_apply, Matrix.one_apply] <;> norm_num

/-- The run, whenever the second variable is a target: initial weights 1/2, returned weights 5/18, variances as initialised (those of the
first variable do not differ across environments). -/
theorem run_targets (it : SetIter 2) (svd : Matrix (Fin 2) (Fin 2) ℝ → Matrix (Fin 2) (Fin 2) ℝ × (Fin 2 → ℝ))
    (u v : Nat → Fin (2 * 2) → ℝ) (I : Finset (Fin 2)) (hI : 1 ∈ I) : ∃ (m : LModel 2 0 2) (s : ℝ),
      fitCode it svd num cfg data u v graph I none = .ok (m, some s) ∧ m.A = graph ∧ m.B = B1 ∧ m.omegas = om ∧
      m.IB = 1 - B0ᵀ := by
  obtain ⟨m, s, h⟩ := C71_score_dag_returns (l := 0) it svd num cfg data good u v graph nonneg acyclic I (by norm_num)
    (by norm_num) rfl feasible (by norm_num [cfg]) (by simp [cfg]) (by simp [cfg]) (by simp [cfg])
  refine ⟨m, s, h, ?_⟩
  obtain ⟨-, m0, h1, h2, h3⟩ := fitDag_ok h
  obtain ⟨n, h4, h5, h6, -⟩ := C44_bounds h1
  have hn : n = 1 := by simp [cfg] at h6; omega
  subst hn
  have h7 : altBody it (codeSolvers it num cfg data u v I) 0 m0 = .ok m := h5
  obtain ⟨-, h8, h9, h10, h11, h12⟩ := altBody_ok h7
  have hm0 : m0.B = B0 ∧ m0.omegas = om := by
    rcases h3 with h3 | ⟨-, h3⟩
    · simp at h3
    · unfold initialModel at h3
      rw [initB] at h3
      simp only [] at h3
      unfold initializeGamma initializeOmegas initCovariance at h3
      simp only [] at h3
      rw [dif_pos (by simp)] at h3
      obtain ⟨-, -, rfl⟩ := mkModel_fields h3
      refine ⟨rfl, ?_⟩
      ext k j
      have h0 : ∀ k, om k 0 = 1 := by intro k; fin_cases k <;> simp [om]
      by_cases hj : j ∈ I
      · simp [omFree, hj]
      · have : j = 0 := by
          fin_cases j
          · rfl
          · exact absurd hI hj
        subst this
        simp only [Matrix.of_apply, if_neg hj, omFree, h0]
        simp [Data.total, data, Fin.sum_univ_two]
        norm_num
  refine ⟨by rw [h8, h2], ?_, ?_, by rw [h9, hm0.1]⟩
  · simp only [codeSolvers, cfg] at h10
    unfold solveForBCvx at h10
    split at h10
    · simp at h10
    · simp only [num] at h10
      split_ifs at h10
      simp only [Except.ok.injEq] at h10
      rw [← h10, h2]
      ext i j
      fin_cases i <;> fin_cases j <;> simp [graph, B1]
  · simp only [codeSolvers, cfg] at h12
    unfold solveForRest at h12
    split at h12
    · simp at h12
    · rename_i X L hX
      have := gd_rate_zero hX
      simp only [Except.ok.injEq, Prod.mk.injEq] at h12
      rw [← h12.1, ← hm0.2, this]
      ext k j
      rfl

/-- The run with all targets. -/
theorem run (it : SetIter 2) (svd : Matrix (Fin 2) (Fin 2) ℝ → Matrix (Fin 2) (Fin 2) ℝ × (Fin 2 → ℝ))
    (u v : Nat → Fin (2 * 2) → ℝ) : ∃ (m : LModel 2 0 2) (s : ℝ),
      fitCode it svd num cfg data u v graph Finset.univ none = .ok (m, some s) ∧ m.A = graph ∧ m.B = B1 ∧ m.omegas = om ∧
      m.IB = 1 - B0ᵀ :=
  run_targets it svd u v Finset.univ (Finset.mem_univ _)

/-- The weight 5/18 is the minimiser of the weighted objective that `_solve_for_B_cvx` states (for the initial variances). -/
theorem optimal (b : ℝ) (hb : b ≠ 5 / 18) :
    ∑ k, (data.nObs k : ℝ) * ((Matrix.diagonal (om k))⁻¹ * ((1 - B1ᵀ) * data.covs k * (1 - B1ᵀ)ᵀ)).trace <
    ∑ k, (data.nObs k : ℝ) * ((Matrix.diagonal (om k))⁻¹ *
      ((1 - (!![0, b; 0, 0])ᵀ) * data.covs k * (1 - (!![0, b; 0, 0])ᵀ)ᵀ)).trace := by
  have hsq : 0 < (b - 5 / 18) ^ 2 := sq_pos_of_ne_zero (sub_ne_zero.2 hb)
  rw [Fin.sum_univ_two, Fin.sum_univ_two]
  have hinv : ∀ k, (Matrix.diagonal (om k))⁻¹ = Matrix.diagonal (fun j => (om k j)⁻¹) := by
    intro k
    refine Matrix.inv_eq_left_inv ?_
    rw [Matrix.diagonal_mul_diagonal]
    ext i j
    fin_cases k <;> fin_cases i <;> fin_cases j <;> simp [om]
  rw [hinv, hinv]
  simp [data, om, B1, Matrix.trace, Matrix.mul_apply, Fin.sum_univ_two, Matrix.sub_apply, Matrix.one_apply, Matrix.diagonal_apply]
  nlinarith

/-- The hypotheses of the theorems about returned models (C44-C48, C52) are met: with one latent variable, `psi_max = 2` and
`psi_fixed`, `score_dag` returns a model. -/
example (it : SetIter 2) (svd : Matrix (Fin 2) (Fin 2) ℝ → Matrix (Fin 2) (Fin 2) ℝ × (Fin 2 → ℝ)) (u v : Nat → Fin (2 * 2) → ℝ) :
    ∃ (m : LModel 2 1 2) (s : ℝ),
      fitCode it svd num { cfg with psiMax := some 2, psiFixed := true, learningRate := 1 } data u v graph {1} none = .ok (m, some s) :=
  C71_score_dag_returns it svd num _ data good u v graph nonneg acyclic {1} (by norm_num) (by norm_num) rfl feasible
    (by norm_num [cfg]) (by rintro x hx; simp at hx; rw [← hx]; norm_num) (by simp [cfg]) (by simp [cfg])

end StaleEx

/-- The objects returned by these runs score the initial weights; with the returned weights the score is larger. -/
theorem StaleEx.scores (m : LModel 2 0 2) (hB : m.B = StaleEx.B1) (hO : m.omegas = StaleEx.om) (hI : m.IB = 1 - StaleEx.B0ᵀ) :
    ∃ s s' : ℝ, m.scoreOn StaleEx.data = .ok (some s) ∧
      (⟨StaleEx.graph, m.B, m.gamma, m.omegas, m.psis, 1 - m.Bᵀ⟩ : LModel 2 0 2).scoreOn StaleEx.data = .ok (some s') ∧ s < s' := by
  have ho : ∀ k i, 0 < m.omegas k i := by
    rw [hO]; intro k i; fin_cases k <;> fin_cases i <;> norm_num [StaleEx.om]
  have hp : ∀ k i, 0 ≤ m.psis k i := fun k i => i.elim0
  refine ⟨_, _, scoreOn_ok StaleEx.data StaleEx.good m ho hp, scoreOn_ok StaleEx.data StaleEx.good
    ⟨StaleEx.graph, m.B, m.gamma, m.omegas, m.psis, 1 - m.Bᵀ⟩ ho hp, ?_⟩
  have hn : ∀ k, m.noise k = Matrix.diagonal (StaleEx.om k) := by
    intro k
    unfold LModel.noise
    rw [hO]
    ext i j
    simp
  have hn' : ∀ k, (⟨StaleEx.graph, m.B, m.gamma, m.omegas, m.psis, 1 - m.Bᵀ⟩ : LModel 2 0 2).noise k =
      Matrix.diagonal (StaleEx.om k) := hn
  have hinv : ∀ k, (Matrix.diagonal (StaleEx.om k))⁻¹ = Matrix.diagonal (fun j => (StaleEx.om k j)⁻¹) := by
    intro k
    refine Matrix.inv_eq_left_inv ?_
    rw [Matrix.diagonal_mul_diagonal]
    ext i j
    fin_cases k <;> fin_cases i <;> fin_cases j <;> simp [StaleEx.om]
  simp only [hn, hn', hinv, Fin.sum_univ_two]
  simp only [hI, hB]
  simp [StaleEx.data, StaleEx.om, StaleEx.B0, StaleEx.B1, Matrix.trace, Matrix.mul_apply, Fin.sum_univ_two, Matrix.sub_apply,
    Matrix.one_apply, Matrix.diagonal_apply]
  norm_num
  linarith

/-- C52: there are valid inputs (a DAG, positive definite sample covariances, a solver for `B` that is exact) for which two equal calls
of `score_dag` return the same number, but models that score differently: the number is the score of the first object, not of the
second one. -/
theorem C52_violated (it : SetIter 2) (svd : Matrix (Fin 2) (Fin 2) ℝ → Matrix (Fin 2) (Fin 2) ℝ × (Fin 2 → ℝ))
    (u v : Nat → Fin (2 * 2) → ℝ) :
    ∃ (m m' : LModel 2 0 2) (s s' : ℝ) (c : List (Entry 2 (LModel 2 0 2))),
      scoreDag (LModel.copy it) (fitCode it svd StaleEx.num StaleEx.cfg StaleEx.data u v) (some []) StaleEx.graph Finset.univ none =
        .ok ((m, some s), some c) ∧
      scoreDag (LModel.copy it) (fitCode it svd StaleEx.num StaleEx.cfg StaleEx.data u v) (some c) StaleEx.graph Finset.univ none =
        .ok ((m', some s), some c) ∧
      m'.B = m.B ∧ m'.gamma = m.gamma ∧ m'.omegas = m.omegas ∧ m'.psis = m.psis ∧
      m.scoreOn StaleEx.data = .ok (some s) ∧ m'.scoreOn StaleEx.data = .ok (some s') ∧ s < s' := by
  obtain ⟨m, s, h, hA, hB, hO, hI⟩ := StaleEx.run it svd u v
  obtain ⟨m', c, h1, h2, h3⟩ := C52_hit StaleEx.nonneg (by simp [StaleEx.cfg]) m _ h
  obtain ⟨-, -, rfl⟩ := mkModel_fields h1
  obtain ⟨s1, s', e1, e2, hlt⟩ := StaleEx.scores m hB hO hI
  rw [C52_score_of_object none m _ h] at e1
  cases e1
  exact ⟨m, _, _, s', c, h2, h3, rfl, rfl, rfl, rfl, C52_score_of_object none m _ h, e2, hlt⟩

end Verif
