import Verif.Props.DescentMany

/-!
# C106, the default start

`C106_violated` starts from a given model.  Here `score_dag` is called as in the first phase of `_fit`: without `init_model` and with all
variables as targets.  The initial model is a regression on the average covariance with the variances of the residuals, and the first
iteration makes its computed score worse.
-/

namespace Verif

open Spec Matrix

namespace ManyDefault

open BSolversExample (graph nonneg acyclic respects_iff)

/-- Independent variables with variances 1 and 1/2 in the first environment; in the second one `X₁ = 2 X₀ + noise` with noise variance 2. -/
noncomputable def covs : Fin 2 → Matrix (Fin 2) (Fin 2) ℝ := ![!![1, 0; 0, 1 / 2], !![1, 2; 2, 6]]

/-- `n` observations in both environments. -/
noncomputable def data (n : Nat) : Data 2 2 := ⟨covs, fun _ => n⟩

theorem posDef (k : Fin 2) : (covs k).PosDef := by
  refine Matrix.PosDef.of_dotProduct_mulVec_pos ?_ (fun x hx => ?_)
  · rw [Matrix.IsHermitian, Matrix.conjTranspose_eq_transpose_of_trivial]
    ext i j
    fin_cases k <;> fin_cases i <;> fin_cases j <;> simp [covs]
  · have : x 0 ≠ 0 ∨ x 1 ≠ 0 := by
      by_contra hc
      push Not at hc
      exact hx (by funext i; fin_cases i <;> simp [hc.1, hc.2])
    fin_cases k
    · simp [covs, dotProduct, Fin.sum_univ_two, Matrix.mulVec]
      rcases this with h | h
      · nlinarith [mul_self_pos.2 h, mul_self_nonneg (x 1)]
      · nlinarith [mul_self_pos.2 h, mul_self_nonneg (x 0)]
    · simp [covs, dotProduct, Fin.sum_univ_two, Matrix.mulVec]
      rcases this with h | h
      · nlinarith [mul_self_pos.2 h, mul_self_nonneg (x 0 + 3 * x 1)]
      · nlinarith [mul_self_pos.2 h, mul_self_nonneg (x 0 + 2 * x 1)]

theorem goodData {n : Nat} (hn : 0 < n) : GoodData (data n) := ⟨posDef, fun _ => hn, two_pos⟩

/-- The model without latents with weight `b` of `0 → 1` and variances `om`. -/
noncomputable abbrev model (b : ℝ) (om : Matrix (Fin 2) (Fin 2) ℝ) : LModel 2 0 2 := ManyEx.model b om

/-- The variances of the residuals for the weight 1. -/
noncomputable def om0 : Matrix (Fin 2) (Fin 2) ℝ := !![1, 3 / 2; 1, 3]

theorem om0_pos (k i : Fin 2) : 0 < om0 k i := by fin_cases k <;> fin_cases i <;> simp [om0]

/-- The computed score. -/
theorem score {n : Nat} (hn : 0 < n) (b : ℝ) (om : Matrix (Fin 2) (Fin 2) ℝ) (ho : ∀ k i, 0 < om k i) :
    (model b om).scoreOn (data n) = .ok (some (
      (Real.log (om 0 0) + Real.log (om 0 1) + (om 0 0)⁻¹ + (1 / 2 + b ^ 2) * (om 0 1)⁻¹) / (4 * n) +
      (Real.log (om 1 0) + Real.log (om 1 1) + (om 1 0)⁻¹ + (2 + (2 - b) ^ 2) * (om 1 1)⁻¹) / 2)) := by
  have hn' : (n : ℝ) ≠ 0 := by exact_mod_cast hn.ne'
  rw [scoreOn_ok (data n) (goodData hn) (model b om) ho (fun _ i => i.elim0)]
  congr 2
  simp only [ManyEx.noise, Matrix.det_diagonal, Fin.sum_univ_two, Fin.prod_univ_two, invDiag _ (fun i => (ho _ i).ne')]
  rw [Real.log_mul (ho 0 0).ne' (ho 0 1).ne', Real.log_mul (ho 1 0).ne' (ho 1 1).ne']
  simp only [Matrix.trace, Fin.sum_univ_two, Matrix.diag_apply, Matrix.diagonal_mul]
  simp [ManyEx.model, data, covs, Matrix.mul_apply, Fin.sum_univ_two]
  field_simp
  ring

/-- The initial model of `score_dag` for `0 → 1` and all variables as targets. -/
theorem initial {n : Nat} (hn : 0 < n) (it : SetIter 2) (svd : Matrix (Fin 2) (Fin 2) ℝ → Matrix (Fin 2) (Fin 2) ℝ × (Fin 2 → ℝ)) :
    initialModel it svd (data n) graph Finset.univ = .ok (model 1 om0) := by
  obtain ⟨m0, h1, h0⟩ := initialModel_returns (it := it) (l := 0) nonneg acyclic svd (data n) (goodData hn) Finset.univ (by norm_num)
    (psiMax := none) (by simp)
  obtain ⟨hA, -, -, h2, -, h3, -⟩ := C53_initial_model it svd _ nonneg Finset.univ (data n)
    (fun k => by have := (posDef k).isHermitian; rwa [Matrix.IsHermitian, Matrix.conjTranspose_eq_transpose_of_trivial] at this) m0 h1
  have hIB : m0.IB = 1 - m0.Bᵀ := by
    unfold initialModel at h1
    split at h1
    · simp at h1
    split at h1
    · simp at h1
    split at h1
    · simp at h1
    split at h1
    · obtain ⟨-, -, rfl⟩ := mkModel_fields h1
      rfl
    · simp at h1
  obtain ⟨b, hb⟩ := (respects_iff _).1 h0.respects
  have hn' : (0 : ℝ) < n := by exact_mod_cast hn
  have hb1 : b = 1 := by
    have h4 := h2 0 1 (by simp [graph])
    rw [hb] at h4
    simp [pooledCov, data, covs, Fin.sum_univ_two] at h4
    field_simp at h4
    linarith
  subst hb1
  have hom : m0.omegas = om0 := by
    ext k j
    rw [h3 k j (Finset.mem_univ _), hb]
    fin_cases k <;> fin_cases j <;> simp [residualVar, data, covs, om0, Fin.sum_univ_two] <;> norm_num
  rw [h1]
  congr 1
  obtain ⟨A, B, g, o, s, IB⟩ := m0
  simp only at hA hb hom hIB
  subst hA hb hom hIB
  simp only [model, ManyEx.model]
  congr 1 <;> exact Subsingleton.elim _ _

theorem noise_start (k : Fin 2) : noiseCov (model 1 om0).gamma ((model 1 om0).psis k) ((model 1 om0).omegas k) = Matrix.diagonal (om0 k) := by
  ext i j
  fin_cases k <;> fin_cases i <;> fin_cases j <;> simp [noiseCov, ManyEx.model]

theorem traceLoss_eq (w : ℝ) (b : ℝ) :
    traceLoss (fun _ => w) (fun k => (Matrix.diagonal (om0 k))⁻¹) covs !![0, b; 0, 0] = w * (b ^ 2 - 4 / 3 * b + 13 / 3) := by
  unfold traceLoss
  simp only [Fin.sum_univ_two]
  rw [invDiag _ (fun i => (om0_pos 0 i).ne'), invDiag _ (fun i => (om0_pos 1 i).ne')]
  simp only [Matrix.trace, Fin.sum_univ_two, Matrix.diag_apply, Matrix.diagonal_mul]
  simp [covs, Matrix.mul_apply, Fin.sum_univ_two, om0]
  ring

/-- The update of `B`: an exact solver returns the weight 2/3, closer to the best weight for the first environment, which has the smaller
variance. -/
theorem solveB {n : Nat} (hn : 0 < n) (num : NumLib 2 2) (hs : GoodSqrt num.sqrtm)
    (hopt : ∀ Ms, CvxOptimal num graph Ms (data n) 0) : solveForBCvx num (data n) (model 1 om0) = .ok !![0, 2 / 3; 0, 0] := by
  obtain ⟨B, h1, h2, h3⟩ := C77_cvx_optimal num hs (data n) (fun k => (posDef k).posSemidef) (model 1 om0) acyclic om0_pos
    (fun _ i => i.elim0) 0 (hopt _)
  obtain ⟨b, rfl⟩ := (respects_iff _).1 h2
  suffices hb : b = 2 / 3 by rw [h1, hb]
  have hd : ∀ b : ℝ, (1 - !![0, b; 0, 0]ᵀ : Matrix (Fin 2) (Fin 2) ℝ).det = 1 := fun b =>
    det_one_sub_transpose acyclic ((respects_iff _).2 ⟨b, rfl⟩)
  choose C hC using fun k => entails_exists (hd b) (Matrix.diagonal (om0 k))
  choose C' hC' using fun k => entails_exists (hd (2 / 3)) (Matrix.diagonal (om0 k))
  have h4 := h3 _ C C' ((respects_iff _).2 ⟨2 / 3, rfl⟩) (fun k => by rw [noise_start]; exact hC k)
    (fun k => by rw [noise_start]; exact hC' k)
  simp only [data] at h4
  rw [weightedNLL_traceLoss acyclic _ (fun k => Matrix.diagonal (om0 k)) covs ((respects_iff _).2 ⟨b, rfl⟩) hC,
    weightedNLL_traceLoss acyclic _ (fun k => Matrix.diagonal (om0 k)) covs ((respects_iff _).2 ⟨2 / 3, rfl⟩) hC',
    traceLoss_eq, traceLoss_eq] at h4
  have hw : 0 < (n : ℝ) / ∑ _k : Fin 2, (n : ℝ) := by
    rw [Fin.sum_univ_two]
    have : (0 : ℝ) < n := by exact_mod_cast hn
    positivity
  have h5 := le_of_mul_le_mul_left (a := (n : ℝ) / ∑ _k : Fin 2, (n : ℝ)) (b := b ^ 2 - 4 / 3 * b + 13 / 3)
    (c := (2 / 3) ^ 2 - 4 / 3 * (2 / 3) + 13 / 3) (by linarith) hw
  have h6 : (b - 2 / 3) * (b - 2 / 3) = 0 := le_antisymm (by nlinarith) (mul_self_nonneg _)
  have h7 := mul_self_eq_zero.1 h6
  linarith

theorem goodModel (it : SetIter 2) (psiMax : Option ℝ) : GoodModel it graph psiMax (model 1 om0) :=
  ⟨rfl, (respects_iff _).2 ⟨_, rfl⟩, om0_pos, fun _ i => i.elim0, fun _ _ _ i => i.elim0⟩

end ManyDefault

open ManyDefault in
open BSolversExample (graph nonneg acyclic respects_iff) in
/-- C106 without `init_model`: two environments with `n` observations each, all variables as targets (the call in the first phase of `_fit`),
an exact solver for `B`, any learning rate, thresholds and bounds.  With `max_iter = 1` the returned parameters have a computed score that is
larger, by more than 1/12, than that of the initial model, which is a regression on the average covariance (`s₁` is the score of a new model
with the returned parameters). -/
theorem C106_default_start (it : SetIter 2) (svd : Matrix (Fin 2) (Fin 2) ℝ → Matrix (Fin 2) (Fin 2) ℝ × (Fin 2 → ℝ)) (num : NumLib 2 2)
    (hs : GoodSqrt num.sqrtm) (n : Nat) (hn : 20 ≤ n) (hopt : ∀ Ms, CvxOptimal num graph Ms (data n) 0) (cfg : ScoreCfg)
    (hcvx : cfg.solver = .cvx) (hpsi : ∀ x, cfg.psiMax = some x → 0 ≤ x) (hthr : 0 < cfg.thresholdScore) (hit : cfg.stop.maxIter = 1)
    (hfl : 0 < cfg.stop.maxFluctuations) (u v : Nat → Fin (2 * 2) → ℝ) :
    ∃ (m0 m m' : LModel 2 0 2) (s : Flt) (s₀ s₁ : ℝ), fitCode it svd num cfg (data n) u v graph Finset.univ none = .ok (m, s) ∧
      initialModel it svd (data n) graph Finset.univ = .ok m0 ∧
      m0.scoreOn (data n) = .ok (some s₀) ∧ mkModel it m.A m.B m.gamma m.omegas m.psis = .ok m' ∧
      m'.scoreOn (data n) = .ok (some s₁) ∧ s₀ + 1 / 12 < s₁ := by
  have hn0 : 0 < n := by omega
  have hsolve : ∀ i (m : LModel 2 0 2), GoodModel it graph cfg.psiMax m →
      ∃ B, (codeSolvers it num cfg (data n) u v Finset.univ).solveB i m = .ok B ∧ Respects graph B := by
    intro i m hm
    simp only [codeSolvers, hcvx]
    obtain ⟨B, h1, h2, -⟩ := C77_cvx_optimal num hs (data n) (fun k => (posDef k).posSemidef) m (by rw [hm.graph]; exact acyclic) hm.omegas
      (fun _ i => i.elim0) 0 (by rw [hm.graph]; exact hopt _)
    exact ⟨B, h1, by rw [← hm.graph]; exact h2⟩
  obtain ⟨⟨m, s⟩, hr⟩ := alternate_returns (it := it) (sv := codeSolvers it num cfg (data n) u v Finset.univ) two_ne_zero (by omega) hfl
    (GoodModel it graph cfg.psiMax) (fun m hm => ⟨_, scoreOn_ok (data n) (goodData hn0) m hm.omegas (fun _ i => i.elim0)⟩)
    (fun i m hm => altBody_returns nonneg acyclic hpsi num (data n) (goodData hn0) u v Finset.univ hthr hsolve hm i) (goodModel it cfg.psiMax)
  obtain ⟨k, hk0, h1, -, h3, -⟩ := C44_run hr
  have hk : k = 1 := by
    obtain ⟨j, rfl⟩ : ∃ j, k = j + 1 := ⟨k - 1, by omega⟩
    have := (h3 j (by omega)).1
    omega
  subst hk
  have hbody : altBody it (codeSolvers it num cfg (data n) u v Finset.univ) 0 (model 1 om0) = .ok m := by
    simpa [iterates] using h1
  obtain ⟨-, hA, -, hB, -, hrest⟩ := altBody_ok hbody
  simp only [codeSolvers, hcvx] at hB hrest
  have hB' : m.B = !![0, 2 / 3; 0, 0] := by
    have := solveB hn0 num hs hopt
    have e : ({ model 1 om0 with IB := 1 - (model 1 om0).Bᵀ } : LModel 2 0 2) = model 1 om0 := rfl
    rw [e, this] at hB
    exact (Except.ok.inj hB).symm
  have hpos := (solveForRest_inBounds hrest).1
  have hmk : mkModel it m.A m.B m.gamma m.omegas m.psis = .ok (model (2 / 3) m.omegas) := by
    rw [hA, hB', show m.gamma = 0 from Subsingleton.elim _ _, show m.psis = 0 from Subsingleton.elim _ _]
    exact mkModel_eq_ok nonneg _ _ _ acyclic ((respects_iff _).2 ⟨_, rfl⟩)
  refine ⟨_, m, _, s, _, _, ?_, initial hn0 it svd, score hn0 1 _ om0_pos, hmk, score hn0 (2 / 3) m.omegas hpos, ?_⟩
  · unfold fitCode fitDag
    rw [if_neg (by simpa using (isDag_iff it nonneg).2 acyclic)]
    simp only [initial hn0 it svd]
    exact hr
  · have hnr : (20 : ℝ) ≤ n := by exact_mod_cast hn
    have a1 := ManyEx.log_min (hpos 0 0) one_pos
    have a2 := ManyEx.log_min (hpos 0 1) (c := 17 / 18) (by norm_num)
    have a3 := ManyEx.log_min (hpos 1 0) one_pos
    have a4 := ManyEx.log_min (hpos 1 1) (c := 34 / 9) (by norm_num)
    have b1 : (7 : ℝ) / 34 ≤ Real.log (34 / 9) - Real.log 3 := by
      rw [← Real.log_div (by norm_num) (by norm_num)]
      have := Real.one_sub_inv_le_log_of_pos (x := 34 / 9 / 3) (by norm_num)
      norm_num at this ⊢
      linarith
    have b2 : Real.log (3 / 2) - Real.log (17 / 18) ≤ 10 / 17 := by
      rw [← Real.log_div (by norm_num) (by norm_num)]
      have := Real.log_le_sub_one_of_pos (x := 3 / 2 / (17 / 18)) (by norm_num)
      norm_num at this ⊢
      linarith
    simp only [om0, Matrix.of_apply, Matrix.cons_val', Matrix.cons_val_zero, Matrix.cons_val_one, Matrix.cons_val_fin_one, Real.log_one] at *
    set X := Real.log (m.omegas 0 0) + Real.log (m.omegas 0 1) + (m.omegas 0 0)⁻¹ + (1 / 2 + (2 / 3) ^ 2) * (m.omegas 0 1)⁻¹ with hX
    have hX1 : Real.log (17 / 18) + 2 ≤ X := by
      norm_num at hX a1 a2 ⊢
      linarith
    have hq : (Real.log (3 / 2) + 1 + 1 - X) / (4 * (n : ℝ)) ≤ 1 / 136 := by
      rw [div_le_iff₀ (by positivity)]
      nlinarith
    rw [sub_div] at hq
    norm_num at hq a3 a4 ⊢
    linarith

/-- The hypotheses of `C106_default_start` about the libraries can be met. -/
example : ∃ num : NumLib 2 2, GoodSqrt num.sqrtm ∧ ∀ Ms, CvxOptimal num BSolversExample.graph Ms (ManyDefault.data 20) 0 := by
  obtain ⟨num, h1, h2⟩ := cvxOptimal_zero_exists (p := 2) (e := 2)
  exact ⟨num, h1, fun Ms => h2 _ _ _⟩

end Verif
