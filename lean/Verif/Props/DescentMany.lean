import Verif.Props.Descent
import Verif.Props.IntArrays
import Verif.Props.PopulationCode
import Mathlib.Analysis.Complex.ExponentialBounds

/-!
# C106: with several environments the parameters can become worse

C86 shows that with one environment an iteration of the alternating optimisation never makes the parameters worse.  With two environments
this fails, for the score that the code computes, by an amount that does not go to zero with the sample size: the update of `B` minimises
the documented score, in which the environments weigh the same, while the computed score hardly counts the first one (C37).
-/

namespace Verif

open Spec Matrix

variable {p l e : Nat}

/-- C106, what holds for any number of environments and any solver: the updates of `gamma` and of the variances do not make the computed
score worse; only the update of `B` can (`m₁` has the new `B` and the other parameters from before the iteration, `m₂` has all parameters
from after it). -/
theorem C106_after_B (it : SetIter p) (num : NumLib p e) (cfg : ScoreCfg) (d : Data p e) (u v : Nat → Fin (p * p) → ℝ) (I : Finset (Fin p))
    (i : Nat) (prev cur : LModel p l e) (h : altBody it (codeSolvers it num cfg d u v I) i prev = .ok cur) (m₁ : LModel p l e) (s₁ : ℝ)
    (hm₁ : mkModel it prev.A cur.B prev.gamma prev.omegas prev.psis = .ok m₁) (hs₁ : m₁.scoreOn d = .ok (some s₁)) :
    ∃ m₂ s₂, mkModel it cur.A cur.B cur.gamma cur.omegas cur.psis = .ok m₂ ∧ m₂.scoreOn d = .ok (some s₂) ∧ s₂ ≤ s₁ := by
  obtain ⟨-, hA, -, -, hg, hr⟩ := altBody_ok h
  simp only [codeSolvers] at hg hr
  unfold solveForGamma at hg
  split at hg
  · simp at hg
  rename_i X L hgd
  simp only [Except.ok.injEq] at hg
  unfold solveForRest at hr
  split at hr
  · simp at hr
  rename_i Y M hgd'
  simp only [Except.ok.injEq, Prod.mk.injEq] at hr
  obtain ⟨-, hL, L0, hL0, h1⟩ := C50_returns _ _ _ hgd
  obtain ⟨-, hM, M0, hM0, h2⟩ := C50_returns _ _ _ hgd'
  have e0 : L0 = some s₁ := by
    have : gammaLoss it d { prev with B := cur.B, IB := 1 - prev.Bᵀ } (fun ak => prev.gamma ak.1 ak.2) = .ok (some s₁) := by
      unfold gammaLoss
      show (match mkModel it prev.A cur.B prev.gamma prev.omegas prev.psis with
        | .error err => (.error err : Except Err Flt)
        | .ok m' => m'.score (List.ofFn d.covs) (List.ofFn d.nObs)) = _
      rw [hm₁]
      exact hs₁
    rw [this] at hL0
    exact (Except.ok.inj hL0).symm
  have e1 : M0 = L := by
    have : gammaLoss it d { prev with B := cur.B, IB := 1 - prev.Bᵀ } X =
        restLoss it d { prev with B := cur.B, gamma := cur.gamma, IB := 1 - prev.Bᵀ }
          (Sum.elim (fun hj => prev.omegas hj.1 hj.2) (fun hk => prev.psis hk.1 hk.2)) := by
      rw [← hg]
      rfl
    rw [hL, hM0] at this
    exact (Except.ok.inj this).symm
  have h3 : ∃ x, L = some x ∧ x ≤ s₁ := by
    rcases h1 with ⟨-, h1⟩ | ⟨x, y, rfl, h4, h5⟩
    · exact ⟨s₁, by rw [h1, e0], le_refl _⟩
    · rw [e0] at h4
      cases h4
      exact ⟨x, rfl, h5.le⟩
  obtain ⟨x, rfl, hx⟩ := h3
  subst e1
  have h4 : ∃ y, M = some y ∧ y ≤ x := by
    rcases h2 with ⟨-, h2⟩ | ⟨y, z, rfl, h4, h5⟩
    · exact ⟨x, h2, le_refl _⟩
    · cases h4
      exact ⟨y, rfl, h5.le⟩
  obtain ⟨y, rfl, hy⟩ := h4
  unfold restLoss at hM
  rw [hr.1, hr.2] at hM
  simp only at hM
  rw [← hA] at hM
  cases hmk : mkModel it cur.A cur.B cur.gamma cur.omegas cur.psis with
  | error err => rw [hmk] at hM; simp at hM
  | ok m₂ =>
    rw [hmk] at hM
    exact ⟨m₂, y, rfl, hM, by linarith⟩

namespace ManyEx

open BSolversExample (graph nonneg acyclic respects_iff)

/-- Independent variables in the first environment; in the second one `X₁ = X₀ + noise` with noise variance 1/4. -/
noncomputable def covs : Fin 2 → Matrix (Fin 2) (Fin 2) ℝ := ![1, !![1, 1; 1, 5 / 4]]

/-- `n` observations in both environments. -/
noncomputable def data (n : Nat) : Data 2 2 := ⟨covs, fun _ => n⟩

/-- The model without latents with weight `b` of `0 → 1` and variances `om`. -/
noncomputable def model (b : ℝ) (om : Matrix (Fin 2) (Fin 2) ℝ) : LModel 2 0 2 := ⟨graph, !![0, b; 0, 0], 0, om, 0, 1 - !![0, b; 0, 0]ᵀ⟩

/-- The initial model: the parameters fit the second environment. -/
noncomputable def start : LModel 2 0 2 := model 1 !![1, 1 / 4; 1, 1 / 4]

theorem posDef (k : Fin 2) : (covs k).PosDef := by
  refine Matrix.PosDef.of_dotProduct_mulVec_pos ?_ (fun x hx => ?_)
  · rw [Matrix.IsHermitian, Matrix.conjTranspose_eq_transpose_of_trivial]
    ext i j
    fin_cases k <;> fin_cases i <;> fin_cases j <;> simp [covs]
  · have : x 0 ≠ 0 ∨ x 1 ≠ 0 := by
      by_contra hc
      push Not at hc
      exact hx (by funext i; fin_cases i <;> simp [hc.1, hc.2])
    fin_cases k
    · simp [covs, dotProduct, Fin.sum_univ_two]
      rcases this with h | h
      · nlinarith [mul_self_pos.2 h, mul_self_nonneg (x 1)]
      · nlinarith [mul_self_pos.2 h, mul_self_nonneg (x 0)]
    · simp [covs, dotProduct, Fin.sum_univ_two, Matrix.mulVec]
      rcases this with h | h
      · nlinarith [mul_self_pos.2 h, mul_self_nonneg (9 * x 0 + 10 * x 1)]
      · nlinarith [mul_self_pos.2 h, mul_self_nonneg (x 0 + x 1)]

theorem goodData {n : Nat} (hn : 0 < n) : GoodData (data n) := ⟨posDef, fun _ => hn, two_pos⟩

theorem noise (b : ℝ) (om : Matrix (Fin 2) (Fin 2) ℝ) (k : Fin 2) : (model b om).noise k = Matrix.diagonal (om k) := by
  ext i j
  simp [LModel.noise, model, Matrix.diagonal_apply]

/-- The computed score. -/
theorem score {n : Nat} (hn : 0 < n) (b : ℝ) (om : Matrix (Fin 2) (Fin 2) ℝ) (ho : ∀ k i, 0 < om k i) :
    (model b om).scoreOn (data n) = .ok (some (
      (Real.log (om 0 0) + Real.log (om 0 1) + (om 0 0)⁻¹ + (1 + b ^ 2) * (om 0 1)⁻¹) / (4 * n) +
      (Real.log (om 1 0) + Real.log (om 1 1) + (om 1 0)⁻¹ + ((1 - b) ^ 2 + 1 / 4) * (om 1 1)⁻¹) / 2)) := by
  have hn' : (n : ℝ) ≠ 0 := by exact_mod_cast hn.ne'
  rw [scoreOn_ok (data n) (goodData hn) (model b om) ho (fun _ i => i.elim0)]
  congr 2
  simp only [noise, Matrix.det_diagonal, Fin.sum_univ_two, Fin.prod_univ_two, invDiag _ (fun i => (ho _ i).ne')]
  rw [Real.log_mul (ho 0 0).ne' (ho 0 1).ne', Real.log_mul (ho 1 0).ne' (ho 1 1).ne']
  simp only [Matrix.trace, Fin.sum_univ_two, Matrix.diag_apply, Matrix.diagonal_mul]
  simp [model, data, covs, Matrix.mul_apply, Fin.sum_univ_two]
  field_simp
  ring

theorem noise_start (k : Fin 2) : noiseCov start.gamma (start.psis k) (start.omegas k) = Matrix.diagonal ![1, 1 / 4] := by
  ext i j
  fin_cases k <;> fin_cases i <;> fin_cases j <;> simp [noiseCov, start, model]

theorem traceLoss_eq (w : ℝ) (b : ℝ) :
    traceLoss (fun _ => w) (fun _ => (Matrix.diagonal ![1, 1 / 4])⁻¹) covs !![0, b; 0, 0] = w * (11 + 8 * b ^ 2 - 8 * b) := by
  unfold traceLoss
  rw [Fin.sum_univ_two, invDiag _ (fun i => by fin_cases i <;> norm_num)]
  simp only [Matrix.trace, Fin.sum_univ_two, Matrix.diag_apply, Matrix.diagonal_mul]
  simp [covs, Matrix.mul_apply, Fin.sum_univ_two]
  ring

/-- The update of `B`: an exact solver returns the weight 1/2, between the best weights for the two environments. -/
theorem solveB {n : Nat} (hn : 0 < n) (num : NumLib 2 2) (hs : GoodSqrt num.sqrtm)
    (hopt : ∀ Ms, CvxOptimal num graph Ms (data n) 0) : solveForBCvx num (data n) start = .ok !![0, 1 / 2; 0, 0] := by
  have ho : ∀ k i, 0 < start.omegas k i := by
    intro k i
    fin_cases k <;> fin_cases i <;> simp [start, model]
  obtain ⟨B, h1, h2, h3⟩ := C77_cvx_optimal num hs (data n) (fun k => (posDef k).posSemidef) start acyclic ho (fun _ i => i.elim0) 0 (hopt _)
  obtain ⟨b, rfl⟩ := (respects_iff _).1 h2
  suffices hb : b = 1 / 2 by rw [h1, hb]
  have hd : ∀ b : ℝ, (1 - !![0, b; 0, 0]ᵀ : Matrix (Fin 2) (Fin 2) ℝ).det = 1 := fun b =>
    det_one_sub_transpose acyclic ((respects_iff _).2 ⟨b, rfl⟩)
  obtain ⟨C, hC⟩ := entails_exists (hd b) (Matrix.diagonal ![1, 1 / 4])
  obtain ⟨C', hC'⟩ := entails_exists (hd (1 / 2)) (Matrix.diagonal ![1, 1 / 4])
  have h4 := h3 _ (fun _ => C) (fun _ => C') ((respects_iff _).2 ⟨1 / 2, rfl⟩) (fun k => by rw [noise_start]; exact hC)
    (fun k => by rw [noise_start]; exact hC')
  simp only [data] at h4
  rw [weightedNLL_traceLoss acyclic _ (fun _ => Matrix.diagonal ![1, 1 / 4]) covs ((respects_iff _).2 ⟨b, rfl⟩) (fun _ => hC),
    weightedNLL_traceLoss acyclic _ (fun _ => Matrix.diagonal ![1, 1 / 4]) covs ((respects_iff _).2 ⟨1 / 2, rfl⟩) (fun _ => hC'),
    traceLoss_eq, traceLoss_eq] at h4
  have hw : 0 < (n : ℝ) / ∑ _k : Fin 2, (n : ℝ) := by
    rw [Fin.sum_univ_two]
    have : (0 : ℝ) < n := by exact_mod_cast hn
    positivity
  have h5 := le_of_mul_le_mul_left (a := (n : ℝ) / ∑ _k : Fin 2, (n : ℝ)) (b := 11 + 8 * b ^ 2 - 8 * b)
    (c := 11 + 8 * (1 / 2) ^ 2 - 8 * (1 / 2)) (by linarith) hw
  have h6 : (b - 1 / 2) * (b - 1 / 2) = 0 := le_antisymm (by nlinarith) (mul_self_nonneg _)
  have h7 := mul_self_eq_zero.1 h6
  linarith

/-- `log w + c / w` is smallest for `w = c`. -/
theorem log_min {w c : ℝ} (hw : 0 < w) (hc : 0 < c) : Real.log c + 1 ≤ Real.log w + c * w⁻¹ := by
  have h := Real.log_le_sub_one_of_pos (show 0 < c * w⁻¹ by positivity)
  rw [Real.log_mul hc.ne' (inv_ne_zero hw.ne'), Real.log_inv] at h
  linarith

theorem goodModel (it : SetIter 2) (psiMax : Option ℝ) : GoodModel it graph psiMax start :=
  ⟨rfl, (respects_iff _).2 ⟨_, rfl⟩, fun k i => by fin_cases k <;> fin_cases i <;> simp [start, model], fun _ i => i.elim0,
    fun _ _ _ i => i.elim0⟩

end ManyEx

open ManyEx in
open BSolversExample (graph nonneg acyclic respects_iff) in
/-- C106: two environments with `n` observations each, an exact solver for `B`, any learning rate, thresholds, targets and bounds.
`score_dag` with `init_model` and `max_iter = 1` returns a model whose parameters have a computed score that is larger, by more than 1/4,
than that of the parameters it started from (`s₁` is the score of a new model with the returned parameters). -/
theorem C106_violated (it : SetIter 2) (svd : Matrix (Fin 2) (Fin 2) ℝ → Matrix (Fin 2) (Fin 2) ℝ × (Fin 2 → ℝ)) (num : NumLib 2 2)
    (hs : GoodSqrt num.sqrtm) (n : Nat) (hn : 20 ≤ n) (hopt : ∀ Ms, CvxOptimal num graph Ms (data n) 0) (cfg : ScoreCfg)
    (hcvx : cfg.solver = .cvx) (hpsi : ∀ x, cfg.psiMax = some x → 0 ≤ x) (hthr : 0 < cfg.thresholdScore) (hit : cfg.stop.maxIter = 1)
    (hfl : 0 < cfg.stop.maxFluctuations) (u v : Nat → Fin (2 * 2) → ℝ) (I : Finset (Fin 2)) :
    ∃ (m m' : LModel 2 0 2) (s : Flt) (s₀ s₁ : ℝ), fitCode it svd num cfg (data n) u v graph I (some start) = .ok (m, s) ∧
      start.scoreOn (data n) = .ok (some s₀) ∧ mkModel it m.A m.B m.gamma m.omegas m.psis = .ok m' ∧
      m'.scoreOn (data n) = .ok (some s₁) ∧ s₀ + 1 / 4 < s₁ := by
  have hn0 : 0 < n := by omega
  have hsolve : ∀ i (m : LModel 2 0 2), GoodModel it graph cfg.psiMax m →
      ∃ B, (codeSolvers it num cfg (data n) u v I).solveB i m = .ok B ∧ Respects graph B := by
    intro i m hm
    simp only [codeSolvers, hcvx]
    obtain ⟨B, h1, h2, -⟩ := C77_cvx_optimal num hs (data n) (fun k => (posDef k).posSemidef) m (by rw [hm.graph]; exact acyclic) hm.omegas
      (fun _ i => i.elim0) 0 (by rw [hm.graph]; exact hopt _)
    exact ⟨B, h1, by rw [← hm.graph]; exact h2⟩
  obtain ⟨⟨m, s⟩, hr⟩ := alternate_returns (it := it) (sv := codeSolvers it num cfg (data n) u v I) two_ne_zero (by omega) hfl
    (GoodModel it graph cfg.psiMax) (fun m hm => ⟨_, scoreOn_ok (data n) (goodData hn0) m hm.omegas (fun _ i => i.elim0)⟩)
    (fun i m hm => altBody_returns nonneg acyclic hpsi num (data n) (goodData hn0) u v I hthr hsolve hm i) (goodModel it cfg.psiMax)
  obtain ⟨k, hk0, h1, -, h3, -⟩ := C44_run hr
  have hk : k = 1 := by
    obtain ⟨j, rfl⟩ : ∃ j, k = j + 1 := ⟨k - 1, by omega⟩
    have := (h3 j (by omega)).1
    omega
  subst hk
  have hbody : altBody it (codeSolvers it num cfg (data n) u v I) 0 start = .ok m := by
    simpa [iterates] using h1
  obtain ⟨-, hA, -, hB, -, hrest⟩ := altBody_ok hbody
  simp only [codeSolvers, hcvx] at hB hrest
  have hB' : m.B = !![0, 1 / 2; 0, 0] := by
    have := solveB hn0 num hs hopt
    have e : ({ start with IB := 1 - start.Bᵀ } : LModel 2 0 2) = start := rfl
    rw [e, this] at hB
    exact (Except.ok.inj hB).symm
  have hpos := (solveForRest_inBounds hrest).1
  have hmk : mkModel it m.A m.B m.gamma m.omegas m.psis = .ok (model (1 / 2) m.omegas) := by
    rw [hA, hB', show m.gamma = 0 from Subsingleton.elim _ _, show m.psis = 0 from Subsingleton.elim _ _]
    exact mkModel_eq_ok nonneg _ _ _ acyclic ((respects_iff _).2 ⟨_, rfl⟩)
  refine ⟨m, _, s, _, _, ?_, score hn0 1 _ (goodModel it none).omegas, hmk, score hn0 (1 / 2) m.omegas hpos, ?_⟩
  · unfold fitCode fitDag
    rw [if_neg (by simpa using (isDag_iff it nonneg).2 acyclic)]
    simp only [start, model, ne_eq, not_true_eq_false, if_false]
    exact hr
  · have hnr : (20 : ℝ) ≤ n := by exact_mod_cast hn
    have a1 := log_min (hpos 0 0) one_pos
    have a2 := log_min (hpos 0 1) (c := 5 / 4) (by norm_num)
    have a3 := log_min (hpos 1 0) one_pos
    have a4 := log_min (hpos 1 1) (c := 1 / 2) (by norm_num)
    have l4 : Real.log (1 / 4) = - (2 * Real.log 2) := by
      rw [one_div, Real.log_inv, show (4 : ℝ) = 2 ^ 2 by norm_num, Real.log_pow]
      norm_num
    have l2 : Real.log (1 / 2) = - Real.log 2 := by rw [one_div, Real.log_inv]
    have l5 : 0 ≤ Real.log (5 / 4) := Real.log_nonneg (by norm_num)
    have hl := Real.log_two_gt_d9
    simp only [Real.log_one, l2] at a1 a2 a3 a4
    simp only [Matrix.of_apply, Matrix.cons_val', Matrix.cons_val_zero, Matrix.cons_val_one, Matrix.cons_val_fin_one,
      Real.log_one, l4]
    set X := Real.log (m.omegas 0 0) + Real.log (m.omegas 0 1) + (m.omegas 0 0)⁻¹ + (1 + (1 / 2) ^ 2) * (m.omegas 0 1)⁻¹ with hX
    have hX1 : 2 ≤ X := by
      norm_num at hX
      linarith
    have hq : (0 + -(2 * Real.log 2) + 1⁻¹ + (1 + 1 ^ 2) * (1 / 4)⁻¹ - X) / (4 * (n : ℝ)) ≤ 7 / 80 := by
      rw [div_le_iff₀ (by positivity)]
      norm_num
      nlinarith
    rw [sub_div] at hq
    norm_num at hq ⊢
    nlinarith

/-- The hypotheses of `C106_violated` about the libraries can be met. -/
example : ∃ num : NumLib 2 2, GoodSqrt num.sqrtm ∧ ∀ Ms, CvxOptimal num BSolversExample.graph Ms (ManyEx.data 20) 0 := by
  obtain ⟨num, h1, h2⟩ := cvxOptimal_zero_exists (p := 2) (e := 2)
  exact ⟨num, h1, fun Ms => h2 _ _ _⟩

open ManyEx in
open BSolversExample (graph nonneg acyclic respects_iff) in
/-- An example for `C106_after_B`: the model of `C106_violated`, whatever the targets. -/
example (it : SetIter 2) (num : NumLib 2 2) (hs : GoodSqrt num.sqrtm) (hopt : ∀ Ms, CvxOptimal num graph Ms (data 20) 0)
    (u v : Nat → Fin (2 * 2) → ℝ) (I : Finset (Fin 2)) :
    ∃ cur m₂ s₂, altBody it (codeSolvers it num ⟨.cvx, none, false, ⟨1, 1 / 1000, 1 / 100000, 10⟩, 1 / 100000, 1⟩ (data 20) u v I) 0 start =
        .ok cur ∧ mkModel it cur.A cur.B cur.gamma cur.omegas cur.psis = .ok m₂ ∧ m₂.scoreOn (data 20) = .ok (some s₂) := by
  obtain ⟨cur, h1, h2⟩ := altBody_returns (it := it) (l := 0) (cfg := ⟨.cvx, none, false, ⟨1, 1 / 1000, 1 / 100000, 10⟩, 1 / 100000, 1⟩) nonneg
    acyclic (fun x hx => by simp at hx) num (data 20) (goodData (by norm_num)) u v I (by norm_num) (fun i m hm => by
      obtain ⟨B, h1, h2, -⟩ := C77_cvx_optimal num hs (data 20) (fun k => (posDef k).posSemidef) m (by rw [hm.graph]; exact acyclic) hm.omegas
        (fun _ i => i.elim0) 0 (by rw [hm.graph]; exact hopt _)
      exact ⟨B, h1, by rw [← hm.graph]; exact h2⟩) (goodModel it none) 0
  have hmk : mkModel it start.A cur.B start.gamma start.omegas start.psis = .ok _ :=
    mkModel_eq_ok nonneg start.gamma start.omegas start.psis acyclic h2.respects
  obtain ⟨m₂, s₂, h3, h4, -⟩ := C106_after_B it num _ (data 20) u v I 0 start cur h1 _ _ hmk
    (scoreOn_ok (data 20) (goodData (by norm_num)) _ (goodModel it none).omegas (fun _ i => i.elim0))
  exact ⟨cur, m₂, s₂, h1, h3, h4⟩

/-! ## The documented score -/

section Drift

variable {ι : Type} {nArr : Nat} {blk : ι → Nat} {lossFun : (ι → ℝ) → Except Err Flt} {gradFun : (ι → ℝ) → Except Err (ι → ℝ)}
  {threshold learningRate : ℝ} {bounds : Option (List (EReal × EReal))} {kappaZero : ℝ}

/-- How far one coordinate can move down during a gradient descent: every accepted step but the last lowers the loss by at least the
threshold, so the number of steps is bounded. -/
theorem gd_drift (hthr : 0 < threshold) (hlr : 0 ≤ learningRate) (P : (ι → ℝ) → Prop) (i0 : ι) (a c K lower : ℝ) (hc : 0 ≤ c)
    (hb : ∀ X, checkBounds nArr blk X bounds = .ok true → P X) (hloss : ∀ X v, P X → lossFun X = .ok (some v) → lower ≤ v)
    (hgrad : ∀ X g, P X → a ≤ X i0 → gradFun X = .ok g → g i0 ≤ c) (s : GDState ι) (hP : P s.X) (L1 : ℝ) (hL : s.loss = some L1)
    (hL' : lossFun s.X = .ok (some L1)) (hk : 0 ≤ s.kappa ∧ s.kappa ≤ 1) (hg : s.grad = none) (hK : K ≤ s.X i0)
    (ha : a ≤ K - (L1 - lower) / threshold * (learningRate * c)) (X : ι → ℝ) (L : Flt)
    (h : runLoop (gdStep nArr blk lossFun gradFun threshold learningRate bounds kappaZero) s = .ok (X, L)) :
    K - ((L1 - lower) / threshold + 1) * (learningRate * c) ≤ X i0 := by
  have hlc : 0 ≤ learningRate * c := mul_nonneg hlr hc
  let Inv : GDState ι → Prop := fun s => P s.X ∧ (∃ v, s.loss = some v ∧ lossFun s.X = .ok (some v) ∧
    K - (L1 - v) / threshold * (learningRate * c) ≤ s.X i0) ∧ 0 ≤ s.kappa ∧ s.kappa ≤ 1 ∧
    (s.grad = none ∨ ∃ g, s.grad = some g ∧ gradFun s.X = .ok g)
  have hlow : ∀ s, Inv s → K - (L1 - lower) / threshold * (learningRate * c) ≤ s.X i0 := by
    rintro s ⟨h1, ⟨v, -, h3, h4⟩, -⟩
    have h5 := hloss _ _ h1 h3
    have h6 : (L1 - v) / threshold ≤ (L1 - lower) / threshold := by
      rw [div_le_div_iff_of_pos_right hthr]
      linarith
    nlinarith [mul_le_mul_of_nonneg_right h6 hlc]
  have hstep : ∀ s g, Inv s → s.gradients gradFun = .ok g → s.kappa * learningRate * g i0 ≤ learningRate * c := by
    intro s g hI hgr
    have h1 := hlow s hI
    obtain ⟨h2, -, h3, h4, h5⟩ := hI
    have h6 : gradFun s.X = .ok g := by
      unfold GDState.gradients at hgr
      rcases h5 with h5 | ⟨g', h5, h6⟩
      · rw [h5] at hgr
        exact hgr
      · rw [h5] at hgr
        cases hgr
        exact h6
    have h7 := hgrad _ _ h2 (ha.trans h1) h6
    have h8 : s.kappa * learningRate * g i0 ≤ s.kappa * learningRate * c := mul_le_mul_of_nonneg_left h7 (mul_nonneg h3 hlr)
    have h9 : s.kappa * (learningRate * c) ≤ 1 * (learningRate * c) := mul_le_mul_of_nonneg_right h4 hlc
    linarith
  have hkeep : ∀ s s', Inv s → gdStep nArr blk lossFun gradFun threshold learningRate bounds kappaZero s = .ok (.inl s') → Inv s' := by
    intro s s' hI hs
    obtain ⟨g, hgr, ⟨rfl, -⟩ | ⟨newLoss, h1, h2, h3, h4, rfl⟩⟩ := gdStep_inl hs
    · obtain ⟨i1, i2, i3, i4, i5⟩ := hI
      refine ⟨i1, i2, by simp only; linarith, by simp only; linarith, Or.inr ⟨g, rfl, ?_⟩⟩
      unfold GDState.gradients at hgr
      rcases i5 with i5 | ⟨g', i5, i6⟩
      · rw [i5] at hgr
        exact hgr
      · rw [i5] at hgr
        cases hgr
        exact i6
    · have h5 := hstep s g hI hgr
      obtain ⟨i1, ⟨v, i2, -, i2'⟩, i3, i4, i5⟩ := hI
      rw [i2] at h3 h4
      cases newLoss with
      | none => simp [Flt.lt] at h3
      | some w =>
        simp only [Flt.lt] at h3
        simp only [Flt.absSubLt] at h4
        push Not at h4
        rw [abs_of_neg (by linarith)] at h4
        refine ⟨hb _ h1, ⟨w, rfl, h2, ?_⟩, i3, i4, Or.inl rfl⟩
        have h6 : (L1 - v) / threshold + 1 ≤ (L1 - w) / threshold := by
          rw [div_add_one hthr.ne', div_le_div_iff_of_pos_right hthr]
          linarith
        have h7 := mul_le_mul_of_nonneg_right h6 hlc
        simp only
        linarith
  have hret : ∀ s r, Inv s → gdStep nArr blk lossFun gradFun threshold learningRate bounds kappaZero s = .ok (.inr r) →
      K - ((L1 - lower) / threshold + 1) * (learningRate * c) ≤ r.1 i0 := by
    intro s r hI hs
    have h1 := hlow s hI
    rcases gdStep_inr_point hs with h2 | ⟨g, hgr, h2⟩
    · rw [h2]
      linarith
    · have h5 := hstep s g hI hgr
      rw [h2]
      simp only
      linarith
  exact runLoop_ok Inv (fun r => K - ((L1 - lower) / threshold + 1) * (learningRate * c) ≤ r.1 i0) hkeep hret
    ⟨hP, ⟨L1, hL, hL', by simpa using hK⟩, hk.1, hk.2, Or.inl hg⟩ h

end Drift

namespace OverEx

/-- The sample variances of one variable in two environments. -/
noncomputable def vars : Fin 2 → ℝ := ![2 / 10 ^ 5, 2]

/-- Two environments with `n` observations each. -/
noncomputable def data (n : Nat) : Data 1 2 := ⟨fun k => Matrix.of fun _ _ => vars k, fun _ => n⟩

/-- The graph without edges. -/
def graph : Adj 1 := fun _ _ => 0

/-- The model with noise variances `w`, without latents. -/
noncomputable def model (w : Fin 2 → ℝ) : LModel 1 0 2 := ⟨graph, 0, 0, Matrix.of fun k _ => w k, 0, 1 - (0 : Matrix (Fin 1) (Fin 1) ℝ)ᵀ⟩

/-- The initial model: in both environments half the sample variance. -/
noncomputable def start : LModel 1 0 2 := model ![1 / 10 ^ 5, 1]

theorem nonneg : Nonneg graph := fun _ _ => le_refl _

theorem acyclic : Acyclic graph := IntEx.acyclic

theorem respects : Respects graph (0 : Matrix (Fin 1) (Fin 1) ℝ) := fun _ _ _ => rfl

theorem respects_eq {B : Matrix (Fin 1) (Fin 1) ℝ} (h : Respects graph B) : B = 0 := by
  ext i j
  exact h i j rfl

theorem vars_pos (k : Fin 2) : 0 < vars k := by
  fin_cases k <;> simp [vars]

theorem goodData {n : Nat} (hn : 0 < n) : GoodData (data n) := by
  refine ⟨fun k => ?_, fun _ => hn, two_pos⟩
  refine Matrix.PosDef.of_dotProduct_mulVec_pos ?_ (fun x hx => ?_)
  · ext i j
    simp [data]
  · have hx0 : x 0 ≠ 0 := fun h => hx (funext fun i => by rw [Subsingleton.elim i 0]; exact h)
    simp only [dotProduct, Fin.sum_univ_one, Matrix.mulVec]
    simp [data]
    nlinarith [mul_self_pos.2 hx0, vars_pos k, mul_pos (vars_pos k) (mul_self_pos.2 hx0)]

theorem goodModel (it : SetIter 1) (psiMax : Option ℝ) (w : Fin 2 → ℝ) (hw : ∀ k, 0 < w k) : GoodModel it graph psiMax (model w) :=
  ⟨rfl, respects, fun k _ => hw k, fun _ i => i.elim0, fun _ _ _ i => i.elim0⟩

theorem start_pos (k : Fin 2) : 0 < (![1 / 10 ^ 5, 1] : Fin 2 → ℝ) k := by
  fin_cases k <;> simp

theorem mk (it : SetIter 1) (om : Matrix (Fin 2) (Fin 1) ℝ) (ps : Matrix (Fin 2) (Fin 0) ℝ) :
    mkModel it graph 0 0 om ps = .ok (model (fun k => om k 0)) := by
  rw [mkModel_eq_ok nonneg _ _ _ acyclic respects, show ps = 0 from Subsingleton.elim _ _]
  unfold model
  congr 2
  ext k j
  rw [Subsingleton.elim j 0]
  rfl

/-- The computed score: the first environment hardly counts. -/
noncomputable def F (n : Nat) (w : Fin 2 → ℝ) : ℝ := (Real.log (w 0) + vars 0 * (w 0)⁻¹) / (4 * n) + (Real.log (w 1) + vars 1 * (w 1)⁻¹) / 2

/-- The documented score. -/
noncomputable def G (w : Fin 2 → ℝ) : ℝ := (Real.log (w 0) + vars 0 * (w 0)⁻¹) / 2 + (Real.log (w 1) + vars 1 * (w 1)⁻¹) / 2

theorem noise (w : Fin 2 → ℝ) (k : Fin 2) : (model w).noise k = Matrix.diagonal (fun _ => w k) := by
  ext i j
  simp [LModel.noise, model, Matrix.diagonal_apply]

theorem score {n : Nat} (hn : 0 < n) (w : Fin 2 → ℝ) (hw : ∀ k, 0 < w k) : (model w).scoreOn (data n) = .ok (some (F n w)) := by
  have hn' : (n : ℝ) ≠ 0 := by exact_mod_cast hn.ne'
  rw [scoreOn_ok (data n) (goodData hn) (model w) (fun k _ => hw k) (fun _ i => i.elim0)]
  congr 2
  simp only [noise, Matrix.det_diagonal, Fin.sum_univ_two, Finset.prod_const, invDiag _ (fun i => (hw _).ne')]
  simp only [Matrix.trace, Fin.sum_univ_one, Matrix.diag_apply, Matrix.diagonal_mul]
  simp [model, data, F]
  field_simp
  ring

/-- The documented score of the parameters. -/
theorem documented {n : Nat} (hn : 0 < n) (w : Fin 2 → ℝ) (hw : ∀ k, 0 < w k) (C : Fin 2 → Matrix (Fin 1) (Fin 1) ℝ)
    (hC : (model w).covariances = .ok C) : weightedNLL (data n).nObs C (data n).covs = G w := by
  have hn' : (n : ℝ) ≠ 0 := by exact_mod_cast hn.ne'
  have hdet : (1 - (model w).Bᵀ).det = 1 := det_one_sub_transpose acyclic respects
  rw [covariances_ok (model w) hdet] at hC
  cases hC
  have h5 : ∀ k S, gaussNLL ((1 - (model w).Bᵀ)⁻¹ * (model w).noise k * ((1 - (model w).Bᵀ)⁻¹)ᵀ) S =
      Real.log (w k) + (w k)⁻¹ * S 0 0 := by
    intro k S
    rw [← term_eq_gaussNLL hdet, noise, invDiag _ (fun i => (hw k).ne')]
    simp only [Matrix.trace, Fin.sum_univ_one, Matrix.diag_apply, Matrix.diagonal_mul]
    simp [model]
  unfold weightedNLL
  simp only [h5, Fin.sum_univ_two]
  simp [data, G]
  field_simp
  ring

theorem restLoss (it : SetIter 1) {n : Nat} (hn : 0 < n) (w : Fin 2 → ℝ) (X : RestIx 1 0 2 → ℝ) (hX : ∀ k, 0 < X (.inl (k, 0))) :
    Verif.restLoss it (data n) (model w) X = .ok (some (F n fun k => X (.inl (k, 0)))) := by
  have h : mkModel it (model w).A (model w).B (model w).gamma (toOmegas X) (toPsis X) = .ok (model fun k => X (.inl (k, 0))) :=
    mk it (toOmegas X) (toPsis X)
  unfold Verif.restLoss
  rw [h]
  exact score hn _ hX

theorem restGrad (it : SetIter 1) {n : Nat} (hn : 0 < n) (psiFixed : Bool) (w : Fin 2 → ℝ) (X : RestIx 1 0 2 → ℝ)
    (hX : ∀ k, 0 < X (.inl (k, 0))) : ∃ g, Verif.restGrad it (data n) {0} psiFixed (model w) X = .ok g ∧
      ∀ k, g (.inl (k, 0)) = ((X (.inl (k, 0)))⁻¹ - vars k * (X (.inl (k, 0)))⁻¹ ^ 2) / 2 := by
  have hn' : (n : ℝ) ≠ 0 := by exact_mod_cast hn.ne'
  have hX' : ∀ k i, 0 < X (.inl (k, i)) := fun k i => by rw [Subsingleton.elim i 0]; exact hX k
  obtain ⟨M, hM, hg⟩ := restGrad_ok it (data n) {0} psiFixed (model w) nonneg acyclic respects X hX' (fun _ i => i.elim0)
  refine ⟨_, hg, fun k => ?_⟩
  have hMd : M k = Matrix.diagonal (fun _ => (X (.inl (k, 0)))⁻¹) := by
    rw [hM]
    have : noiseCov (model w).gamma (toPsis X k) (toOmegas X k) = Matrix.diagonal (fun _ => X (.inl (k, 0))) := by
      ext a b
      rw [Subsingleton.elim a 0, Subsingleton.elim b 0]
      simp [noiseCov, toOmegas]
    rw [this, invDiag _ (fun i => (hX k).ne')]
  have h0 : (0 : Fin 1) ∈ ({0} : Finset (Fin 1)) := by simp
  simp only [Sum.elim_inl, if_pos h0]
  unfold omegaGrad nCov
  rw [hMd]
  simp [Matrix.mul_diagonal, Matrix.diagonal_mul, model, data, Data.total]
  field_simp

/-- The computed score is bounded below. -/
theorem F_lower {n : Nat} (w : Fin 2 → ℝ) (hw : ∀ k, 0 < w k) :
    (Real.log (2 / 10 ^ 5) + 1) / (4 * n) + (Real.log 2 + 1) / 2 ≤ F n w := by
  have h0 := ManyEx.log_min (hw 0) (vars_pos 0)
  have h1 := ManyEx.log_min (hw 1) (vars_pos 1)
  unfold F
  simp only [vars, Matrix.cons_val_zero, Matrix.cons_val_one, Matrix.cons_val_fin_one] at h0 h1 ⊢
  gcongr

theorem log_small : Real.log (1 / 10 ^ 5) ≤ -11 := by
  have h1 : Real.log (1 / 10 ^ 5) ≤ Real.log ((1 / 2) ^ 16) := Real.log_le_log (by norm_num) (by norm_num)
  rw [Real.log_pow, one_div 2, Real.log_inv] at h1
  have := Real.log_two_gt_d9
  norm_num at h1 ⊢
  linarith

theorem log_small_ge : -12 ≤ Real.log (1 / 10 ^ 5) := by
  have h1 : Real.log ((1 / 2) ^ 17) ≤ Real.log (1 / 10 ^ 5) := Real.log_le_log (by norm_num) (by norm_num)
  rw [Real.log_pow, one_div 2, Real.log_inv] at h1
  have := Real.log_two_lt_d9
  norm_num at h1 ⊢
  linarith

/-- The first step, to the variances `10 ^ (-5) + 5 * 10 ^ 4` and 3/2, makes the computed score smaller. -/
theorem first_step {n : Nat} (hn : 100 ≤ n) : F n ![1 / 10 ^ 5 + 5 * 10 ^ 4, 3 / 2] < F n ![1 / 10 ^ 5, 1] - 1 / 10 ^ 5 := by
  have hnr : (100 : ℝ) ≤ n := by exact_mod_cast hn
  have h1 : Real.log (1 / 10 ^ 5 + 5 * 10 ^ 4) ≤ 12 := by
    have h1 : Real.log (1 / 10 ^ 5 + 5 * 10 ^ 4) ≤ Real.log (2 ^ 16) := Real.log_le_log (by norm_num) (by norm_num)
    rw [Real.log_pow] at h1
    have := Real.log_two_lt_d9
    norm_num at h1 ⊢
    linarith
  have h2 := log_small_ge
  have h3 : Real.log (3 / 2) ≤ 1 / 2 := by
    have := Real.log_le_sub_one_of_pos (show (0 : ℝ) < 3 / 2 by norm_num)
    linarith
  have h4 : (Real.log (1 / 10 ^ 5 + 5 * 10 ^ 4) + 2 / 10 ^ 5 * (1 / 10 ^ 5 + 5 * 10 ^ 4)⁻¹ - (Real.log (1 / 10 ^ 5) + 2)) / (4 * (n : ℝ)) ≤
      24 / 400 := by
    rw [div_le_iff₀ (by positivity)]
    have : (2 : ℝ) / 10 ^ 5 * (1 / 10 ^ 5 + 5 * 10 ^ 4)⁻¹ ≤ 1 := by norm_num
    nlinarith
  rw [sub_div] at h4
  unfold F
  simp only [vars, Matrix.cons_val_zero, Matrix.cons_val_one, Matrix.cons_val_fin_one, Real.log_one]
  have h5 : (2 : ℝ) / 10 ^ 5 * (1 / 10 ^ 5)⁻¹ = 2 := by norm_num
  rw [h5]
  norm_num at h4 ⊢
  linarith

/-- The initial point of the gradient descent. -/
noncomputable def X0 : RestIx 1 0 2 → ℝ := Sum.elim (fun hj => start.omegas hj.1 hj.2) (fun hk => start.psis hk.1 hk.2)

theorem X0_eq (k : Fin 2) : X0 (.inl (k, 0)) = (![1 / 10 ^ 5, 1] : Fin 2 → ℝ) k := rfl

/-- The update of the variances ends with a huge variance in the first environment. -/
theorem rest (it : SetIter 1) {n : Nat} (hn : 100 ≤ n) (psiMax : Option ℝ) (psiFixed : Bool) {om : Matrix (Fin 2) (Fin 1) ℝ}
    {ps : Matrix (Fin 2) (Fin 0) ℝ}
    (h : solveForRest it (data n) {0} psiMax psiFixed (1 / 10 ^ 5) 1 start = .ok (om, ps)) : 4 * 10 ^ 4 ≤ om 0 0 := by
  have hn0 : 0 < n := by omega
  have hnr : (100 : ℝ) ≤ n := by exact_mod_cast hn
  unfold solveForRest at h
  split at h
  · simp at h
  rename_i X L hgd
  simp only [Except.ok.injEq, Prod.mk.injEq] at h
  obtain ⟨rfl, -⟩ := h
  show 4 * 10 ^ 4 ≤ X (.inl (0, 0))
  have hpos : ∀ X : RestIx 1 0 2 → ℝ, checkBounds 2 (Sum.elim (fun _ => 0) (fun _ => 1)) X (some (restBounds psiMax)) = .ok true →
      ∀ k, 0 < X (.inl (k, 0)) := fun X hX k => ((restBounds_iff psiMax X).1 ((checkBounds_true _ _ _ _).1 hX).2).1 k 0
  unfold gradientDescent at hgd
  cases hb : checkBounds 2 (Sum.elim (fun _ => 0) (fun _ => 1)) X0 (some (restBounds psiMax)) with
  | error err =>
    unfold X0 at hb
    rw [hb] at hgd
    simp at hgd
  | ok b =>
    have hb' := hb
    unfold X0 at hb'
    rw [hb'] at hgd
    cases b with
    | false => simp at hgd
    | true =>
      simp only [] at hgd
      have hl0 : Verif.restLoss it (data n) start X0 = .ok (some (F n ![1 / 10 ^ 5, 1])) := by
        refine (restLoss it hn0 _ X0 (hpos _ hb)).trans ?_
        congr 3
      have hl0' := hl0
      unfold X0 at hl0'
      rw [hl0'] at hgd
      simp only [] at hgd
      change runLoop _ (⟨X0, _, _, _⟩ : GDState (RestIx 1 0 2)) = _ at hgd
      obtain ⟨g, hg, hgk⟩ := restGrad it hn0 psiFixed ![1 / 10 ^ 5, 1] X0 (hpos _ hb)
      have hg' : Verif.restGrad it (data n) {0} psiFixed start X0 = .ok g := hg
      have g0 : g (.inl (0, 0)) = - (5 * 10 ^ 4) := by
        rw [hgk, X0_eq]
        norm_num [vars]
      have g1 : g (.inl (1, 0)) = - (1 / 2) := by
        rw [hgk, X0_eq]
        norm_num [vars]
      obtain ⟨X1, hX1⟩ : ∃ X1 : RestIx 1 0 2 → ℝ, X1 = fun i => X0 i - 1 * 1 * g i := ⟨_, rfl⟩
      have x0 : X1 (.inl (0, 0)) = 1 / 10 ^ 5 + 5 * 10 ^ 4 := by
        rw [hX1]
        simp only [X0_eq, g0, Matrix.cons_val_zero]
        norm_num
      have x1 : X1 (.inl (1, 0)) = 3 / 2 := by
        rw [hX1]
        simp only [X0_eq, g1, Matrix.cons_val_one, Matrix.cons_val_fin_one]
        norm_num
      have hX1pos : ∀ k, 0 < X1 (.inl (k, 0)) := by
        intro k
        fin_cases k
        · show 0 < X1 (.inl (0, 0))
          rw [x0]
          norm_num
        · show 0 < X1 (.inl (1, 0))
          rw [x1]
          norm_num
      have hb1 : checkBounds 2 (Sum.elim (fun _ => 0) (fun _ => 1)) X1 (some (restBounds psiMax)) = .ok true := by
        refine (checkBounds_true _ _ _ _).2 ⟨((checkBounds_true _ _ _ _).1 hb).1, (restBounds_iff psiMax X1).2 ⟨?_, fun _ i => i.elim0,
          fun _ _ _ i => i.elim0⟩⟩
        intro k j
        rw [Subsingleton.elim j 0]
        exact hX1pos k
      have hl1 : Verif.restLoss it (data n) start X1 = .ok (some (F n ![1 / 10 ^ 5 + 5 * 10 ^ 4, 3 / 2])) := by
        refine (restLoss it hn0 _ X1 hX1pos).trans ?_
        congr 3
        funext k
        fin_cases k
        · exact x0
        · exact x1
      have hlt := first_step hn
      have hstep : gdStep 2 (Sum.elim (fun _ => 0) (fun _ => 1)) (Verif.restLoss it (data n) start)
          (Verif.restGrad it (data n) {0} psiFixed start) (1 / 10 ^ 5) 1 (some (restBounds psiMax)) (1 / 10 ^ 50)
          ⟨X0, some (F n ![1 / 10 ^ 5, 1]), 1, none⟩ =
          .ok (.inl ⟨X1, some (F n ![1 / 10 ^ 5 + 5 * 10 ^ 4, 3 / 2]), 1, none⟩) := by
        unfold gdStep
        simp only [GDState.gradients, hg']
        rw [← hX1, hb1]
        simp only [hl1]
        rw [if_neg, if_pos]
        · simp only [Flt.lt]
          linarith
        · rintro ⟨-, h2⟩
          simp only [Flt.absSubLt] at h2
          rw [abs_of_neg (by linarith)] at h2
          linarith
      rw [runLoop_unfold, hstep] at hgd
      simp only [] at hgd
      have hlow := F_lower (n := n) ![1 / 10 ^ 5, 1] start_pos
      have hdrift := gd_drift (gradFun := Verif.restGrad it (data n) {0} psiFixed start) (threshold := 1 / 10 ^ 5) (learningRate := 1)
        (kappaZero := 1 / 10 ^ 50) (by norm_num) zero_le_one
        (fun X : RestIx 1 0 2 → ℝ => ∀ k, 0 < X (.inl (k, 0))) (.inl (0, 0)) 1 (1 / 2) (5 * 10 ^ 4)
        ((Real.log (2 / 10 ^ 5) + 1) / (4 * n) + (Real.log 2 + 1) / 2) (by norm_num) hpos
        (fun X v hX hv => by
          rw [show Verif.restLoss it (data n) start X = _ from restLoss it hn0 _ X hX] at hv
          cases hv
          exact F_lower _ hX)
        (fun X g' hX h1 hg' => by
          obtain ⟨g2, hg2, hgk2⟩ := restGrad it hn0 psiFixed ![1 / 10 ^ 5, 1] X hX
          rw [show Verif.restGrad it (data n) {0} psiFixed start X = _ from hg2] at hg'
          cases hg'
          rw [hgk2]
          have : (X (.inl (0, 0)))⁻¹ ≤ 1 := inv_le_one_of_one_le₀ h1
          have : 0 ≤ vars 0 * (X (.inl (0, 0)))⁻¹ ^ 2 := mul_nonneg (vars_pos 0).le (sq_nonneg _)
          linarith)
        ⟨X1, some (F n ![1 / 10 ^ 5 + 5 * 10 ^ 4, 3 / 2]), 1, none⟩ hX1pos _ rfl hl1 ⟨zero_le_one, le_refl _⟩ rfl
        (by show _ ≤ X1 (.inl (0, 0)); rw [x0]; norm_num)
      have hbound : F n ![1 / 10 ^ 5 + 5 * 10 ^ 4, 3 / 2] - ((Real.log (2 / 10 ^ 5) + 1) / (4 * n) + (Real.log 2 + 1) / 2) ≤ 17 / 100 := by
        have e1 : F n ![1 / 10 ^ 5, 1] = (Real.log (1 / 10 ^ 5) + 2) / (4 * n) + 1 := by
          unfold F
          simp only [vars, Matrix.cons_val_zero, Matrix.cons_val_one, Matrix.cons_val_fin_one, Real.log_one]
          norm_num
        have e2 : Real.log (2 / 10 ^ 5) = Real.log 2 + Real.log (1 / 10 ^ 5) := by
          rw [← Real.log_mul (by norm_num) (by norm_num)]
          norm_num
        have e3 : (Real.log (1 / 10 ^ 5) + 2 - (Real.log (2 / 10 ^ 5) + 1)) / (4 * (n : ℝ)) ≤ 1 / 400 := by
          rw [e2, div_le_iff₀ (by positivity)]
          have := Real.log_two_gt_d9
          norm_num at this
          nlinarith
        rw [sub_div] at e3
        have := Real.log_two_gt_d9
        norm_num at this
        linarith
      have hfin := hdrift (by
        rw [div_eq_mul_inv]
        norm_num at hbound ⊢
        linarith) X L hgd
      rw [div_eq_mul_inv] at hfin
      norm_num at hbound hfin ⊢
      linarith

end OverEx

open OverEx in
/-- C106 for the documented score, with the default values of `learning_rate` and `threshold_score`: one variable, two environments with
`n` observations each, sample variances `2 * 10 ^ (-5)` and 2, half of them in `init_model`.  `score_dag` returns a model whose parameters
have a documented score more than 9 above the one of the parameters it started from, while the computed score went down. -/
theorem C106_documented_violated (it : SetIter 1) (svd : Matrix (Fin 1) (Fin 1) ℝ → Matrix (Fin 1) (Fin 1) ℝ × (Fin 1 → ℝ))
    (num : NumLib 1 2) (n : Nat) (hn : 100 ≤ n) (hnum : CvxFeasible num graph (data n)) (cfg : ScoreCfg) (hcvx : cfg.solver = .cvx)
    (hpsi : ∀ x, cfg.psiMax = some x → 0 ≤ x) (hthr : cfg.thresholdScore = 1 / 10 ^ 5) (hlr : cfg.learningRate = 1)
    (hdist : 0 ≤ cfg.stop.thresholdDistB) (hit : 0 < cfg.stop.maxIter) (hfl : 0 < cfg.stop.maxFluctuations) (u v : Nat → Fin (1 * 1) → ℝ) :
    ∃ (m : LModel 1 0 2) (s s₀ : ℝ), fitCode it svd num cfg (data n) u v graph {0} (some start) = .ok (m, some s) ∧
      start.scoreOn (data n) = .ok (some s₀) ∧ s < s₀ ∧ ∀ C C', start.covariances = .ok C → m.covariances = .ok C' →
        weightedNLL (data n).nObs C (data n).covs + 9 < weightedNLL (data n).nObs C' (data n).covs := by
  have hn0 : 0 < n := by omega
  have hsolve : ∀ i (m : LModel 1 0 2), GoodModel it graph cfg.psiMax m →
      ∃ B, (codeSolvers it num cfg (data n) u v {0}).solveB i m = .ok B ∧ Respects graph B := by
    intro i m hm
    obtain ⟨B, h1, h2⟩ := hnum (fun k => (m.noise k)⁻¹)
    refine ⟨Matrix.of (fun i j => if graph i j = 0 then 0 else B i j), ?_, fun i j hij => by rw [Matrix.of_apply, if_pos hij]⟩
    simp only [codeSolvers, hcvx]
    unfold solveForBCvx
    rw [invNoise_ok_of_pos m hm.omegas (fun k i => (hm.psis k i).le)]
    simp only [hm.graph, h1]
    rw [if_neg (not_not.2 h2)]
  have hbody : ∀ i m, GoodModel it graph cfg.psiMax m → ∃ m', altBody it (codeSolvers it num cfg (data n) u v {0}) i m = .ok m' ∧
      GoodModel it graph cfg.psiMax m' := fun i m hm =>
    altBody_returns nonneg acyclic hpsi num (data n) (goodData hn0) u v {0} (by rw [hthr]; norm_num) hsolve hm i
  have hg0 : GoodModel it graph cfg.psiMax start := goodModel it _ _ start_pos
  obtain ⟨⟨m, s⟩, hr⟩ := alternate_returns (it := it) (sv := codeSolvers it num cfg (data n) u v {0}) one_ne_zero hit hfl
    (GoodModel it graph cfg.psiMax) (fun m hm => ⟨_, scoreOn_ok (data n) (goodData hn0) m hm.omegas (fun _ i => i.elim0)⟩) hbody hg0
  obtain ⟨k, hk0, h1, hs, h3, -⟩ := C44_run hr
  obtain ⟨m1, hm1, hg1⟩ := hbody 0 start hg0
  have hk : k = 1 := by
    by_contra hc
    obtain ⟨-, -, h4⟩ := h3 1 (by omega)
    obtain ⟨a, b, ha, hb, i, j, hij⟩ := h4 0 rfl
    simp only [iterates] at ha hb
    cases ha
    rw [hm1] at hb
    cases hb
    rw [respects_eq hg0.respects, respects_eq hg1.respects] at hij
    simp at hij
    linarith
  subst hk
  have hmm : m1 = m := by
    simp only [iterates, hm1] at h1
    exact Except.ok.inj h1
  subst hmm
  obtain ⟨-, hA, hIB, -, -, hrest⟩ := altBody_ok hm1
  have hB := respects_eq hg1.respects
  have hgam : m1.gamma = 0 := Subsingleton.elim _ _
  have hrest' : solveForRest it (data n) {0} cfg.psiMax cfg.psiFixed (1 / 10 ^ 5) 1 start = .ok (m1.omegas, m1.psis) := by
    rw [← hthr, ← hlr, ← hrest, hB, hgam]
    rfl
  have hbig := rest it hn _ _ hrest'
  have hm1' : m1 = model (fun k => m1.omegas k 0) := by
    cases m1
    simp only at hA hIB hB hgam
    subst hA hIB hB hgam
    unfold model
    congr 1
    · ext k j
      rw [Subsingleton.elim j 0]
      rfl
    · exact Subsingleton.elim _ _
  have hpos : ∀ k, 0 < m1.omegas k 0 := fun k => hg1.omegas k 0
  have hs1 : m1.scoreOn (data n) = .ok (some (F n fun k => m1.omegas k 0)) := by
    conv_lhs => rw [hm1']
    exact score hn0 _ hpos
  have hs' : s = some (F n fun k => m1.omegas k 0) := by
    rw [hs1] at hs
    exact (Except.ok.inj hs).symm
  subst hs'
  refine ⟨m1, F n fun k => m1.omegas k 0, F n ![1 / 10 ^ 5, 1], ?_, score hn0 _ start_pos, ?_, fun C C' hC hC' => ?_⟩
  · unfold fitCode fitDag
    rw [if_neg (by simpa using (isDag_iff it nonneg).2 acyclic)]
    simp only [start, model, ne_eq, not_true_eq_false, if_false]
    exact hr
  · unfold solveForRest at hrest'
    split at hrest'
    · simp at hrest'
    rename_i X L hgd
    simp only [Except.ok.injEq, Prod.mk.injEq] at hrest'
    obtain ⟨e1, -⟩ := hrest'
    obtain ⟨-, hL, L0, hL0, h5⟩ := C50_returns _ _ _ hgd
    have hX : ∀ k, X (.inl (k, 0)) = m1.omegas k 0 := fun k => by rw [← e1]; rfl
    rw [show Verif.restLoss it (data n) start X = _ from OverEx.restLoss it hn0 _ X (fun k => by rw [hX]; exact hpos k)] at hL
    simp only [hX] at hL
    cases hL
    have hl0 : Verif.restLoss it (data n) start X0 = .ok (some (F n ![1 / 10 ^ 5, 1])) := by
      refine (OverEx.restLoss it hn0 _ X0 (fun k => start_pos k)).trans ?_
      congr 3
    unfold X0 at hl0
    rw [hl0] at hL0
    cases hL0
    rcases h5 with ⟨h6, -⟩ | ⟨x, y, h6, h7, h8⟩
    · exfalso
      have h7 := congrFun h6 (.inl (0, 0))
      rw [hX] at h7
      have h8 : m1.omegas 0 0 = 1 / 10 ^ 5 := h7
      rw [h8] at hbig
      norm_num at hbig
    · cases h6
      cases h7
      exact h8
  · rw [hm1'] at hC'
    rw [documented hn0 _ start_pos C hC, documented hn0 _ hpos C' hC']
    have l1 := log_small
    have l2 : 10 ≤ Real.log (m1.omegas 0 0) := by
      have h6 : Real.log (2 ^ 15) ≤ Real.log (m1.omegas 0 0) := Real.log_le_log (by norm_num) (by norm_num at hbig ⊢; linarith)
      rw [Real.log_pow] at h6
      have := Real.log_two_gt_d9
      norm_num at h6 this
      linarith
    have l3 := ManyEx.log_min (hpos 1) two_pos
    have l4 := Real.log_two_gt_d9
    have l5 : 0 ≤ vars 0 * (m1.omegas 0 0)⁻¹ := mul_nonneg (vars_pos 0).le (inv_nonneg.2 (hpos 0).le)
    have e1 : G ![1 / 10 ^ 5, 1] = (Real.log (1 / 10 ^ 5) + 2) / 2 + 1 := by
      unfold G
      simp only [vars, Matrix.cons_val_zero, Matrix.cons_val_one, Matrix.cons_val_fin_one, Real.log_one]
      norm_num
    have e2 : vars 1 = 2 := rfl
    rw [e1]
    unfold G
    rw [e2]
    norm_num at l4
    linarith

/-- The hypothesis of `C106_documented_violated` about the solver can be met. -/
example : ∃ num : NumLib 1 2, CvxFeasible num OverEx.graph (OverEx.data 100) :=
  ⟨⟨id, fun _ => true, fun x => x / 2, fun _ _ _ => some 0⟩, fun _ => ⟨0, rfl, fun i j _ => by simp⟩⟩

end Verif
