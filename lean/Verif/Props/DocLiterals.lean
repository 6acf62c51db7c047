import Verif.Props.Metrics
import Verif.Props.Gen

/-!
# The expected values of the docstring examples

Validation of the model, not proofs of properties: the numbers printed in the examples of `/repo/utlvce/model.py` and
`/repo/utlvce/generators.py`.  The parameters are the printed ones, which have eight decimals, so the results agree up to the error of this
rounding only.
-/

namespace Verif

open Matrix Spec

/-- The model of the examples, `/repo/utlvce/model.py:102-137`. -/
noncomputable def docModel : LModel 3 2 5 where
  A := ![![0, 0, 1], ![0, 0, 1], ![0, 0, 0]]
  B := !![0, 0, 0.5; 0, 0, 3; 0, 0, 0]
  gamma := !![0.77395605, 0.43887844, 0.85859792; 0.69736803, 0.09417735, 0.97562235]
  omegas := !![0.7611397, 0.78606431, 0.12811363; 0.45038594, 0.37079802, 0.92676499; 0.64386512, 0.82276161, 0.4434142;
    0.22723872, 0.55458479, 0.06381726; 0.82763117, 0.6316644, 0.75808774]
  psis := !![0.35452597, 0.97069802; 0.89312112, 0.7783835; 0.19463871, 0.466721; 0.04380377, 0.15428949; 0.68304895, 0.74476216]
  IB := 1 - (!![0, 0, 0.5; 0, 0, 3; 0, 0, 0])ᵀ

theorem docModel_nonneg : Nonneg docModel.A := by
  unfold Nonneg docModel
  decide

theorem docModel_acyclic : Acyclic docModel.A :=
  (isDag_iff (SetIter.incr 3) docModel_nonneg).1 (by unfold docModel; decide)

theorem docModel_respects : Respects docModel.A docModel.B := by
  intro a b
  fin_cases a <;> fin_cases b <;> simp [docModel]

/-- The constructor accepts the parameters, `/repo/utlvce/model.py:108`. -/
example (it : SetIter 3) : mkModel it docModel.A docModel.B docModel.gamma docModel.omegas docModel.psis = .ok docModel :=
  mkModel_eq_ok docModel_nonneg _ _ _ docModel_acyclic docModel_respects

/-- `model.I_B`, `/repo/utlvce/model.py:148-151`. -/
example : docModel.IB = !![1, 0, 0; 0, 1, 0; -0.5, -3, 1] := by
  ext a b
  fin_cases a <;> fin_cases b <;> simp [docModel]

/-- A graph with a cycle, `/repo/utlvce/model.py:154-158`. -/
example (it : SetIter 3) : mkModel it ![![0, 0, 1], ![0, 0, 1], ![1, 0, 0]] docModel.B docModel.gamma docModel.omegas docModel.psis =
    .error .valueError := by
  have h : Nonneg (![![0, 0, 1], ![0, 0, 1], ![1, 0, 0]] : Adj 3) := by unfold Nonneg; decide
  have hc : ¬ isDag it ![![0, 0, 1], ![0, 0, 1], ![1, 0, 0]] = true := by
    rw [isDag_iff it h, ← isDag_iff (SetIter.incr 3) h]
    decide
  simp [mkModel, hc]

/-- Weights for which there is no edge, `/repo/utlvce/model.py:161-164`. -/
example (it : SetIter 3) : mkModel it docModel.A docModel.Bᵀ docModel.gamma docModel.omegas docModel.psis = .error .valueError := by
  unfold mkModel
  rw [if_neg (by simpa using (isDag_iff it docModel_nonneg).2 docModel_acyclic), if_pos ⟨2, 0, by simp [docModel], by simp [docModel]; norm_num⟩]

/-- The first of `model.noise_term_covariances()`, `/repo/utlvce/model.py:322-325`. -/
theorem docModel_noise : ∀ a b, |docModel.noise 0 a b - !![1.44557555, 0.18417459, 0.89602027; 0.18417459, 0.86296055, 0.22278173;
    0.89602027, 0.22278173, 1.31341498] a b| < 2e-8 := by
  intro a b
  fin_cases a <;> fin_cases b <;>
    simp [LModel.noise, docModel, Matrix.mul_apply, Fin.sum_univ_two, Matrix.diagonal_apply, Matrix.transpose_apply] <;> norm_num [abs_lt]

/-- The first of `model.inv_noise_term_covariances()`, `/repo/utlvce/model.py:346-349`. -/
example : ∃ Ms, docModel.invNoise = .ok Ms ∧ ∀ a b, |Ms 0 a b - !![1.20040982, -0.04683013, -0.81098407; -0.04683013, 1.21369509, -0.1739194;
    -0.81098407, -0.1739194, 1.34413286] a b| < 4e-8 := by
  have hm := mkModel_eq_ok (it := SetIter.incr 3) docModel_nonneg docModel.gamma docModel.omegas docModel.psis docModel_acyclic docModel_respects
  obtain ⟨-, -, Ms, h, hMs⟩ := C36_posDef _ _ docModel_nonneg _ _ _ _ _ hm (fun k i => by
      fin_cases k <;> fin_cases i <;> norm_num [docModel]) (fun k i => by fin_cases k <;> fin_cases i <;> norm_num [docModel])
  refine ⟨Ms, h, ?_⟩
  have h1 : Ms 0 = (docModel.noise 0)⁻¹ := (Matrix.inv_eq_left_inv (hMs 0).1).symm
  rw [h1, Matrix.inv_def, Ring.inverse_eq_inv', Matrix.adjugate_fin_three, Matrix.det_fin_three]
  intro a b
  fin_cases a <;> fin_cases b <;>
    simp [LModel.noise, docModel, Matrix.mul_apply, Fin.sum_univ_two, Matrix.diagonal_apply, Matrix.transpose_apply] <;> norm_num [abs_lt]

/-- The first of `model.covariances()`, `/repo/utlvce/model.py:370-373`. -/
example : ∃ C, docModel.covariances = .ok C ∧ ∀ a b, |C 0 a b - !![1.44557555, 0.18417459, 2.17133182; 0.18417459, 0.86296055, 2.90375069;
    2.17133182, 2.90375069, 12.22668828] a b| < 1e-6 := by
  have hinv : (!![1, 0, 0; 0, 1, 0; 0.5, 3, 1] : Matrix (Fin 3) (Fin 3) ℝ) * (1 - docModel.Bᵀ) = 1 := by
    ext a b
    fin_cases a <;> fin_cases b <;> simp [docModel, Matrix.mul_apply, Fin.sum_univ_three, Matrix.one_apply]
  have hdet : (1 - docModel.Bᵀ).det ≠ 0 := by
    intro h
    have := congrArg Matrix.det hinv
    rw [Matrix.det_mul, h] at this
    simp at this
  refine ⟨_, by rw [LModel.covariances, npInv, if_neg hdet], ?_⟩
  rw [Matrix.inv_eq_left_inv hinv]
  have hN := docModel_noise
  generalize docModel.noise 0 = N at hN
  have e00 := hN 0 0
  have e01 := hN 0 1
  have e02 := hN 0 2
  have e10 := hN 1 0
  have e11 := hN 1 1
  have e12 := hN 1 2
  have e20 := hN 2 0
  have e21 := hN 2 1
  have e22 := hN 2 2
  simp only [abs_lt, Matrix.of_apply, Matrix.cons_val] at e00 e01 e02 e10 e11 e12 e20 e21 e22
  intro a b
  fin_cases a <;> fin_cases b <;>
    simp only [Matrix.mul_apply, Fin.sum_univ_three, Matrix.transpose_apply, Matrix.of_apply, Matrix.cons_val, Fin.zero_eta, Fin.mk_one,
      Fin.reduceFinMk, abs_lt] <;> constructor <;> linarith

/-- `model.intervention_strength()`, `/repo/utlvce/model.py:596-597`. -/
example : ∃ x, docModel.interventionStrength = .ok x ∧ ∀ j, |x j - ![0.0578593, 0.03265554, 0.12387794] j| < 2e-8 := by
  refine ⟨_, by rw [LModel.interventionStrength, if_neg (by simp)], ?_⟩
  intro j
  fin_cases j <;>
    simp [docModel, pyMax, colVar, Fin.sum_univ_succ, List.ofFn_succ] <;> norm_num [abs_lt, max_def]

/-- The diagonal of the projection onto the columns of a matrix with two columns. -/
theorem proj_diag {X : Matrix (Fin 3) (Fin 2) ℝ} {U : Matrix (Fin 3) (Fin (min 3 2)) ℝ} (hU : IsReducedU X U) (a b c : ℝ)
    (ha : a = ∑ i, X i 0 ^ 2) (hb : b = ∑ i, X i 1 ^ 2) (hc : c = ∑ i, X i 0 * X i 1) (hd : a * b - c * c ≠ 0) (i : Fin 3) :
    (U * Uᵀ) i i = (b * X i 0 ^ 2 - 2 * c * X i 0 * X i 1 + a * X i 1 ^ 2) / (a * b - c * c) := by
  have hN : Xᵀ * X = !![a, c; c, b] := by
    ext u v
    fin_cases u <;> fin_cases v <;> simp [Matrix.mul_apply, ha, hb, hc, pow_two, mul_comm]
  have hinv : (!![b / (a * b - c * c), -c / (a * b - c * c); -c / (a * b - c * c), a / (a * b - c * c)] : Matrix (Fin 2) (Fin 2) ℝ) *
      (Xᵀ * X) = 1 := by
    rw [hN]
    ext u v
    generalize hD : a * b - c * c = D at hd
    fin_cases u <;> fin_cases v <;> simp [Matrix.mul_apply, Fin.sum_univ_two] <;> field_simp <;> rw [← hD] <;> ring
  set R : Matrix (Fin 2) (Fin 2) ℝ :=
    !![b / (a * b - c * c), -c / (a * b - c * c); -c / (a * b - c * c), a / (a * b - c * c)] with hR
  have hRt : Rᵀ = R := by
    ext u v
    fin_cases u <;> fin_cases v <;> simp [hR]
  have hL : (R * Xᵀ) * X = 1 := by rw [Matrix.mul_assoc, hinv]
  rw [projection_unique (by norm_num) hL hU (P := X * (R * Xᵀ)) (by
      rw [Matrix.transpose_mul, Matrix.transpose_mul, Matrix.transpose_transpose, hRt, Matrix.mul_assoc]) (by
      rw [Matrix.mul_assoc, hL, Matrix.mul_one]) rfl]
  simp only [Matrix.mul_apply, Fin.sum_univ_two, Matrix.transpose_apply, hR, Matrix.of_apply, Matrix.cons_val]
  ring

/-- `model.scaled_latent_incoherence()`, `/repo/utlvce/model.py:559-560`, for every singular value decomposition. -/
example (it : SetIter 3) (svdU : Matrix (Fin 3) (Fin 2) ℝ → Matrix (Fin 3) (Fin (min 3 2)) ℝ)
    (hsvd : ∀ k, IsReducedU (docModel.latentEffects k) (svdU (docModel.latentEffects k))) :
    ∃ x, docModel.scaledLatentIncoherence it svdU = .ok x ∧ |x - 1.9462534859894438| < 1e-8 := by
  obtain ⟨c, d, h1, h2, h3⟩ := C75_value it svdU docModel
    (fun k j => by fin_cases k <;> fin_cases j <;> norm_num [docModel]) docModel_nonneg docModel_acyclic (by norm_num) (by norm_num)
  -- every variable is joined to the two others
  have hd : d = 2 := by
    refine h2.unique ⟨⟨0, ?_⟩, ?_⟩
    · unfold moralDegree
      have : (Finset.univ.filter (fun j => j ≠ 0 ∧ (Adjacent docModel.A j 0 ∨ ∃ c, Edge docModel.A j c ∧ Edge docModel.A 0 c))) =
          ({1, 2} : Finset (Fin 3)) := by
        ext j
        have h12 : Edge docModel.A 1 2 := by simp [Edge, docModel]
        have h02 : Edge docModel.A 0 2 := by simp [Edge, docModel]
        fin_cases j
        · simp
        · simpa using Or.inr ⟨2, h12, h02⟩
        · have ha : Adjacent docModel.A 2 0 := Or.inr h02
          simp [ha]
      rw [this]
      rfl
    · rintro _ ⟨i, rfl⟩
      unfold moralDegree
      refine (Finset.card_le_card (t := Finset.univ.erase i) fun j hj => ?_).trans (by simp)
      simp only [Finset.mem_filter] at hj
      exact Finset.mem_erase.2 ⟨hj.2.1, Finset.mem_univ _⟩
  -- the largest entry is that of variable 1 in environment 1
  have hbig : |(svdU (docModel.latentEffects 1) * (svdU (docModel.latentEffects 1))ᵀ) 1 1 - 1.9462534859894438 / 2| < 4e-10 := by
    rw [proj_diag (hsvd 1) _ _ _ rfl rfl rfl]
    · simp only [Fin.sum_univ_three, C75_effects, docModel, Matrix.of_apply, Matrix.cons_val]
      norm_num [abs_lt]
    · simp only [Fin.sum_univ_three, C75_effects, docModel, Matrix.of_apply, Matrix.cons_val]
      norm_num [abs_lt]
  have hval : ∀ (k : Fin 5) (i : Fin 3), ¬ (k = 1 ∧ i = 1) →
      (svdU (docModel.latentEffects k) * (svdU (docModel.latentEffects k))ᵀ) i i ≤ 0.96 := by
    intro k i hki
    rw [proj_diag (hsvd k) _ _ _ rfl rfl rfl]
    · fin_cases k <;> fin_cases i <;>
        simp only [Fin.sum_univ_three, C75_effects, docModel, Matrix.of_apply, Matrix.cons_val, Fin.zero_eta, Fin.mk_one, Fin.reduceFinMk] <;>
        first
        | exact absurd ⟨rfl, rfl⟩ hki
        | norm_num
    · fin_cases k <;>
        simp only [Fin.sum_univ_three, C75_effects, docModel, Matrix.of_apply, Matrix.cons_val, Fin.zero_eta, Fin.mk_one, Fin.reduceFinMk] <;>
        norm_num
  obtain ⟨⟨⟨k, i⟩, hki⟩, hub⟩ := h3
  have hge := hub ⟨(1, 1), rfl⟩
  simp only at hki hge
  have h11 : k = 1 ∧ i = 1 := by
    by_contra hc
    have := hval k i hc
    rw [hki] at this
    rw [abs_lt] at hbig
    linarith [hbig.1]
  rw [h11.1, h11.2] at hki
  refine ⟨c * d, h1, ?_⟩
  rw [hki, abs_lt] at hbig
  rw [hd, abs_lt]
  push_cast
  constructor <;> linarith [hbig.1, hbig.2]

/-- The requests that `sample` rejects, `/repo/utlvce/model.py:449-456, 466-492`. -/
example : sampleSizes 5 true (.single 1) = .error .valueError ∧
    sampleSizes 5 true (.list [.int 1, .int 2, .int 3, .int 4, .int 5]) = .error .valueError ∧
    sampleSizes 5 false (.list [.int 1, .int 2]) = .error .valueError ∧
    sampleSizes 5 false (.list [.int (-1), .int 2, .int 3, .int 4, .int 5]) = .error .valueError ∧
    sampleSizes 5 false (.list [.int 0, .int 2, .int 3, .int 4, .int 5]) = .error .valueError ∧
    sampleSizes 5 false (.single 0) = .error .valueError ∧
    sampleSizes 5 false (.list [.other, .int 2, .int 3, .int 4, .int 5]) = .error .typeError ∧
    sampleSizes 5 false .other = .error .typeError := by
  refine ⟨?_, ?_, ?_, ?_, ?_, ?_, ?_, ?_⟩ <;> simp [sampleSizes, checkNObs]

/-- The requests that it accepts, `/repo/utlvce/model.py:430-438, 447, 460`. -/
example : sampleSizes 5 true (.single 10) = .ok [10, 10, 10, 10, 10] ∧ sampleSizes 5 false (.single 1) = .ok [1, 1, 1, 1, 1] ∧
    sampleSizes 5 false (.list [.int 2, .int 3, .int 4, .int 5, .int 6]) = .ok [2, 3, 4, 5, 6] := by
  refine ⟨?_, ?_, ?_⟩ <;> simp [sampleSizes, checkNObs, List.replicate]

/-- The examples of `intervention_targets` that do not depend on the random numbers, `/repo/utlvce/generators.py:494-510`. -/
example (rng : Rng) (draw : Int → Int → Int) : interventionTargets rng draw 10 (.int 10) = .ok Finset.univ ∧
    interventionTargets rng draw 10 (.int 0) = .ok ∅ ∧ interventionTargets rng draw 10 (.int 11) = .error .valueError ∧
    interventionTargets rng draw 10 (.tuple [0, 11]) = .error .valueError := by
  refine ⟨?_, ?_, ?_, ?_⟩
  · have hp : (rng.choice (List.finRange 10) 10).Perm (List.finRange 10) :=
      (rng.choice_subperm _ _ (by simp)).perm_of_length_le (by simp [rng.choice_length (List.finRange 10) 10 (by simp)])
    have : (rng.choice (List.finRange 10) 10).toFinset = Finset.univ := by
      ext x
      simp [hp.mem_iff]
    simp [interventionTargets, choiceTargets, this]
  · have : rng.choice (List.finRange 10) 0 = [] := List.length_eq_zero_iff.1 (rng.choice_length _ _ (by simp))
    simp [interventionTargets, choiceTargets, this]
  · simp [interventionTargets]
  · simp [interventionTargets]

/-- The errors of `sample_parameters`, `/repo/utlvce/generators.py:387-398`. -/
example (it : SetIter 3) (dr : Draws 3 2 5) (sparse obs : Bool) :
    sampleParameters it docModel.A {3} sparse obs dr = .error .valueError ∧
    sampleParameters it ![![0, 0, 1], ![0, 0, 1], ![1, 0, 0]] {2} sparse obs dr = .error .valueError := by
  constructor
  · unfold sampleParameters
    rw [if_neg (by simpa using (isDag_iff it docModel_nonneg).2 docModel_acyclic), if_pos (by decide)]
  · have h : Nonneg (![![0, 0, 1], ![0, 0, 1], ![1, 0, 0]] : Adj 3) := by unfold Nonneg; decide
    have hc : ¬ isDag it ![![0, 0, 1], ![0, 0, 1], ![1, 0, 0]] = true := by
      rw [isDag_iff it h, ← isDag_iff (SetIter.incr 3) h]
      decide
    simp [sampleParameters, hc]

/-- The graph and the ordering of the example of `_dag_avg_deg`, `/repo/utlvce/generators.py:573-578`, come from a graph whose edges point to
larger numbers and the permutation `0, 2, 3, 4, 1`, which is the only one with this ordering. -/
example : ∃ g : GraphDraws 5, dagAvgDeg 2 g = .ok (!![0, 0, 0, 1, 0; 0, 0, 1, 1, 0; 0, 0, 0, 1, 0; 0, 0, 0, 0, 0; 0, 0, 0, 0, 0],
    [0, 4, 1, 2, 3]) := by
  refine ⟨⟨fun i j => if (i, j) ∈ ([(0, 4), (2, 3), (2, 4), (3, 4)] : List (Fin 5 × Fin 5)) then 0 else 1, fun _ _ => 1,
    ⟨![0, 2, 3, 4, 1], ![0, 4, 1, 2, 3], by decide, by decide⟩⟩, ?_⟩
  unfold dagAvgDeg
  rw [if_neg (by norm_num)]
  simp only [Except.ok.injEq, Prod.mk.injEq]
  constructor
  · ext a b
    fin_cases a <;> fin_cases b <;> simp [upperGraph] <;> norm_num
  · decide

end Verif
