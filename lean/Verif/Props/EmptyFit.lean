import Verif.Props.OneEnv
import Verif.Props.RobustRun

/-!
# C121: fits of the graph without edges, and which of its targets are kept
-/

namespace Verif

open Spec Matrix

variable {p e : Nat}

/-- The variance that is pooled over the environments. -/
noncomputable def Spec.pooledVar (n : Fin e → Nat) (S : Fin e → Matrix (Fin p) (Fin p) ℝ) (j : Fin p) : ℝ := (∑ k, (n k : ℝ) * S k j j) / ∑ k, (n k : ℝ)

/-- The variances of the fit: those of the environments for targets, the pooled one for other variables. -/
noncomputable def Spec.emptyVar (n : Fin e → Nat) (S : Fin e → Matrix (Fin p) (Fin p) ℝ) (I : Finset (Fin p)) : Matrix (Fin e) (Fin p) ℝ :=
  Matrix.of fun k j => if j ∈ I then S k j j else pooledVar n S j

theorem pooledVar_pos {d : Data p e} (hd : GoodData d) (j : Fin p) : 0 < pooledVar d.nObs d.covs j := by
  have hpos : ∀ k, 0 < (d.nObs k : ℝ) := fun k => by exact_mod_cast hd.pos k
  have hne : (Finset.univ : Finset (Fin e)).Nonempty := ⟨⟨0, hd.some⟩, Finset.mem_univ _⟩
  exact div_pos (Finset.sum_pos (fun k _ => mul_pos (hpos k) ((hd.posDef k).diag_pos)) hne) (Finset.sum_pos (fun k _ => hpos k) hne)

theorem emptyVar_pos {d : Data p e} (hd : GoodData d) (I : Finset (Fin p)) (k : Fin e) (j : Fin p) : 0 < emptyVar d.nObs d.covs I k j := by
  unfold emptyVar
  rw [Matrix.of_apply]
  split_ifs
  · exact (hd.posDef k).diag_pos
  · exact pooledVar_pos hd j

/-- What `score_dag` returns for the graph without edges. -/
theorem fit_empty {it : SetIter p} {A : Adj p} (hA : ∀ i j, A i j = 0)
    (svd : Matrix (Fin p) (Fin p) ℝ → Matrix (Fin p) (Fin p) ℝ × (Fin p → ℝ)) (num : NumLib p e) (cfg : ScoreCfg) (hcvx : cfg.solver = .cvx) (d : Data p e)
    (hd : GoodData d) (u v : Nat → Fin (p * p) → ℝ) (I : Finset (Fin p)) (m : LModel p 0 e) (s : Flt)
    (h : fitCode it svd num cfg d u v A I none = .ok (m, s)) : m.A = A ∧ m.B = 0 ∧ m.omegas = emptyVar d.nObs d.covs I ∧ m.IB = 1 := by
  have hn : Nonneg A := fun i j => by rw [hA]
  have hac : Acyclic A := acyclic_of_rank (f := fun _ => 0) fun i j hij => absurd (hA i j) hij
  have hpos : ∀ k, 0 < (d.nObs k : ℝ) := fun k => by exact_mod_cast hd.pos k
  have hne : (Finset.univ : Finset (Fin e)).Nonempty := ⟨⟨0, hd.some⟩, Finset.mem_univ _⟩
  have hN : 0 < ∑ k, (d.nObs k : ℝ) := Finset.sum_pos (fun k _ => hpos k) hne
  have hsym : ∀ k, (d.covs k).IsSymm := fun k => by
    have := (hd.posDef k).1
    rwa [Matrix.IsHermitian, Matrix.conjTranspose_eq_transpose_of_trivial] at this
  have hzero : ∀ B : Matrix (Fin p) (Fin p) ℝ, Respects A B → B = 0 := fun B hB => by
    ext i j
    exact hB i j (hA i j)
  obtain ⟨-, m0, halt, -, hinit⟩ := fitDag_ok h
  rcases hinit with hinit | ⟨-, hinit⟩
  · simp at hinit
  obtain ⟨i1, -, i3, -, -, i6, i7, -⟩ := C53_initial_model it svd A hn I d hsym m0 hinit
  have hres : ∀ (S : Matrix (Fin p) (Fin p) ℝ) j, residualVar S j (fun i => (0 : Matrix (Fin p) (Fin p) ℝ) i j) = S j j := by
    intro S j
    simp [residualVar]
  have h0 : m0.A = A ∧ m0.B = 0 ∧ m0.omegas = emptyVar d.nObs d.covs I := by
    refine ⟨i1, hzero _ i3, ?_⟩
    ext k j
    unfold emptyVar
    rw [Matrix.of_apply]
    rw [hzero _ i3] at i6 i7
    split_ifs with hj
    · rw [i6 k j hj, hres]
    · rw [i7 k j hj]
      simp only [hres]
      rfl
  have step : ∀ k (m m' : LModel p 0 e), (m.A = A ∧ m.B = 0 ∧ m.omegas = emptyVar d.nObs d.covs I) →
      altBody it (codeSolvers it num cfg d u v I) k m = .ok m' → m'.A = A ∧ m'.B = 0 ∧ m'.omegas = emptyVar d.nObs d.covs I := by
    intro k m m' hm hb
    obtain ⟨-, b2, -, b4, -, b6⟩ := altBody_ok hb
    have hB' : m'.B = 0 := hzero _ (by
      have := codeSolvers_respects (fun hc => by rw [hcvx] at hc; simp at hc) b4
      simpa [hm.1] using this)
    refine ⟨b2.trans hm.1, hB', ?_⟩
    simp only [codeSolvers] at b6
    unfold solveForRest at b6
    split at b6
    · simp at b6
    · rename_i X L hX
      simp only [Except.ok.injEq, Prod.mk.injEq] at b6
      have hfix : X = Sum.elim (fun hj => m.omegas hj.1 hj.2) (fun hk => m.psis hk.1 hk.2) := by
        refine gd_invariant (fun X => X = Sum.elim (fun hj => m.omegas hj.1 hj.2) (fun hk => m.psis hk.1 hk.2)) (fun g => g = 0) ?_ ?_ rfl hX
        · rintro X g rfl hg
          unfold restGrad at hg
          split at hg
          · simp at hg
          · rename_i m1 hm1
            obtain ⟨-, -, rfl⟩ := mkModel_ok (by rw [hm.1]; exact hn) hm1
            rw [invNoise_ok_of_pos _ (fun k i => by
              simp only [toOmegas, Matrix.of_apply, Sum.elim_inl, hm.2.2]
              exact emptyVar_pos hd I k i) (fun _ i => i.elim0)] at hg
            simp only [Except.ok.injEq] at hg
            rw [← hg]
            have hgr : ∀ h j, omegaGrad d m'.B (fun k => (LModel.noise (⟨m.A, m'.B, m'.gamma, toOmegas (Sum.elim (fun hj : Fin e × Fin p => m.omegas hj.1 hj.2)
                (fun hk : Fin e × Fin 0 => m.psis hk.1 hk.2)), toPsis (Sum.elim (fun hj : Fin e × Fin p => m.omegas hj.1 hj.2)
                (fun hk : Fin e × Fin 0 => m.psis hk.1 hk.2)), 1 - m'.Bᵀ⟩ : LModel p 0 e) k)⁻¹) h j =
                (d.nObs h : ℝ) / (∑ k, (d.nObs k : ℝ)) * ((emptyVar d.nObs d.covs I h j)⁻¹ - (emptyVar d.nObs d.covs I h j)⁻¹ * d.covs h j j *
                  (emptyVar d.nObs d.covs I h j)⁻¹) := by
              intro h j
              unfold omegaGrad
              have hnz : LModel.noise (⟨m.A, m'.B, m'.gamma, toOmegas (Sum.elim (fun hj : Fin e × Fin p => m.omegas hj.1 hj.2)
                (fun hk : Fin e × Fin 0 => m.psis hk.1 hk.2)), toPsis (Sum.elim (fun hj : Fin e × Fin p => m.omegas hj.1 hj.2)
                (fun hk : Fin e × Fin 0 => m.psis hk.1 hk.2)), 1 - m'.Bᵀ⟩ : LModel p 0 e) h = Matrix.diagonal (emptyVar d.nObs d.covs I h) := by
                rw [noise_eq, noiseCov_zero]
                congr 1
                funext j
                simp only [toOmegas, Matrix.of_apply, Sum.elim_inl, hm.2.2]
              have hinv : (Matrix.diagonal (emptyVar d.nObs d.covs I h))⁻¹ = Matrix.diagonal (fun j => (emptyVar d.nObs d.covs I h j)⁻¹) := by
                refine Matrix.inv_eq_right_inv ?_
                rw [Matrix.diagonal_mul_diagonal, ← Matrix.diagonal_one]
                congr 1
                funext j
                exact mul_inv_cancel₀ (emptyVar_pos hd I h j).ne'
              beta_reduce
              rw [hnz, hinv]
              simp only [nCov, hB', Matrix.transpose_zero, sub_zero, Matrix.one_mul, Matrix.transpose_one, Matrix.mul_one, Matrix.sub_apply,
                Matrix.diagonal_apply_eq, Matrix.mul_diagonal, Matrix.diagonal_mul]
              congr 2
              simp [Data.total]
            funext x
            rcases x with ⟨h, j⟩ | ⟨h, j⟩
            · simp only [Sum.elim_inl, Pi.zero_apply, hgr]
              split_ifs with hj
              · have : emptyVar d.nObs d.covs I h j = d.covs h j j := by simp [emptyVar, hj]
                have hp := (hd.posDef h).diag_pos (i := j)
                rw [this]
                field_simp
                ring
              · have : ∀ h, emptyVar d.nObs d.covs I h j = pooledVar d.nObs d.covs j := fun h => by simp [emptyVar, hj]
                simp only [this]
                have hp := pooledVar_pos hd j
                have hq : pooledVar d.nObs d.covs j * ∑ k, (d.nObs k : ℝ) = ∑ k, (d.nObs k : ℝ) * d.covs k j j := by
                  unfold pooledVar
                  field_simp
                unfold meanEnv
                rw [div_eq_zero_iff]
                left
                generalize pooledVar d.nObs d.covs j = w at *
                have : ∀ h, (d.nObs h : ℝ) / (∑ k, (d.nObs k : ℝ)) * (w⁻¹ - w⁻¹ * d.covs h j j * w⁻¹) =
                    (w⁻¹ * w⁻¹ / (∑ k, (d.nObs k : ℝ))) * (w * d.nObs h - d.nObs h * d.covs h j j) := by
                  intro h
                  field_simp
                simp only [this]
                rw [← Finset.mul_sum, Finset.sum_sub_distrib, ← Finset.mul_sum, hq, sub_self, mul_zero]
            · exact j.elim0
        · rintro X g c rfl rfl
          funext i
          simp
      rw [← b6.1, hfix, ← hm.2.2]
      ext k j
      rfl
  obtain ⟨k, m', hP, hb, hm⟩ := alternate_induct halt (fun m => m.A = A ∧ m.B = 0 ∧ m.omegas = emptyVar d.nObs d.covs I) h0 step
  refine ⟨hm.1, hm.2.1, hm.2.2, ?_⟩
  rw [(altBody_ok hb).2.2.1, hP.2.1, Matrix.transpose_zero, sub_zero]

/-! ## The score of such a fit on other data -/

/-- The negative log-likelihood of one variable with variance `v` in data with sample variance `s`. -/
noncomputable def Spec.nll (v s : ℝ) : ℝ := Real.log v + s / v

theorem gaussNLL_diag_sum {w : Fin p → ℝ} (hw : ∀ j, 0 < w j) (S : Matrix (Fin p) (Fin p) ℝ) : gaussNLL (Matrix.diagonal w) S = ∑ j, nll (w j) (S j j) := by
  have hinv : (Matrix.diagonal w)⁻¹ = Matrix.diagonal (fun j => (w j)⁻¹) := by
    refine Matrix.inv_eq_right_inv ?_
    rw [Matrix.diagonal_mul_diagonal, ← Matrix.diagonal_one]
    congr 1
    funext j
    exact mul_inv_cancel₀ (hw j).ne'
  unfold gaussNLL nll
  rw [Matrix.det_diagonal, Real.log_prod fun j _ => (hw j).ne', hinv, Matrix.trace, ← Finset.sum_add_distrib]
  refine Finset.sum_congr rfl fun j _ => ?_
  rw [Matrix.diag_apply, Matrix.diagonal_mul, div_eq_inv_mul]

/-- The score of the fit, also after it is copied. -/
theorem fitted_empty {it : SetIter p} {A : Adj p} (hA : ∀ i j, A i j = 0)
    {svd : Matrix (Fin p) (Fin p) ℝ → Matrix (Fin p) (Fin p) ℝ × (Fin p → ℝ)} {num : NumLib p e} {cfg : ScoreCfg} (hcvx : cfg.solver = .cvx)
    {d : Data p e} (hd : GoodData d) {u v : Nat → Nat → Nat → Fin (p * p) → ℝ} {I : Finset (Fin p)}
    {m : AnyModel p e} {s : Flt} (h : FittedTo it (codeFit it svd num cfg u v d 0) A I m s) {t : Data p e} (ht : GoodData t) :
    m.scoreOn t = .ok (some (∑ k, codeWeight t.nObs k * ∑ j, nll (emptyVar d.nObs d.covs I k j) (t.covs k j j))) := by
  have hn : Nonneg A := fun i j => by rw [hA]
  have hac : Acyclic A := acyclic_of_rank (f := fun _ => 0) fun i j hij => absurd (hA i j) hij
  have h0 : Respects A (0 : Matrix (Fin p) (Fin p) ℝ) := fun _ _ _ => rfl
  obtain ⟨n, m0, h1, h2⟩ := h
  unfold codeFit at h1
  split at h1
  · simp at h1
  · rename_i mm ss hm
    cases h1
    obtain ⟨a1, a2, a3, a4⟩ := fit_empty hA svd num cfg hcvx d hd (u 0 n) (v 0 n) I mm s hm
    have hmk : mkModel it A 0 mm.gamma (emptyVar d.nObs d.covs I) mm.psis = .ok mm := by
      rw [mkModel_eq_ok hn _ _ _ hac h0]
      obtain ⟨A', B', g', o', ps', IB'⟩ := mm
      simp only at a1 a2 a3 a4
      subst a1 a2 a3 a4
      simp
    have hprop : Proper it mm := ⟨A, 0, _, _, _, hn, hmk, emptyVar_pos hd I, fun _ i => i.elim0⟩
    have hsc : mm.score (List.ofFn t.covs) (List.ofFn t.nObs) =
        .ok (some (∑ k, codeWeight t.nObs k * ∑ j, nll (emptyVar d.nObs d.covs I k j) (t.covs k j j))) := by
      have hcov : mm.covariances = .ok fun k => Matrix.diagonal (emptyVar d.nObs d.covs I k) := by
        have := covariances_ok mm (by rw [a2]; simp)
        rw [this]
        congr 1
        funext k
        rw [a2, noise_eq, noiseCov_zero, a3]
        simp
      have hN : ∑ k, t.nObs k ≠ 0 := (Finset.sum_pos (fun k _ => ht.pos k) ⟨⟨0, ht.some⟩, Finset.mem_univ _⟩).ne'
      rw [C37_actual_score it A hn 0 _ _ _ mm hmk (emptyVar_pos hd I) (fun _ i => i.elim0) t.nObs hN t.covs _ hcov]
      have hsum : (∑ k, (t.nObs k : ℝ) * gaussNLL (Matrix.diagonal (emptyVar d.nObs d.covs I k)) (t.covs k) / (∑ k, (t.nObs k : ℝ)) ^ (e - k.val)) =
          ∑ k, codeWeight t.nObs k * ∑ j, nll (emptyVar d.nObs d.covs I k j) (t.covs k j j) := by
        refine Finset.sum_congr rfl fun k _ => ?_
        rw [gaussNLL_diag_sum (emptyVar_pos hd I k)]
        unfold codeWeight
        ring
      rw [hsum]
    rcases h2 with rfl | h2
    · exact hsc
    · unfold AnyModel.copy at h2
      rw [proper_copy hprop] at h2
      cases h2
      exact hsc

/-- What is gained, in the score on the data `t`, by a common variance of variable `j` in a fit to the data `d`. -/
noncomputable def Spec.gain (d t : Data p e) (j : Fin p) : ℝ :=
  ∑ k, codeWeight t.nObs k * (nll (d.covs k j j) (t.covs k j j) - nll (pooledVar d.nObs d.covs j) (t.covs k j j))

theorem score_gain (d t : Data p e) (I : Finset (Fin p)) :
    (∑ k, codeWeight t.nObs k * ∑ j, nll (emptyVar d.nObs d.covs I k j) (t.covs k j j)) -
      (∑ k, codeWeight t.nObs k * ∑ j, nll (emptyVar d.nObs d.covs ∅ k j) (t.covs k j j)) = ∑ j ∈ I, gain d t j := by
  unfold gain
  rw [Finset.sum_comm (s := I), ← Finset.sum_sub_distrib]
  refine Finset.sum_congr rfl fun k _ => ?_
  rw [← mul_sub, ← Finset.sum_sub_distrib, ← Finset.mul_sum]
  congr 1
  rw [← Finset.sum_subset (Finset.subset_univ I)]
  · exact Finset.sum_congr rfl fun j hj => by simp [emptyVar, hj]
  · intro j _ hj
    simp [emptyVar, hj]

/-- C121: the targets that are returned for the graph without edges gain together nothing from common variances. -/
theorem kept_targets (E : FitEnv p e) (svd : Matrix (Fin p) (Fin p) ℝ → Matrix (Fin p) (Fin p) ℝ × (Fin p → ℝ)) (num : NumLib p e)
    (cfg : ScoreCfg) (u v : Nat → Nat → Nat → Fin (p * p) → ℝ) (hE : E.fit = codeFit E.it svd num cfg u v) (hcvx : cfg.solver = .cvx)
    (harg : ∀ f, IsArgsort f (E.argsort f)) (candidates : List (Adj p)) (hG : ∀ G ∈ candidates, ∀ i j, G i j = 0)
    (data : Fin e → Sample p) (solverKnown pruneEdges : Bool) (folds : List Rat) (rs : Int)
    (training testG testI : List (Sample p)) (hsplit : splitData (E.rng 42) (List.ofFn data) folds = .ok [training, testG, testI])
    (hd : GoodData (foldData E.cov training e)) (ht : GoodData (foldData E.cov testI e)) (P : Adj p) (I : Finset (Fin p)) (m : AnyModel p e)
    (h : equivalenceClass E candidates data solverKnown pruneEdges (some [0]) folds rs = .ok (P, I, m)) :
    ∑ j ∈ I, gain (foldData E.cov training e) (foldData E.cov testI e) j ≤ 0 := by
  obtain ⟨s, hmain⟩ : ∃ s, fitMain E data solverKnown (some [0]) pruneEdges folds none none (some candidates) 42 = .ok (m, I, s) := by
    unfold equivalenceClass withIcpdag at h
    split at h
    · simp at h
    · rename_i m' I' s' hm'
      split at h
      · simp at h
      · cases h
        exact ⟨_, hm'⟩
  have hfit : ∀ d h, GoodFit (E.fit d h) := fun d h => by
    rw [hE]
    exact codeFit_good _ _ _ _ _ _ _ _ (fun hc => by rw [hcvx] at hc; simp at hc)
  have hlat : ∀ d h n A I m s, E.fit d h n A I = .ok (m, s) → m.1 = h := by
    intro d h n A I m s hm
    rw [hE] at hm
    exact codeFit_latents hm
  obtain ⟨_, _, _, graphs, ns', z1, z2, z3, z4⟩ := fitMain_spec hfit hlat harg hmain
  rw [hsplit] at z1
  cases z1
  cases z2
  cases z3
  obtain ⟨q1, ⟨G', g1, g2, -⟩, -, -, -, ⟨m0, s0, order, -, o2, -, -, ⟨sf, o5⟩, o6, o7⟩⟩ := z4 fun G h i j => by rw [hG G h]
  have hm0 : m.1 = 0 := List.mem_singleton.1 q1
  have hmA : ∀ i j, m.A i j = 0 := fun a b => by
    rcases g2 a b with hc | hc
    · rw [hc]; exact hG G' g1 a b
    · exact hc
  obtain ⟨mi, sf', si, b1, b2, b3⟩ := o7 p le_rfl
  have hempty : Finset.univ \ (order.take p).toFinset = ∅ := by
    have hlen : order.length = p := by rw [o2.length_eq, List.length_finRange]
    rw [List.take_of_length_le hlen.le]
    ext i
    simp [o2.mem_iff]
  rw [hempty] at b1
  rw [hE, hm0] at o5 b1
  rw [fitted_empty hmA hcvx hd o5 ht] at o6
  rw [fitted_empty hmA hcvx hd b1 ht] at b2
  cases o6
  cases b2
  rw [← score_gain]
  rcases b3 with hc | ⟨x, y, hx, hy, hxy⟩
  · simp at hc
  · cases hx
    cases hy
    linarith

end Verif
