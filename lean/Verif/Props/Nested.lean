import Verif.Props.Proper
import Verif.Props.ScoreInit

/-!
# C91: larger models never fit worse, and complete graphs fit everything that does not change
-/

namespace Verif

open Spec Matrix

variable {p l e : Nat}

/-- The score only depends on the covariances of the noise and the matrix `I - B^T`. -/
theorem score_congr {l' : Nat} {m : LModel p l e} {m' : LModel p l' e} (h1 : m'.noise = m.noise) (h2 : m'.IB = m.IB)
    (S : List (Matrix (Fin p) (Fin p) ℝ)) (n : List Nat) : m'.score S n = m.score S n := by
  unfold LModel.score LModel.invNoise
  rw [h1, h2]

theorem covariances_congr {l' : Nat} {m : LModel p l e} {m' : LModel p l' e} (h1 : m'.noise = m.noise) (h2 : m'.B = m.B) :
    m'.covariances = m.covariances := by
  unfold LModel.covariances
  rw [h1, h2]

/-- C91: let `G` be a subgraph of a DAG `H`, `I` a subset of `J`.  For every model over `G` with targets `I` there is one over `H` with
targets `J` and one more latent variable, of any variances, that entails the same covariances and has the same score on all data. -/
theorem C91_nested (it : SetIter p) (G H : Adj p) (hG : Nonneg G) (hH : Nonneg H) (hac : Acyclic H) (hsub : ∀ i j, Edge G i j → Edge H i j)
    (I J : Finset (Fin p)) (hIJ : I ⊆ J) (psis : Matrix (Fin e) (Fin l) ℝ) (c : Fin e → ℝ) (m : LModel p l e)
    (hm : Admissible it I G psis m) :
    ∃ m' : LModel p (l + 1) e, Admissible it J H (fun k => Fin.snoc (psis k) (c k)) m' ∧ m'.covariances = m.covariances ∧
      ∀ S n, m'.score S n = m.score S n := by
  obtain ⟨B, gamma, omegas, h1, h2, h3⟩ := hm
  obtain ⟨-, hB, rfl⟩ := mkModel_ok hG h1
  have hB' : Respects H B := by
    intro i j hij
    apply hB
    by_contra hc
    exact hsub i j hc hij
  have hk := mkModel_eq_ok (it := it) hH (Fin.snoc (α := fun _ => Fin p → ℝ) gamma 0 : Matrix (Fin (l + 1)) (Fin p) ℝ) omegas
    (fun k => Fin.snoc (psis k) (c k) : Matrix (Fin e) (Fin (l + 1)) ℝ) hac hB'
  refine ⟨_, ⟨B, _, omegas, hk, h2, fun k k' i hi => h3 k k' i (fun hc => hi (hIJ hc))⟩, ?_⟩
  have hn : (⟨H, B, (Fin.snoc (α := fun _ => Fin p → ℝ) gamma 0 : Matrix (Fin (l + 1)) (Fin p) ℝ), omegas,
      (fun k => Fin.snoc (psis k) (c k) : Matrix (Fin e) (Fin (l + 1)) ℝ), 1 - Bᵀ⟩ : LModel p (l + 1) e).noise =
      (⟨G, B, gamma, omegas, psis, 1 - Bᵀ⟩ : LModel p l e).noise := by
    funext k
    rw [noise_eq, noise_eq]
    funext i j
    have g1 : ∀ x : Fin l, (Fin.snoc (α := fun _ => Fin p → ℝ) gamma 0 : Matrix (Fin (l + 1)) (Fin p) ℝ) x.castSucc = gamma x :=
      fun x => Fin.snoc_castSucc (α := fun _ => Fin p → ℝ) _ _ x
    have g2 : (Fin.snoc (α := fun _ => Fin p → ℝ) gamma 0 : Matrix (Fin (l + 1)) (Fin p) ℝ) (Fin.last l) = 0 :=
      Fin.snoc_last (α := fun _ => Fin p → ℝ) _ _
    simp only [noiseCov, Fin.sum_univ_castSucc, Fin.snoc_castSucc, Fin.snoc_last, g1, g2, Pi.zero_apply, zero_mul, add_zero]
  exact ⟨covariances_congr hn rfl, score_congr hn rfl⟩

/-- C91: a complete DAG entails every positive definite covariance, the same in all environments, with any number of latents that have no
effects and no targets at all. -/
theorem C91_saturated (it : SetIter p) (A : Adj p) (hA : Nonneg A) (hac : Acyclic A) (hc : ∀ i j, i ≠ j → Edge A i j ∨ Edge A j i)
    (psis : Matrix (Fin e) (Fin l) ℝ) (S : Matrix (Fin p) (Fin p) ℝ) (hS : S.PosDef) :
    ∃ m : LModel p l e, Admissible it ∅ A psis m ∧ m.gamma = 0 ∧ m.covariances = .ok (fun _ => S) := by
  obtain ⟨B, hreg⟩ : ∃ B, regressAll A S = .ok B := by
    unfold regressAll
    rw [if_neg (by push Not; intro j; exact (covPa_posDef hS _).det_pos.ne')]
    exact ⟨_, rfl⟩
  obtain ⟨hB, hN⟩ := regressAll_ok hreg
  have hsym : ∀ i j, S i j = S j i := fun i j => by
    have := hS.1.apply i j
    simpa using this.symm
  -- covariance of the residuals with the variables
  have hR : ∀ i j, Edge A i j → ((1 - Bᵀ) * S) j i = 0 := by
    intro i j hij
    have h1 := hN j i hij
    rw [Matrix.sub_mul, Matrix.one_mul, Matrix.sub_apply, Matrix.mul_apply]
    simp only [Matrix.transpose_apply]
    rw [sub_eq_zero, ← h1]
    exact Finset.sum_congr rfl (fun k _ => by rw [hsym i k]; ring)
  obtain ⟨V, hVd⟩ : ∃ V : Matrix (Fin p) (Fin p) ℝ, V = (1 - Bᵀ) * S * (1 - Bᵀ)ᵀ := ⟨_, rfl⟩
  have hoff : ∀ i j, Edge A i j → V j i = 0 := by
    intro i j hij
    rw [hVd, Matrix.mul_apply]
    refine Finset.sum_eq_zero (fun m _ => ?_)
    rw [Matrix.transpose_apply, Matrix.sub_apply, Matrix.transpose_apply, Matrix.one_apply]
    by_cases hmi : i = m
    · subst hmi
      rw [hR i j hij, zero_mul]
    · rw [if_neg hmi, zero_sub]
      by_cases hAm : A m i = 0
      · rw [hB m i hAm]
        simp
      · have hmj : m ≠ j := by
          rintro rfl
          exact hac i (Relation.TransGen.head hij (Relation.TransGen.single hAm))
        have : Edge A m j := by
          rcases hc m j hmj with h | h
          · exact h
          · exact absurd (Relation.TransGen.head h (Relation.TransGen.head hAm (Relation.TransGen.single hij))) (hac j)
        rw [hR m j this, zero_mul]
  have hV : V.PosDef := by
    have hu : IsUnit (1 - Bᵀ) := (Matrix.isUnit_iff_isUnit_det _).2 (by rw [det_one_sub_transpose hac hB]; exact isUnit_one)
    have := (Matrix.IsUnit.posDef_star_right_conjugate_iff hu).2 hS
    rw [hVd]
    simpa [Matrix.star_eq_conjTranspose] using this
  have hVs : ∀ i j, V i j = V j i := fun i j => by
    have := hV.1.apply i j
    simpa using this.symm
  have hk := mkModel_eq_ok (it := it) hA (0 : Matrix (Fin l) (Fin p) ℝ) (fun _ i => V i i : Matrix (Fin e) (Fin p) ℝ)
    psis hac hB
  refine ⟨_, ⟨B, 0, _, hk, fun k i => hV.diag_pos, fun _ _ _ _ => rfl⟩, rfl, ?_⟩
  obtain ⟨-, C, h1, h2⟩ := C35_covariances it A hA B 0 _ psis _ hk
  rw [h1]
  congr 1
  funext k
  refine ((h2 k).2 S ?_).symm
  unfold Entails
  rw [← hVd]
  funext i j
  simp only [noiseCov, Matrix.zero_apply, zero_mul, mul_zero, Finset.sum_const_zero, zero_add]
  by_cases hij : i = j
  · subst hij
    rw [if_pos rfl]
  · rw [if_neg hij]
    rcases hc i j hij with h | h
    · rw [hVs]
      exact hoff i j h
    · exact hoff j i h

/-- C91: so when the sample covariances do not differ (in particular with one environment), every complete DAG attains the smallest score any
valid model over any DAG can have, whatever the number of latents. -/
theorem C91_saturated_score (it : SetIter p) (A : Adj p) (hA : Nonneg A) (hac : Acyclic A) (hc : ∀ i j, i ≠ j → Edge A i j ∨ Edge A j i)
    (psis : Matrix (Fin e) (Fin l) ℝ) (hp : ∀ k i, 0 ≤ psis k i) (S : Matrix (Fin p) (Fin p) ℝ) (hS : S.PosDef) (n : Fin e → Nat)
    (hn : ∀ k, 0 < n k) (he : 0 < e) :
    ∃ (m : LModel p l e) (s : ℝ), Admissible it ∅ A psis m ∧ m.score (List.ofFn (fun _ : Fin e => S)) (List.ofFn n) = .ok (some s) ∧
      ∀ (l' : Nat) (m' : LModel p l' e) (s' : ℝ), Proper it m' →
        m'.score (List.ofFn (fun _ : Fin e => S)) (List.ofFn n) = .ok (some s') → s ≤ s' := by
  obtain ⟨m, h1, -, h3⟩ := C91_saturated it A hA hac hc psis S hS
  have hm : Proper it m := by
    obtain ⟨B, gamma, omegas, k1, k2, -⟩ := h1
    exact ⟨A, B, gamma, omegas, psis, hA, k1, k2, hp⟩
  obtain ⟨s, k1, -, k3⟩ := proper_score hm n hn he (fun _ => S) (fun _ => hS)
  refine ⟨m, s, h1, k1, fun l' m' s' hm' hs' => ?_⟩
  obtain ⟨s'', k4, k5, -⟩ := proper_score hm' n hn he (fun _ => S) (fun _ => hS)
  rw [hs'] at k4
  cases k4
  rw [k3.2 h3]
  exact k5

/-- Concrete case for `C91_nested`: the model `emptyModel` without edges within the models over `0 → 1`. -/
example (it : SetIter 2) : ∃ m' : LModel 2 (1 + 1) 2, Admissible it {0, 1} ![![0, 1], ![0, 0]]
      (fun k => Fin.snoc ((!![1; 2] : Matrix (Fin 2) (Fin 1) ℝ) k) 5) m' ∧
    m'.covariances = emptyModel.covariances := by
  have h0 : Acyclic (0 : Adj 2) := (isDag_iff (SetIter.incr 2) (fun _ _ => le_refl _)).1 (by decide)
  obtain ⟨m', h1, h2, -⟩ := C91_nested it 0 ![![0, 1], ![0, 0]] (fun _ _ => le_refl _) (by unfold Nonneg; decide) exModel_acyclic
    (fun i j h => absurd rfl h) {1} {0, 1} (by simp) !![1; 2] (fun _ => 5) emptyModel
    ⟨0, !![1, 1], !![1, 2; 1, 1], mkModel_eq_ok (fun _ _ => le_refl _) _ _ _ h0 (fun _ _ _ => rfl),
      by intro k i; fin_cases k <;> fin_cases i <;> norm_num,
      by intro k k' i hi; fin_cases k <;> fin_cases k' <;> fin_cases i <;> simp at hi ⊢⟩
  exact ⟨m', h1, h2⟩

/-- Concrete case for `C91_saturated_score`: both complete graphs over two variables reach the same smallest score. -/
example (it : SetIter 2) (S : Matrix (Fin 2) (Fin 2) ℝ) (hS : S.PosDef) : ∃ (m m' : LModel 2 0 1) (s : ℝ), m.A = ![![0, 1], ![0, 0]] ∧
    m'.A = ![![0, 0], ![1, 0]] ∧ m.score [S] [10] = .ok (some s) ∧ m'.score [S] [10] = .ok (some s) := by
  have hG : Nonneg (![![0, 1], ![0, 0]] : Adj 2) := by unfold Nonneg; decide
  have hH : Nonneg (![![0, 0], ![1, 0]] : Adj 2) := by unfold Nonneg; decide
  have hacH : Acyclic (![![0, 0], ![1, 0]] : Adj 2) := (isDag_iff (SetIter.incr 2) hH).1 (by decide)
  obtain ⟨m, s, ⟨B, g, o, a1, a2, -⟩, a4, a5⟩ := C91_saturated_score it _ hG exModel_acyclic
    (by intro i j hij; unfold Edge; fin_cases i <;> fin_cases j <;> simp at hij ⊢) (0 : Matrix (Fin 1) (Fin 0) ℝ)
    (fun _ i => i.elim0) S hS (fun _ => 10) (fun _ => by norm_num) (by norm_num)
  obtain ⟨m', s', ⟨B', g', o', b1, b2, -⟩, b4, b5⟩ := C91_saturated_score it _ hH hacH
    (by intro i j hij; unfold Edge; fin_cases i <;> fin_cases j <;> simp at hij ⊢) (0 : Matrix (Fin 1) (Fin 0) ℝ)
    (fun _ i => i.elim0) S hS (fun _ => 10) (fun _ => by norm_num) (by norm_num)
  have h1 := a5 _ m' s' ⟨_, B', g', o', _, hH, b1, b2, fun _ i => i.elim0⟩ b4
  have h2 := b5 _ m s ⟨_, B, g, o, _, hG, a1, a2, fun _ i => i.elim0⟩ a4
  obtain rfl := le_antisymm h1 h2
  obtain ⟨-, -, e1⟩ := mkModel_ok hG a1
  obtain ⟨-, -, e2⟩ := mkModel_ok hH b1
  refine ⟨m, m', s, by rw [e1], by rw [e2], ?_, ?_⟩
  · simpa using a4
  · simpa using b4

end Verif
