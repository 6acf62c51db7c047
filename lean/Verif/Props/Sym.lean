import Verif.Props.Nested
import Mathlib.Analysis.Complex.ExponentialBounds

/-!
# C92, C94: symmetries of the model and of the score
-/

namespace Verif

open Spec Matrix

variable {p l e : Nat}

/-! ## C92: the latents -/

/-- C92: numbering the latents differently (`σ`) and multiplying their effects by nonzero constants `c`, with the variances divided by
`c²`, gives another valid model with the same covariances and the same score on all data. -/
theorem C92_latents (it : SetIter p) (A : Adj p) (hA : Nonneg A) (B : Matrix (Fin p) (Fin p) ℝ) (gamma : Matrix (Fin l) (Fin p) ℝ)
    (omegas : Matrix (Fin e) (Fin p) ℝ) (psis : Matrix (Fin e) (Fin l) ℝ) (m : LModel p l e)
    (h : mkModel it A B gamma omegas psis = .ok m) (σ : Equiv.Perm (Fin l)) (c : Fin l → ℝ) (hc : ∀ x, c x ≠ 0) :
    ∃ m' : LModel p l e,
      mkModel it A B (fun x i => c x * gamma (σ x) i) omegas (fun k x => psis k (σ x) / c x ^ 2) = .ok m' ∧
      m'.covariances = m.covariances ∧ ∀ S n, m'.score S n = m.score S n := by
  obtain ⟨hac, hB, rfl⟩ := mkModel_ok hA h
  refine ⟨_, mkModel_eq_ok hA _ _ _ hac hB, ?_⟩
  have hn : (⟨A, B, fun x i => c x * gamma (σ x) i, omegas, fun k x => psis k (σ x) / c x ^ 2, 1 - Bᵀ⟩ : LModel p l e).noise =
      (⟨A, B, gamma, omegas, psis, 1 - Bᵀ⟩ : LModel p l e).noise := by
    funext k
    rw [noise_eq, noise_eq]
    funext i j
    simp only [noiseCov]
    congr 1
    rw [← Equiv.sum_comp σ (fun x => gamma x i * psis k x * gamma x j)]
    refine Finset.sum_congr rfl (fun x _ => ?_)
    have := hc x
    field_simp
  exact ⟨covariances_congr hn rfl, score_congr hn rfl⟩

/-- C92: so the size and sign of the effects of the latents cannot be recovered from the covariances or the score: for every model in which latent `x` has an effect on variable `i` and every nonzero number `r` there is a model with the same covariances and score in which the effect is `r`. -/
theorem C92_effect_not_identified (it : SetIter p) (A : Adj p) (hA : Nonneg A) (B : Matrix (Fin p) (Fin p) ℝ)
    (gamma : Matrix (Fin l) (Fin p) ℝ) (omegas : Matrix (Fin e) (Fin p) ℝ) (psis : Matrix (Fin e) (Fin l) ℝ) (m : LModel p l e)
    (h : mkModel it A B gamma omegas psis = .ok m) (x : Fin l) (i : Fin p) (hx : gamma x i ≠ 0) (r : ℝ) (hr : r ≠ 0) :
    ∃ (gamma' : Matrix (Fin l) (Fin p) ℝ) (psis' : Matrix (Fin e) (Fin l) ℝ) (m' : LModel p l e),
      mkModel it A B gamma' omegas psis' = .ok m' ∧ gamma' x i = r ∧ ((∀ k y, 0 ≤ psis k y) → ∀ k y, 0 ≤ psis' k y) ∧
      m'.covariances = m.covariances ∧ ∀ S n, m'.score S n = m.score S n := by
  obtain ⟨m', h1, h2, h3⟩ := C92_latents it A hA B gamma omegas psis m h 1 (fun y => if y = x then r / gamma x i else 1) (by
    intro y
    by_cases hy : y = x
    · simp only [hy, if_true]
      exact div_ne_zero hr hx
    · simp [hy])
  refine ⟨_, _, m', h1, ?_, fun hp k y => div_nonneg (hp k _) (sq_nonneg _), h2, h3⟩
  simp [hx]

/-- Concrete case: two latents exchanged, the second with doubled effects. -/
example (it : SetIter 2) : ∃ (m m' : LModel 2 2 1), mkModel it 0 0 !![1, 2; 3, 5] !![1, 1] !![1, 4] = .ok m ∧
    mkModel it 0 0 !![3, 5; 2, 4] !![1, 1] !![4, 1 / 4] = .ok m' ∧ m'.covariances = m.covariances := by
  have h0 : Acyclic (0 : Adj 2) := (isDag_iff (SetIter.incr 2) (fun _ _ => le_refl _)).1 (by decide)
  have hk := mkModel_eq_ok (it := it) (A := 0) (B := 0) (fun _ _ => le_refl _) (!![1, 2; 3, 5] : Matrix (Fin 2) (Fin 2) ℝ)
    (!![1, 1] : Matrix (Fin 1) (Fin 2) ℝ) (!![1, 4] : Matrix (Fin 1) (Fin 2) ℝ) h0 (fun _ _ _ => rfl)
  obtain ⟨m', h1, h2, -⟩ := C92_latents it 0 (fun _ _ => le_refl _) 0 _ _ _ _ hk (Equiv.swap 0 1) ![1, 2]
    (by intro x; fin_cases x <;> norm_num)
  refine ⟨_, m', hk, ?_, h2⟩
  rw [← h1]
  congr 1
  · funext x i
    fin_cases x <;> fin_cases i <;> norm_num
  · funext k x
    fin_cases k; fin_cases x <;> norm_num

/-! ## C94: the order of the environments -/

/-- The documented score does not depend on the order of the environments. -/
theorem C94_documented (π : Equiv.Perm (Fin e)) (n : Fin e → Nat) (C S : Fin e → Matrix (Fin p) (Fin p) ℝ) :
    weightedNLL (n ∘ π) (C ∘ π) (S ∘ π) = weightedNLL n C S := by
  unfold weightedNLL
  simp only [Function.comp]
  rw [Equiv.sum_comp π (fun k => (n k : ℝ) * gaussNLL (C k) (S k)), Equiv.sum_comp π (fun k => (n k : ℝ))]

/-- Reordering the environments reorders the entailed covariances. -/
theorem C94_covariances (it : SetIter p) (A : Adj p) (hA : Nonneg A) (B : Matrix (Fin p) (Fin p) ℝ) (gamma : Matrix (Fin l) (Fin p) ℝ)
    (omegas : Matrix (Fin e) (Fin p) ℝ) (psis : Matrix (Fin e) (Fin l) ℝ) (m : LModel p l e)
    (h : mkModel it A B gamma omegas psis = .ok m) (C : Fin e → Matrix (Fin p) (Fin p) ℝ) (hC : m.covariances = .ok C)
    (π : Equiv.Perm (Fin e)) :
    ∃ m' : LModel p l e, mkModel it A B gamma (fun k => omegas (π k)) (fun k => psis (π k)) = .ok m' ∧ m'.covariances = .ok (C ∘ π) := by
  obtain ⟨hac, hB, rfl⟩ := mkModel_ok hA h
  have hk := mkModel_eq_ok (it := it) hA gamma (fun k => omegas (π k) : Matrix (Fin e) (Fin p) ℝ) (fun k => psis (π k) : Matrix (Fin e) (Fin l) ℝ)
    hac hB
  refine ⟨_, hk, ?_⟩
  have hdet := det_one_sub_transpose hac hB
  rw [covariances_ok _ hdet] at hC ⊢
  injection hC with hC
  subst hC
  rfl

/-- C94, violation: with two environments and at least two observations the computed score is unchanged when the environments are exchanged
(data, sample sizes and parameters) only if both contribute the same amount. -/
theorem C94_swap_iff (it : SetIter p) (A : Adj p) (hA : Nonneg A) (B : Matrix (Fin p) (Fin p) ℝ) (gamma : Matrix (Fin l) (Fin p) ℝ)
    (omegas : Matrix (Fin 2) (Fin p) ℝ) (psis : Matrix (Fin 2) (Fin l) ℝ) (m : LModel p l 2)
    (h : mkModel it A B gamma omegas psis = .ok m) (ho : ∀ k i, 0 < omegas k i) (hp : ∀ k i, 0 ≤ psis k i)
    (C S : Fin 2 → Matrix (Fin p) (Fin p) ℝ) (hC : m.covariances = .ok C) (n : Fin 2 → Nat) (hn : 2 ≤ n 0 + n 1) :
    ∃ (m' : LModel p l 2) (s s' : ℝ),
      mkModel it A B gamma (fun k => omegas (Equiv.swap 0 1 k)) (fun k => psis (Equiv.swap 0 1 k)) = .ok m' ∧
      m.score (List.ofFn S) (List.ofFn n) = .ok (some s) ∧
      m'.score (List.ofFn (S ∘ Equiv.swap 0 1)) (List.ofFn (n ∘ Equiv.swap 0 1)) = .ok (some s') ∧
      (s = s' ↔ n 0 * gaussNLL (C 0) (S 0) = n 1 * gaussNLL (C 1) (S 1)) := by
  obtain ⟨m', h1, h2⟩ := C94_covariances it A hA B gamma omegas psis m h C hC (Equiv.swap 0 1)
  have h3 := C37_actual_score it A hA B gamma omegas psis m h ho hp n (by rw [Fin.sum_univ_two]; omega) S C hC
  have h4 := C37_actual_score it A hA B gamma _ _ m' h1 (fun k => ho _) (fun k => hp _) (n ∘ Equiv.swap 0 1)
    (by rw [Fin.sum_univ_two]; simp; omega) (S ∘ Equiv.swap 0 1) _ h2
  refine ⟨m', _, _, h1, h3, h4, ?_⟩
  simp only [Fin.sum_univ_two, Function.comp, Equiv.swap_apply_left, Equiv.swap_apply_right, Fin.val_zero, Fin.val_one]
  generalize gaussNLL (C 0) (S 0) = a
  generalize gaussNLL (C 1) (S 1) = b
  have hN : (2 : ℝ) ≤ (n 0 : ℝ) + n 1 := by exact_mod_cast hn
  have hN0 : ((n 0 : ℝ) + n 1) ≠ 0 := by linarith
  have hN1 : ((n 0 : ℝ) + n 1) - 1 ≠ 0 := by linarith
  rw [add_comm (n 1 : ℝ) (n 0 : ℝ)]
  generalize (n 0 : ℝ) + n 1 = N at *
  norm_num
  constructor
  · intro hs
    field_simp at hs
    have : (N - 1) * (n 0 * a - n 1 * b) = 0 := by linear_combination -hs
    rcases mul_eq_zero.1 this with h | h
    · exact absurd h hN1
    · linarith
  · intro hs
    rw [hs]

/-- One variable with the given variances in two environments. -/
noncomputable def varModel (a b : ℝ) : LModel 1 0 2 := ⟨fun _ _ => 0, 0, Matrix.of ![], !![a; b], Matrix.of fun _ => Fin.elim0, 1 - 0ᵀ⟩

theorem varModel_cov (a b : ℝ) : (varModel a b).covariances = .ok (fun k => !![![a, b] k]) := by
  rw [covariances_ok _ (by simp [varModel])]
  congr 1
  funext k
  rw [noise_eq]
  ext i j
  fin_cases i; fin_cases j
  fin_cases k <;> simp [noiseCov, varModel]

theorem varModel_score (a b : ℝ) (ha : 0 < a) (hb : 0 < b) (n₀ n₁ : Nat) (hn : n₀ + n₁ ≠ 0) :
    (varModel a b).score (List.ofFn (fun _ : Fin 2 => (1 : Matrix (Fin 1) (Fin 1) ℝ))) (List.ofFn ![n₀, n₁]) =
      .ok (some (n₀ * (Real.log a + 1 / a) / ((n₀ : ℝ) + n₁) ^ 2 + n₁ * (Real.log b + 1 / b) / ((n₀ : ℝ) + n₁))) := by
  have hmk : mkModel (SetIter.incr 1) (fun _ _ => 0) 0 (Matrix.of ![]) !![a; b] (Matrix.of fun _ => Fin.elim0) = .ok (varModel a b) :=
    mkModel_eq_ok (fun _ _ => le_refl _) _ _ _ (acyclic_of_rank (fun _ => 0) (by simp [Edge])) (fun _ _ _ => rfl)
  rw [C37_actual_score (SetIter.incr 1) _ (fun _ _ => le_refl _) 0 _ _ _ _ hmk
    (by intro k i; fin_cases k <;> fin_cases i <;> simpa) (fun _ i => i.elim0) ![n₀, n₁] (by simpa [Fin.sum_univ_two] using hn) _ _ (varModel_cov a b)]
  simp [Fin.sum_univ_two, gaussNLL, Matrix.trace, Ring.inverse_eq_inv']

theorem bestScoring_two {β : Type} (a b : ℝ) (x y : β) :
    (a ≤ b → bestScoring [(some a, x), (some b, y)] = .ok (some a, x)) ∧ (b < a → bestScoring [(some a, x), (some b, y)] = .ok (some b, y)) := by
  obtain ⟨i, s, t, h1, h2, h3, h4⟩ := C54_first_minimum [(some a, x), (some b, y)] (by simp) (by simp)
  have ha := h3 a x (by simp)
  have hb := h3 b y (by simp)
  rcases i with _ | _ | i
  · simp only [List.getElem?_cons_zero, Option.some.injEq, Prod.mk.injEq] at h2
    obtain ⟨rfl, rfl⟩ := h2
    exact ⟨fun _ => h1, fun h => absurd h (not_lt.2 hb)⟩
  · simp at h2
    obtain ⟨rfl, rfl⟩ := h2
    exact ⟨fun h => absurd (h4 0 (by norm_num) a x rfl) (not_lt.2 h), fun _ => h1⟩
  · simp at h2

/-- C94, violation: the order of the environments decides which of two models is selected.  With ten observations of variance 1 per
environment the documented score prefers the model with variances (1, 2) over the one with variances (4, 1); the code selects the second
one, and the first one after the environments are exchanged. -/
theorem C94_selection_violated :
    let d : Data 1 2 := ⟨fun _ => 1, ![10, 10]⟩
    (∃ scores s, testScores d id [(⟨0, varModel 1 2⟩ : AnyModel 1 2), ⟨0, varModel 4 1⟩] = .ok scores ∧
      bestScoring scores = .ok (s, ⟨0, varModel 4 1⟩)) ∧
    (∃ scores s, testScores d id [(⟨0, varModel 2 1⟩ : AnyModel 1 2), ⟨0, varModel 1 4⟩] = .ok scores ∧
      bestScoring scores = .ok (s, ⟨0, varModel 2 1⟩)) ∧
    ∃ C C', (varModel 1 2).covariances = .ok C ∧ (varModel 4 1).covariances = .ok C' ∧
      weightedNLL d.nObs C d.covs < weightedNLL d.nObs C' d.covs := by
  have h2 := Real.log_two_gt_d9
  have h2' := Real.log_two_lt_d9
  have h4 : Real.log 4 = 2 * Real.log 2 := by
    rw [show (4 : ℝ) = 2 ^ 2 by norm_num, Real.log_pow]
    norm_num
  have hs : ∀ a b : ℝ, 0 < a → 0 < b → AnyModel.scoreOn (⟨fun _ => 1, ![10, 10]⟩ : Data 1 2) ⟨0, varModel a b⟩ =
      .ok (some ((10 : ℕ) * (Real.log a + 1 / a) / (((10 : ℕ) : ℝ) + (10 : ℕ)) ^ 2 + (10 : ℕ) * (Real.log b + 1 / b) / (((10 : ℕ) : ℝ) + (10 : ℕ)))) :=
    fun a b ha hb => varModel_score a b ha hb 10 10 (by norm_num)
  have ht : ∀ a b a' b' : ℝ, 0 < a → 0 < b → 0 < a' → 0 < b' →
      testScores (⟨fun _ => 1, ![10, 10]⟩ : Data 1 2) id [(⟨0, varModel a b⟩ : AnyModel 1 2), ⟨0, varModel a' b'⟩] =
      .ok [(some ((10 : ℕ) * (Real.log a + 1 / a) / (((10 : ℕ) : ℝ) + (10 : ℕ)) ^ 2 + (10 : ℕ) * (Real.log b + 1 / b) / (((10 : ℕ) : ℝ) + (10 : ℕ))),
          ⟨0, varModel a b⟩),
        (some ((10 : ℕ) * (Real.log a' + 1 / a') / (((10 : ℕ) : ℝ) + (10 : ℕ)) ^ 2 + (10 : ℕ) * (Real.log b' + 1 / b') / (((10 : ℕ) : ℝ) + (10 : ℕ))),
          ⟨0, varModel a' b'⟩)] := by
    intro a b a' b' ha hb ha' hb'
    simp only [testScores, id, hs a b ha hb, hs a' b' ha' hb']
  refine ⟨⟨_, _, ht 1 2 4 1 (by norm_num) (by norm_num) (by norm_num) (by norm_num), (bestScoring_two _ _ _ _).2 ?_⟩,
    ⟨_, _, ht 2 1 1 4 (by norm_num) (by norm_num) (by norm_num) (by norm_num), (bestScoring_two _ _ _ _).1 ?_⟩,
    _, _, varModel_cov 1 2, varModel_cov 4 1, ?_⟩
  · rw [h4, Real.log_one]
    norm_num
    linarith
  · rw [h4, Real.log_one]
    norm_num
    linarith
  · simp [weightedNLL, Fin.sum_univ_two, gaussNLL, Matrix.trace, h4]
    linarith

end Verif
