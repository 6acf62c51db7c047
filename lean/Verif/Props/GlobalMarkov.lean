import Verif.Proof.GlobalMarkov
import Verif.Proof.Covered
import Verif.Props.LModel
import Verif.Props.Graph
import Verif.Props.DSep

/-!
# C116: what the graph of a model says about its covariances

d-separated variables have partial correlation zero (the global Markov property), with and without latents; variables that are not joined in
the moral graph have a zero in the inverse covariance; the regression of a variable on its parents has the weights of the model as coefficients,
in all environments.
-/

namespace Verif

open Spec Matrix

variable {p l e : Nat}

/-! ### Lemmas -/

theorem noiseCov_no_effects (psi : Fin l → ℝ) (omega : Fin p → ℝ) {gamma : Matrix (Fin l) (Fin p) ℝ} (h : ∀ k j, gamma k j = 0) :
    noiseCov gamma psi omega = Matrix.diagonal omega := by
  ext i j
  unfold noiseCov
  rw [Matrix.diagonal_apply]
  simp [h]

/-- A model without latent effects is a system of linear structural equations. -/
theorem linearSEM_of_entails {A : Adj p} {B : Matrix (Fin p) (Fin p) ℝ} (hac : Acyclic A) (hB : Respects A B) {gamma : Matrix (Fin l) (Fin p) ℝ}
    (hg : ∀ k j, gamma k j = 0) {psi : Fin l → ℝ} {omega : Fin p → ℝ} (ho : ∀ i, 0 < omega i) {C : Matrix (Fin p) (Fin p) ℝ}
    (h : Entails B (noiseCov gamma psi omega) C) : LinearSEM (Edge A) B C omega :=
  ⟨hac, fun i j h h0 => h (hB i j h0), by rw [← noiseCov_no_effects psi omega hg]; exact h, ho⟩

theorem latentEdge_acyclic {A : Adj p} (hac : Acyclic A) (gamma : Matrix (Fin l) (Fin p) ℝ) (u : Fin p ⊕ Fin l) :
    ¬ Relation.TransGen (LatentEdge A gamma) u u := by
  have key : ∀ u v, Relation.TransGen (LatentEdge A gamma) u v →
      ∃ j, v = Sum.inl j ∧ ∀ i, u = Sum.inl i → Relation.TransGen (Edge A) i j := by
    intro u v h
    induction h with
    | @single v h =>
      cases v with
      | inl j =>
        refine ⟨j, rfl, ?_⟩
        rintro i rfl
        exact Relation.TransGen.single h
      | inr j => exact absurd h (by simp [LatentEdge])
    | @tail v w _ h ih =>
      obtain ⟨j, rfl, ih⟩ := ih
      cases w with
      | inl k => exact ⟨k, rfl, fun i hi => (ih i hi).tail h⟩
      | inr k => exact absurd h (by simp [LatentEdge])
  intro h
  obtain ⟨j, rfl, h1⟩ := key u u h
  exact hac j (h1 j rfl)

/-- The variables and latents of a model together are a system of linear structural equations. -/
theorem linearSEM_latents {A : Adj p} {B : Matrix (Fin p) (Fin p) ℝ} (hac : Acyclic A) (hB : Respects A B) (gamma : Matrix (Fin l) (Fin p) ℝ)
    {psi : Fin l → ℝ} (hpsi : ∀ k, 0 < psi k) {omega : Fin p → ℝ} (ho : ∀ i, 0 < omega i) {C : Matrix (Fin p) (Fin p) ℝ}
    (h : Entails B (noiseCov gamma psi omega) C) :
    ∃ D, LinearSEM (LatentEdge A gamma) (Matrix.fromBlocks B 0 gamma 0) (Matrix.fromBlocks C D Dᵀ (Matrix.diagonal psi)) (Sum.elim omega psi) := by
  have hdet := det_one_sub_transpose hac hB
  have hu : IsUnit (1 - Bᵀ).det := by rw [hdet]; exact isUnit_one
  refine ⟨(1 - Bᵀ)⁻¹ * (gammaᵀ * Matrix.diagonal psi), latentEdge_acyclic hac gamma, ?_, ?_, ?_⟩
  · rintro (i | i) (j | j) hij
    · exact fun h0 => hij (hB i j h0)
    · exact hij rfl
    · exact hij
    · exact hij rfl
  · have h1 : (1 : Matrix (Fin p ⊕ Fin l) (Fin p ⊕ Fin l) ℝ) - (Matrix.fromBlocks B 0 gamma 0)ᵀ =
        Matrix.fromBlocks (1 - Bᵀ) (- gammaᵀ) 0 1 := by
      rw [← Matrix.fromBlocks_one, Matrix.fromBlocks_transpose, sub_eq_add_neg, Matrix.fromBlocks_neg, Matrix.fromBlocks_add]
      simp [sub_eq_add_neg]
    set D := (1 - Bᵀ)⁻¹ * (gammaᵀ * Matrix.diagonal psi) with hD
    have hTD : (1 - Bᵀ) * D = gammaᵀ * Matrix.diagonal psi := Matrix.mul_nonsing_inv_cancel_left _ _ hu
    have hDT : Dᵀ * (1 - Bᵀ)ᵀ = Matrix.diagonal psi * gamma := by
      rw [← Matrix.transpose_mul, hTD, Matrix.transpose_mul, Matrix.diagonal_transpose, Matrix.transpose_transpose]
    have hE : (1 - Bᵀ) * C * (1 - Bᵀ)ᵀ = gammaᵀ * Matrix.diagonal psi * gamma + Matrix.diagonal omega := by
      rw [← noiseCov_matrix]
      exact h
    rw [h1, Matrix.fromBlocks_transpose, Matrix.fromBlocks_multiply, Matrix.fromBlocks_multiply, hTD]
    simp only [Matrix.zero_mul, zero_add, Matrix.one_mul, Matrix.neg_mul, add_neg_cancel, Matrix.mul_zero, Matrix.transpose_one,
      Matrix.transpose_zero, Matrix.mul_one, add_zero, Matrix.transpose_neg, Matrix.transpose_transpose, Matrix.mul_neg, hDT]
    rw [Matrix.add_mul, hE, Matrix.neg_mul, Matrix.mul_assoc gammaᵀ Dᵀ, hDT, ← Matrix.mul_assoc]
    have e1 : gammaᵀ * Matrix.diagonal psi * gamma + Matrix.diagonal omega + -(gammaᵀ * Matrix.diagonal psi * gamma) = Matrix.diagonal omega := by
      abel
    rw [e1, neg_zero, add_zero, Matrix.fromBlocks_diagonal]
  · rintro (i | i)
    · exact ho i
    · exact hpsi i

/-- Partial correlations of the variables are the same in the covariance with the latents. -/
theorem uncorrelated_of_blocks {C : Matrix (Fin p) (Fin p) ℝ} {D : Matrix (Fin p) (Fin l) ℝ} {D' : Matrix (Fin l) (Fin p) ℝ}
    {P : Matrix (Fin l) (Fin l) ℝ} {Z : Finset (Fin p)} {a b : Fin p}
    (h : UncorrelatedGiven (Matrix.fromBlocks C D D' P) (Z.map ⟨Sum.inl, Sum.inl_injective⟩) (Sum.inl a) (Sum.inl b)) :
    UncorrelatedGiven C Z a b := by
  obtain ⟨β, ⟨h1, h2⟩, hu, h3⟩ := h
  have hr : ∀ k, β (Sum.inr k) = 0 := fun k => h1 _ (by simp)
  have hsum : ∀ (β : Fin p ⊕ Fin l → ℝ), (∀ k, β (Sum.inr k) = 0) → ∀ j, ∑ i, β i * Matrix.fromBlocks C D D' P i (Sum.inl j) = ∑ i, β (Sum.inl i) * C i j := by
    intro β hr j
    rw [Fintype.sum_sum_type]
    simp [hr]
  refine ⟨fun i => β (Sum.inl i), ⟨fun i hi => h1 _ (by simpa using hi), fun z hz => ?_⟩, fun β' hβ' => ?_, ?_⟩
  · have := h2 (Sum.inl z) (by simpa using hz)
    rw [hsum β hr] at this
    exact this
  · have := hu (Sum.elim β' 0) ⟨?_, ?_⟩
    · funext i
      rw [← this]
      rfl
    · rintro (i | i) hi
      · exact hβ'.1 i (by simpa using hi)
      · rfl
    · intro z hz
      rw [Finset.mem_map] at hz
      obtain ⟨z, hz, rfl⟩ := hz
      rw [Function.Embedding.coeFn_mk, hsum _ (fun k => rfl)]
      exact hβ'.2 z hz
  · rw [hsum β hr] at h3
    exact h3

/-- Variables uncorrelated given `Z`, with a latent of variance zero counted as one without effects. -/
theorem noiseCov_positive (gamma : Matrix (Fin l) (Fin p) ℝ) (psi : Fin l → ℝ) (omega : Fin p → ℝ) :
    noiseCov (fun k j => if psi k = 0 then 0 else gamma k j) (fun k => if psi k = 0 then 1 else psi k) omega = noiseCov gamma psi omega := by
  funext i j
  unfold noiseCov
  congr 1
  refine Finset.sum_congr rfl (fun k _ => ?_)
  by_cases h : psi k = 0 <;> simp [h]

/-! ### Theorems -/

/-- C116, the global Markov property: without latent effects, variables that are d-separated by `Z` in the graph are uncorrelated given `Z`,
in all environments. -/
theorem C116_global_markov (it : SetIter p) (A : Adj p) (hA : Nonneg A) (B : Matrix (Fin p) (Fin p) ℝ) (gamma : Matrix (Fin l) (Fin p) ℝ)
    (omegas : Matrix (Fin e) (Fin p) ℝ) (psis : Matrix (Fin e) (Fin l) ℝ) (m : LModel p l e)
    (h : mkModel it A B gamma omegas psis = .ok m) (hg : ∀ k j, gamma k j = 0) (ho : ∀ k i, 0 < omegas k i)
    (C : Fin e → Matrix (Fin p) (Fin p) ℝ) (hC : m.covariances = .ok C) (Z : Finset (Fin p)) (a b : Fin p) (ha : a ∉ Z) (hb : b ∉ Z)
    (hsep : DSeparated (Edge A) Z a b) (k : Fin e) : UncorrelatedGiven (C k) Z a b := by
  obtain ⟨hac, hB, _⟩ := mkModel_ok hA h
  obtain ⟨_, C', hC', hE⟩ := C35_covariances it A hA B gamma omegas psis m h
  rw [hC] at hC'
  cases hC'
  exact (linearSEM_of_entails hac hB hg (ho k) (hE k).1).global_markov ha hb hsep

/-- C116: with latents, the same holds for d-separation in the graph with the latents as further nodes. -/
theorem C116_global_markov_latents (it : SetIter p) (A : Adj p) (hA : Nonneg A) (B : Matrix (Fin p) (Fin p) ℝ)
    (gamma : Matrix (Fin l) (Fin p) ℝ) (omegas : Matrix (Fin e) (Fin p) ℝ) (psis : Matrix (Fin e) (Fin l) ℝ) (m : LModel p l e)
    (h : mkModel it A B gamma omegas psis = .ok m) (ho : ∀ k i, 0 < omegas k i) (hpsi : ∀ k i, 0 ≤ psis k i)
    (C : Fin e → Matrix (Fin p) (Fin p) ℝ) (hC : m.covariances = .ok C) (Z : Finset (Fin p)) (a b : Fin p) (ha : a ∉ Z) (hb : b ∉ Z)
    (hsep : DSeparated (LatentEdge A gamma) (Z.map ⟨Sum.inl, Sum.inl_injective⟩) (Sum.inl a) (Sum.inl b)) (k : Fin e) :
    UncorrelatedGiven (C k) Z a b := by
  obtain ⟨hac, hB, _⟩ := mkModel_ok hA h
  obtain ⟨_, C', hC', hE⟩ := C35_covariances it A hA B gamma omegas psis m h
  rw [hC] at hC'
  cases hC'
  have hEk := (hE k).1
  rw [← noiseCov_positive] at hEk
  obtain ⟨D, hD⟩ := linearSEM_latents hac hB _ (fun i => by
    split_ifs with h0
    · exact one_pos
    · exact lt_of_le_of_ne (hpsi k i) (Ne.symm h0)) (ho k) hEk
  have ha' : (Sum.inl a : Fin p ⊕ Fin l) ∉ Z.map ⟨Sum.inl, Sum.inl_injective⟩ := by simpa using ha
  have hb' : (Sum.inl b : Fin p ⊕ Fin l) ∉ Z.map ⟨Sum.inl, Sum.inl_injective⟩ := by simpa using hb
  refine uncorrelated_of_blocks (hD.global_markov ha' hb' ?_)
  intro hc
  refine hsep ?_
  obtain ⟨m', hm⟩ := (dconnected_iff (latentEdge_acyclic hac _) ha').1 hc
  refine (dconnected_iff (latentEdge_acyclic hac _) ha').2 ⟨m', hm.congr ?_⟩
  rintro (i | i) (j | j) hij
  · exact hij
  · exact hij
  · intro h0
    exact hij (by simp [h0])
  · exact hij

/-- C116: without latent effects, variables that are not joined in `moral_graph(A)` have a zero entry in the inverse covariances. -/
theorem C116_precision (it : SetIter p) (A : Adj p) (hA : Nonneg A) (B : Matrix (Fin p) (Fin p) ℝ) (gamma : Matrix (Fin l) (Fin p) ℝ)
    (omegas : Matrix (Fin e) (Fin p) ℝ) (psis : Matrix (Fin e) (Fin l) ℝ) (m : LModel p l e)
    (h : mkModel it A B gamma omegas psis = .ok m) (hg : ∀ k j, gamma k j = 0) (ho : ∀ k i, 0 < omegas k i)
    (C : Fin e → Matrix (Fin p) (Fin p) ℝ) (hC : m.covariances = .ok C) (i j : Fin p) (hij : i ≠ j) (hm : moralGraph it A i j = 0) (k : Fin e) :
    (C k)⁻¹ i j = 0 := by
  obtain ⟨hac, hB, _⟩ := mkModel_ok hA h
  obtain ⟨hdet, C', hC', hE⟩ := C35_covariances it A hA B gamma omegas psis m h
  rw [hC] at hC'
  cases hC'
  have hEk : (1 - Bᵀ) * C k * (1 - Bᵀ)ᵀ = Matrix.diagonal (omegas k) := (noiseCov_no_effects (psis k) (omegas k) hg) ▸ (hE k).1
  have hu : IsUnit (1 - Bᵀ).det := by rw [hdet]; exact isUnit_one
  have hinv : (C k)⁻¹ = (1 - Bᵀ)ᵀ * Matrix.diagonal (fun i => (omegas k i)⁻¹) * (1 - Bᵀ) := by
    refine Matrix.inv_eq_left_inv ?_
    have h1 : Matrix.diagonal (fun i => (omegas k i)⁻¹) * ((1 - Bᵀ) * C k * (1 - Bᵀ)ᵀ) = 1 := by
      rw [hEk, Matrix.diagonal_mul_diagonal]
      rw [← Matrix.diagonal_one]
      congr 1
      funext i
      exact inv_mul_cancel₀ (ne_of_gt (ho k i))
    rw [← Matrix.mul_assoc, ← Matrix.mul_assoc] at h1
    have h2 := _root_.mul_eq_one_comm.1 h1
    rw [Matrix.mul_assoc, Matrix.mul_assoc, ← Matrix.mul_assoc (Matrix.diagonal _), ← Matrix.mul_assoc]
    rw [← Matrix.mul_assoc, ← Matrix.mul_assoc] at h2
    rw [← Matrix.mul_assoc]
    exact h2
  rw [hinv, Matrix.mul_apply]
  have hm' : ¬ (Adjacent A i j ∨ ∃ c, Edge A i c ∧ Edge A j c) := by
    intro hc
    rw [((C11_moral_graph it A hA hac i j hij).1).2 hc] at hm
    exact one_ne_zero hm
  refine Finset.sum_eq_zero (fun c _ => ?_)
  rw [Matrix.mul_diagonal, Matrix.transpose_apply, Matrix.sub_apply, Matrix.sub_apply, Matrix.transpose_apply, Matrix.transpose_apply,
    Matrix.one_apply, Matrix.one_apply]
  push Not at hm'
  obtain ⟨hadj, hch⟩ := hm'
  unfold Adjacent at hadj
  push Not at hadj
  by_cases hci : c = i
  · subst hci
    simp [hij, hB j c hadj.2]
  · by_cases hcj : c = j
    · subst hcj
      simp [hci, hB i c hadj.1]
    · rw [if_neg hci, if_neg hcj]
      by_cases h1 : A i c = 0
      · simp [hB i c h1]
      · have h2 : A j c = 0 := by
          by_contra h2
          exact hch c h1 h2
        simp [hB j c h2]

/-- C116, invariance: without latent effects, the regression of `i` on variables that include its parents and none of its descendants has the
weights of the model as coefficients and residual variance `omegas k i`, in every environment `k`. -/
theorem C116_regression (it : SetIter p) (A : Adj p) (hA : Nonneg A) (B : Matrix (Fin p) (Fin p) ℝ) (gamma : Matrix (Fin l) (Fin p) ℝ)
    (omegas : Matrix (Fin e) (Fin p) ℝ) (psis : Matrix (Fin e) (Fin l) ℝ) (m : LModel p l e)
    (h : mkModel it A B gamma omegas psis = .ok m) (hg : ∀ k j, gamma k j = 0) (ho : ∀ k i, 0 < omegas k i)
    (C : Fin e → Matrix (Fin p) (Fin p) ℝ) (hC : m.covariances = .ok C) (Z : Finset (Fin p)) (i : Fin p) (hpa : ∀ j, Edge A j i → j ∈ Z)
    (hi : i ∉ Z) (hde : ∀ z ∈ Z, ¬ Relation.TransGen (Edge A) i z) (k : Fin e) :
    (∀ β, Regression (C k) Z i β ↔ β = fun j => B j i) ∧ C k i i - ∑ j, B j i * C k j i = omegas k i := by
  classical
  obtain ⟨hac, hB, _⟩ := mkModel_ok hA h
  obtain ⟨_, C', hC', hE⟩ := C35_covariances it A hA B gamma omegas psis m h
  rw [hC] at hC'
  cases hC'
  have hS := linearSEM_of_entails hac hB hg (ho k) (hE k).1
  have hU : ∀ a b, Edge A a b → b ∈ Finset.univ.filter (fun b => ¬ Relation.TransGen (Edge A) i b) →
      a ∈ Finset.univ.filter (fun b => ¬ Relation.TransGen (Edge A) i b) := by
    intro a b hab hb
    rw [Finset.mem_filter] at hb ⊢
    exact ⟨Finset.mem_univ _, fun hc => hb.2 (hc.tail hab)⟩
  have hs : ∀ j ∈ Finset.univ.filter (fun b => ¬ Relation.TransGen (Edge A) i b), ¬ Edge A i j := by
    intro j hj he
    rw [Finset.mem_filter] at hj
    exact hj.2 (Relation.TransGen.single he)
  have hreg : Regression (C k) Z i (fun j => B j i) := by
    refine ⟨fun j hj => hB j i ?_, fun z hz => ?_⟩
    · by_contra hc
      exact hj (hpa j hc)
    · refine hS.noise_last hU hs z ?_ ?_
      · rw [Finset.mem_filter]
        exact ⟨Finset.mem_univ _, hde z hz⟩
      · rintro rfl
        exact hi hz
  refine ⟨fun β => ⟨fun hβ => regression_unique hS.posDef hreg hβ, fun hβ => hβ ▸ hreg⟩, ?_⟩
  have h1 := hS.noise_cov i i
  have h0 : ∑ a, (C k i a - ∑ j, B j i * C k j a) * B a i = 0 := by
    refine Finset.sum_eq_zero (fun a _ => ?_)
    by_cases hBa : B a i = 0
    · rw [hBa, mul_zero]
    · have hea : Edge A a i := fun h0 => hBa (hB a i h0)
      rw [← hreg.2 a (hpa a hea), sub_self, zero_mul]
  rw [h0, if_pos rfl, sub_zero] at h1
  exact h1

/-! ### Examples -/

theorem exChain_respects : Respects exChain !![0, 2, 0; 0, 0, 3; 0, 0, 0] := by
  intro i j h
  fin_cases i <;> fin_cases j <;> simp_all [exChain]

/-- The covariance of the chain with weights 2 and 3 and unit variances. -/
theorem exChain_cov : ∃ m C, mkModel (SetIter.incr 3) exChain !![0, 2, 0; 0, 0, 3; 0, 0, 0] (0 : Matrix (Fin 1) (Fin 3) ℝ)
    (fun (_ : Fin 1) _ => 1) (fun _ _ => 1) = .ok m ∧ m.covariances = .ok C ∧ C 0 = !![1, 2, 6; 2, 5, 15; 6, 15, 46] := by
  have hA : Nonneg exChain := by unfold Nonneg; decide +kernel
  have hm := mkModel_eq_ok (it := SetIter.incr 3) hA (0 : Matrix (Fin 1) (Fin 3) ℝ) (fun (_ : Fin 1) _ => 1) (fun _ _ => 1) exChain_acyclic
    exChain_respects
  obtain ⟨_, C, hC, hE⟩ := C35_covariances _ _ hA _ _ _ _ _ hm
  refine ⟨_, C, hm, hC, ((hE 0).2 _ ?_).symm⟩
  unfold Entails
  ext i j
  fin_cases i <;> fin_cases j <;> simp [Matrix.mul_apply, Fin.sum_univ_three, noiseCov, Matrix.one_apply] <;> norm_num

-- 0 and 2 are correlated (covariance 6), but not given 1
example : UncorrelatedGiven (!![1, 2, 6; 2, 5, 15; 6, 15, 46] : Matrix (Fin 3) (Fin 3) ℝ) {1} 0 2 := by
  obtain ⟨m, C, hm, hC, h0⟩ := exChain_cov
  rw [← h0]
  exact C116_global_markov _ _ (by unfold Nonneg; decide +kernel) _ _ _ _ m hm (fun _ _ => rfl) (fun _ _ => one_pos) C hC {1} 0 2 (by decide)
    (by decide) exChain_separated 0

-- 0 and 1 are correlated given 2, and joined in the moral graph
example : ¬ UncorrelatedGiven (!![1, 2, 6; 2, 5, 15; 6, 15, 46] : Matrix (Fin 3) (Fin 3) ℝ) {2} 0 1 := by
  rintro ⟨β, ⟨h1, h2⟩, _, h3⟩
  have e0 := h1 0 (by decide)
  have e1 := h1 1 (by decide)
  have e2 := h2 2 (by decide)
  simp [Fin.sum_univ_succ, e0, e1] at e2 h3
  linarith

-- 0 → 1 with a latent that has an effect on 0 and on 2: 1 and 2 are separated by 0
example : DSeparated (LatentEdge (![![0, 1, 0], ![0, 0, 0], ![0, 0, 0]] : Adj 3) (!![1, 0, 1] : Matrix (Fin 1) (Fin 3) ℝ))
    (({0} : Finset (Fin 3)).map ⟨Sum.inl, Sum.inl_injective⟩) (Sum.inl 1) (Sum.inl 2) := by
  have hac : Acyclic (![![0, 1, 0], ![0, 0, 0], ![0, 0, 0]] : Adj 3) :=
    (isDag_iff (SetIter.incr 3) (by unfold Nonneg; decide +kernel)).1 (by decide +kernel)
  unfold DSeparated
  rw [dconnected_iff (latentEdge_acyclic hac _) (by simp)]
  have key : ∀ v m, Reach (LatentEdge (![![0, 1, 0], ![0, 0, 0], ![0, 0, 0]] : Adj 3) (!![1, 0, 1] : Matrix (Fin 1) (Fin 3) ℝ))
      (({0} : Finset (Fin 3)).map ⟨Sum.inl, Sum.inl_injective⟩) (Sum.inl 1) v m → (v = Sum.inl 1 ∨ v = Sum.inl 0) ∧ m = false := by
    intro v m h
    induction h with
    | start => simp
    | @out v w m _ hv he ih =>
      obtain ⟨rfl | rfl, _⟩ := ih
      · rcases w with w | w
        · fin_cases w <;> simp [LatentEdge, Edge] at he
        · simp [LatentEdge] at he
      · simp at hv
    | @back v w _ hv he ih =>
      obtain ⟨rfl | rfl, _⟩ := ih
      · rcases w with w | w
        · fin_cases w <;> simp [LatentEdge, Edge] at he ⊢
        · simp [LatentEdge] at he
      · simp at hv
    | coll _ _ _ ih => simp at ih
  rintro ⟨m, hm⟩
  simpa using (key _ _ hm).1

end Verif
