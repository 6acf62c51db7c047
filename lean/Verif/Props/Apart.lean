import Verif.Props.Changes

/-!
# C112: with `psi_fixed`, variances that change differently identify the effects of the targets
-/

namespace Verif

open Spec Matrix

variable {p l l' e : Nat}

/-- The noise variance of `i` is not the same in all environments. -/
def Spec.Varies (omegas : Matrix (Fin e) (Fin p) ℝ) (i : Fin p) : Prop := ∃ k k', omegas k i ≠ omegas k' i

/-- The changes of the noise variances of `i` and `j` are multiples of each other: seen over all environments they differ by a factor. -/
def Spec.Proportional (omegas : Matrix (Fin e) (Fin p) ℝ) (i j : Fin p) : Prop :=
  ∃ x y : ℝ, (x ≠ 0 ∨ y ≠ 0) ∧ ∀ k k', x * (omegas k i - omegas k' i) = y * (omegas k j - omegas k' j)

/-- No two variables whose noise variances change do so proportionally. -/
def Spec.ChangeApart (omegas : Matrix (Fin e) (Fin p) ℝ) : Prop :=
  ∀ i j, Varies omegas i → Varies omegas j → Proportional omegas i j → i = j

/-- One column of the matrix that relates two diagonalisations of the same changes. -/
theorem apart_column {ι : Type} {d d' : ι → Fin p → ℝ} {N P : Matrix (Fin p) (Fin p) ℝ} (hPN : P * N = 1)
    (h : ∀ k i a, d k i * P a i = N i a * d' k a)
    (hind : ∀ i j, i ≠ j → (∃ k, d k i ≠ 0) → (∃ k, d k j ≠ 0) → ∃ k h, d k i * d h j ≠ d h i * d k j)
    (a : Fin p) (ha : ∃ k, d' k a ≠ 0) : ∃ i, (∃ k, d k i ≠ 0) ∧ N i a ≠ 0 ∧ ∀ j, N j a ≠ 0 → j = i := by
  obtain ⟨k, hk⟩ := ha
  have hne : ∃ i, N i a ≠ 0 := by
    by_contra hc
    push Not at hc
    have h1 := congrFun (congrFun hPN a) a
    rw [Matrix.mul_apply, Finset.sum_eq_zero (fun i _ => by rw [hc i, mul_zero]), Matrix.one_apply_eq] at h1
    exact zero_ne_one h1
  have hd : ∀ i, N i a ≠ 0 → d k i ≠ 0 ∧ P a i ≠ 0 := by
    intro i hi
    have h1 : d k i * P a i ≠ 0 := by rw [h k i a]; exact mul_ne_zero hi hk
    exact ⟨left_ne_zero_of_mul h1, right_ne_zero_of_mul h1⟩
  obtain ⟨i, hi⟩ := hne
  refine ⟨i, ⟨k, (hd i hi).1⟩, hi, fun j hj => ?_⟩
  by_contra hij
  obtain ⟨x, y, hxy⟩ := hind j i hij ⟨k, (hd j hj).1⟩ ⟨k, (hd i hi).1⟩
  refine hxy (mul_right_cancel₀ (mul_ne_zero (hd j hj).2 (hd i hi).2) ?_)
  have e1 := h x j a
  have e2 := h y i a
  have e3 := h y j a
  have e4 := h x i a
  calc d x j * d y i * (P a j * P a i) = (d x j * P a j) * (d y i * P a i) := by ring
    _ = (d y j * P a j) * (d x i * P a i) := by rw [e1, e2, e3, e4]; ring
    _ = d y j * d x i * (P a j * P a i) := by ring

theorem apart_indep {omegas : Matrix (Fin e) (Fin p) ℝ} (h : ChangeApart omegas) (i j : Fin p) (hij : i ≠ j)
    (hi : ∃ k : Fin e × Fin e, omegas k.1 i - omegas k.2 i ≠ 0) (hj : ∃ k : Fin e × Fin e, omegas k.1 j - omegas k.2 j ≠ 0) :
    ∃ k h : Fin e × Fin e, (omegas k.1 i - omegas k.2 i) * (omegas h.1 j - omegas h.2 j) ≠
      (omegas h.1 i - omegas h.2 i) * (omegas k.1 j - omegas k.2 j) := by
  by_contra hc
  push Not at hc
  obtain ⟨k, hk⟩ := hi
  obtain ⟨k', hk'⟩ := hj
  refine hij (h i j ⟨k.1, k.2, sub_ne_zero.1 hk⟩ ⟨k'.1, k'.2, sub_ne_zero.1 hk'⟩
    ⟨omegas k'.1 j - omegas k'.2 j, omegas k'.1 i - omegas k'.2 i, Or.inl hk', fun x y => ?_⟩)
  have := hc (x, y) k'
  simp only at this
  rw [mul_comm, this]

open Classical in
/-- C112: let two models over any graphs, with any numbers of latents whose variances do not change, entail the same covariances.  If no two
variables of the first change their noise variance proportionally, then the variables that change in the second correspond to those that
change in the first, and up to a factor corresponding variables have the same total effects and the same changes of variance. -/
theorem C112_correspond (it : SetIter p) (A A' : Adj p) (hA : Nonneg A) (hA' : Nonneg A') (B B' : Matrix (Fin p) (Fin p) ℝ)
    (gamma : Matrix (Fin l) (Fin p) ℝ) (gamma' : Matrix (Fin l') (Fin p) ℝ) (omegas omegas' : Matrix (Fin e) (Fin p) ℝ)
    (psis : Matrix (Fin e) (Fin l) ℝ) (psis' : Matrix (Fin e) (Fin l') ℝ) (m : LModel p l e) (m' : LModel p l' e)
    (h : mkModel it A B gamma omegas psis = .ok m) (h' : mkModel it A' B' gamma' omegas' psis' = .ok m')
    (C : Fin e → Matrix (Fin p) (Fin p) ℝ) (hC : m.covariances = .ok C) (hC' : m'.covariances = .ok C)
    (hpsi : ∀ k k', psis k = psis k') (hpsi' : ∀ k k', psis' k = psis' k') (hap : ChangeApart omegas) :
    ∃ σ : {a // Varies omegas' a} ≃ {i // Varies omegas i}, ∀ a t t', TotalEffects B (σ a) t → TotalEffects B' a t' →
      ∃ c : ℝ, c ≠ 0 ∧ t' = c • t ∧ ∀ k k', omegas k (σ a) - omegas k' (σ a) = c ^ 2 * (omegas' k a - omegas' k' a) := by
  obtain ⟨hdet, C1, hC1, hent⟩ := C35_covariances it A hA B gamma omegas psis m h
  rw [hC] at hC1
  cases hC1
  obtain ⟨hdet', C1, hC1, hent'⟩ := C35_covariances it A' hA' B' gamma' omegas' psis' m' h'
  rw [hC'] at hC1
  cases hC1
  set W := 1 - Bᵀ with hW
  set W' := 1 - B'ᵀ with hW'
  have hu : IsUnit W.det := by rw [hdet]; exact isUnit_one
  have hu' : IsUnit W'.det := by rw [hdet']; exact isUnit_one
  have hut : IsUnit Wᵀ.det := by rw [Matrix.det_transpose]; exact hu
  have hD : ∀ k k', W * (C k - C k') * Wᵀ = Matrix.diagonal (omegas k - omegas k') := by
    intro k k'
    have h1 := change_entails (hent k).1 (hent k').1
    rw [noiseCov_sub, hpsi k k', sub_self, Matrix.diagonal_zero', Matrix.zero_mul, Matrix.mul_zero, zero_add] at h1
    exact h1
  have hD' : ∀ k k', W' * (C k - C k') * W'ᵀ = Matrix.diagonal (omegas' k - omegas' k') := by
    intro k k'
    have h1 := change_entails (hent' k).1 (hent' k').1
    rw [noiseCov_sub, hpsi' k k', sub_self, Matrix.diagonal_zero', Matrix.zero_mul, Matrix.mul_zero, zero_add] at h1
    exact h1
  set N := W * W'⁻¹ with hN
  set P := W' * W⁻¹ with hP
  have hPN : P * N = 1 := by
    rw [hP, hN, Matrix.mul_assoc, ← Matrix.mul_assoc W⁻¹, Matrix.nonsing_inv_mul _ hu, Matrix.one_mul, Matrix.mul_nonsing_inv _ hu']
  have hNP : N * P = 1 := mul_eq_one_comm.1 hPN
  have hrel : ∀ k k' i a, (omegas k i - omegas k' i) * P a i = N i a * (omegas' k a - omegas' k' a) := by
    intro k k' i a
    have h1 : Matrix.diagonal (omegas k - omegas k') * Pᵀ = N * Matrix.diagonal (omegas' k - omegas' k') := by
      rw [← hD, ← hD', hP, hN, Matrix.transpose_mul, Matrix.transpose_nonsing_inv, Matrix.mul_assoc (W * (C k - C k')),
        ← Matrix.mul_assoc Wᵀ, Matrix.mul_nonsing_inv _ hut, Matrix.one_mul, Matrix.mul_assoc W, Matrix.mul_assoc W,
        ← Matrix.mul_assoc W'⁻¹, ← Matrix.mul_assoc W'⁻¹, Matrix.nonsing_inv_mul _ hu', Matrix.one_mul]
    have h2 := congrFun (congrFun h1 i) a
    rw [Matrix.diagonal_mul, Matrix.mul_diagonal, Matrix.transpose_apply] at h2
    exact h2
  have hcol := apart_column (d := fun (k : Fin e × Fin e) i => omegas k.1 i - omegas k.2 i) (d' := fun k i => omegas' k.1 i - omegas' k.2 i)
    hPN (fun k i a => hrel k.1 k.2 i a) (apart_indep hap)
  have hcol' : ∀ a : {a // Varies omegas' a}, ∃ i, Varies omegas i ∧ N i a ≠ 0 ∧ ∀ j, N j a ≠ 0 → j = i := by
    rintro ⟨a, k, k', ha⟩
    obtain ⟨i, ⟨q, hq⟩, h2⟩ := hcol a ⟨(k, k'), sub_ne_zero.2 ha⟩
    exact ⟨i, ⟨q.1, q.2, sub_ne_zero.1 hq⟩, h2⟩
  choose f hf1 hf2 hf3 using hcol'
  have hPf : ∀ a b : {a // Varies omegas' a}, P a (f b) * N (f b) b = if (a : Fin p) = b then 1 else 0 := by
    intro a b
    have h1 := congrFun (congrFun hPN a) b
    rw [Matrix.mul_apply, Finset.sum_eq_single (f b), Matrix.one_apply] at h1
    · exact h1
    · intro j _ hj
      by_cases hz : N j b = 0
      · rw [hz, mul_zero]
      · exact absurd (hf3 b j hz) hj
    · simp
  have hinj : Function.Injective (fun a => (⟨f a, hf1 a⟩ : {i // Varies omegas i})) := by
    intro a b hab
    have hab : f a = f b := congrArg Subtype.val hab
    by_contra hne
    have hne : (a : Fin p) ≠ b := fun hc => hne (Subtype.ext hc)
    have h1 := hPf a b
    have h2 := hPf a a
    rw [if_neg hne] at h1
    rw [if_pos rfl] at h2
    rcases mul_eq_zero.1 h1 with h1 | h1
    · rw [hab, h1, zero_mul] at h2
      exact zero_ne_one h2
    · exact hf2 b h1
  have hsurj : Function.Surjective (fun a => (⟨f a, hf1 a⟩ : {i // Varies omegas i})) := by
    rintro ⟨i, k, k', hi⟩
    have hne : ∃ a, P a i ≠ 0 := by
      by_contra hc
      push Not at hc
      have h1 := congrFun (congrFun hNP i) i
      rw [Matrix.mul_apply, Finset.sum_eq_zero (fun a _ => by rw [hc a, mul_zero]), Matrix.one_apply_eq] at h1
      exact zero_ne_one h1
    obtain ⟨a, ha⟩ := hne
    have h1 : N i a * (omegas' k a - omegas' k' a) ≠ 0 := by
      rw [← hrel]
      exact mul_ne_zero (sub_ne_zero.2 hi) ha
    have ha' : Varies omegas' a := ⟨k, k', sub_ne_zero.1 (right_ne_zero_of_mul h1)⟩
    have h2 : N i a ≠ 0 := left_ne_zero_of_mul h1
    exact ⟨⟨a, ha'⟩, Subtype.ext (hf3 ⟨a, ha'⟩ i h2).symm⟩
  obtain ⟨σ, hσ⟩ : ∃ σ : {a // Varies omegas' a} ≃ {i // Varies omegas i}, ∀ a, (σ a : Fin p) = f a :=
    ⟨Equiv.ofBijective _ ⟨hinj, hsurj⟩, fun a => rfl⟩
  refine ⟨σ, fun a t t' ht ht' => ⟨N (f a) a, hf2 a, ?_, fun k k' => ?_⟩⟩
  · rw [totalEffects_iff, ← hW, hσ] at ht
    rw [totalEffects_iff, ← hW'] at ht'
    have h1 : W *ᵥ t' = N (f a) a • W *ᵥ t := by
      have h2 : t' = W'⁻¹ *ᵥ Pi.single (a : Fin p) 1 := by
        rw [← ht', Matrix.mulVec_mulVec, Matrix.nonsing_inv_mul _ hu', Matrix.one_mulVec]
      rw [h2, Matrix.mulVec_mulVec, ← hN, ht]
      funext j
      rw [Matrix.mulVec_single_one, Matrix.col_apply, Pi.smul_apply, Pi.single_apply, smul_eq_mul]
      split_ifs with hj
      · rw [hj, mul_one]
      · by_contra hz
        rw [mul_zero] at hz
        exact hj (hf3 a j hz)
    have h2 := congrArg (fun v => W⁻¹ *ᵥ v) h1
    simp only [Matrix.mulVec_smul, Matrix.mulVec_mulVec, Matrix.nonsing_inv_mul _ hu, Matrix.one_mulVec] at h2
    exact h2
  · rw [hσ]
    have h1 := hrel k k' (f a) a
    have h2 := hPf a a
    rw [if_pos rfl] at h2
    calc omegas k (f a) - omegas k' (f a) = (omegas k (f a) - omegas k' (f a)) * (P a (f a) * N (f a) a) := by rw [h2, mul_one]
      _ = ((omegas k (f a) - omegas k' (f a)) * P a (f a)) * N (f a) a := by ring
      _ = _ := by rw [h1]; ring

/-- An effect of `i` on `a` needs a path, so that `i` does not come after `a`. -/
theorem effect_rank {A : Adj p} {B : Matrix (Fin p) (Fin p) ℝ} (hac : Acyclic A) (hB : Respects A B) {r : Fin p → Nat}
    (hr : ∀ i j, Edge A i j → r i < r j) {i a : Fin p} {t : Fin p → ℝ} (ht : TotalEffects B i t) (hne : t a ≠ 0) :
    r i ≤ r a ∧ (r i = r a → i = a) := by
  obtain ⟨t0, -, huniq, -, hz⟩ := C102_effects_unique hac hB i
  obtain rfl := huniq t ht
  have hreach : Relation.ReflTransGen (Edge A) i a := by
    by_contra hc
    exact hne (hz a hc)
  have hle : ∀ a, Relation.ReflTransGen (Edge A) i a → r i ≤ r a := by
    intro a h
    induction h with
    | refl => exact le_rfl
    | tail _ h2 ih => exact ih.trans (hr _ _ h2).le
  refine ⟨hle a hreach, fun heq => ?_⟩
  rcases hreach.cases_tail with h | ⟨b, h1, h2⟩
  · exact h.symm
  · have := hle b h1
    have := hr b a h2
    omega

/-- C112: if moreover only variables that change in the first model change in the second, as with common targets, then the same variables
change, by the same amounts, and the two models agree on all their total effects: neither the graph nor the latents matter. -/
theorem C112_same_targets (it : SetIter p) (A A' : Adj p) (hA : Nonneg A) (hA' : Nonneg A') (B B' : Matrix (Fin p) (Fin p) ℝ)
    (gamma : Matrix (Fin l) (Fin p) ℝ) (gamma' : Matrix (Fin l') (Fin p) ℝ) (omegas omegas' : Matrix (Fin e) (Fin p) ℝ)
    (psis : Matrix (Fin e) (Fin l) ℝ) (psis' : Matrix (Fin e) (Fin l') ℝ) (m : LModel p l e) (m' : LModel p l' e)
    (h : mkModel it A B gamma omegas psis = .ok m) (h' : mkModel it A' B' gamma' omegas' psis' = .ok m')
    (C : Fin e → Matrix (Fin p) (Fin p) ℝ) (hC : m.covariances = .ok C) (hC' : m'.covariances = .ok C)
    (hpsi : ∀ k k', psis k = psis k') (hpsi' : ∀ k k', psis' k = psis' k') (hap : ChangeApart omegas)
    (hsub : ∀ i, Varies omegas' i → Varies omegas i) :
    (∀ i, Varies omegas' i ↔ Varies omegas i) ∧ (∀ k k' i, omegas' k i - omegas' k' i = omegas k i - omegas k' i) ∧
      ∀ i t t', Varies omegas i → TotalEffects B i t → TotalEffects B' i t' → t' = t := by
  classical
  obtain ⟨σ, hσ⟩ := C112_correspond it A A' hA hA' B B' gamma gamma' omegas omegas' psis psis' m m' h h' C hC hC' hpsi hpsi' hap
  obtain ⟨hac, hB, -⟩ := mkModel_ok hA h
  obtain ⟨hac', hB', -⟩ := mkModel_ok hA' h'
  have hiff : ∀ i, Varies omegas' i ↔ Varies omegas i := by
    have hcard : Fintype.card {i // Varies omegas i} = Fintype.card {a // Varies omegas' a} := (Fintype.card_congr σ).symm
    rw [Fintype.card_subtype, Fintype.card_subtype] at hcard
    have := Finset.eq_of_subset_of_card_le (s := Finset.univ.filter fun i => Varies omegas' i)
      (t := Finset.univ.filter fun i => Varies omegas i) (fun i hi => by
        rw [Finset.mem_filter] at hi ⊢
        exact ⟨hi.1, hsub i hi.2⟩) hcard.le
    intro i
    have h1 := Finset.ext_iff.1 this i
    simpa using h1
  choose T hT huniq hone _hz using fun j => C102_effects_unique hac hB j
  choose T' hT' huniq' hone' _hz' using fun j => C102_effects_unique hac' hB' j
  obtain ⟨r, hr⟩ := hac.exists_rank
  have hle : ∀ a : {a // Varies omegas' a}, r (σ a) ≤ r a ∧ (r (σ a) = r a → (σ a : Fin p) = a) := by
    intro a
    obtain ⟨c, -, hc, -⟩ := hσ a _ _ (hT _) (hT' _)
    refine effect_rank hac hB hr (hT (σ a)) fun hz => ?_
    have := congrFun hc a
    rw [hone', Pi.smul_apply, hz, smul_zero] at this
    exact one_ne_zero this
  have hsum : ∑ a : {a // Varies omegas' a}, r (σ a) = ∑ a : {a // Varies omegas' a}, r a := by
    rw [Equiv.sum_comp σ (fun i => r (i : Fin p))]
    refine Finset.sum_nbij' (fun i => ⟨i, (hiff i).2 i.2⟩) (fun a => ⟨a, (hiff a).1 a.2⟩) ?_ ?_ ?_ ?_ ?_ <;> simp
  have hfix : ∀ a : {a // Varies omegas' a}, (σ a : Fin p) = a := by
    intro a
    exact (hle a).2 ((Finset.sum_eq_sum_iff_of_le (fun a _ => (hle a).1)).1 hsum a (Finset.mem_univ a))
  have hone_c : ∀ a : {a // Varies omegas' a}, ∀ c : ℝ, T' a = c • T (σ a) → c = 1 := by
    intro a c hc
    have := congrFun hc a
    rw [hone', Pi.smul_apply, hfix, hone, smul_eq_mul, mul_one] at this
    exact this.symm
  refine ⟨hiff, fun k k' i => ?_, fun i t t' hi ht ht' => ?_⟩
  · by_cases hi : Varies omegas' i
    · obtain ⟨c, -, hc, hw⟩ := hσ ⟨i, hi⟩ _ _ (hT _) (hT' _)
      have h1 := hw k k'
      rw [hfix, hone_c _ c hc, one_pow, one_mul] at h1
      exact h1.symm
    · have h1 : omegas' k i = omegas' k' i := by
        by_contra hne
        exact hi ⟨k, k', hne⟩
      have h2 : omegas k i = omegas k' i := by
        by_contra hne
        exact hi ((hiff i).2 ⟨k, k', hne⟩)
      rw [h1, h2, sub_self, sub_self]
  · obtain ⟨c, -, hc, -⟩ := hσ ⟨i, (hiff i).2 hi⟩ _ _ (hT _) (hT' _)
    obtain rfl := huniq i t ht
    obtain rfl := huniq' i t' ht'
    have h1 := hone_c _ c hc
    rw [h1, one_smul, hfix] at hc
    exact hc

/-- The total effects of all variables determine the weights. -/
theorem effects_weights {A A' : Adj p} {B B' : Matrix (Fin p) (Fin p) ℝ} (hac : Acyclic A) (hB : Respects A B) (hac' : Acyclic A')
    (hB' : Respects A' B') (h : ∀ i t t', TotalEffects B i t → TotalEffects B' i t' → t' = t) : B' = B := by
  choose T hT huniq hone _hz using fun j => C102_effects_unique hac hB j
  choose T' hT' huniq' hone' _hz' using fun j => C102_effects_unique hac' hB' j
  have hTT : T' = T := funext fun i => h i _ _ (hT i) (hT' i)
  have key : ∀ {B : Matrix (Fin p) (Fin p) ℝ}, (∀ i, TotalEffects B i (T i)) → (1 - Bᵀ) * (Matrix.of T)ᵀ = 1 := by
    intro B hT
    ext x y
    have := congrFun (totalEffects_iff.1 (hT y)) x
    rw [Matrix.mul_apply, Matrix.one_apply]
    simpa [Matrix.mulVec, dotProduct, Pi.single_apply] using this
  have h1 := key hT
  have h2 := key (B := B') (fun i => hTT ▸ hT' i)
  have h3 : 1 - B'ᵀ = 1 - Bᵀ := by
    rw [← Matrix.inv_eq_left_inv h1, ← Matrix.inv_eq_left_inv h2]
  exact Matrix.transpose_injective (sub_right_injective h3)

/-- C112: hence, if the noise variances of all variables change, and no two of them proportionally, the covariances determine the weights and
with them the edges: any two models with any numbers of latents whose variances do not change that entail them have the same weights, the
same changes of the noise variances and the same covariance of noise and latents together. -/
theorem C112_all_targets (it : SetIter p) (A A' : Adj p) (hA : Nonneg A) (hA' : Nonneg A') (B B' : Matrix (Fin p) (Fin p) ℝ)
    (gamma : Matrix (Fin l) (Fin p) ℝ) (gamma' : Matrix (Fin l') (Fin p) ℝ) (omegas omegas' : Matrix (Fin e) (Fin p) ℝ)
    (psis : Matrix (Fin e) (Fin l) ℝ) (psis' : Matrix (Fin e) (Fin l') ℝ) (m : LModel p l e) (m' : LModel p l' e)
    (h : mkModel it A B gamma omegas psis = .ok m) (h' : mkModel it A' B' gamma' omegas' psis' = .ok m')
    (C : Fin e → Matrix (Fin p) (Fin p) ℝ) (hC : m.covariances = .ok C) (hC' : m'.covariances = .ok C)
    (hpsi : ∀ k k', psis k = psis k') (hpsi' : ∀ k k', psis' k = psis' k') (hap : ChangeApart omegas) (hall : ∀ i, Varies omegas i) :
    B' = B ∧ (∀ i, Varies omegas' i) ∧ (∀ k k' i, omegas' k i - omegas' k' i = omegas k i - omegas k' i) ∧
      ∀ k, noiseCov gamma' (psis' k) (omegas' k) = noiseCov gamma (psis k) (omegas k) := by
  obtain ⟨h1, h2, h3⟩ := C112_same_targets it A A' hA hA' B B' gamma gamma' omegas omegas' psis psis' m m' h h' C hC hC' hpsi hpsi' hap
    (fun i _ => hall i)
  obtain ⟨hac, hB, -⟩ := mkModel_ok hA h
  obtain ⟨hac', hB', -⟩ := mkModel_ok hA' h'
  have hBB : B' = B := effects_weights hac hB hac' hB' fun i t t' => h3 i t t' (hall i)
  refine ⟨hBB, fun i => (h1 i).2 (hall i), h2, fun k => ?_⟩
  obtain ⟨-, C1, hC1, hent⟩ := C35_covariances it A hA B gamma omegas psis m h
  rw [hC] at hC1
  cases hC1
  obtain ⟨-, C1, hC1, hent'⟩ := C35_covariances it A' hA' B' gamma' omegas' psis' m' h'
  rw [hC'] at hC1
  cases hC1
  have e1 := (hent k).1
  have e2 := (hent' k).1
  unfold Entails at e1 e2
  rw [hBB] at e2
  rw [← e1, ← e2]

end Verif
