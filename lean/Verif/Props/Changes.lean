import Verif.Props.Identify
import Mathlib.LinearAlgebra.Matrix.Rank

/-!
# C102: what changes of the covariances between environments reveal
-/

namespace Verif

open Spec Matrix

variable {p l l' e : Nat}

/-- `t a` is the total effect of `i` on `a`: one on itself, otherwise the sum over the causes `d` of `a` of the effect of `i` on `d`
times the weight of `d → a`. -/
def Spec.TotalEffects (B : Matrix (Fin p) (Fin p) ℝ) (i : Fin p) (t : Fin p → ℝ) : Prop :=
  ∀ a, t a = (if a = i then 1 else 0) + ∑ d, B d a * t d

theorem totalEffects_iff {B : Matrix (Fin p) (Fin p) ℝ} {i : Fin p} {t : Fin p → ℝ} :
    TotalEffects B i t ↔ (1 - Bᵀ) *ᵥ t = Pi.single i 1 := by
  unfold TotalEffects
  rw [funext_iff]
  refine forall_congr' fun a => ?_
  rw [Matrix.sub_mulVec, Matrix.one_mulVec, Pi.sub_apply, Pi.single_apply, sub_eq_iff_eq_add]
  rfl

/-- In an acyclic graph the total effects exist and are unique, the effect of a variable on itself is one, and there is no effect on
variables that are not descendants. -/
theorem C102_effects_unique {A : Adj p} {B : Matrix (Fin p) (Fin p) ℝ} (hac : Acyclic A) (hB : Respects A B) (i : Fin p) :
    ∃ t, TotalEffects B i t ∧ (∀ t', TotalEffects B i t' → t' = t) ∧ t i = 1 ∧ ∀ a, ¬ Relation.ReflTransGen (Edge A) i a → t a = 0 := by
  have hu : IsUnit (1 - Bᵀ).det := by rw [det_one_sub_transpose hac hB]; exact isUnit_one
  obtain ⟨r, hr⟩ := hac.exists_rank
  have hT : TotalEffects B i ((1 - Bᵀ)⁻¹ *ᵥ Pi.single i 1) := by
    rw [totalEffects_iff, Matrix.mulVec_mulVec, Matrix.mul_nonsing_inv _ hu, Matrix.one_mulVec]
  set t := (1 - Bᵀ)⁻¹ *ᵥ Pi.single i (1 : ℝ) with ht
  have hz : ∀ n a, r a = n → ¬ Relation.ReflTransGen (Edge A) i a → t a = 0 := by
    intro n
    induction n using Nat.strong_induction_on with
    | _ n ih =>
      intro a hn hna
      have hne : a ≠ i := fun hc => hna (hc ▸ Relation.ReflTransGen.refl)
      rw [hT a, if_neg hne, zero_add]
      refine Finset.sum_eq_zero fun d _ => ?_
      by_cases hd : A d a = 0
      · rw [hB d a hd, zero_mul]
      · rw [ih (r d) (hn ▸ hr d a hd) d rfl (fun hc => hna (hc.tail hd)), mul_zero]
  refine ⟨t, hT, fun t' ht' => ?_, ?_, fun a ha => hz _ a rfl ha⟩
  · rw [totalEffects_iff] at ht'
    rw [ht, ← ht', Matrix.mulVec_mulVec, Matrix.nonsing_inv_mul _ hu, Matrix.one_mulVec]
  · rw [hT i, if_pos rfl, Finset.sum_eq_zero, add_zero]
    intro d _
    by_cases hd : A d i = 0
    · rw [hB d i hd, zero_mul]
    · rw [hz _ d rfl (acyclic_not_reach hac hd), mul_zero]

/-- The change of the covariances is that of the noise, seen through the effects. -/
theorem change_entails {B V V' C C' : Matrix (Fin p) (Fin p) ℝ} (h : Entails B V C) (h' : Entails B V' C') : Entails B (V - V') (C - C') := by
  unfold Entails at *
  rw [Matrix.mul_sub, Matrix.sub_mul, h, h']

theorem rank_entails {B V C : Matrix (Fin p) (Fin p) ℝ} (hdet : (1 - Bᵀ).det = 1) (h : Entails B V C) : C.rank = V.rank := by
  have hu : IsUnit (1 - Bᵀ).det := by rw [hdet]; exact isUnit_one
  have hut : IsUnit ((1 - Bᵀ)ᵀ).det := by rw [Matrix.det_transpose]; exact hu
  unfold Entails at h
  rw [← h, Matrix.rank_mul_eq_left_of_isUnit_det _ _ hut, Matrix.rank_mul_eq_right_of_isUnit_det _ _ hu]

theorem noiseCov_sub (gamma : Matrix (Fin l) (Fin p) ℝ) (psi psi' : Fin l → ℝ) (w w' : Fin p → ℝ) :
    noiseCov gamma psi w - noiseCov gamma psi' w' = gammaᵀ * (Matrix.diagonal (psi - psi') * gamma) + Matrix.diagonal (w - w') := by
  ext i j
  have h1 : (gammaᵀ * (Matrix.diagonal (psi - psi') * gamma)) i j =
      ∑ k, gamma k i * psi k * gamma k j - ∑ k, gamma k i * psi' k * gamma k j := by
    rw [Matrix.mul_apply, ← Finset.sum_sub_distrib]
    refine Finset.sum_congr rfl fun k _ => ?_
    rw [Matrix.diagonal_mul, Matrix.transpose_apply, Pi.sub_apply]
    ring
  rw [Matrix.sub_apply, Matrix.add_apply, h1, Matrix.diagonal_apply]
  unfold noiseCov
  split_ifs
  · rw [Pi.sub_apply]; ring
  · ring

theorem matrix_rank_add_le {m n : Nat} (M N : Matrix (Fin m) (Fin n) ℝ) : (M + N).rank ≤ M.rank + N.rank := by
  unfold Matrix.rank
  rw [Matrix.mulVecLin_add]
  refine le_trans (Submodule.finrank_mono (LinearMap.range_add_le _ _)) (Submodule.finrank_add_le_finrank_add_finrank _ _)

open Classical in
/-- C102: between two environments the covariance matrix changes by a matrix whose rank is at most the number of variables whose noise
variance changes plus the number of latents whose variance changes. -/
theorem C102_rank_le (it : SetIter p) (A : Adj p) (hA : Nonneg A) (B : Matrix (Fin p) (Fin p) ℝ)
    (gamma : Matrix (Fin l) (Fin p) ℝ) (omegas : Matrix (Fin e) (Fin p) ℝ) (psis : Matrix (Fin e) (Fin l) ℝ)
    (m : LModel p l e) (h : mkModel it A B gamma omegas psis = .ok m) (C : Fin e → Matrix (Fin p) (Fin p) ℝ) (hC : m.covariances = .ok C)
    (k k' : Fin e) :
    (C k - C k').rank ≤ (Finset.univ.filter fun i => omegas k i ≠ omegas k' i).card +
      (Finset.univ.filter fun b => psis k b ≠ psis k' b).card := by
  obtain ⟨hdet, C', hC', hent⟩ := C35_covariances it A hA B gamma omegas psis m h
  rw [hC] at hC'
  cases hC'
  rw [rank_entails hdet (change_entails (hent k).1 (hent k').1), noiseCov_sub, add_comm (Finset.card _)]
  refine (matrix_rank_add_le _ _).trans (add_le_add ?_ ?_)
  · refine (Matrix.rank_mul_le_right _ _).trans ((Matrix.rank_mul_le_left _ _).trans ?_)
    rw [Matrix.rank_diagonal, Fintype.card_subtype]
    simp [sub_eq_zero]
  · rw [Matrix.rank_diagonal, Fintype.card_subtype]
    simp [sub_eq_zero]

open Classical in
/-- C102: if the variances of the latents do not change, as with `psi_fixed`, the rank is exactly the number of variables whose noise
variance changes, whatever the graph, the number of latents and their effects. -/
theorem C102_rank_eq (it : SetIter p) (A : Adj p) (hA : Nonneg A) (B : Matrix (Fin p) (Fin p) ℝ)
    (gamma : Matrix (Fin l) (Fin p) ℝ) (omegas : Matrix (Fin e) (Fin p) ℝ) (psis : Matrix (Fin e) (Fin l) ℝ)
    (m : LModel p l e) (h : mkModel it A B gamma omegas psis = .ok m) (C : Fin e → Matrix (Fin p) (Fin p) ℝ) (hC : m.covariances = .ok C)
    (k k' : Fin e) (hpsi : psis k = psis k') :
    (C k - C k').rank = (Finset.univ.filter fun i => omegas k i ≠ omegas k' i).card := by
  obtain ⟨hdet, C', hC', hent⟩ := C35_covariances it A hA B gamma omegas psis m h
  rw [hC] at hC'
  cases hC'
  rw [rank_entails hdet (change_entails (hent k).1 (hent k').1), noiseCov_sub, hpsi, sub_self]
  simp [Matrix.rank_diagonal, Fintype.card_subtype, sub_eq_zero]

/-- C102: if the variances of the latents do not change, the covariances change by the sum over the variables `i` of the change of the
noise variance of `i` times the products of the total effects of `i`. -/
theorem C102_change (it : SetIter p) (A : Adj p) (hA : Nonneg A) (B : Matrix (Fin p) (Fin p) ℝ)
    (gamma : Matrix (Fin l) (Fin p) ℝ) (omegas : Matrix (Fin e) (Fin p) ℝ) (psis : Matrix (Fin e) (Fin l) ℝ)
    (m : LModel p l e) (h : mkModel it A B gamma omegas psis = .ok m) (C : Fin e → Matrix (Fin p) (Fin p) ℝ) (hC : m.covariances = .ok C)
    (k k' : Fin e) (hpsi : psis k = psis k') (T : Fin p → Fin p → ℝ) (hT : ∀ i, TotalEffects B i (T i)) (a b : Fin p) :
    C k a b - C k' a b = ∑ i, (omegas k i - omegas k' i) * T i a * T i b := by
  obtain ⟨hdet, C', hC', hent⟩ := C35_covariances it A hA B gamma omegas psis m h
  rw [hC] at hC'
  cases hC'
  have h1 := change_entails (hent k).1 (hent k').1
  rw [noiseCov_sub, hpsi, sub_self] at h1
  have hz : Matrix.diagonal (0 : Fin l → ℝ) = 0 := Matrix.diagonal_zero
  rw [hz, Matrix.zero_mul, Matrix.mul_zero, zero_add] at h1
  have hu : IsUnit (1 - Bᵀ).det := by rw [hdet]; exact isUnit_one
  have hTi : (1 - Bᵀ)⁻¹ = (Matrix.of T)ᵀ := by
    refine Matrix.inv_eq_right_inv ?_
    ext x y
    have := congrFun (totalEffects_iff.1 (hT y)) x
    rw [Matrix.mul_apply, Matrix.one_apply]
    simpa [Matrix.mulVec, dotProduct, Pi.single_apply] using this
  have h2 := entails_eq hdet h1
  rw [hTi] at h2
  have h3 := congrFun (congrFun h2 a) b
  rw [Matrix.sub_apply] at h3
  rw [h3, Matrix.mul_apply]
  refine Finset.sum_congr rfl fun i _ => ?_
  simp only [Matrix.mul_diagonal, Matrix.transpose_apply, Matrix.of_apply, Pi.sub_apply]
  ring

/-- C102: hence the total effects of a target can be read off the covariances of an environment in which its noise variance is the only
one that changes: they are the changes of the covariances with the target divided by the change of its variance.  Neither the graph nor
the latents matter, as long as the variances of the latents do not change. -/
theorem C102_single_target (it : SetIter p) (A : Adj p) (hA : Nonneg A) (B : Matrix (Fin p) (Fin p) ℝ)
    (gamma : Matrix (Fin l) (Fin p) ℝ) (omegas : Matrix (Fin e) (Fin p) ℝ) (psis : Matrix (Fin e) (Fin l) ℝ)
    (m : LModel p l e) (h : mkModel it A B gamma omegas psis = .ok m) (C : Fin e → Matrix (Fin p) (Fin p) ℝ) (hC : m.covariances = .ok C)
    (k k' : Fin e) (hpsi : psis k = psis k') (i : Fin p) (hi : ∀ j, omegas k j ≠ omegas k' j ↔ j = i) (t : Fin p → ℝ)
    (ht : TotalEffects B i t) :
    C k i i - C k' i i ≠ 0 ∧ ∀ a, t a = (C k a i - C k' a i) / (C k i i - C k' i i) := by
  obtain ⟨hac, hB, -⟩ := mkModel_ok hA h
  choose T hT huniq hone _hz using fun j => C102_effects_unique hac hB j
  have hti : t = T i := huniq i t ht
  have key : ∀ a, C k a i - C k' a i = (omegas k i - omegas k' i) * t a := by
    intro a
    rw [C102_change it A hA B gamma omegas psis m h C hC k k' hpsi T hT a i, Finset.sum_eq_single i]
    · rw [hone, mul_one, hti]
    · intro j _ hj
      have : omegas k j = omegas k' j := by by_contra hc; exact hj ((hi j).1 hc)
      rw [this, sub_self, zero_mul, zero_mul]
    · simp
  have hd : omegas k i - omegas k' i ≠ 0 := sub_ne_zero.2 ((hi i).2 rfl)
  have hself : t i = 1 := by rw [hti, hone]
  refine ⟨by rw [key i, hself, mul_one]; exact hd, fun a => ?_⟩
  rw [key a, key i, hself, mul_one, mul_div_cancel_left₀ _ hd]

/-- C102: two models over any graphs, with any numbers of latents whose variances do not change, that entail the same covariances agree
on the number of variables whose noise variance changes; if in both of them this is only the variable `i`, they agree on all its total
effects. -/
theorem C102_agree (it : SetIter p) (A A' : Adj p) (hA : Nonneg A) (hA' : Nonneg A') (B B' : Matrix (Fin p) (Fin p) ℝ)
    (gamma : Matrix (Fin l) (Fin p) ℝ) (gamma' : Matrix (Fin l') (Fin p) ℝ) (omegas omegas' : Matrix (Fin e) (Fin p) ℝ)
    (psis : Matrix (Fin e) (Fin l) ℝ) (psis' : Matrix (Fin e) (Fin l') ℝ) (m : LModel p l e) (m' : LModel p l' e)
    (h : mkModel it A B gamma omegas psis = .ok m) (h' : mkModel it A' B' gamma' omegas' psis' = .ok m')
    (C : Fin e → Matrix (Fin p) (Fin p) ℝ) (hC : m.covariances = .ok C) (hC' : m'.covariances = .ok C)
    (k k' : Fin e) (hpsi : psis k = psis k') (hpsi' : psis' k = psis' k') :
    (Finset.univ.filter fun i => omegas k i ≠ omegas k' i).card = (Finset.univ.filter fun i => omegas' k i ≠ omegas' k' i).card ∧
    ∀ i, (∀ j, omegas k j ≠ omegas k' j ↔ j = i) → (∀ j, omegas' k j ≠ omegas' k' j ↔ j = i) →
      ∀ t t', TotalEffects B i t → TotalEffects B' i t' → t = t' := by
  classical
  constructor
  · have h1 := C102_rank_eq it A hA B gamma omegas psis m h C hC k k' hpsi
    rw [C102_rank_eq it A' hA' B' gamma' omegas' psis' m' h' C hC' k k' hpsi'] at h1
    convert h1.symm using 2
  · intro i hi hi' t t' ht ht'
    funext a
    rw [(C102_single_target it A hA B gamma omegas psis m h C hC k k' hpsi i hi t ht).2 a,
      (C102_single_target it A' hA' B' gamma' omegas' psis' m' h' C hC' k k' hpsi' i hi' t' ht').2 a]

/-- Properties of the variances that survive copying. -/
theorem fittedTo_params {it : SetIter p} {fit : Fitter p e} {A : Adj p} {I : Finset (Fin p)} {m : AnyModel p e} {s : Flt}
    (h : FittedTo it fit A I m s) (Q : (l : Nat) → Matrix (Fin e) (Fin p) ℝ → Matrix (Fin e) (Fin l) ℝ → Prop)
    (hQ : ∀ n m0 s, fit n A I = .ok (m0, s) → Q m0.1 m0.2.omegas m0.2.psis) : Q m.1 m.2.omegas m.2.psis := by
  obtain ⟨n, m0, h1, h2⟩ := h
  have h3 := hQ n m0 s h1
  rcases h2 with rfl | h2
  · exact h3
  · unfold AnyModel.copy at h2
    split at h2
    · simp at h2
    · rename_i m1 hm1
      cases h2
      obtain ⟨-, -, rfl⟩ := mkModel_fields hm1
      exact h3

/-- What `equivalence_class` guarantees about the parameters of the model it returns. -/
theorem returned_params (E : FitEnv p e) (svd : Matrix (Fin p) (Fin p) ℝ → Matrix (Fin p) (Fin p) ℝ × (Fin p → ℝ)) (num : NumLib p e)
    (cfg : ScoreCfg) (u v : Nat → Nat → Nat → Fin (p * p) → ℝ) (hE : E.fit = codeFit E.it svd num cfg u v)
    (hu : cfg.solver = .grad → ∀ h n, GoodDraws p (u h n)) (harg : ∀ f, IsArgsort f (E.argsort f))
    (candidates : List (Adj p)) (hG : ∀ G ∈ candidates, Nonneg G) (data : Fin e → Sample p) (solverKnown pruneEdges : Bool)
    (ns : List Nat) (folds : List Rat) (rs : Int) (P : Adj p) (I : Finset (Fin p)) (m : AnyModel p e)
    (h : equivalenceClass E candidates data solverKnown pruneEdges (some ns) folds rs = .ok (P, I, m)) :
    Nonneg m.A ∧ Acyclic m.A ∧ Respects m.A m.B ∧ (∀ k k' i, i ∉ I → m.omegas k i = m.omegas k' i) ∧
      (cfg.psiFixed = true → ∀ k k' j, m.2.psis k j = m.2.psis k' j) := by
  have hfit : ∀ d h, GoodFit (E.fit d h) := by
    intro d h
    rw [hE]
    exact codeFit_good _ _ _ _ _ _ _ _ (fun hc => hu hc h)
  have hlat : ∀ d h n A I m s, E.fit d h n A I = .ok (m, s) → m.1 = h := by
    intro d h n A I m s hm
    rw [hE] at hm
    exact codeFit_latents hm
  obtain ⟨⟨G, hGm, hsub, -⟩, hac, hB, -, -, -, -⟩ :=
    C59_coherent E hfit hlat harg candidates hG data solverKnown pruneEdges ns folds rs P I m h
  have hnn : Nonneg m.A := by
    intro a b
    rcases hsub a b with hc | hc
    · rw [hc]; exact hG G hGm a b
    · rw [hc]
  refine ⟨hnn, hac, hB, ?_⟩
  unfold equivalenceClass withIcpdag at h
  split at h
  · simp at h
  · rename_i m' I' s hm
    split at h
    · simp at h
    · cases h
      obtain ⟨training, testG, testI, graphs', ns', h1, h2, h3, h4⟩ := fitMain_spec hfit hlat harg hm
      cases h2
      cases h3
      obtain ⟨-, -, -, -, -, m0, s0, order, -, -, -, -, ⟨sf, k7⟩, -⟩ := h4 hG
      refine fittedTo_params k7 (fun l omegas psis => (∀ k k' i, i ∉ I → omegas k i = omegas k' i) ∧
        (cfg.psiFixed = true → ∀ k k' j, psis k j = psis k' j)) fun n m0 s f1 => ?_
      rw [hE] at f1
      unfold codeFit at f1
      split at f1
      · simp at f1
      · rename_i m2 s2 hm2
        cases f1
        exact ⟨fun k k' i hi => C46_non_targets_constant _ _ hm2 i hi k k', fun hf k k' j => C48_psi_fixed hf _ _ hm2 j k k'⟩

/-- C102, end to end: the covariances of the model returned by `equivalence_class` differ between two environments by a matrix of rank
at most the number of returned targets plus the number of latents, and with `psi_fixed` at most the number of returned targets. -/
theorem C102_returned (E : FitEnv p e) (svd : Matrix (Fin p) (Fin p) ℝ → Matrix (Fin p) (Fin p) ℝ × (Fin p → ℝ)) (num : NumLib p e)
    (cfg : ScoreCfg) (u v : Nat → Nat → Nat → Fin (p * p) → ℝ) (hE : E.fit = codeFit E.it svd num cfg u v)
    (hu : cfg.solver = .grad → ∀ h n, GoodDraws p (u h n)) (harg : ∀ f, IsArgsort f (E.argsort f))
    (candidates : List (Adj p)) (hG : ∀ G ∈ candidates, Nonneg G) (data : Fin e → Sample p) (solverKnown pruneEdges : Bool)
    (ns : List Nat) (folds : List Rat) (rs : Int) (P : Adj p) (I : Finset (Fin p)) (m : AnyModel p e)
    (h : equivalenceClass E candidates data solverKnown pruneEdges (some ns) folds rs = .ok (P, I, m)) :
    ∃ C, m.2.covariances = .ok C ∧ ∀ k k', (C k - C k').rank ≤ I.card + m.1 ∧ (cfg.psiFixed = true → (C k - C k').rank ≤ I.card) := by
  classical
  obtain ⟨hnn, hac, hB, hw, hpsi⟩ :=
    returned_params E svd num cfg u v hE hu harg candidates hG data solverKnown pruneEdges ns folds rs P I m h
  have hmk := mkModel_eq_ok (it := E.it) hnn m.2.gamma m.omegas m.2.psis hac hB
  obtain ⟨-, C, hC, -⟩ := C35_covariances E.it m.A hnn m.B m.2.gamma m.omegas m.2.psis _ hmk
  refine ⟨C, hC, fun k k' => ?_⟩
  have h1 := C102_rank_le E.it m.A hnn m.B m.2.gamma m.omegas m.2.psis _ hmk C hC k k'
  have h2 : (Finset.univ.filter fun i => m.omegas k i ≠ m.omegas k' i).card ≤ I.card := by
    refine Finset.card_le_card fun i hi => ?_
    by_contra hc
    exact (Finset.mem_filter.1 hi).2 (hw k k' i hc)
  have h3 : (Finset.univ.filter fun b => m.2.psis k b ≠ m.2.psis k' b).card ≤ m.1 := by
    refine (Finset.card_filter_le _ _).trans ?_
    simp
  refine ⟨by omega, fun hf => ?_⟩
  have h4 : (Finset.univ.filter fun b => m.2.psis k b ≠ m.2.psis k' b) = ∅ := by
    refine Finset.filter_eq_empty_iff.2 fun b _ => ?_
    simpa using hpsi hf k k' b
  rw [h4, Finset.card_empty] at h1
  omega

/-- C102, boundary: this needs that the variances of the latents do not change.  The model `0 → 1` with weight one in which the noise of
`0` changes has an effect of `0` on `1`, but there is a model without edges, in which the noise does not change, that entails the same
covariances, through latents whose variances change. -/
theorem C102_latents_change (it : SetIter 2) : ∃ (m : LModel 2 0 2) (m' : LModel 2 4 2) (C : Fin 2 → Matrix (Fin 2) (Fin 2) ℝ),
    mkModel it ![![0, 1], ![0, 0]] !![0, 1; 0, 0] 0 !![1, 1; 2, 1] 0 = .ok m ∧ TotalEffects m.B 0 ![1, 1] ∧
    (∃ psis, (∀ k i, 0 ≤ psis k i) ∧ Admissible it ∅ ![![0, 0], ![0, 0]] psis m') ∧ TotalEffects m'.B 0 ![1, 0] ∧
    m.covariances = .ok C ∧ m'.covariances = .ok C := by
  have hG : Nonneg (![![0, 1], ![0, 0]] : Adj 2) := by unfold Nonneg; decide
  have hacG : Acyclic (![![0, 1], ![0, 0]] : Adj 2) := (isDag_iff (SetIter.incr 2) hG).1 (by decide)
  have hE : Nonneg (![![0, 0], ![0, 0]] : Adj 2) := by unfold Nonneg; decide
  have hacE : Acyclic (![![0, 0], ![0, 0]] : Adj 2) := (isDag_iff (SetIter.incr 2) hE).1 (by decide)
  have hB : Respects (![![0, 1], ![0, 0]] : Adj 2) (!![0, 1; 0, 0] : Matrix (Fin 2) (Fin 2) ℝ) := by
    intro i j h
    fin_cases i <;> fin_cases j <;> simp at h ⊢
  have hmk := mkModel_eq_ok (it := it) (e := 2) (l := 0) hG 0 (!![1, 1; 2, 1] : Matrix (Fin 2) (Fin 2) ℝ) 0 hacG hB
  obtain ⟨-, ⟨C, hC, hpd⟩, -⟩ := C36_posDef it _ hG _ _ _ _ _ hmk (by intro k i; fin_cases k <;> fin_cases i <;> norm_num) (fun _ i => i.elim0)
  obtain ⟨psis, m', h1, h2, h3, h4⟩ := C101_many_latents it _ hE hacE C (fun k => (hpd k).1)
  refine ⟨_, m', C, hmk, ?_, ⟨psis, h1, h2⟩, ?_, hC, h4⟩
  · intro a
    fin_cases a <;> norm_num [Fin.sum_univ_two]
  · rw [h3]
    intro a
    fin_cases a <;> norm_num [Fin.sum_univ_two]

/-- An example for C102: one latent that affects both variables, weight 2 of `0 → 1`, and the noise of `0` changes from 1 to 3. -/
example (it : SetIter 2) : ∃ (m : LModel 2 1 2) (C : Fin 2 → Matrix (Fin 2) (Fin 2) ℝ),
    mkModel it ![![0, 1], ![0, 0]] !![0, 2; 0, 0] !![1, 1] !![1, 1; 3, 1] !![1; 1] = .ok m ∧ m.covariances = .ok C ∧
    (C 1 - C 0).rank = 1 ∧ (2 : ℝ) = (C 1 1 0 - C 0 1 0) / (C 1 0 0 - C 0 0 0) := by
  classical
  have hG : Nonneg (![![0, 1], ![0, 0]] : Adj 2) := by unfold Nonneg; decide
  have hacG : Acyclic (![![0, 1], ![0, 0]] : Adj 2) := (isDag_iff (SetIter.incr 2) hG).1 (by decide)
  have hB : Respects (![![0, 1], ![0, 0]] : Adj 2) (!![0, 2; 0, 0] : Matrix (Fin 2) (Fin 2) ℝ) := by
    intro i j h
    fin_cases i <;> fin_cases j <;> simp at h ⊢
  have hmk := mkModel_eq_ok (it := it) hG (!![1, 1] : Matrix (Fin 1) (Fin 2) ℝ) (!![1, 1; 3, 1] : Matrix (Fin 2) (Fin 2) ℝ) (!![1; 1] : Matrix (Fin 2) (Fin 1) ℝ) hacG hB
  obtain ⟨-, C, hC, -⟩ := C35_covariances it _ hG _ _ _ _ _ hmk
  have hpsi : (!![1; 1] : Matrix (Fin 2) (Fin 1) ℝ) 1 = (!![1; 1] : Matrix (Fin 2) (Fin 1) ℝ) 0 := by
    ext j; fin_cases j; rfl
  have hi : ∀ j, (!![1, 1; 3, 1] : Matrix (Fin 2) (Fin 2) ℝ) 1 j ≠ (!![1, 1; 3, 1] : Matrix (Fin 2) (Fin 2) ℝ) 0 j ↔ j = 0 := by
    intro j
    fin_cases j <;> norm_num
  refine ⟨_, C, hmk, hC, ?_, ?_⟩
  · rw [C102_rank_eq it _ hG _ _ _ _ _ hmk C hC 1 0 hpsi]
    simp only [hi, Finset.filter_eq', Finset.mem_univ, if_true, Finset.card_singleton]
  · have ht : TotalEffects (!![0, 2; 0, 0] : Matrix (Fin 2) (Fin 2) ℝ) 0 ![1, 2] := by
      intro a
      fin_cases a <;> norm_num [Fin.sum_univ_two]
    simpa using (C102_single_target it _ hG _ _ _ _ _ hmk C hC 1 0 hpsi 0 hi _ ht).2 1

end Verif
