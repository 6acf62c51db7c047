import Verif.Proof.Sparsest
import Verif.Props.GlobalMarkov
import Verif.Props.Identify
import Verif.Props.Enum
import Verif.Props.Gen

/-!
# C117: almost all weights are faithful, and the sparsest graphs that entail the covariances form the returned class

For almost all weights (with respect to any distribution that has a density) variables are uncorrelated given others exactly if they are
d-separated, with and without latents; the graphs with fewest edges that entail the covariances of a model without latents are exactly those of
`imec`, provided the variances of the targets change in different proportions.
-/

namespace Verif

open Spec Matrix MeasureTheory

variable {p l e : Nat}

/-! ### Lemmas -/

theorem semB_eq (A : Adj p) (W : Fin p × Fin p → ℝ) :
    semB (Edge A) W = Matrix.of (fun i j => if A i j = 0 then 0 else W (i, j)) := by
  ext i j
  unfold semB
  rw [Matrix.of_apply, Matrix.of_apply]
  by_cases h : A i j = 0
  · rw [if_pos h, if_neg (fun hc : Edge A i j => hc h)]
  · rw [if_neg h, if_pos (show Edge A i j from h)]

theorem semB_respects (A : Adj p) (W : Fin p × Fin p → ℝ) : Respects A (semB (Edge A) W) := by
  intro i j h
  rw [semB_eq, Matrix.of_apply, if_pos h]

/-- The covariances of a model without latent effects. -/
theorem model_semC (it : SetIter p) {A : Adj p} (hA : Nonneg A) (hac : Acyclic A) (W : Fin p × Fin p → ℝ) {gamma : Matrix (Fin l) (Fin p) ℝ}
    (hg : ∀ k j, gamma k j = 0) {omegas : Matrix (Fin e) (Fin p) ℝ} (ho : ∀ k i, 0 < omegas k i) (psis : Matrix (Fin e) (Fin l) ℝ) :
    ∃ m, mkModel it A (Matrix.of (fun i j => if A i j = 0 then 0 else W (i, j))) gamma omegas psis = .ok m ∧
      m.covariances = .ok (fun k => semC (Edge A) (omegas k) W) := by
  have hm := mkModel_eq_ok (it := it) hA gamma omegas psis hac (semB_respects A W)
  obtain ⟨-, C, hC, hE⟩ := C35_covariances it A hA _ gamma omegas psis _ hm
  rw [← semB_eq]
  refine ⟨_, hm, ?_⟩
  rw [hC]
  congr 1
  funext k
  refine ((hE k).2 _ ?_).symm
  rw [noiseCov_no_effects _ _ hg]
  exact (sem_linear hac (ho k) W).eqs

theorem uncorrelated_blocks_iff {C : Matrix (Fin p) (Fin p) ℝ} {D : Matrix (Fin p) (Fin l) ℝ} {D' : Matrix (Fin l) (Fin p) ℝ}
    {P : Matrix (Fin l) (Fin l) ℝ} {Z : Finset (Fin p)} {a b : Fin p} :
    UncorrelatedGiven (Matrix.fromBlocks C D D' P) (Z.map ⟨Sum.inl, Sum.inl_injective⟩) (Sum.inl a) (Sum.inl b) ↔ UncorrelatedGiven C Z a b := by
  refine ⟨uncorrelated_of_blocks, ?_⟩
  rintro ⟨β, ⟨h1, h2⟩, hu, h3⟩
  have hsum : ∀ (β : Fin p ⊕ Fin l → ℝ), (∀ k, β (Sum.inr k) = 0) → ∀ j, ∑ i, β i * Matrix.fromBlocks C D D' P i (Sum.inl j) = ∑ i, β (Sum.inl i) * C i j := by
    intro β hr j
    rw [Fintype.sum_sum_type]
    simp [hr]
  refine ⟨Sum.elim β 0, ⟨?_, ?_⟩, ?_, ?_⟩
  · rintro (i | i) hi
    · exact h1 i (by simpa using hi)
    · rfl
  · intro z hz
    rw [Finset.mem_map] at hz
    obtain ⟨z, hz, rfl⟩ := hz
    rw [Function.Embedding.coeFn_mk, hsum _ (fun k => rfl)]
    exact h2 z hz
  · rintro β' ⟨k1, k2⟩
    have hr : ∀ k, β' (Sum.inr k) = 0 := fun k => k1 _ (by simp)
    have := hu (fun i => β' (Sum.inl i)) ⟨fun i hi => k1 _ (by simpa using hi), fun z hz => ?_⟩
    · funext i
      rcases i with i | i
      · exact congrFun this i
      · exact hr i
    · have h4 := k2 (Sum.inl z) (by simpa using hz)
      rw [hsum β' hr] at h4
      exact h4
  · rw [hsum _ (fun k => rfl)]
    exact h3

/-- The weights of variables and latents as a model: effects `W (inr k, inl j)` of latent `k` on variable `j`, for the pairs in `S`. -/
theorem latent_weights (A : Adj p) (S : Finset (Fin l × Fin p)) (gamma₀ : Matrix (Fin l) (Fin p) ℝ) (hS : ∀ k j, gamma₀ k j ≠ 0 ↔ (k, j) ∈ S)
    (W : (Fin p ⊕ Fin l) × (Fin p ⊕ Fin l) → ℝ) :
    semB (LatentEdge A gamma₀) W = Matrix.fromBlocks (Matrix.of (fun i j => if A i j = 0 then 0 else W (Sum.inl i, Sum.inl j))) 0
      (Matrix.of (fun k j => if (k, j) ∈ S then W (Sum.inr k, Sum.inl j) else 0)) 0 := by
  classical
  ext u v
  unfold semB
  rw [Matrix.of_apply]
  rcases u with i | i <;> rcases v with j | j
  · simp only [Matrix.fromBlocks_apply₁₁, Matrix.of_apply]
    by_cases h : A i j = 0
    · rw [if_pos h, if_neg (fun hc : LatentEdge A gamma₀ (Sum.inl i) (Sum.inl j) => hc h)]
    · rw [if_neg h, if_pos (show LatentEdge A gamma₀ (Sum.inl i) (Sum.inl j) from h)]
  · simp [LatentEdge]
  · simp only [Matrix.fromBlocks_apply₂₁, Matrix.of_apply]
    by_cases h : (i, j) ∈ S
    · rw [if_pos h, if_pos (show LatentEdge A gamma₀ (Sum.inr i) (Sum.inl j) from (hS i j).2 h)]
    · rw [if_neg h, if_neg (fun hc : LatentEdge A gamma₀ (Sum.inr i) (Sum.inl j) => h ((hS i j).1 hc))]
  · simp [LatentEdge]

theorem latentEdge_congr (A : Adj p) {gamma gamma' : Matrix (Fin l) (Fin p) ℝ} (h : ∀ k j, gamma k j ≠ 0 ↔ gamma' k j ≠ 0) :
    LatentEdge A gamma = LatentEdge A gamma' := by
  funext u v
  rcases u with i | i <;> rcases v with j | j <;> simp [LatentEdge, h]

theorem ae_ne_zero {σ : Type} [Fintype σ] (q : σ) : ∀ᵐ W : σ → ℝ, W q ≠ 0 := by
  have h := poly_null (MvPolynomial.X q : MvPolynomial σ ℝ) (MvPolynomial.X_ne_zero q)
  have h1 : ∀ᵐ W : σ → ℝ, W ∉ {W | MvPolynomial.eval W (MvPolynomial.X q) = 0} := measure_eq_zero_iff_ae_notMem.1 h
  filter_upwards [h1] with W hW hc
  exact hW (by simpa using hc)

/-- Two variables with a common latent are connected whatever is conditioned on. -/
theorem dconnected_latent (A : Adj p) {gamma : Matrix (Fin l) (Fin p) ℝ} {k : Fin l} {a b : Fin p} (hab : a ≠ b) (ha : gamma k a ≠ 0)
    (hb : gamma k b ≠ 0) (Z : Finset (Fin p)) :
    DConnected (LatentEdge A gamma) (Z.map ⟨Sum.inl, Sum.inl_injective⟩) (Sum.inl a) (Sum.inl b) := by
  refine ⟨2, fun i => if i = 0 then Sum.inl a else if i = 1 then Sum.inr k else Sum.inl b, rfl, rfl, ?_, ?_, ?_, ?_⟩
  · intro i hi j hj hij
    rw [Set.mem_Iic] at hi hj
    interval_cases i <;> interval_cases j <;> simp_all
  · intro i hi
    interval_cases i
    · exact Or.inr ha
    · exact Or.inl hb
  · intro i hi h3 h4
    obtain rfl : i = 0 := by omega
    exact absurd h3 (by simp [LatentEdge])
  · intro i hi h3
    obtain rfl : i = 0 := by omega
    simp

/-! ### Faithfulness -/

/-- C117: without latent effects, for almost all weights variables are uncorrelated given `Z` exactly if `Z` d-separates them, in all
environments.  `μ` is any distribution of the weights that has a density, such as the one of independent uniform draws. -/
theorem C117_faithful (it : SetIter p) (A : Adj p) (hA : Nonneg A) (hac : Acyclic A) (gamma : Matrix (Fin l) (Fin p) ℝ)
    (hg : ∀ k j, gamma k j = 0) (omegas : Matrix (Fin e) (Fin p) ℝ) (ho : ∀ k i, 0 < omegas k i) (psis : Matrix (Fin e) (Fin l) ℝ)
    (μ : Measure (Fin p × Fin p → ℝ)) (hμ : μ ≪ volume) :
    ∀ᵐ W ∂μ, ∃ m C, mkModel it A (Matrix.of (fun i j => if A i j = 0 then 0 else W (i, j))) gamma omegas psis = .ok m ∧
      m.covariances = .ok C ∧ ∀ k (Z : Finset (Fin p)) a b, a ∉ Z → b ∉ Z → (UncorrelatedGiven (C k) Z a b ↔ DSeparated (Edge A) Z a b) := by
  refine hμ.ae_le ?_
  filter_upwards [ae_Generic hac ho] with W hW
  obtain ⟨m, hm, hc⟩ := model_semC it hA hac W hg ho psis
  exact ⟨_, _, hm, hc, hW.1⟩

/-- C117: with latents, for almost all weights and latent effects variables are uncorrelated given `Z` exactly if `Z` d-separates them in the
graph with the latents as further nodes.  `S` says which latents have an effect on which variables. -/
theorem C117_faithful_latents (it : SetIter p) (A : Adj p) (hA : Nonneg A) (hac : Acyclic A) (S : Finset (Fin l × Fin p))
    (omegas : Matrix (Fin e) (Fin p) ℝ) (ho : ∀ k i, 0 < omegas k i) (psis : Matrix (Fin e) (Fin l) ℝ) (hpsi : ∀ k i, 0 < psis k i)
    (μ : Measure ((Fin p ⊕ Fin l) × (Fin p ⊕ Fin l) → ℝ)) (hμ : μ ≪ volume) :
    ∀ᵐ W ∂μ, ∀ gamma : Matrix (Fin l) (Fin p) ℝ, gamma = Matrix.of (fun k j => if (k, j) ∈ S then W (Sum.inr k, Sum.inl j) else 0) →
      ∃ m C, mkModel it A (Matrix.of (fun i j => if A i j = 0 then 0 else W (Sum.inl i, Sum.inl j))) gamma omegas psis = .ok m ∧
      m.covariances = .ok C ∧ (∀ k j, gamma k j ≠ 0 ↔ (k, j) ∈ S) ∧ ∀ k (Z : Finset (Fin p)) a b, a ∉ Z → b ∉ Z →
        (UncorrelatedGiven (C k) Z a b ↔
          DSeparated (LatentEdge A gamma) (Z.map ⟨Sum.inl, Sum.inl_injective⟩) (Sum.inl a) (Sum.inl b)) := by
  classical
  refine hμ.ae_le ?_
  let gamma₀ : Matrix (Fin l) (Fin p) ℝ := Matrix.of (fun k j => if (k, j) ∈ S then 1 else 0)
  have hS : ∀ k j, gamma₀ k j ≠ 0 ↔ (k, j) ∈ S := by
    intro k j
    simp [gamma₀]
  have hacL := latentEdge_acyclic hac gamma₀
  have hpos : ∀ k, ∀ u, 0 < Sum.elim (omegas k) (psis k) u := by
    rintro k (i | i)
    · exact ho k i
    · exact hpsi k i
  have h1 : ∀ᵐ W : (Fin p ⊕ Fin l) × (Fin p ⊕ Fin l) → ℝ, ∀ k, ∀ (Z : Finset (Fin p ⊕ Fin l)) (a b : Fin p ⊕ Fin l), a ∉ Z → b ∉ Z →
      (UncorrelatedGiven (semC (LatentEdge A gamma₀) (Sum.elim (omegas k) (psis k)) W) Z a b ↔ DSeparated (LatentEdge A gamma₀) Z a b) := by
    rw [ae_all_iff]
    exact fun k => ae_faithful hacL (hpos k)
  have h2 : ∀ᵐ W : (Fin p ⊕ Fin l) × (Fin p ⊕ Fin l) → ℝ, ∀ q, W q ≠ 0 := by
    rw [ae_all_iff]
    exact fun q => ae_ne_zero q
  filter_upwards [h1, h2] with W hW hne gamma hgamma
  have hg : ∀ k j, gamma k j ≠ 0 ↔ (k, j) ∈ S := by
    intro k j
    rw [hgamma, Matrix.of_apply]
    by_cases h : (k, j) ∈ S <;> simp [h, hne]
  have hEq : LatentEdge A gamma = LatentEdge A gamma₀ := latentEdge_congr A (fun k j => (hg k j).trans (hS k j).symm)
  have hB : Respects A (Matrix.of (fun i j => if A i j = 0 then 0 else W (Sum.inl i, Sum.inl j))) := by
    intro i j h
    rw [Matrix.of_apply, if_pos h]
  have hm := mkModel_eq_ok (it := it) hA gamma omegas psis hac hB
  obtain ⟨-, C, hC, hE⟩ := C35_covariances it A hA _ gamma omegas psis _ hm
  refine ⟨_, C, hm, hC, hg, fun k Z a b ha hb => ?_⟩
  obtain ⟨D, hD⟩ := linearSEM_latents hac hB gamma (hpsi k) (ho k) (hE k).1
  rw [hEq] at hD ⊢
  have hsem := sem_linear hacL (hpos k) W
  rw [latent_weights A S gamma₀ hS W, ← hgamma] at hsem
  have hCC : Matrix.fromBlocks (C k) D Dᵀ (Matrix.diagonal (psis k)) = semC (LatentEdge A gamma₀) (Sum.elim (omegas k) (psis k)) W := by
    ext u v
    exact hD.agree hsem (U := Finset.univ) (fun _ _ _ _ => Finset.mem_univ _) (fun _ _ _ => rfl) u (Finset.mem_univ _) v (Finset.mem_univ _)
  rw [← uncorrelated_blocks_iff (D := D) (D' := Dᵀ) (P := Matrix.diagonal (psis k)), hCC]
  exact hW k _ _ _ (by simpa using ha) (by simpa using hb)

/-- C117: with a latent that has an effect on all variables (the default of the generators draws all effects), for almost all weights no two
variables are uncorrelated given any others: partial correlations tell nothing about the graph. -/
theorem C117_dense_latents (it : SetIter p) (A : Adj p) (hA : Nonneg A) (hac : Acyclic A) (hl : 0 < l)
    (omegas : Matrix (Fin e) (Fin p) ℝ) (ho : ∀ k i, 0 < omegas k i) (psis : Matrix (Fin e) (Fin l) ℝ) (hpsi : ∀ k i, 0 < psis k i)
    (μ : Measure ((Fin p ⊕ Fin l) × (Fin p ⊕ Fin l) → ℝ)) (hμ : μ ≪ volume) :
    ∀ᵐ W ∂μ, ∃ m C, mkModel it A (Matrix.of (fun i j => if A i j = 0 then 0 else W (Sum.inl i, Sum.inl j)))
      (Matrix.of (fun k j => W (Sum.inr k, Sum.inl j))) omegas psis = .ok m ∧ m.covariances = .ok C ∧
      ∀ k (Z : Finset (Fin p)) a b, a ≠ b → a ∉ Z → b ∉ Z → ¬ UncorrelatedGiven (C k) Z a b := by
  filter_upwards [C117_faithful_latents it A hA hac Finset.univ omegas ho psis hpsi μ hμ] with W hW
  obtain ⟨m, C, h1, h2, h3, h4⟩ := hW (Matrix.of (fun k j => W (Sum.inr k, Sum.inl j))) (by simp)
  refine ⟨m, C, h1, h2, fun k Z a b hab ha hb hc => ?_⟩
  exact (h4 k Z a b ha hb).1 hc (dconnected_latent A hab ((h3 ⟨0, hl⟩ a).2 (Finset.mem_univ _)) ((h3 ⟨0, hl⟩ b).2 (Finset.mem_univ _)) Z)

/-! ### The sparsest graphs -/

/-- The condition on the variances: those of two adjacent variables of which one is a target do not change in the same proportion. -/
def Spec.ChangeDifferently (A : Adj p) (I : Finset (Fin p)) (omegas : Fin e → Fin p → ℝ) : Prop :=
  ∀ x y, Edge A x y → (x ∈ I ∨ y ∈ I) → ∃ k k', omegas k x * omegas k' y ≠ omegas k' x * omegas k y

theorem fitsAll_of_entailedBy {I : Finset (Fin p)} {H : Adj p} {C : Fin e → Matrix (Fin p) (Fin p) ℝ} (h : EntailedBy I H C) : FitsAll H C := by
  obtain ⟨B, w, h1, h2, _, h4⟩ := h
  refine ⟨B, w, fun i j hij => h1 i j ?_, h2, h4⟩
  by_contra hc
  exact hij hc

theorem entailedBy_univ_iff {H : Adj p} {C : Fin e → Matrix (Fin p) (Fin p) ℝ} : EntailedBy Finset.univ H C ↔ FitsAll H C := by
  refine ⟨fitsAll_of_entailedBy, ?_⟩
  rintro ⟨B, w, h1, h2, h4⟩
  exact ⟨B, w, fun i j hij => h1 i j (fun hc => hc hij), h2, fun _ _ i hi => absurd (Finset.mem_univ i) hi, h4⟩

theorem entailedBy_iequiv {I : Finset (Fin p)} {G H : Adj p} (hG : Acyclic G) (hH : Acyclic H) (hE : IEquiv I G H)
    {C : Fin e → Matrix (Fin p) (Fin p) ℝ} (h : EntailedBy I G C) : EntailedBy I H C := by
  obtain ⟨B, w, h1, h2, h3, h4⟩ := h
  obtain ⟨B', gamma', w', k1, k2, k3, -, k5⟩ := iequiv_params (l := 0) I hH _ hG hE rfl h1 0 w h2 h3
  refine ⟨B', w', k1, k2, k3, fun k => ?_⟩
  have := k5 k (fun i => i.elim0) (C k) (by rw [noiseCov_zero]; exact h4 k)
  rwa [noiseCov_zero] at this

theorem semC_entailed {A : Adj p} (hac : Acyclic A) {I : Finset (Fin p)} {omegas : Fin e → Fin p → ℝ} (ho : ∀ k i, 0 < omegas k i)
    (hconst : ∀ k k' i, i ∉ I → omegas k i = omegas k' i) (W : Fin p × Fin p → ℝ) :
    EntailedBy I A (fun k => semC (Edge A) (omegas k) W) :=
  ⟨semB (Edge A) W, omegas, semB_respects A W, ho, hconst, fun k => (sem_linear hac (ho k) W).eqs⟩

theorem Generic.sparsest_iff {A : Adj p} (hac : Acyclic A) {I : Finset (Fin p)} {omegas : Fin e → Fin p → ℝ} (ho : ∀ k i, 0 < omegas k i)
    (hconst : ∀ k k' i, i ∉ I → omegas k i = omegas k' i) (hch : ChangeDifferently A I omegas) {W : Fin p × Fin p → ℝ}
    (hW : Generic A omegas W) (he : 0 < e) (H : Adj p) :
    Sparsest H (fun k => semC (Edge A) (omegas k) W) ↔ Acyclic H ∧ IEquiv I A H := by
  have hself := fitsAll_of_entailedBy (semC_entailed hac ho hconst W)
  have hadj : ∀ H : Adj p, Acyclic H → FitsAll H (fun k => semC (Edge A) (omegas k) W) →
      ∀ Z a b, a ∉ Z → b ∉ Z → DSeparated (Edge H) Z a b → DSeparated (Edge A) Z a b := by
    intro H hH ⟨B, w, h1, h2, h3⟩ Z a b ha hb hsep
    exact hW.imap hH ⟨0, he⟩ (fun i j hij => h1 i j (fun hc => hc hij)) (h2 _) (h3 _) Z a b ha hb hsep
  constructor
  · rintro ⟨hH, hfit, hmin⟩
    have hsk := sameSkeleton_of_count hac hH (adjacent_of_imap hac hH (hadj H hH hfit)) (hmin A hac hself)
    exact ⟨hH, markovEquiv_of_imap hac hH (hadj H hH hfit) hsk, hW.sameParents hH hch hsk hfit⟩
  · rintro ⟨hH, hE⟩
    refine ⟨hH, fitsAll_of_entailedBy (entailedBy_iequiv hac hH hE (semC_entailed hac ho hconst W)), fun H' hH' hfit => ?_⟩
    rw [← edgeCount_of_skeleton hac hH hE.1.1]
    by_contra hc
    push Not at hc
    have hsk := sameSkeleton_of_count hac hH' (adjacent_of_imap hac hH' (hadj H' hH' hfit)) hc.le
    rw [edgeCount_of_skeleton hac hH' hsk] at hc
    exact lt_irrefl _ hc

/-- C117: take a model without latent effects whose variances are constant outside `I` and change differently at adjacent variables of
which one is in `I`.  For almost all weights, the DAGs with fewest edges that entail its covariances, with the same weights but possibly other
noise variances in every environment, are exactly those that `imec(A, I)` returns. -/
theorem C117_sparsest (it : SetIter p) (A : Adj p) (hA : Nonneg A) (hac : Acyclic A) (hp : 0 < p) (he : 0 < e) (I : Finset (Fin p)) (c : Bool)
    (gamma : Matrix (Fin l) (Fin p) ℝ) (hg : ∀ k j, gamma k j = 0) (omegas : Matrix (Fin e) (Fin p) ℝ) (ho : ∀ k i, 0 < omegas k i)
    (hconst : ∀ k k' i, i ∉ I → omegas k i = omegas k' i) (hch : ChangeDifferently A I omegas) (psis : Matrix (Fin e) (Fin l) ℝ)
    (μ : Measure (Fin p × Fin p → ℝ)) (hμ : μ ≪ volume) :
    ∃ Gs, imec it A (I.image (fun i : Fin p => (i.val : Int))) c = .ok Gs ∧
      ∀ᵐ W ∂μ, ∃ m C, mkModel it A (Matrix.of (fun i j => if A i j = 0 then 0 else W (i, j))) gamma omegas psis = .ok m ∧
        m.covariances = .ok C ∧ ∀ H : Adj p, ZeroOne H → (Sparsest H C ↔ H ∈ Gs) := by
  obtain ⟨Gs, h1, -, h2⟩ := C26_imec it A hA hac I c (Or.inl hp)
  refine ⟨Gs, h1, hμ.ae_le ?_⟩
  filter_upwards [ae_Generic hac ho] with W hW
  obtain ⟨m, hm, hc⟩ := model_semC it hA hac W hg ho psis
  refine ⟨_, _, hm, hc, fun H hH => ?_⟩
  rw [hW.sparsest_iff hac ho hconst hch he H, h2 H]
  tauto

/-- C117: with variances that are the same in all environments (or one environment), these graphs are those of `mec(A)`. -/
theorem C117_sparsest_observational (it : SetIter p) (A : Adj p) (hA : Nonneg A) (hac : Acyclic A) (hp : 0 < p) (he : 0 < e) (c : Bool)
    (gamma : Matrix (Fin l) (Fin p) ℝ) (hg : ∀ k j, gamma k j = 0) (omegas : Matrix (Fin e) (Fin p) ℝ) (ho : ∀ k i, 0 < omegas k i)
    (hconst : ∀ k k' i, omegas k i = omegas k' i) (psis : Matrix (Fin e) (Fin l) ℝ)
    (μ : Measure (Fin p × Fin p → ℝ)) (hμ : μ ≪ volume) :
    ∃ Gs, mec it A c = .ok Gs ∧
      ∀ᵐ W ∂μ, ∃ m C, mkModel it A (Matrix.of (fun i j => if A i j = 0 then 0 else W (i, j))) gamma omegas psis = .ok m ∧
        m.covariances = .ok C ∧ ∀ H : Adj p, ZeroOne H → (Sparsest H C ↔ H ∈ Gs) := by
  obtain ⟨Gs, h1, -, h2⟩ := C24_mec it A hA hac c (Or.inl hp)
  refine ⟨Gs, h1, hμ.ae_le ?_⟩
  filter_upwards [ae_Generic hac ho] with W hW
  obtain ⟨m, hm, hc⟩ := model_semC it hA hac W hg ho psis
  refine ⟨_, _, hm, hc, fun H hH => ?_⟩
  rw [hW.sparsest_iff (I := ∅) hac ho (fun k k' i _ => hconst k k' i) (fun x y _ hor => by simp at hor) he H, h2 H]
  constructor
  · exact fun h => ⟨hH, h.1, h.2.1⟩
  · exact fun h => ⟨h.2.1, h.2.2, fun i hi => absurd hi (Finset.notMem_empty i)⟩

/-- C117: any DAG that entails the covariances in a single environment, whatever its noise variances there, has at least the edges of the graph
of the model up to orientation: for almost all weights no edge of the model can be missed. -/
theorem C117_no_edge_missed (it : SetIter p) (A : Adj p) (hA : Nonneg A) (hac : Acyclic A)
    (gamma : Matrix (Fin l) (Fin p) ℝ) (hg : ∀ k j, gamma k j = 0) (omegas : Matrix (Fin e) (Fin p) ℝ) (ho : ∀ k i, 0 < omegas k i)
    (psis : Matrix (Fin e) (Fin l) ℝ) (μ : Measure (Fin p × Fin p → ℝ)) (hμ : μ ≪ volume) :
    ∀ᵐ W ∂μ, ∃ m C, mkModel it A (Matrix.of (fun i j => if A i j = 0 then 0 else W (i, j))) gamma omegas psis = .ok m ∧
        m.covariances = .ok C ∧ ∀ k (H : Adj p), Acyclic H → FitsAll H (fun _ : Fin 1 => C k) → ∀ i j, Adjacent A i j → Adjacent H i j := by
  refine hμ.ae_le ?_
  filter_upwards [ae_Generic hac ho] with W hW
  obtain ⟨m, hm, hc⟩ := model_semC it hA hac W hg ho psis
  refine ⟨_, _, hm, hc, fun k H hH ⟨B, w, h1, h2, h3⟩ => adjacent_of_imap hac hH (fun Z a b ha hb hsep => ?_)⟩
  exact hW.imap hH k (fun i j hij => h1 i j (fun hc => hc hij)) (h2 0) (h3 0) Z a b ha hb hsep

/-! ### The generator -/

/-- C117: models of `sample_parameters` with `num_latent=0` and `obs=True`.  If the drawn variances and interventions are positive and no two
targets are adjacent, then for almost all drawn weights the sparsest DAGs that entail the covariances are those of `imec(A, I)`. -/
theorem C117_generator (it : SetIter p) (A : Adj p) (hA : ZeroOne A) (hac : Acyclic A) (hp : 0 < p) (he : 1 < e) (I : Finset (Fin p))
    (hadj : ∀ i ∈ I, ∀ j ∈ I, ¬ Edge A i j) (c sparse : Bool) (dr : Draws p 0 e) (hb : ∀ j, 0 < dr.base j)
    (hi : ∀ j k, 0 < dr.interventions j k) (μ : Measure (Fin p × Fin p → ℝ)) (hμ : μ ≪ volume) :
    ∃ Gs, imec it A (I.image (fun i : Fin p => (i.val : Int))) c = .ok Gs ∧
      ∀ᵐ W ∂μ, ∃ m C, sampleParameters it A (I.image (fun i : Fin p => (i.val : Int))) sparse true
          { dr with weights := fun i j => W (i, j) } = .ok m ∧
        m.covariances = .ok C ∧ ∀ H : Adj p, ZeroOne H → (Sparsest H C ↔ H ∈ Gs) := by
  have hn : Nonneg A := fun i j => by rcases hA i j with h | h <;> simp [h]
  have hT : targetsOf p (I.image (fun i : Fin p => (i.val : Int))) = I := by
    ext j
    rw [mem_targetsOf, Finset.mem_image]
    constructor
    · rintro ⟨i, hi, hij⟩
      rwa [show j = i from Fin.ext (by omega)]
    · exact fun hj => ⟨j, hj, rfl⟩
  have hom := fun k j => genOmegas_obs it I dr he k j
  have hmult : ∀ j ∈ I, (0 : ℝ) < (I.card : ℝ) - (it.toList I).idxOf j := by
    intro j hj
    have h1 := List.idxOf_lt_length_of_mem ((it.mem I j).2 hj)
    have hlen : (it.toList I).length = I.card := by
      rw [← List.toFinset_card_of_nodup (it.nodup I)]
      congr 1
      ext x
      rw [List.mem_toFinset, it.mem]
    rw [hlen] at h1
    have : ((it.toList I).idxOf j : ℝ) < I.card := by exact_mod_cast h1
    linarith
  have ho : ∀ k i, 0 < genOmegas it I true dr k i := by
    intro k j
    rw [hom]
    split_ifs with h1
    · exact add_pos (hb j) (mul_pos (hi j k) (hmult j h1.2))
    · rw [add_zero]
      exact hb j
  have hconst : ∀ k k' i, i ∉ I → genOmegas it I true dr k i = genOmegas it I true dr k' i := by
    intro k k' i hiI
    rw [hom, hom, if_neg (fun h => hiI h.2), if_neg (fun h => hiI h.2)]
  have hlt : ∀ i ∈ I, genOmegas it I true dr ⟨0, by omega⟩ i < genOmegas it I true dr ⟨1, he⟩ i := by
    intro i hiI
    rw [hom, hom, if_neg (by simp), if_pos ⟨by simp, hiI⟩, add_zero]
    have := mul_pos (hi i ⟨1, he⟩) (hmult i hiI)
    linarith
  have hch : ChangeDifferently A I (genOmegas it I true dr) := by
    intro x y hxy hor
    refine ⟨⟨0, by omega⟩, ⟨1, he⟩, ?_⟩
    rcases hor with hx | hy
    · have hy : y ∉ I := fun hy => hadj x hx y hy hxy
      rw [hconst ⟨0, by omega⟩ ⟨1, he⟩ y hy]
      intro hc
      exact absurd (mul_right_cancel₀ (ne_of_gt (ho ⟨1, he⟩ y)) hc) (ne_of_lt (hlt x hx))
    · have hx : x ∉ I := fun hx => hadj x hx y hy hxy
      rw [hconst ⟨0, by omega⟩ ⟨1, he⟩ x hx]
      intro hc
      exact absurd (mul_left_cancel₀ (ne_of_gt (ho ⟨1, he⟩ x)) hc) (ne_of_gt (hlt y hy))
  obtain ⟨Gs, h1, h2⟩ := C117_sparsest it A hn hac hp (by omega) I c (genGamma sparse dr) (fun k => k.elim0) (genOmegas it I true dr) ho hconst
    hch (genPsis true dr) μ hμ
  refine ⟨Gs, h1, ?_⟩
  filter_upwards [h2] with W hW
  obtain ⟨m, C, k1, k2, k3⟩ := hW
  refine ⟨m, C, ?_, k2, k3⟩
  rw [sampleParameters_ok it hn sparse true _ hac, hT, ← k1]
  · have hB : (Matrix.of (fun i j => (A i j : ℝ) * W (i, j)) : Matrix (Fin p) (Fin p) ℝ) =
        Matrix.of (fun i j => if A i j = 0 then 0 else W (i, j)) := by
      ext i j
      rcases hA i j with h | h <;> simp [h]
    have hO : genOmegas it I true { dr with weights := fun i j => W (i, j) } = genOmegas it I true dr := by
      ext k j
      rw [genOmegas_obs it I _ he, genOmegas_obs it I _ he]
    have hP : genPsis true { dr with weights := fun i j => W (i, j) } = genPsis true dr := by
      ext k i
      exact i.elim0
    rw [← hB, mkModel_eq_ok hn _ _ _ hac, hO, hP]
    · rfl
    · intro i j h
      simp [h]
  · intro z hz
    rw [Finset.mem_image] at hz
    obtain ⟨i, -, rfl⟩ := hz
    exact ⟨by positivity, by exact_mod_cast i.2⟩

/-! ### Examples -/

/-- Independent uniform draws of the weights have a density: the theorems apply to them. -/
example (lo hi : ℝ) : Measure.pi (fun _ : Fin p × Fin p => (volume : Measure ℝ).restrict (Set.Icc lo hi)) ≪ volume := by
  rw [← Measure.restrict_pi_pi]
  exact Measure.restrict_le_self.absolutelyContinuous

/-- `0 → 1 → 2` and `0 → 2`. -/
def exTriangle : Adj 3 := ![![0, 1, 1], ![0, 0, 1], ![0, 0, 0]]

theorem exTriangle_acyclic : Acyclic exTriangle := (isDag_iff (SetIter.incr 3) (by unfold Nonneg; decide +kernel)).1 (by decide +kernel)

/-- "Almost all" cannot be dropped: with weights 1, 1 and -1 the two paths from 0 to 2 cancel, and the variables are uncorrelated although
they are adjacent. -/
example : ∃ m C, mkModel (SetIter.incr 3) exTriangle !![0, 1, -1; 0, 0, 1; 0, 0, 0] (0 : Matrix (Fin 1) (Fin 3) ℝ)
    (fun (_ : Fin 1) _ => 1) (fun _ _ => 1) = .ok m ∧ m.covariances = .ok C ∧ UncorrelatedGiven (C 0) ∅ 0 2 ∧
    ¬ DSeparated (Edge exTriangle) ∅ 0 2 := by
  have hA : Nonneg exTriangle := by unfold Nonneg; decide +kernel
  have hB : Respects exTriangle !![0, 1, -1; 0, 0, 1; 0, 0, 0] := by
    intro i j h
    fin_cases i <;> fin_cases j <;> simp_all [exTriangle]
  have hm := mkModel_eq_ok (it := SetIter.incr 3) hA (0 : Matrix (Fin 1) (Fin 3) ℝ) (fun (_ : Fin 1) _ => 1) (fun _ _ => 1) exTriangle_acyclic hB
  obtain ⟨_, C, hC, hE⟩ := C35_covariances _ _ hA _ _ _ _ _ hm
  have h0 : C 0 = !![1, 1, 0; 1, 2, 1; 0, 1, 2] := by
    refine ((hE 0).2 _ ?_).symm
    unfold Entails
    ext i j
    fin_cases i <;> fin_cases j <;> simp [Matrix.mul_apply, Fin.sum_univ_three, noiseCov, Matrix.one_apply] <;> norm_num
  refine ⟨_, C, hm, hC, ⟨0, ⟨fun _ _ => rfl, fun z hz => absurd hz (Finset.notMem_empty z)⟩, fun β hβ => funext (fun i => hβ.1 i (by simp)), ?_⟩, ?_⟩
  · rw [h0]
    simp
  · intro h
    exact h (dconnected_of_adjacent (by decide) (Or.inl (by decide : exTriangle 0 2 ≠ 0)))

/-- The weights of the triangle: for almost all of them the only DAGs with at most three edges that entail the covariances are complete, and with
an intervention on 1 the parents of 1 are known. -/
example : ∃ Gs, imec (SetIter.incr 3) exTriangle ((({1} : Finset (Fin 3))).image (fun i : Fin 3 => (i.val : Int))) false = .ok Gs ∧
    ∀ᵐ W : Fin 3 × Fin 3 → ℝ, ∃ m C, mkModel (SetIter.incr 3) exTriangle (Matrix.of (fun i j => if exTriangle i j = 0 then 0 else W (i, j)))
      (0 : Matrix (Fin 0) (Fin 3) ℝ) (![![1, 1, 1], ![1, 5, 1]] : Matrix (Fin 2) (Fin 3) ℝ) 0 = .ok m ∧ m.covariances = .ok C ∧
      ∀ H : Adj 3, ZeroOne H → (Sparsest H C ↔ H ∈ Gs) := by
  refine C117_sparsest (SetIter.incr 3) exTriangle (by unfold Nonneg; decide +kernel) exTriangle_acyclic (by norm_num) (by norm_num) {1} false 0
    (fun _ _ => rfl) _ ?_ ?_ ?_ 0 volume Measure.AbsolutelyContinuous.rfl
  · intro k i
    fin_cases k <;> fin_cases i <;> simp
  · intro k k' i hi
    fin_cases k <;> fin_cases k' <;> fin_cases i <;> simp at hi ⊢
  · intro x y hxy hor
    refine ⟨0, 1, ?_⟩
    fin_cases x <;> fin_cases y <;> simp [exTriangle, Edge] at hxy hor ⊢

/-- `ChangeDifferently` cannot be dropped: if the variances of both variables of `0 → 1` are multiplied by the same factor, the reversed edge
entails the covariances as well, although both are targets and `imec` returns a single graph. -/
example (b : ℝ) : FitsAll (![![0, 0], ![1, 0]] : Adj 2)
    (fun k : Fin 2 => semC (Edge (![![0, 1], ![0, 0]] : Adj 2)) (![![1, 1], ![3, 3]] k) (fun _ => b)) := by
  have hac : Acyclic (![![0, 1], ![0, 0]] : Adj 2) := (isDag_iff (SetIter.incr 2) (by unfold Nonneg; decide +kernel)).1 (by decide +kernel)
  have hpos : ∀ k i, (0 : ℝ) < (![![1, 1], ![3, 3]] : Fin 2 → Fin 2 → ℝ) k i := by
    intro k i
    fin_cases k <;> fin_cases i <;> simp
  have hb : (1 : ℝ) + b ^ 2 ≠ 0 := by positivity
  have hC : ∀ k : Fin 2, semC (Edge (![![0, 1], ![0, 0]] : Adj 2)) (![![1, 1], ![3, 3]] k) (fun _ => b) =
      (![(1 : ℝ), 3] k) • !![1, b; b, 1 + b ^ 2] := by
    intro k
    have h1 : Entails (semB (Edge (![![0, 1], ![0, 0]] : Adj 2)) (fun _ => b)) (Matrix.diagonal (![![1, 1], ![3, 3]] k)) _ :=
      (sem_linear hac (hpos k) (fun _ => b)).eqs
    have hdet := semB_det hac (fun _ => b)
    have hu : IsUnit (1 - (semB (Edge (![![0, 1], ![0, 0]] : Adj 2)) (fun _ => b))ᵀ).det := by rw [hdet]; exact isUnit_one
    have h2 : Entails (semB (Edge (![![0, 1], ![0, 0]] : Adj 2)) (fun _ => b)) (Matrix.diagonal (![![1, 1], ![3, 3]] k))
        ((![(1 : ℝ), 3] k) • !![1, b; b, 1 + b ^ 2]) := by
      unfold Entails
      rw [semB_eq]
      ext i j
      fin_cases k <;> fin_cases i <;> fin_cases j <;> simp [Matrix.mul_apply, Fin.sum_univ_two, Matrix.one_apply] <;> ring
    unfold Entails at h1 h2
    have h3 := h1.trans h2.symm
    have hut : IsUnit ((1 - (semB (Edge (![![0, 1], ![0, 0]] : Adj 2)) (fun _ => b))ᵀ)ᵀ).det := by rw [Matrix.det_transpose]; exact hu
    rw [← Matrix.isUnit_iff_isUnit_det] at hu hut
    exact hu.mul_left_cancel (hut.mul_right_cancel h3)
  refine ⟨!![0, 0; b / (1 + b ^ 2), 0], fun k => ![(![(1 : ℝ), 3] k) / (1 + b ^ 2), (![(1 : ℝ), 3] k) * (1 + b ^ 2)], ?_, ?_, ?_⟩
  · intro i j h
    fin_cases i <;> fin_cases j <;> simp [Edge] at h ⊢
  · intro k i
    fin_cases k <;> fin_cases i <;> simp <;> positivity
  · intro k
    beta_reduce
    rw [hC]
    unfold Entails
    ext i j
    fin_cases k <;> fin_cases i <;> fin_cases j <;> simp [Matrix.mul_apply, Fin.sum_univ_two, Matrix.one_apply] <;> field_simp <;> ring

end Verif
