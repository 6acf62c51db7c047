import Verif.Props.LastEnv
import Verif.Props.Inconsistent

/-!
# C122: the returned graph describes the last environment

Without latents, with more than one environment: only the last environment has a weight in the score that does not vanish (C37), and the returned
graph can entail its covariance.
-/

namespace Verif

open Spec Matrix

variable {p e : Nat}

/-- The score, on further data, of parameters that are close to the truth in the sense of `fit_tracks`. -/
theorem tracked_score {A : Adj p} (hac : Acyclic A) {B : Matrix (Fin p) (Fin p) ℝ} (hB : Respects A B) {w : Fin e → Fin p → ℝ}
    (hw : ∀ k i, 0 < w k i) {C : Fin e → Matrix (Fin p) (Fin p) ℝ} (hC : ∀ k, Entails B (Matrix.diagonal (w k)) (C k)) {ρ K η : ℝ} (hρ : 0 < ρ) (hK : 0 < K)
    (hη : 0 < η) :
    ∃ θ > 0, ∀ (S : Fin e → Matrix (Fin p) (Fin p) ℝ) (B' : Matrix (Fin p) (Fin p) ℝ) (o : Fin e → Fin p → ℝ) (a a' : Fin e → ℝ), (∀ k, (S k).PosDef) →
      Within θ C S → (∀ i j, |B' i j - B i j| < θ) → (∀ k j, 0 < o k j) → (∀ k, 0 < a' k) → (∀ k, a' k ≤ K * a k) → ∑ k, a k ≤ 1 →
      ρ ≤ ∑ k, a' k → phiSum a w o ≤ θ * ∑ k, a k →
      ∑ k, a' k * ∑ j, nll (o k j) (residualVar (S k) j (fun i => B' i j)) ≤ ∑ k, a' k * (Real.log (S k).det + p) + η * ∑ k, a' k := by
  have hdet := det_one_sub_transpose hac hB
  have hCp : ∀ k, (C k).PosDef := fun k => entails_pd hdet (Matrix.PosDef.diagonal (hw k)) (hC k)
  have hCs : ∀ k a b, C k a b = C k b a := fun k a b => (congrFun (congrFun (hCp k).1 a) b).symm
  obtain ⟨τ, hτdef⟩ : ∃ τ : ℝ, τ = min (1 / 4) (η / (16 * (p + 1))) := ⟨_, rfl⟩
  have hτ : 0 < τ := by rw [hτdef]; exact lt_min (by norm_num) (by positivity)
  have hτ1 : τ ≤ 1 / 4 := by rw [hτdef]; exact min_le_left _ _
  have hτ2 : τ * p ≤ η / 16 := by
    have h1 : τ ≤ η / (16 * (p + 1)) := by rw [hτdef]; exact min_le_right _ _
    rw [le_div_iff₀ (by positivity)] at h1
    nlinarith
  obtain ⟨δ₁, hδ₁, hres⟩ := residual_near hw hCs hC hτ
  obtain ⟨δ₂, hδ₂, hexc⟩ := excess_of_near hCp (η := η / 4) (by positivity)
  refine ⟨min (min δ₁ δ₂) (ρ * η / (8 * K)), lt_min (lt_min hδ₁ hδ₂) (by positivity), ?_⟩
  intro S B' o a a' hS hwithin hclose ho ha' haK ha1 hρa hphi
  have hSs : ∀ k a b, S k a b = S k b a := fun k a b => (congrFun (congrFun (hS k).1 a) b).symm
  have m1 : min (min δ₁ δ₂) (ρ * η / (8 * K)) ≤ δ₁ := (min_le_left _ _).trans (min_le_left _ _)
  have m2 : min (min δ₁ δ₂) (ρ * η / (8 * K)) ≤ δ₂ := (min_le_left _ _).trans (min_le_right _ _)
  have m3 : min (min δ₁ δ₂) (ρ * η / (8 * K)) ≤ ρ * η / (8 * K) := min_le_right _ _
  have hr := hres S B' (hwithin.mono m1) fun i j => (hclose i j).trans_le m1
  have ha0 : ∀ k, 0 ≤ a k := fun k => by
    by_contra hc
    push Not at hc
    nlinarith [haK k, ha' k, mul_neg_of_pos_of_neg hK hc]
  have hsa0 : 0 ≤ ∑ k, a k := Finset.sum_nonneg fun k _ => ha0 k
  -- the entropy
  have hent : ∀ k, ∑ j, (1 + Real.log (w k j)) ≤ Real.log (S k).det + p + η / 4 + τ * p := by
    intro k
    have h1 := (hexc S C (hwithin.mono m2) (fun k i j => by simpa using hδ₂) k).le
    rw [gaussNLL_diagonal hac hB (hSs k) (hw k) (hC k)] at h1
    have h2 := hres S B (hwithin.mono m1) (fun i j => by simpa using hδ₁) k
    have h3 : ∑ j, (1 + Real.log (w k j)) - τ * p ≤ ∑ j, (Real.log (w k j) + residualVar (S k) j (fun i => B i j) / w k j) := by
      have : ∑ j, (1 + Real.log (w k j)) - τ * p = ∑ j, (1 + Real.log (w k j) - τ) := by
        rw [Finset.sum_sub_distrib]
        simp [mul_comm]
      rw [this]
      refine Finset.sum_le_sum fun j _ => ?_
      have h4 : 1 - τ ≤ residualVar (S k) j (fun i => B i j) / w k j := by
        rw [le_div_iff₀ (hw k j)]
        nlinarith [(abs_le.1 (h2 j)).1]
      linarith
    linarith
  -- the excess with the weights of the other data
  have hphi' : phiSum a' w o ≤ η / 8 * ∑ k, a' k := by
    have h1 : phiSum a' w o ≤ K * phiSum a w o := by
      unfold phiSum
      rw [Finset.mul_sum]
      refine Finset.sum_le_sum fun k _ => ?_
      rw [← mul_assoc]
      exact mul_le_mul_of_nonneg_right (haK k) (Finset.sum_nonneg fun j _ => phi_nonneg (div_pos (hw k j) (ho k j)))
    have h2 : phiSum a w o ≤ ρ * η / (8 * K) := by
      refine hphi.trans ((mul_le_mul_of_nonneg_right m3 hsa0).trans ?_)
      have : 0 ≤ ρ * η / (8 * K) := by positivity
      nlinarith
    have h3 : K * (ρ * η / (8 * K)) = η / 8 * ρ := by
      field_simp
    have h4 := mul_le_mul_of_nonneg_left h2 hK.le
    have h5 : η / 8 * ρ ≤ η / 8 * ∑ k, a' k := mul_le_mul_of_nonneg_left hρa (by positivity)
    linarith
  have h1 := (abs_le.1 (nll_sum_phi ha' hw ho hr)).2
  have h2 := mul_le_mul_of_nonneg_left (ratio_sum ha' hw ho) hτ.le
  have h3 : ∑ k, a' k * ∑ j, (1 + Real.log (w k j)) ≤ ∑ k, a' k * (Real.log (S k).det + p) + (η / 4 + τ * p) * ∑ k, a' k := by
    rw [Finset.mul_sum, ← Finset.sum_add_distrib]
    refine Finset.sum_le_sum fun k _ => ?_
    have := mul_le_mul_of_nonneg_left (hent k) (ha' k).le
    linarith
  have hs0 : 0 ≤ ∑ k, a' k := Finset.sum_nonneg fun k _ => (ha' k).le
  have h4 : τ * p * ∑ k, a' k ≤ η / 16 * ∑ k, a' k := mul_le_mul_of_nonneg_right hτ2 hs0
  have h5 : τ * phiSum a' w o ≤ 1 / 4 * phiSum a' w o := mul_le_mul_of_nonneg_right hτ1 (phiSum_nonneg ha' hw ho)
  nlinarith

/-- Sample sizes of two data sets that differ by a bounded factor. -/
def Spec.Comparable (κ : ℝ) (n n' : Fin e → Nat) : Prop := ∀ k, κ * n k ≤ n' k ∧ κ * n' k ≤ n k

theorem comparable_weights (he : 0 < e) {κ : ℝ} (hκ : 0 < κ) (hκ1 : κ ≤ 1) {n n' : Fin e → Nat} (hn : ∀ k, 0 < n k) (h : Comparable κ n n')
    (k : Fin e) : codeWeight n' k ≤ (κ ^ (e + 1))⁻¹ * codeWeight n k := by
  have hN : (0 : ℝ) < ∑ k, (n k : ℝ) := Finset.sum_pos (fun k _ => by exact_mod_cast hn k) ⟨⟨0, he⟩, Finset.mem_univ _⟩
  have h1 : κ * ∑ k, (n k : ℝ) ≤ ∑ k, (n' k : ℝ) := by
    rw [Finset.mul_sum]
    exact Finset.sum_le_sum fun k _ => (h k).1
  have hN' : (0 : ℝ) < ∑ k, (n' k : ℝ) := lt_of_lt_of_le (by positivity) h1
  have h2 : (n' k : ℝ) ≤ n k / κ := by
    rw [le_div_iff₀ hκ]
    linarith [(h k).2]
  unfold codeWeight
  calc (n' k : ℝ) / (∑ k, (n' k : ℝ)) ^ (e - k.val) ≤ (n k / κ) / (κ * ∑ k, (n k : ℝ)) ^ (e - k.val) :=
        div_le_div₀ (by positivity) h2 (by positivity) (pow_le_pow_left₀ (by positivity) h1 _)
    _ = (κ ^ (e - k.val + 1))⁻¹ * (n k / (∑ k, (n k : ℝ)) ^ (e - k.val)) := by
        rw [mul_pow, pow_succ]
        field_simp
    _ ≤ (κ ^ (e + 1))⁻¹ * (n k / (∑ k, (n k : ℝ)) ^ (e - k.val)) := by
        refine mul_le_mul_of_nonneg_right ?_ (by positivity)
        exact inv_anti₀ (by positivity) (pow_le_pow_of_le_one hκ.le hκ1 (by omega))

/-! ## Runs -/

/-- The environment of the code with the convex solver: sample covariances, argsort, `score_dag` with exact numerical libraries and at most `T`
iterations. -/
structure Spec.ExactEnv (T : Nat) (E : FitEnv p e) : Prop where
  cov : E.cov = npCov
  argsort : ∀ f, IsArgsort f (E.argsort f)
  fit : ∃ (svd : Matrix (Fin p) (Fin p) ℝ → Matrix (Fin p) (Fin p) ℝ × (Fin p → ℝ)) (num : NumLib p e) (cfg : ScoreCfg)
    (u v : Nat → Nat → Nat → Fin (p * p) → ℝ), E.fit = codeFit E.it svd num cfg u v ∧ cfg.solver = .cvx ∧ GoodSqrt num.sqrtm ∧
      (∀ A Ms d, CvxOptimal num A Ms d 0) ∧ cfg.stop.maxIter ≤ T ∧
      0 < cfg.thresholdScore ∧ (∀ x, cfg.psiMax = some x → 1 < x) ∧ 0 < cfg.stop.maxIter ∧ 0 < cfg.stop.maxFluctuations

/-- The models of a class entail, in one environment, what the models for one environment do. -/
theorem entailedWith_one {l : Nat} {A : Adj p} {D : Fin e → Matrix (Fin p) (Fin p) ℝ} (h : EntailedWith l Finset.univ A D) (k : Fin e) :
    EntailedWith l Finset.univ A (fun _ : Fin 1 => D k) := by
  obtain ⟨hac, B, gamma, w, psis, h1, h2, h3, -, h5⟩ := h
  exact ⟨hac, B, gamma, fun _ => w k, fun _ => psis k, h1, fun _ i => h2 k i, fun _ i => h3 k i, fun _ _ i hi => absurd (Finset.mem_univ i) hi, fun _ => h5 k⟩

/-- C122: a run on data close to `C`, of which the last environment has at least the share `ρ` in the fold for the graphs.  If some candidate can
entail `C` without latents, and zero is among the numbers of latents, then the returned graph approximates the covariance of the last environment
with the returned number of latents. -/
theorem C122_returned (candidates : List (Adj p)) (hG : ∀ G ∈ candidates, Nonneg G) (ns : List Nat) (hns : 0 ∈ ns) (C : Fin e → Matrix (Fin p) (Fin p) ℝ)
    {k0 : Fin e} (hk0 : k0.val + 1 = e) (G : Adj p) (hGm : G ∈ candidates) (hac : Acyclic G) (hent : EntailedBy Finset.univ G C) (T : Nat) {ρ κ : ℝ} (hρ : 0 < ρ)
    (hκ : 0 < κ) (hκ1 : κ ≤ 1) :
    ∃ δ > 0, ∀ (E : FitEnv p e) (data : Fin e → Sample p) (solverKnown pruneEdges : Bool) (folds : List Rat) (rs : Int)
      (training testG testI : List (Sample p)) (P : Adj p) (I : Finset (Fin p)) (m : AnyModel p e), ExactEnv T E →
      splitData (E.rng 42) (List.ofFn data) folds = .ok [training, testG, testI] →
      (∀ k : Fin e, 0 < (training.getD k []).length ∧ 0 < (testG.getD k []).length) →
      Comparable κ (fun k : Fin e => (training.getD k []).length) (fun k => (testG.getD k []).length) →
      ρ * ∑ k : Fin e, ((testG.getD k []).length : ℝ) ≤ (testG.getD k0 []).length →
      (∀ f ∈ [training, testG], (∀ k : Fin e, (npCov (f.getD k [])).PosDef) ∧ Within δ C fun k => npCov (f.getD k [])) →
      equivalenceClass E candidates data solverKnown pruneEdges (some ns) folds rs = .ok (P, I, m) →
      Approximates m.1 Finset.univ m.A (fun _ : Fin 1 => C k0) := by
  have he : 0 < e := by omega
  obtain ⟨B, w, hB, hw, -, hCe⟩ := hent
  -- the classes of models that a run can consider
  let cls : (Fin candidates.length × (Fin p → Fin p → Bool) × Fin ns.length) → Nat × Adj p :=
    fun x => (ns.get x.2.2, fun i j => if x.2.1 i j then candidates.get x.1 i j else 0)
  obtain ⟨η, hη, hsep⟩ := exists_uniform (ι := Fin candidates.length × (Fin p → Fin p → Bool) × Fin ns.length)
    (P := fun c η => ¬ Approximates (cls c).1 Finset.univ (cls c).2 (fun _ : Fin 1 => C k0) → ∀ S : Matrix (Fin p) (Fin p) ℝ, S.PosDef →
      (∀ i j, |S i j - C k0 i j| < η) → ∀ D : Fin e → Matrix (Fin p) (Fin p) ℝ, EntailedWith (cls c).1 Finset.univ (cls c).2 D →
      Real.log S.det + p + η < gaussNLL (D k0) S) (fun c => by
      by_cases hna : Approximates (cls c).1 Finset.univ (cls c).2 (fun _ : Fin 1 => C k0)
      · exact ⟨1, one_pos, fun hc => absurd hna hc⟩
      obtain ⟨η, hη, δ, hδ, h1⟩ := C113_margin hna
      refine ⟨min η δ, lt_min hη hδ, fun _ S hS hw D hD => ?_⟩
      obtain ⟨-, h2⟩ := h1 (fun _ => S) (fun _ => hS) (fun _ i j => (hw i j).trans_le (min_le_right _ _)) _ (entailedWith_one hD k0)
      exact lt_of_le_of_lt (by linarith [min_le_left η δ]) h2) (fun c η η' _ hle h hna S hS hw D hD => by
      have := h hna S hS (fun i j => (hw i j).trans_le hle) D hD
      linarith)
  obtain ⟨θ, hθ, hscore⟩ := tracked_score hac hB hw hCe (ρ := ρ) (K := (κ ^ (e + 1))⁻¹) (η := ρ * η / 2) hρ (by positivity) (by positivity)
  obtain ⟨δ, hδ, htr⟩ := fit_tracks (hG G hGm) hac hB hw hCe (I := Finset.univ) (fun _ _ i hi => absurd (Finset.mem_univ i) hi) T hθ
  refine ⟨min (min δ θ) η, lt_min (lt_min hδ hθ) hη, ?_⟩
  intro E data solverKnown pruneEdges folds rs training testG testI P I m hE hsplit hlen hcomp hshare hcov h
  obtain ⟨svd, num, cfg, u, v, hEfit, hcvx, hsqrt, hopt, hT, -⟩ := hE.fit
  have hfit : ∀ d h, GoodFit (E.fit d h) := fun d h => by
    rw [hEfit]
    exact codeFit_good _ _ _ _ _ _ _ _ (fun hc => by rw [hcvx] at hc; cases hc)
  have hproper : ∀ d h, ProperFit E.it (E.fit d h) := fun d h => by
    rw [hEfit]
    exact codeFit_proper _ _ _ _ _ _ _ _ (fun hc => by rw [hcvx] at hc; cases hc)
  have hlat : ∀ d h n A I m s, E.fit d h n A I = .ok (m, s) → m.1 = h := fun d h n A I m s hm => by
    rw [hEfit] at hm
    exact codeFit_latents hm
  have hsepA : ∀ n ∈ ns, ∀ (A G' : Adj p), G' ∈ candidates → Subgraph A G' → ¬ Approximates n Finset.univ A (fun _ : Fin 1 => C k0) →
      ∀ S : Matrix (Fin p) (Fin p) ℝ, S.PosDef → (∀ i j, |S i j - C k0 i j| < η) → ∀ D : Fin e → Matrix (Fin p) (Fin p) ℝ, EntailedWith n Finset.univ A D →
      Real.log S.det + p + η < gaussNLL (D k0) S := by
    intro n hn A G' hG' hsub
    obtain ⟨a, ha⟩ := List.get_of_mem hn
    obtain ⟨b, hb⟩ := List.get_of_mem hG'
    have hc : cls (b, fun i j => decide (A i j = G' i j), a) = (n, A) := by
      simp only [cls, ha, hb, Prod.mk.injEq, true_and, decide_eq_true_eq]
      funext i j
      rcases hsub i j with hc | hc
      · rw [if_pos hc, hc]
      · split_ifs with hd
        · exact hd.symm
        · exact hc.symm
    have := hsep (b, fun i j => decide (A i j = G' i j), a)
    rw [hc] at this
    exact this
  obtain ⟨s, hmain⟩ : ∃ s, fitMain E data solverKnown (some ns) pruneEdges folds none none (some candidates) 42 = .ok (m, I, s) := by
    unfold equivalenceClass withIcpdag at h
    split at h
    · simp at h
    · rename_i m' I' s' hm'
      split at h
      · simp at h
      · cases h
        exact ⟨_, hm'⟩
  obtain ⟨t1, t2, t3, graphs, ns', z1, z2, z3, z4⟩ := fitMain_spec hfit hlat hE.argsort hmain
  rw [hsplit] at z1
  cases z1
  cases z2
  cases z3
  obtain ⟨q1, ⟨G', g1, g2, -⟩, -, -, ⟨sc, v1, v2⟩, -⟩ := z4 hG
  obtain ⟨d, hd⟩ : ∃ d, d = foldData E.cov training e := ⟨_, rfl⟩
  obtain ⟨t, ht⟩ : ∃ t, t = foldData E.cov testG e := ⟨_, rfl⟩
  rw [← hd, ← ht] at v1 v2
  have hdp : (∀ k, (d.covs k).PosDef) ∧ Within (min (min δ θ) η) C d.covs := by
    rw [hd, hE.cov]
    exact hcov _ (by simp)
  have htp : (∀ k, (t.covs k).PosDef) ∧ Within (min (min δ θ) η) C t.covs := by
    rw [ht, hE.cov]
    exact hcov _ (by simp)
  have hdn : ∀ k, 0 < d.nObs k := by rw [hd]; exact fun k => (hlen k).1
  have htn : ∀ k, 0 < t.nObs k := by rw [ht]; exact fun k => (hlen k).2
  have hcomp' : Comparable κ d.nObs t.nObs := by rw [hd, ht]; exact hcomp
  have hshare' : ρ * ∑ k, (t.nObs k : ℝ) ≤ t.nObs k0 := by rw [ht]; exact hshare
  have hgood : GoodData d := ⟨hdp.1, hdn, he⟩
  have hts : ∀ k a b, t.covs k a b = t.covs k b a := fun k a b => (congrFun (congrFun (htp.1 k).1 a) b).symm
  have hN : ∑ k, t.nObs k ≠ 0 := (Finset.sum_pos (fun k _ => htn k) ⟨⟨0, he⟩, Finset.mem_univ _⟩).ne'
  have hapos := codeWeight_pos he htn
  have hlast : ρ ≤ codeWeight t.nObs k0 := by
    rw [codeWeight_last hk0]
    exact (le_div_iff₀ (Finset.sum_pos (fun k _ => by exact_mod_cast htn k) ⟨⟨0, he⟩, Finset.mem_univ _⟩)).2 hshare'
  have hsum : ρ ≤ ∑ k, codeWeight t.nObs k :=
    hlast.trans (Finset.single_le_sum (f := fun k => codeWeight t.nObs k) (fun k _ => (hapos k).le) (Finset.mem_univ k0))
  -- all models
  have hmod : ∀ n ∈ ns, ∀ A m' s', Nonneg A → FittedTo E.it (E.fit d n) A Finset.univ m' s' → ∃ D, EntailedWith n Finset.univ A D ∧
      m'.scoreOn t = .ok (some (codeNLL t.nObs D t.covs)) := by
    intro n hn A m' s' hA hf
    obtain ⟨B1, hprop⟩ := properFit_fitted (hproper d n) hA hf
    have hA' : m'.A = A := (hf.good (hfit d n)).1
    have hl' : m'.1 = n := fitted_latents (hlat d n) hf
    obtain ⟨D, hDc⟩ : ∃ D, ({ m'.2 with B := B1 } : LModel p m'.1 e).covariances = .ok D := by
      obtain ⟨A2, B2, g2, o2, p2, k1, k2, -, -⟩ := hprop
      obtain ⟨-, D, hD, -⟩ := C35_covariances E.it A2 k1 B2 g2 o2 p2 _ k2
      exact ⟨D, hD⟩
    have hent : EntailedWith m'.1 Finset.univ m'.A D := proper_entailed hprop (I := Finset.univ) (fun _ _ i hi => absurd (Finset.mem_univ i) hi) hDc
    rw [hl', hA'] at hent
    refine ⟨D, hent, ?_⟩
    obtain ⟨A1, B1, g1, o1, p1, k1, k2, k3, k4⟩ := hprop
    have := C37_actual_score E.it A1 k1 B1 g1 o1 p1 _ k2 k3 k4 t.nObs hN t.covs D hDc
    rw [score_upToB] at this
    exact this
  -- the fit to the candidate that can entail the covariances
  have hcand : ∀ m' s', FittedTo E.it (E.fit d 0) G Finset.univ m' s' → ∃ x, m'.scoreOn t = .ok (some x) ∧
      x ≤ ∑ k, codeWeight t.nObs k * (Real.log (t.covs k).det + p) + ρ * η / 2 * ∑ k, codeWeight t.nObs k := by
    intro m' s' hf
    obtain ⟨n, m1, f1, f2⟩ := hf
    rw [hEfit] at f1
    unfold codeFit at f1
    split at f1
    · simp at f1
    rename_i m2 s2 f3
    cases f1
    obtain ⟨c1, ⟨B1, c2, c3, c4⟩, c5, c6, c7, c8⟩ := htr E.it svd num cfg d (u 0 n) (v 0 n) m2 s' hsqrt hcvx hT hgood (fun Ms => hopt G Ms d)
      (hdp.2.mono ((min_le_left _ _).trans (min_le_left _ _))) f3
    have hbound : ∀ B' : Matrix (Fin p) (Fin p) ℝ, (∀ i j, |B' i j - B i j| < θ) →
        ∑ k, codeWeight t.nObs k * ∑ j, nll (m2.omegas k j) (residualVar (t.covs k) j (fun i => B' i j)) ≤
          ∑ k, codeWeight t.nObs k * (Real.log (t.covs k).det + p) + ρ * η / 2 * ∑ k, codeWeight t.nObs k := fun B' hB' =>
      hscore t.covs B' m2.omegas (codeWeight d.nObs) (codeWeight t.nObs) htp.1 (htp.2.mono ((min_le_left _ _).trans (min_le_right _ _))) hB' c7 hapos
        (comparable_weights he hκ hκ1 hdn hcomp') (codeWeight_sum_le he hdn) hsum c8
    rcases f2 with rfl | f2
    · have e1 := mkModel_eq_ok (it := E.it) (hG G hGm) m2.gamma m2.omegas m2.psis hac c2
      have e2 := score_nll (hG G hGm) hac c2 c7 htn he hts e1
      have e3 : (⟨G, B1, m2.gamma, m2.omegas, m2.psis, 1 - B1ᵀ⟩ : LModel p 0 e) = { m2 with B := B1 } := by rw [← c3, ← c1]
      rw [e3] at e2
      refine ⟨_, ?_, hbound B1 c4⟩
      have e4 : ({ m2 with B := B1 } : LModel p 0 e).scoreOn t = m2.scoreOn t := by
        unfold LModel.scoreOn
        rw [score_upToB]
      rw [e4] at e2
      exact e2
    · unfold AnyModel.copy LModel.copy at f2
      simp only [c1] at f2
      rw [mkModel_eq_ok (it := E.it) (hG G hGm) m2.gamma m2.omegas m2.psis hac c5] at f2
      cases f2
      exact ⟨_, score_nll (hG G hGm) hac c5 c7 htn he hts (mkModel_eq_ok (it := E.it) (hG G hGm) m2.gamma m2.omegas m2.psis hac c5), hbound m2.B c6⟩
  -- the graph phase
  have hval : ∀ n ∈ ns, ∀ sc A, Validation E.it (E.fit d n) pruneEdges candidates t sc A →
      ∃ x D, sc = some x ∧ EntailedWith n Finset.univ A D ∧ x = codeNLL t.nObs D t.covs ∧
        (n = 0 → x ≤ ∑ k, codeWeight t.nObs k * (Real.log (t.covs k).det + p) + ρ * η / 2 * ∑ k, codeWeight t.nObs k) := by
    rintro n hn sc A ⟨ms, ob, y1, ⟨mm, y2, y3, y4⟩, y5⟩
    obtain ⟨w1, w2⟩ := pruneGraphs_models (hfit d n) hG (ScoreObj.ok_new E.it _ 0) y1
    obtain ⟨w3, s', w4⟩ := w2 mm y2
    obtain ⟨D, e1, e3⟩ := hmod n hn _ _ _ w3 w4
    rw [y4] at e3
    cases e3
    refine ⟨_, D, rfl, by rw [← y3]; exact e1, rfl, fun hn0 => ?_⟩
    subst hn0
    obtain ⟨m', hm', hm'A⟩ := w1 G hGm
    obtain ⟨s', l1, l2⟩ := y5 m' hm'
    obtain ⟨-, s'', w6⟩ := w2 m' hm'
    rw [hm'A] at w6
    obtain ⟨x, f1, f2⟩ := hcand m' s'' w6
    rw [l1] at f1
    cases f1
    rcases l2 with l2 | ⟨x, y, l2, l3, l4⟩
    · simp at l2
    · cases l2
      cases l3
      exact l4.trans f2
  have hall := v2 (fun n hn sc A hv => by
    obtain ⟨x, D, rfl, -⟩ := hval n hn sc A hv
    simp)
  by_contra hna
  obtain ⟨x, D, rfl, e1, e2, -⟩ := hval _ q1 _ _ v1
  obtain ⟨x', y, A, r1, r2, r3⟩ := hall 0 hns
  cases r1
  obtain ⟨y', D', e3, -, -, e5⟩ := hval _ hns _ _ r2
  cases e3
  have e6 := e5 rfl
  have e8 : x ≤ y := by
    rcases r3 with r3 | ⟨r3, -⟩
    · exact r3.le
    · exact r3.le
  have e9 := hsepA _ q1 _ _ g1 g2 hna (t.covs k0) (htp.1 k0) (fun i j => (htp.2 k0 i j).trans_le (min_le_right _ _)) D e1
  have e10 : ∑ k, codeWeight t.nObs k * (Real.log (t.covs k).det + p) + codeWeight t.nObs k0 * η ≤ codeNLL t.nObs D t.covs := by
    rw [codeNLL_eq]
    calc ∑ k, codeWeight t.nObs k * (Real.log (t.covs k).det + p) + codeWeight t.nObs k0 * η
        = ∑ k, (codeWeight t.nObs k * (Real.log (t.covs k).det + p) + if k = k0 then codeWeight t.nObs k0 * η else 0) := by
          rw [Finset.sum_add_distrib]
          simp
      _ ≤ _ := by
          refine Finset.sum_le_sum fun k _ => ?_
          split_ifs with hk
          · subst hk
            have := mul_le_mul_of_nonneg_left e9.le (hapos k).le
            linarith [mul_add (codeWeight t.nObs k) (Real.log (t.covs k).det + p) η]
          · rw [add_zero]
            exact mul_le_mul_of_nonneg_left (gaussNLL_ge (e1.posDef k) (htp.1 k)).1 (hapos k).le
  have e11 := mul_le_mul_of_nonneg_right hlast hη.le
  have e12 : ρ * η / 2 * ∑ k, codeWeight t.nObs k ≤ ρ * η / 2 := mul_le_of_le_one_right (by positivity) (codeWeight_sum_le he htn)
  have e13 : 0 < ρ * η := mul_pos hρ hη
  linarith

/-! ## Parameters -/

/-- The parameters `(B, w)` of a model without latents over `A` that entails `C`. -/
structure Spec.Truth (A : Adj p) (C : Fin e → Matrix (Fin p) (Fin p) ℝ) (B : Matrix (Fin p) (Fin p) ℝ) (w : Fin e → Fin p → ℝ) : Prop where
  respects : Respects A B
  pos : ∀ k i, 0 < w k i
  entails : ∀ k, Entails B (Matrix.diagonal (w k)) (C k)

/-- There is at most one such model. -/
theorem truth_unique {A : Adj p} (hac : Acyclic A) {C : Fin e → Matrix (Fin p) (Fin p) ℝ} (he : 0 < e) {B B' : Matrix (Fin p) (Fin p) ℝ} {w w' : Fin e → Fin p → ℝ}
    (h : Truth A C B w) (h' : Truth A C B' w') : B' = B ∧ w' = w := by
  have hdet := det_one_sub_transpose hac h.respects
  have hCp : ∀ k, (C k).PosDef := fun k => entails_pd hdet (Matrix.PosDef.diagonal (h.pos k)) (h.entails k)
  have hCs : ∀ k a b, C k a b = C k b a := fun k a b => (congrFun (congrFun (hCp k).1 a) b).symm
  have hq : ∀ k x, 0 ≤ quad (C k) x := fun k x => by
    obtain ⟨c, hc, hlow⟩ := quad_lower (hCp k)
    exact (mul_nonneg hc.le (Finset.sum_nonneg fun i _ => sq_nonneg _)).trans (hlow x)
  have hB : B' = B := by
    ext i j
    by_contra hne
    have hpos : 0 < |B' i j - B i j| := abs_pos.2 (sub_ne_zero.2 hne)
    obtain ⟨δ, hδ, hcl⟩ := columns_close hac h.respects h.pos h.entails hpos
    refine lt_irrefl _ (hcl C hCs (fun k i j => by simpa using hδ) he j (fun _ => 1) (fun _ => one_pos) (fun i => B' i j) (fun i hij => h'.respects i j hij) ?_ i)
    refine Finset.sum_le_sum fun k _ => ?_
    rw [one_mul, one_mul]
    exact normal_optimal (A := A) (hCs k) (hq k) (fun i hij => h'.respects i j hij) (fun i hij => C103_regression hac h'.respects (h'.entails k) i j hij)
      fun i hij => h.respects i j hij
  refine ⟨hB, ?_⟩
  subst hB
  funext k j
  have h1 := residual_diag B' (C k) (hCs k) j
  rw [h.entails k, Matrix.diagonal_apply_eq] at h1
  have h2 := residual_diag B' (C k) (hCs k) j
  rw [h'.entails k, Matrix.diagonal_apply_eq] at h2
  rw [h1, h2]

/-- C122: a run on data close to `C`.  If the returned model has no latents, and its graph can entail `C`, then its weights are those of the model
over this graph that entails `C` up to `ε`; if the returned targets contain those of this model, so are its variances in the last environment. -/
theorem C122_parameters (candidates : List (Adj p)) (hG : ∀ G ∈ candidates, Nonneg G) (ns : List Nat) (C : Fin e → Matrix (Fin p) (Fin p) ℝ)
    {k0 : Fin e} (hk0 : k0.val + 1 = e) (T : Nat) {ρ ε : ℝ} (hρ : 0 < ρ) (hε : 0 < ε) :
    ∃ δ > 0, ∀ (E : FitEnv p e) (data : Fin e → Sample p) (solverKnown pruneEdges : Bool) (folds : List Rat) (rs : Int)
      (training testG testI : List (Sample p)) (P : Adj p) (I : Finset (Fin p)) (m : AnyModel p e), ExactEnv T E →
      splitData (E.rng 42) (List.ofFn data) folds = .ok [training, testG, testI] →
      (∀ k : Fin e, 0 < (training.getD k []).length) → ρ * ∑ k : Fin e, ((training.getD k []).length : ℝ) ≤ (training.getD k0 []).length →
      ((∀ k : Fin e, (npCov (training.getD k [])).PosDef) ∧ Within δ C fun k => npCov (training.getD k [])) →
      equivalenceClass E candidates data solverKnown pruneEdges (some ns) folds rs = .ok (P, I, m) → m.1 = 0 →
      ∀ B w, Truth m.A C B w → (∀ i j, |m.2.B i j - B i j| < ε) ∧
        ((∀ k k' i, i ∉ I → w k i = w k' i) → ∀ j, |m.2.omegas k0 j - w k0 j| < ε) := by
  have he : 0 < e := by omega
  -- all graphs and targets
  let cls : (Fin candidates.length × (Fin p → Fin p → Bool)) → Adj p := fun x i j => if x.2 i j then candidates.get x.1 i j else 0
  have hcls0 : ∀ c, Nonneg (cls c) := fun c i j => by
    show 0 ≤ (if c.2 i j then candidates.get c.1 i j else 0)
    split_ifs
    · exact hG _ (List.get_mem _ _) i j
    · exact le_refl _
  obtain ⟨δ, hδ, hall⟩ := exists_uniform (ι := (Fin candidates.length × (Fin p → Fin p → Bool)) × Finset (Fin p))
    (P := fun c δ => ∀ B w, Acyclic (cls c.1) → Truth (cls c.1) C B w → ∀ (it : SetIter p) (svd : Matrix (Fin p) (Fin p) ℝ → Matrix (Fin p) (Fin p) ℝ × (Fin p → ℝ))
      (num : NumLib p e) (cfg : ScoreCfg) (d : Data p e) (u v : Nat → Fin (p * p) → ℝ) (m : LModel p 0 e) (s : Flt), GoodSqrt num.sqrtm → cfg.solver = .cvx →
      cfg.stop.maxIter ≤ T → GoodData d → (∀ Ms, CvxOptimal num (cls c.1) Ms d 0) → Within δ C d.covs → fitCode it svd num cfg d u v (cls c.1) c.2 none = .ok (m, s) →
      ρ * ∑ k, codeWeight d.nObs k ≤ codeWeight d.nObs k0 →
      (∀ i j, |m.B i j - B i j| < ε) ∧ ((∀ k k' i, i ∉ c.2 → w k i = w k' i) → ∀ j, |m.omegas k0 j - w k0 j| < ε)) (fun c => by
      by_cases hex : Acyclic (cls c.1) ∧ ∃ B w, Truth (cls c.1) C B w
      · obtain ⟨hac, B, w, ht⟩ := hex
        obtain ⟨δ₁, hδ₁, h1⟩ := C122_weights (hcls0 c.1) hac ht.respects ht.pos ht.entails hε
        by_cases hI : ∀ k k' i, i ∉ c.2 → w k i = w k' i
        · obtain ⟨δ₂, hδ₂, h2⟩ := C122_variances (hcls0 c.1) hac ht.respects ht.pos ht.entails hI T hρ hε
          refine ⟨δ₂, hδ₂, fun B' w' _ ht' it svd num cfg d u v m s hs hcvx hT hd hopt hwithin hfit hsh => ?_⟩
          obtain ⟨rfl, rfl⟩ := truth_unique hac he ht ht'
          obtain ⟨q1, q2⟩ := h2 it svd num cfg d u v m s hs hcvx hT hd hopt hwithin hfit
          exact ⟨q1, fun _ => q2 k0 hsh⟩
        · refine ⟨δ₁, hδ₁, fun B' w' _ ht' it svd num cfg d u v m s hs hcvx hT hd hopt hwithin hfit hsh => ?_⟩
          obtain ⟨rfl, rfl⟩ := truth_unique hac he ht ht'
          exact ⟨h1 it svd num cfg d u v c.2 none m s hs hcvx hd hopt hwithin (by simp) hfit, fun hI' => absurd hI' hI⟩
      · exact ⟨1, one_pos, fun B w hac ht => absurd ⟨hac, B, w, ht⟩ hex⟩)
    (fun c δ δ' _ hle h B w hac ht it svd num cfg d u v m s hs hcvx hT hd hopt hwithin => h B w hac ht it svd num cfg d u v m s hs hcvx hT hd hopt (hwithin.mono hle))
  refine ⟨δ, hδ, ?_⟩
  intro E data solverKnown pruneEdges folds rs training testG testI P I m hE hsplit hlen hshare hcov h hm0 B w ht
  obtain ⟨svd, num, cfg, u, v, hEfit, hcvx, hsqrt, hopt, hT, -⟩ := hE.fit
  have hfit : ∀ d h, GoodFit (E.fit d h) := fun d h => by
    rw [hEfit]
    exact codeFit_good _ _ _ _ _ _ _ _ (fun hc => by rw [hcvx] at hc; cases hc)
  have hlat : ∀ d h n A I m s, E.fit d h n A I = .ok (m, s) → m.1 = h := fun d h n A I m s hm => by
    rw [hEfit] at hm
    exact codeFit_latents hm
  obtain ⟨s, hmain⟩ : ∃ s, fitMain E data solverKnown (some ns) pruneEdges folds none none (some candidates) 42 = .ok (m, I, s) := by
    unfold equivalenceClass withIcpdag at h
    split at h
    · simp at h
    · rename_i m' I' s' hm'
      split at h
      · simp at h
      · cases h
        exact ⟨_, hm'⟩
  obtain ⟨t1, t2, t3, graphs, ns', z1, z2, z3, z4⟩ := fitMain_spec hfit hlat hE.argsort hmain
  rw [hsplit] at z1
  cases z1
  cases z2
  cases z3
  obtain ⟨-, ⟨G', g1, g2, -⟩, hac, -, -, ⟨-, -, -, -, -, -, -, ⟨sf, n, mf, u5, u6⟩, -⟩⟩ := z4 hG
  obtain ⟨d, hd⟩ : ∃ d, d = foldData E.cov training e := ⟨_, rfl⟩
  rw [← hd, hm0, hEfit] at u5
  have hdp : (∀ k, (d.covs k).PosDef) ∧ Within δ C d.covs := by
    rw [hd, hE.cov]
    exact hcov
  have hdn : ∀ k, 0 < d.nObs k := by rw [hd]; exact fun k => hlen k
  have hsh := C122_last_weight he hdn hρ hk0 (by rw [hd]; exact hshare)
  unfold codeFit at u5
  split at u5
  · simp at u5
  rename_i m2 s2 f3
  cases u5
  obtain ⟨b, hb⟩ := List.get_of_mem g1
  have hc : cls (b, fun i j => decide (m.A i j = G' i j)) = m.A := by
    simp only [cls, hb, decide_eq_true_eq]
    funext i j
    rcases g2 i j with hc | hc
    · rw [if_pos hc, hc]
    · split_ifs with hd
      · exact hd.symm
      · exact hc.symm
  have hres := hall ((b, fun i j => decide (m.A i j = G' i j)), I) B w (by rw [hc]; exact hac) (by rw [hc]; exact ht) E.it svd num cfg d (u 0 n) (v 0 n) m2 sf hsqrt hcvx hT
    ⟨hdp.1, hdn, he⟩ (fun Ms => hopt _ Ms d) hdp.2 (by rw [hc]; exact f3) hsh
  rcases u6 with u6 | u6
  · rw [u6]
    exact hres
  · unfold AnyModel.copy at u6
    simp only at u6
    cases hcp : m2.copy E.it with
    | error err => rw [hcp] at u6; simp at u6
    | ok m3 =>
      rw [hcp] at u6
      cases u6
      have hm2A : Nonneg m2.A := by
        have : m2.A = cls (b, fun i j => decide (AnyModel.A (⟨0, m3⟩ : AnyModel p e) i j = G' i j)) := by
          rw [hc]
          exact (hfit d 0 n _ I ⟨0, m2⟩ sf (by rw [hEfit]; unfold codeFit; rw [f3])).1
        rw [this]
        exact hcls0 _
      obtain ⟨-, -, rfl⟩ := mkModel_ok hm2A hcp
      exact hres

end Verif
