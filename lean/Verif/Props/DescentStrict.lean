import Verif.Props.Descent
import Verif.Props.Progress

/-!
# C86, strict progress: the results of the descent steps are used
-/

namespace Verif

open Spec Matrix

variable {p l : Nat} {it : SetIter p}

/-- C86: if at the new weights all steps of length up to `1e-50` against the gradient for `gamma` improve the documented score, then the
iteration improves it strictly (up to the error of the solver for the weights). -/
theorem C86_strict_gamma {A : Adj p} (hA : Nonneg A) (hac : Acyclic A) (num : NumLib p 1) (hs : GoodSqrt num.sqrtm) (cfg : ScoreCfg)
    (hcvx : cfg.solver = .cvx) (hlr : 0 < cfg.learningRate) (d : Data p 1) (hd : (d.covs 0).PosSemidef) (hn : d.nObs 0 ≠ 0)
    (u v : Nat → Fin (p * p) → ℝ)
    (I : Finset (Fin p)) (ε : ℝ) (hopt : ∀ Ms : Fin 1 → Matrix (Fin p) (Fin p) ℝ, (Ms 0).PosDef → CvxOptimal num A Ms d ε) (i : Nat)
    (prev cur : LModel p l 1) (hm : GoodModel it A cfg.psiMax prev) (h : altBody it (codeSolvers it num cfg d u v I) i prev = .ok cur)
    (g : Fin l × Fin p → ℝ) (hg : gammaGrad it d { prev with B := cur.B } (fun q => prev.gamma q.1 q.2) = .ok g)
    (hdesc : ∀ s, 0 < s → s ≤ 1 / 10 ^ 50 → ∀ C1 C2 : Fin 1 → Matrix (Fin p) (Fin p) ℝ,
      (∀ k, Entails cur.B (noiseCov prev.gamma (prev.psis k) (prev.omegas k)) (C1 k)) →
      (∀ k, Entails cur.B (noiseCov (fun b i => prev.gamma b i - s * g (b, i)) (prev.psis k) (prev.omegas k)) (C2 k)) →
      weightedNLL d.nObs C2 d.covs < weightedNLL d.nObs C1 d.covs)
    (C C' : Fin 1 → Matrix (Fin p) (Fin p) ℝ)
    (hC : ∀ k, Entails prev.B (noiseCov prev.gamma (prev.psis k) (prev.omegas k)) (C k))
    (hC' : ∀ k, Entails cur.B (noiseCov cur.gamma (cur.psis k) (cur.omegas k)) (C' k)) :
    weightedNLL d.nObs C' d.covs < weightedNLL d.nObs C d.covs + ε := by
  have hn' : d.total ≠ 0 := by simpa [Data.total] using hn
  obtain ⟨-, hgr, -, hB, hgm, hr⟩ := altBody_ok h
  simp only [codeSolvers, hcvx] at hB hgm hr
  have hV : (prev.noise 0).PosDef := noise_posDef prev 0 (hm.omegas 0) (fun i => (hm.psis 0 i).le)
  rw [noise_eq] at hV
  obtain ⟨B, hB1, hB2, hB3⟩ := C77_cvx_optimal num hs d (fun k => by rw [Subsingleton.elim k 0]; exact hd)
    { prev with IB := 1 - prev.Bᵀ } (by show Acyclic prev.A; rw [hm.graph]; exact hac) hm.omegas (fun k i => (hm.psis k i).le) ε
    (by show CvxOptimal num prev.A _ d ε; rw [hm.graph]; exact hopt _ hV.inv)
  rw [hB] at hB1
  simp only [Except.ok.injEq] at hB1
  subst hB1
  have hB2' : Respects A cur.B := by rw [← hm.graph]; exact hB2
  have g2 : GoodModel it A cfg.psiMax { prev with B := cur.B, gamma := cur.gamma, IB := 1 - prev.Bᵀ } :=
    ⟨hm.graph, hB2', hm.omegas, hm.psis, hm.psiMax⟩
  have hdet := det_one_sub_transpose hac hB2'
  choose C1 hC1 using fun k : Fin 1 => entails_exists hdet (noiseCov prev.gamma (prev.psis k) (prev.omegas k))
  choose C2 hC2 using fun k : Fin 1 => entails_exists hdet (noiseCov cur.gamma (prev.psis k) (prev.omegas k))
  have s1 := hB3 prev.B C1 C (by show Respects prev.A prev.B; rw [hm.graph]; exact hm.respects) hC1 hC
  have s3 := rest_not_worse hA hac d hn' g2 hr hC2 hC'
  have s2 : weightedNLL d.nObs C2 d.covs < weightedNLL d.nObs C1 d.covs := by
    obtain ⟨m1, hm1⟩ : ∃ m1 : LModel p l 1, m1 = { prev with B := cur.B, IB := 1 - prev.Bᵀ } := ⟨_, rfl⟩
    rw [← hm1] at hgm
    have hA' : Nonneg m1.A := by rw [hm1]; show Nonneg prev.A; rw [hm.graph]; exact hA
    have hac' : Acyclic m1.A := by rw [hm1]; show Acyclic prev.A; rw [hm.graph]; exact hac
    have hBr : Respects m1.A m1.B := by rw [hm1]; exact hB2
    have ho : ∀ k i, 0 < m1.omegas k i := by rw [hm1]; exact hm.omegas
    have hp : ∀ k i, 0 ≤ m1.psis k i := by rw [hm1]; exact fun k i => (hm.psis k i).le
    have hg1 : gammaGrad it d m1 (fun q => m1.gamma q.1 q.2) = .ok g := by rw [hm1]; exact hg
    unfold solveForGamma at hgm
    split at hgm
    · simp at hgm
    · rename_i X L hgd
      simp only [Except.ok.injEq] at hgm
      have hl0 := gammaLoss_eq it d m1 hA' hac' hBr ho hp hn' (fun q => m1.gamma q.1 q.2) C1 (fun k => by rw [hm1]; exact hC1 k)
      have hlX := gammaLoss_eq it d m1 hA' hac' hBr ho hp hn' X C2 (fun k => by
        have := hC2 k
        rw [← hgm] at this
        rw [hm1]
        exact this)
      rw [single_sum] at hl0 hlX
      obtain ⟨x, hx1, hx2⟩ := C80_strict_progress hlr (fun q => m1.gamma q.1 q.2) X g L _ (1 / 10 ^ 50) hl0 hg1 le_rfl
        (fun s hs0 hs1 => ⟨by simp [InBounds?], by
          choose C3 hC3 using fun k : Fin 1 => entails_exists hdet
            (noiseCov (fun b i => prev.gamma b i - s * g (b, i)) (prev.psis k) (prev.omegas k))
          refine ⟨_, gammaLoss_eq it d m1 hA' hac' hBr ho hp hn' (fun q => m1.gamma q.1 q.2 - s * g q) C3 (fun k => by
            rw [hm1]; exact hC3 k), ?_⟩
          rw [single_sum]
          exact hdesc s hs0 hs1 C1 C3 hC1 hC3⟩) hgd
      obtain ⟨-, h1, -⟩ := C50_returns _ _ _ hgd
      rw [h1, hx1] at hlX
      simp only [Except.ok.injEq, Option.some.injEq] at hlX
      rw [← hlX]
      exact hx2
  linarith

/-- C86: if at the new weights and effects of the latents all steps of length up to `1e-50` against the gradient for the variances stay
within the bounds and improve the documented score, then the iteration improves it strictly (up to the error of the solver for the
weights). -/
theorem C86_strict_rest {A : Adj p} (hA : Nonneg A) (hac : Acyclic A) (num : NumLib p 1) (hs : GoodSqrt num.sqrtm) (cfg : ScoreCfg)
    (hcvx : cfg.solver = .cvx) (hlr : 0 < cfg.learningRate) (d : Data p 1) (hd : (d.covs 0).PosSemidef) (hn : d.nObs 0 ≠ 0)
    (u v : Nat → Fin (p * p) → ℝ)
    (I : Finset (Fin p)) (ε : ℝ) (hopt : ∀ Ms : Fin 1 → Matrix (Fin p) (Fin p) ℝ, (Ms 0).PosDef → CvxOptimal num A Ms d ε) (i : Nat)
    (prev cur : LModel p l 1) (hm : GoodModel it A cfg.psiMax prev) (h : altBody it (codeSolvers it num cfg d u v I) i prev = .ok cur)
    (g : RestIx p l 1 → ℝ) (hg : restGrad it d I cfg.psiFixed { prev with B := cur.B, gamma := cur.gamma }
      (Sum.elim (fun q => prev.omegas q.1 q.2) (fun q => prev.psis q.1 q.2)) = .ok g)
    (hdesc : ∀ s, 0 < s → s ≤ 1 / 10 ^ 50 →
      ((∀ k j, 0 < prev.omegas k j - s * g (.inl (k, j))) ∧ (∀ k b, 0 < prev.psis k b - s * g (.inr (k, b))) ∧
        ∀ x, cfg.psiMax = some x → ∀ k b, prev.psis k b - s * g (.inr (k, b)) < x) ∧
      ∀ C1 C2 : Fin 1 → Matrix (Fin p) (Fin p) ℝ,
      (∀ k, Entails cur.B (noiseCov cur.gamma (prev.psis k) (prev.omegas k)) (C1 k)) →
      (∀ k, Entails cur.B (noiseCov cur.gamma (fun b => prev.psis k b - s * g (.inr (k, b)))
        (fun j => prev.omegas k j - s * g (.inl (k, j)))) (C2 k)) →
      weightedNLL d.nObs C2 d.covs < weightedNLL d.nObs C1 d.covs)
    (C C' : Fin 1 → Matrix (Fin p) (Fin p) ℝ)
    (hC : ∀ k, Entails prev.B (noiseCov prev.gamma (prev.psis k) (prev.omegas k)) (C k))
    (hC' : ∀ k, Entails cur.B (noiseCov cur.gamma (cur.psis k) (cur.omegas k)) (C' k)) :
    weightedNLL d.nObs C' d.covs < weightedNLL d.nObs C d.covs + ε := by
  have hn' : d.total ≠ 0 := by simpa [Data.total] using hn
  obtain ⟨-, hgr, -, hB, hgm, hr⟩ := altBody_ok h
  simp only [codeSolvers, hcvx] at hB hgm hr
  have hV : (prev.noise 0).PosDef := noise_posDef prev 0 (hm.omegas 0) (fun i => (hm.psis 0 i).le)
  rw [noise_eq] at hV
  obtain ⟨B, hB1, hB2, hB3⟩ := C77_cvx_optimal num hs d (fun k => by rw [Subsingleton.elim k 0]; exact hd)
    { prev with IB := 1 - prev.Bᵀ } (by show Acyclic prev.A; rw [hm.graph]; exact hac) hm.omegas (fun k i => (hm.psis k i).le) ε
    (by show CvxOptimal num prev.A _ d ε; rw [hm.graph]; exact hopt _ hV.inv)
  rw [hB] at hB1
  simp only [Except.ok.injEq] at hB1
  subst hB1
  have hB2' : Respects A cur.B := by rw [← hm.graph]; exact hB2
  have g1 : GoodModel it A cfg.psiMax { prev with B := cur.B, IB := 1 - prev.Bᵀ } := ⟨hm.graph, hB2', hm.omegas, hm.psis, hm.psiMax⟩
  have hdet := det_one_sub_transpose hac hB2'
  choose C1 hC1 using fun k : Fin 1 => entails_exists hdet (noiseCov prev.gamma (prev.psis k) (prev.omegas k))
  choose C2 hC2 using fun k : Fin 1 => entails_exists hdet (noiseCov cur.gamma (prev.psis k) (prev.omegas k))
  have s1 := hB3 prev.B C1 C (by show Respects prev.A prev.B; rw [hm.graph]; exact hm.respects) hC1 hC
  have s2 := gamma_not_worse hA hac d hn' g1 hgm hC1 hC2
  have s3 : weightedNLL d.nObs C' d.covs < weightedNLL d.nObs C2 d.covs := by
    have hb := solveForRest_inBounds hr
    obtain ⟨m1, hm1⟩ : ∃ m1 : LModel p l 1, m1 = { prev with B := cur.B, gamma := cur.gamma, IB := 1 - prev.Bᵀ } := ⟨_, rfl⟩
    rw [← hm1] at hr
    have hA' : Nonneg m1.A := by rw [hm1]; show Nonneg prev.A; rw [hm.graph]; exact hA
    have hac' : Acyclic m1.A := by rw [hm1]; show Acyclic prev.A; rw [hm.graph]; exact hac
    have hBr : Respects m1.A m1.B := by rw [hm1]; exact hB2
    have hg1 : restGrad it d I cfg.psiFixed m1 (Sum.elim (fun q => m1.omegas q.1 q.2) (fun q => m1.psis q.1 q.2)) = .ok g := by
      rw [hm1]; exact hg
    unfold solveForRest at hr
    split at hr
    · simp at hr
    · rename_i X L hgd
      simp only [Except.ok.injEq, Prod.mk.injEq] at hr
      have hl0 := restLoss_eq it d m1 hA' hac' hBr hn' (Sum.elim (fun q => m1.omegas q.1 q.2) (fun q => m1.psis q.1 q.2))
        (by rw [hm1]; exact hm.omegas) (by rw [hm1]; exact fun k i => (hm.psis k i).le) C2 (fun k => by rw [hm1]; exact hC2 k)
      have hlX := restLoss_eq it d m1 hA' hac' hBr hn' X (by rw [← hr.1] at hb; exact hb.1)
        (by rw [← hr.2] at hb; exact fun k i => (hb.2.1 k i).le) C' (fun k => by
        have := hC' k
        rw [← hr.1, ← hr.2] at this
        rw [hm1]
        exact this)
      rw [single_sum] at hl0 hlX
      obtain ⟨x, hx1, hx2⟩ := C80_strict_progress hlr _ X g L _ (1 / 10 ^ 50) hl0 hg1 le_rfl
        (fun s hs0 hs1 => by
          obtain ⟨⟨b1, b2, b3⟩, b4⟩ := hdesc s hs0 hs1
          refine ⟨(restBounds_iff _ _).2 ⟨by rw [hm1]; exact b1, by rw [hm1]; exact b2, by rw [hm1]; exact b3⟩, ?_⟩
          choose C3 hC3 using fun k : Fin 1 => entails_exists hdet
            (noiseCov cur.gamma (fun b => prev.psis k b - s * g (.inr (k, b))) (fun j => prev.omegas k j - s * g (.inl (k, j))))
          refine ⟨_, restLoss_eq it d m1 hA' hac' hBr hn' _ (by rw [hm1]; exact b1) (by rw [hm1]; exact fun k i => (b2 k i).le) C3
            (fun k => by rw [hm1]; exact hC3 k), ?_⟩
          rw [single_sum]
          exact b4 C2 C3 hC2 hC3) hgd
      obtain ⟨-, h1, -⟩ := C50_returns _ _ _ hgd
      rw [h1, hx1] at hlX
      simp only [Except.ok.injEq, Option.some.injEq] at hlX
      rw [← hlX]
      exact hx2
  linarith

/-- Concrete case for `C86_strict_gamma`: one variable with sample variance `1`, one latent, all parameters `1`.  The gradient for `gamma`
is `1/2` and every step of length at most `1e-50` against it improves the score. -/
example (u v : Nat → Fin (1 * 1) → ℝ) (stop : StopCfg) : ∃ (num : NumLib 1 1) (cur : LModel 1 1 1),
    altBody (SetIter.incr 1) (codeSolvers (SetIter.incr 1) num ⟨.cvx, some 2, true, stop, 1, 1⟩ ⟨fun _ => !![1], fun _ => 1⟩ u v ∅) 0
      ⟨fun _ _ => 0, 0, fun _ _ => 1, fun _ _ => 1, fun _ _ => 1, 1⟩ = .ok cur ∧
    ∀ C', (∀ k, Entails cur.B (noiseCov cur.gamma (cur.psis k) (cur.omegas k)) (C' k)) →
      weightedNLL (fun _ => 1) C' (fun _ : Fin 1 => !![1]) < Real.log 2 + 1 / 2 + 1 / 10 ^ 10 := by
  have hA : Nonneg (fun _ _ => 0 : Adj 1) := fun _ _ => le_refl _
  have hac : Acyclic (fun _ _ => 0 : Adj 1) := (isDag_iff (SetIter.incr 1) hA).1 (by decide +kernel)
  obtain ⟨num, hs, hopt⟩ := cvxOptimal_exists (p := 1) (e := 1) (1 / 10 ^ 10) (by norm_num)
  obtain ⟨d, hd⟩ : ∃ d : Data 1 1, d = ⟨fun _ => !![1], fun _ => 1⟩ := ⟨_, rfl⟩
  obtain ⟨m, hm⟩ : ∃ m : LModel 1 1 1, m = ⟨fun _ _ => 0, 0, fun _ _ => 1, fun _ _ => 1, fun _ _ => 1, 1⟩ := ⟨_, rfl⟩
  have hgm : GoodModel (SetIter.incr 1) (fun _ _ => 0 : Adj 1) (some 2) m := by
    rw [hm]
    exact ⟨rfl, fun _ _ _ => rfl, fun _ _ => one_pos, fun _ _ => one_pos, fun x hx _ _ => by
      simp only [Option.some.injEq] at hx
      rw [← hx]
      norm_num⟩
  have hpd : (!![1] : Matrix (Fin 1) (Fin 1) ℝ).PosDef := by
    have : (!![1] : Matrix (Fin 1) (Fin 1) ℝ) = 1 := by
      ext i j
      rw [Subsingleton.elim i 0, Subsingleton.elim j 0]
      simp
    rw [this]
    exact Matrix.PosDef.one
  have hgd : GoodData d := by
    rw [hd]
    exact ⟨fun _ => hpd, fun _ => one_pos, one_pos⟩
  obtain ⟨cur, hcur, hgc⟩ := altBody_returns hA hac (cfg := ⟨.cvx, some 2, true, stop, 1, 1⟩) (fun x hx => by
      simp only [Option.some.injEq] at hx
      rw [← hx]
      norm_num) num d hgd u v ∅ one_pos (fun i m' hm' => by
    obtain ⟨B, h1, h2, -⟩ := C77_cvx_optimal num hs d (fun k => (hgd.posDef k).posSemidef) m' (by rw [hm'.graph]; exact hac) hm'.omegas
      (fun k i => (hm'.psis k i).le) _ (hopt _ _ _)
    refine ⟨B, h1, by rw [hm'.graph] at h2; exact h2⟩) hgm 0
  rw [hd, hm] at hcur
  refine ⟨num, cur, hcur, fun C' hC' => ?_⟩
  have hB0 : cur.B = 0 := by
    ext i j
    exact hgc.respects i j rfl
  have hent : ∀ (x : ℝ) (C : Matrix (Fin 1) (Fin 1) ℝ), Entails (0 : Matrix (Fin 1) (Fin 1) ℝ)
      (noiseCov (fun (_ : Fin 1) (_ : Fin 1) => x) (fun _ => 1) (fun _ => 1)) C ↔ C = !![x * x + 1] := by
    intro x C
    constructor
    · intro h
      unfold Entails at h
      ext i j
      rw [Subsingleton.elim i 0, Subsingleton.elim j 0]
      have := congrFun (congrFun h 0) 0
      simp [noiseCov] at this
      simpa using this
    · rintro rfl
      unfold Entails
      ext i j
      rw [Subsingleton.elim i 0, Subsingleton.elim j 0]
      simp [noiseCov]
  rw [← hd, ← hm] at hcur
  obtain ⟨g, h1, hdir⟩ := C80_gamma_direction (SetIter.incr 1) d { m with B := cur.B } (by rw [hm]; exact hA) (by rw [hm]; exact hac)
    (by rw [hm]; exact hgc.respects) (by rw [hm]; exact fun _ _ => one_pos) (by rw [hm]; exact fun _ _ => zero_le_one)
    (fun q => m.gamma q.1 q.2)
  have hgv : g (0, 0) = 1 / 2 := by
    have h2 := hdir (fun _ => 1) (fun t _ => !![(1 + t) * (1 + t) + 1]) (fun t h => by
      rw [hm, hB0]
      simp only [mul_one]
      exact (hent (1 + t) _).2 rfl)
    have hv : HasDerivAt (fun t : ℝ => (1 + t) * (1 + t) + 1) (1 * (1 + 0) + (1 + 0) * 1) 0 := by
      have h3 : HasDerivAt (fun t : ℝ => 1 + t) 1 0 := (hasDerivAt_id (0 : ℝ)).const_add 1
      exact (h3.fun_mul h3).add_const 1
    have h4 := (hv.log (by norm_num)).fun_add ((hv.fun_inv (by norm_num)).mul_const 1)
    have h5 := h4.unique (h2.congr_of_eventuallyEq (Filter.Eventually.of_forall fun t => by
      simp [weightedNLL, hd, gaussNLL_one]))
    norm_num [Fintype.sum_prod_type] at h5
    linarith
  have hval : ∀ x : ℝ, weightedNLL d.nObs (fun _ => !![x * x + 1]) d.covs = Real.log (x * x + 1) + (x * x + 1)⁻¹ := by
    intro x
    simp [weightedNLL, hd, gaussNLL_one]
  have key := C86_strict_gamma hA hac num hs ⟨.cvx, some 2, true, stop, 1, 1⟩ rfl one_pos d ((hgd.posDef 0).posSemidef) (by rw [hd]; norm_num)
    u v ∅ (1 / 10 ^ 10) (fun Ms _ => hopt _ Ms d) 0 m cur hgm hcur g h1 (fun s hs0 hs1 C1 C2 hC1 hC2 => by
      have hs2 : s ≤ 1 := le_trans hs1 (by norm_num)
      have e1 : C1 = fun _ => !![(1 : ℝ) * 1 + 1] := by
        funext k
        have := hC1 k
        rw [hm, hB0] at this
        exact (hent 1 _).1 this
      have e2 : C2 = fun _ => !![(1 - s * (1 / 2)) * (1 - s * (1 / 2)) + 1] := by
        funext k
        have := hC2 k
        rw [hm, hB0] at this
        have hfun : (fun (b i : Fin 1) => (1 : ℝ) - s * g (b, i)) = fun _ _ => 1 - s * (1 / 2) := by
          funext b i
          rw [Subsingleton.elim b 0, Subsingleton.elim i 0, hgv]
        simp only [hfun] at this
        exact (hent _ _).1 this
      rw [e1, e2, hval, hval]
      obtain ⟨V, hV⟩ : ∃ V, V = (1 - s * (1 / 2)) * (1 - s * (1 / 2)) + 1 := ⟨_, rfl⟩
      rw [← hV]
      have hV1 : 1 < V := by nlinarith
      have hV2 : V < 2 := by nlinarith
      have hl := Real.one_sub_inv_le_log_of_pos (x := 2 / V) (by positivity)
      rw [Real.log_div (by norm_num) (by positivity), inv_div] at hl
      have : V⁻¹ < 3 / 2 - V / 2 := by
        rw [inv_lt_iff_one_lt_mul₀ (by linarith)]
        nlinarith
      norm_num
      linarith)
    (fun _ => !![(1 : ℝ) * 1 + 1]) C' (fun k => by rw [hm]; exact (hent 1 _).2 rfl) hC'
  rw [hval] at key
  rw [hd] at key
  norm_num at key ⊢
  exact key

/-- Concrete case for `C86_strict_rest`: one variable with sample variance `1`, no latents, noise variance `2`.  The gradient is `1/4`
and every step of length at most `1e-50` against it stays positive and improves the score. -/
example (u v : Nat → Fin (1 * 1) → ℝ) (stop : StopCfg) : ∃ (num : NumLib 1 1) (cur : LModel 1 0 1),
    altBody (SetIter.incr 1) (codeSolvers (SetIter.incr 1) num ⟨.cvx, some 2, true, stop, 1, 1⟩ ⟨fun _ => !![1], fun _ => 1⟩ u v ∅) 0
      ⟨fun _ _ => 0, 0, fun _ _ => 1, fun _ _ => 2, fun _ _ => 1, 1⟩ = .ok cur ∧
    ∀ C', (∀ k, Entails cur.B (noiseCov cur.gamma (cur.psis k) (cur.omegas k)) (C' k)) →
      weightedNLL (fun _ => 1) C' (fun _ : Fin 1 => !![1]) < Real.log 2 + 1 / 2 + 1 / 10 ^ 10 := by
  have hA : Nonneg (fun _ _ => 0 : Adj 1) := fun _ _ => le_refl _
  have hac : Acyclic (fun _ _ => 0 : Adj 1) := (isDag_iff (SetIter.incr 1) hA).1 (by decide +kernel)
  obtain ⟨num, hs, hopt⟩ := cvxOptimal_exists (p := 1) (e := 1) (1 / 10 ^ 10) (by norm_num)
  obtain ⟨d, hd⟩ : ∃ d : Data 1 1, d = ⟨fun _ => !![1], fun _ => 1⟩ := ⟨_, rfl⟩
  obtain ⟨m, hm⟩ : ∃ m : LModel 1 0 1, m = ⟨fun _ _ => 0, 0, fun _ _ => 1, fun _ _ => 2, fun _ _ => 1, 1⟩ := ⟨_, rfl⟩
  have hgm : GoodModel (SetIter.incr 1) (fun _ _ => 0 : Adj 1) (some 2) m := by
    rw [hm]
    exact ⟨rfl, fun _ _ _ => rfl, fun _ _ => two_pos, fun _ _ => one_pos, fun x hx _ _ => by
      simp only [Option.some.injEq] at hx
      rw [← hx]
      norm_num⟩
  have hpd : (!![1] : Matrix (Fin 1) (Fin 1) ℝ).PosDef := by
    have : (!![1] : Matrix (Fin 1) (Fin 1) ℝ) = 1 := by
      ext i j
      rw [Subsingleton.elim i 0, Subsingleton.elim j 0]
      simp
    rw [this]
    exact Matrix.PosDef.one
  have hgd : GoodData d := by
    rw [hd]
    exact ⟨fun _ => hpd, fun _ => one_pos, one_pos⟩
  obtain ⟨cur, hcur, hgc⟩ := altBody_returns hA hac (cfg := ⟨.cvx, some 2, true, stop, 1, 1⟩) (fun x hx => by
      simp only [Option.some.injEq] at hx
      rw [← hx]
      norm_num) num d hgd u v ∅ one_pos (fun i m' hm' => by
    obtain ⟨B, h1, h2, -⟩ := C77_cvx_optimal num hs d (fun k => (hgd.posDef k).posSemidef) m' (by rw [hm'.graph]; exact hac) hm'.omegas
      (fun k i => (hm'.psis k i).le) _ (hopt _ _ _)
    refine ⟨B, h1, by rw [hm'.graph] at h2; exact h2⟩) hgm 0
  rw [hd, hm] at hcur
  refine ⟨num, cur, hcur, fun C' hC' => ?_⟩
  have hB0 : cur.B = 0 := by
    ext i j
    exact hgc.respects i j rfl
  have hent : ∀ (x : ℝ) (g : Matrix (Fin 0) (Fin 1) ℝ) (q : Fin 0 → ℝ) (C : Matrix (Fin 1) (Fin 1) ℝ),
      Entails (0 : Matrix (Fin 1) (Fin 1) ℝ) (noiseCov g q (fun _ => x)) C ↔ C = !![x] := by
    intro x g q C
    constructor
    · intro h
      unfold Entails at h
      ext i j
      rw [Subsingleton.elim i 0, Subsingleton.elim j 0]
      have := congrFun (congrFun h 0) 0
      simp [noiseCov] at this
      simpa using this
    · rintro rfl
      unfold Entails
      ext i j
      rw [Subsingleton.elim i 0, Subsingleton.elim j 0]
      simp [noiseCov]
  rw [← hd, ← hm] at hcur
  obtain ⟨g, h1, -, hdir⟩ := C80_rest_direction (SetIter.incr 1) d ∅ true { m with B := cur.B, gamma := cur.gamma } (by rw [hm]; exact hA)
    (by rw [hm]; exact hac) (by rw [hm]; exact hgc.respects) (Sum.elim (fun q => m.omegas q.1 q.2) (fun q => m.psis q.1 q.2))
    (by rw [hm]; exact fun _ _ => two_pos) (by rw [hm]; exact fun _ _ => zero_le_one)
  have hgv : g (.inl (0, 0)) = 1 / 4 := by
    have h2 := hdir (fun _ => 1) ⟨fun _ _ _ _ => rfl, fun _ j => j.elim0⟩ (fun t _ => !![2 + t]) (fun t h => by
      rw [hm, hB0]
      simp only [mul_one, Sum.elim_inl]
      exact (hent (2 + t) _ _ _).2 rfl)
    have hv : HasDerivAt (fun t : ℝ => 2 + t) 1 0 := (hasDerivAt_id (0 : ℝ)).const_add 2
    have h4 := (hv.log (by norm_num)).fun_add ((hv.fun_inv (by norm_num)).mul_const 1)
    have h5 := h4.unique (h2.congr_of_eventuallyEq (Filter.Eventually.of_forall fun t => by
      simp [weightedNLL, hd, gaussNLL_one]))
    norm_num [Fintype.sum_prod_type] at h5
    linarith
  have hval : ∀ x : ℝ, weightedNLL d.nObs (fun _ => !![x]) d.covs = Real.log x + x⁻¹ := by
    intro x
    simp [weightedNLL, hd, gaussNLL_one]
  have key := C86_strict_rest hA hac num hs ⟨.cvx, some 2, true, stop, 1, 1⟩ rfl one_pos d ((hgd.posDef 0).posSemidef) (by rw [hd]; norm_num)
    u v ∅ (1 / 10 ^ 10) (fun Ms _ => hopt _ Ms d) 0 m cur hgm hcur g h1 (fun s hs0 hs1 => by
      have hs2 : s ≤ 1 := le_trans hs1 (by norm_num)
      have hfun : ∀ k j, m.omegas k j - s * g (.inl (k, j)) = 2 - s * (1 / 4) := by
        intro k j
        rw [Subsingleton.elim k 0, Subsingleton.elim j 0, hgv, hm]
      refine ⟨⟨fun k j => by rw [hfun]; linarith, fun k b => b.elim0, fun x _ k b => b.elim0⟩, fun C1 C2 hC1 hC2 => ?_⟩
      have e1 : C1 = fun _ => !![(2 : ℝ)] := by
        funext k
        have := hC1 k
        rw [hm, hB0] at this
        exact (hent 2 _ _ _).1 this
      have e2 : C2 = fun _ => !![2 - s * (1 / 4)] := by
        funext k
        have := hC2 k
        simp only [hfun] at this
        rw [hB0] at this
        exact (hent _ _ _ _).1 this
      rw [e1, e2, hval, hval]
      obtain ⟨V, hV⟩ : ∃ V, V = 2 - s * (1 / 4) := ⟨_, rfl⟩
      rw [← hV]
      have hV1 : 1 < V := by linarith
      have hV2 : V < 2 := by linarith
      have hl := Real.one_sub_inv_le_log_of_pos (x := 2 / V) (by positivity)
      rw [Real.log_div (by norm_num) (by positivity), inv_div] at hl
      have : V⁻¹ < 3 / 2 - V / 2 := by
        rw [inv_lt_iff_one_lt_mul₀ (by linarith)]
        nlinarith
      norm_num
      linarith)
    (fun _ => !![(2 : ℝ)]) C' (fun k => by rw [hm]; exact (hent 2 _ _ _).2 rfl) hC'
  rw [hval] at key
  rw [hd] at key
  norm_num at key ⊢
  exact key

end Verif
