import Verif.Props.ScoreTotal
import Verif.Props.BSolvers

/-!
# C86: with one environment the alternating optimisation never makes the parameters worse
-/

namespace Verif

open Spec Matrix

variable {p l : Nat} {it : SetIter p}

/-- The documented score of the parameters of a model, on one environment. -/
theorem single_sum (d : Data p 1) (C : Fin 1 → Matrix (Fin p) (Fin p) ℝ) :
    ∑ k, (d.nObs k : ℝ) * gaussNLL (C k) (d.covs k) / (∑ k, (d.nObs k : ℝ)) ^ (1 - k.val) = weightedNLL d.nObs C d.covs := by
  simp [weightedNLL]

/-- The update of `gamma` does not make the documented score worse. -/
theorem gamma_not_worse {A : Adj p} (hA : Nonneg A) (hac : Acyclic A) {psiMax : Option ℝ} (d : Data p 1) (hn : d.total ≠ 0) {thr lr : ℝ}
    {m : LModel p l 1} (hm : GoodModel it A psiMax m) {g : Matrix (Fin l) (Fin p) ℝ} (h : solveForGamma it d thr lr m = .ok g)
    {C C' : Fin 1 → Matrix (Fin p) (Fin p) ℝ} (hC : ∀ k, Entails m.B (noiseCov m.gamma (m.psis k) (m.omegas k)) (C k))
    (hC' : ∀ k, Entails m.B (noiseCov g (m.psis k) (m.omegas k)) (C' k)) :
    weightedNLL d.nObs C' d.covs ≤ weightedNLL d.nObs C d.covs := by
  unfold solveForGamma at h
  split at h
  · simp at h
  · rename_i X L hgd
    simp only [Except.ok.injEq] at h
    subst h
    obtain ⟨-, h1, -⟩ := C50_returns _ _ _ hgd
    have hA' : Nonneg m.A := by rw [hm.graph]; exact hA
    have hac' : Acyclic m.A := by rw [hm.graph]; exact hac
    have hB' : Respects m.A m.B := by rw [hm.graph]; exact hm.respects
    have h0 := gammaLoss_eq it d m hA' hac' hB' hm.omegas (fun k i => (hm.psis k i).le) hn (fun ak => m.gamma ak.1 ak.2) C hC
    have h2 := gammaLoss_eq it d m hA' hac' hB' hm.omegas (fun k i => (hm.psis k i).le) hn X C' hC'
    rw [h1] at h2
    simp only [Except.ok.injEq] at h2
    subst h2
    rw [← single_sum, ← single_sum]
    exact C50_not_worse _ _ _ _ h0 hgd

/-- The update of the variances does not make the documented score worse. -/
theorem rest_not_worse {A : Adj p} (hA : Nonneg A) (hac : Acyclic A) {psiMax : Option ℝ} (d : Data p 1) (hn : d.total ≠ 0) {thr lr : ℝ}
    {I : Finset (Fin p)} {psiFixed : Bool}
    {m : LModel p l 1} (hm : GoodModel it A psiMax m) {om : Matrix (Fin 1) (Fin p) ℝ} {ps : Matrix (Fin 1) (Fin l) ℝ}
    (h : solveForRest it d I psiMax psiFixed thr lr m = .ok (om, ps))
    {C C' : Fin 1 → Matrix (Fin p) (Fin p) ℝ} (hC : ∀ k, Entails m.B (noiseCov m.gamma (m.psis k) (m.omegas k)) (C k))
    (hC' : ∀ k, Entails m.B (noiseCov m.gamma (ps k) (om k)) (C' k)) :
    weightedNLL d.nObs C' d.covs ≤ weightedNLL d.nObs C d.covs := by
  have hb := solveForRest_inBounds h
  unfold solveForRest at h
  split at h
  · simp at h
  · rename_i X L hgd
    simp only [Except.ok.injEq, Prod.mk.injEq] at h
    obtain ⟨rfl, rfl⟩ := h
    obtain ⟨-, h1, -⟩ := C50_returns _ _ _ hgd
    have hA' : Nonneg m.A := by rw [hm.graph]; exact hA
    have hac' : Acyclic m.A := by rw [hm.graph]; exact hac
    have hB' : Respects m.A m.B := by rw [hm.graph]; exact hm.respects
    have h0 := restLoss_eq it d m hA' hac' hB' hn (Sum.elim (fun hj => m.omegas hj.1 hj.2) (fun hk => m.psis hk.1 hk.2))
      hm.omegas (fun k i => (hm.psis k i).le) C hC
    have h2 := restLoss_eq it d m hA' hac' hB' hn X hb.1 (fun k i => (hb.2.1 k i).le) C' hC'
    rw [h1] at h2
    simp only [Except.ok.injEq] at h2
    subst h2
    rw [← single_sum, ← single_sum]
    exact C50_not_worse _ _ _ _ h0 hgd

/-- C86: one iteration of the alternating optimisation (solver `cvx`, solving its problems up to `ε`) on one environment: the new
parameters are again inside the bounds and their documented score is at most `ε` above the one of the previous parameters. -/
theorem C86_iteration {A : Adj p} (hA : Nonneg A) (hac : Acyclic A) (num : NumLib p 1) (hs : GoodSqrt num.sqrtm) (cfg : ScoreCfg)
    (hcvx : cfg.solver = .cvx) (d : Data p 1) (hd : (d.covs 0).PosSemidef) (hn : d.nObs 0 ≠ 0) (u v : Nat → Fin (p * p) → ℝ)
    (I : Finset (Fin p)) (ε : ℝ) (hopt : ∀ Ms : Fin 1 → Matrix (Fin p) (Fin p) ℝ, (Ms 0).PosDef → CvxOptimal num A Ms d ε) (i : Nat)
    (prev cur : LModel p l 1) (hm : GoodModel it A cfg.psiMax prev) (h : altBody it (codeSolvers it num cfg d u v I) i prev = .ok cur) :
    GoodModel it A cfg.psiMax cur ∧ ∀ C C' : Fin 1 → Matrix (Fin p) (Fin p) ℝ,
      (∀ k, Entails prev.B (noiseCov prev.gamma (prev.psis k) (prev.omegas k)) (C k)) →
      (∀ k, Entails cur.B (noiseCov cur.gamma (cur.psis k) (cur.omegas k)) (C' k)) →
      weightedNLL d.nObs C' d.covs ≤ weightedNLL d.nObs C d.covs + ε := by
  have hn' : d.total ≠ 0 := by simpa [Data.total] using hn
  obtain ⟨-, hgr, -, hB, hg, hr⟩ := altBody_ok h
  simp only [codeSolvers, hcvx] at hB hg hr
  have hV : (prev.noise 0).PosDef := noise_posDef prev 0 (hm.omegas 0) (fun i => (hm.psis 0 i).le)
  rw [noise_eq] at hV
  obtain ⟨B, hB1, hB2, hB3⟩ := C77_cvx_optimal num hs d (fun k => by rw [Subsingleton.elim k 0]; exact hd)
    { prev with IB := 1 - prev.Bᵀ } (by show Acyclic prev.A; rw [hm.graph]; exact hac) hm.omegas (fun k i => (hm.psis k i).le) ε
    (by show CvxOptimal num prev.A _ d ε; rw [hm.graph]; exact hopt _ hV.inv)
  rw [hB] at hB1
  simp only [Except.ok.injEq] at hB1
  subst hB1
  have hB2' : Respects A cur.B := by rw [← hm.graph]; exact hB2
  have hb := solveForRest_inBounds hr
  have g1 : GoodModel it A cfg.psiMax { prev with B := cur.B, IB := 1 - prev.Bᵀ } := ⟨hm.graph, hB2', hm.omegas, hm.psis, hm.psiMax⟩
  have g2 : GoodModel it A cfg.psiMax { prev with B := cur.B, gamma := cur.gamma, IB := 1 - prev.Bᵀ } :=
    ⟨hm.graph, hB2', hm.omegas, hm.psis, hm.psiMax⟩
  refine ⟨⟨by rw [hgr, hm.graph], hB2', hb.1, hb.2.1, hb.2.2⟩, fun C C' hC hC' => ?_⟩
  have hdet := det_one_sub_transpose hac hB2'
  choose C1 hC1 using fun k : Fin 1 => entails_exists hdet (noiseCov prev.gamma (prev.psis k) (prev.omegas k))
  choose C2 hC2 using fun k : Fin 1 => entails_exists hdet (noiseCov cur.gamma (prev.psis k) (prev.omegas k))
  have s1 := hB3 prev.B C1 C (by show Respects prev.A prev.B; rw [hm.graph]; exact hm.respects) hC1 hC
  have s2 := gamma_not_worse hA hac d hn' g1 hg hC1 hC2
  have s3 := rest_not_worse hA hac d hn' g2 hr hC2 hC'
  linarith

/-- C86: hence after `n` iterations the documented score of the parameters is at most `n ε` above the initial one; `score_dag` returns a
model after at most `max_iter` iterations. -/
theorem C86_run {A : Adj p} (hA : Nonneg A) (hac : Acyclic A) (num : NumLib p 1) (hs : GoodSqrt num.sqrtm) (cfg : ScoreCfg)
    (hcvx : cfg.solver = .cvx) (d : Data p 1) (hd : (d.covs 0).PosSemidef) (hn : d.nObs 0 ≠ 0) (u v : Nat → Fin (p * p) → ℝ)
    (I : Finset (Fin p)) (ε : ℝ) (hε : 0 ≤ ε) (hopt : ∀ Ms : Fin 1 → Matrix (Fin p) (Fin p) ℝ, (Ms 0).PosDef → CvxOptimal num A Ms d ε)
    (m0 m : LModel p l 1) (s : Flt) (hm : GoodModel it A cfg.psiMax m0)
    (h : alternate it (codeSolvers it num cfg d u v I) cfg.stop d m0 = .ok (m, s)) :
    ∀ C C' : Fin 1 → Matrix (Fin p) (Fin p) ℝ, (∀ k, Entails m0.B (noiseCov m0.gamma (m0.psis k) (m0.omegas k)) (C k)) →
      (∀ k, Entails m.B (noiseCov m.gamma (m.psis k) (m.omegas k)) (C' k)) →
      weightedNLL d.nObs C' d.covs ≤ weightedNLL d.nObs C d.covs + cfg.stop.maxIter * ε := by
  obtain ⟨n, hn0, h1, -, h3, -⟩ := C44_run h
  have hle : (n : ℤ) ≤ cfg.stop.maxIter := by
    obtain ⟨j, rfl⟩ : ∃ j, n = j + 1 := ⟨n - 1, by omega⟩
    have := (h3 j (by omega)).1
    push_cast
    omega
  have key : ∀ n m, iterates (altBody it (codeSolvers it num cfg d u v I)) m0 n = .ok m → GoodModel it A cfg.psiMax m ∧
      ∀ C C' : Fin 1 → Matrix (Fin p) (Fin p) ℝ, (∀ k, Entails m0.B (noiseCov m0.gamma (m0.psis k) (m0.omegas k)) (C k)) →
      (∀ k, Entails m.B (noiseCov m.gamma (m.psis k) (m.omegas k)) (C' k)) →
      weightedNLL d.nObs C' d.covs ≤ weightedNLL d.nObs C d.covs + n * ε := by
    intro n
    induction n with
    | zero =>
      intro m hm'
      simp only [iterates, Except.ok.injEq] at hm'
      subst hm'
      refine ⟨hm, fun C C' hC hC' => ?_⟩
      have hdet := det_one_sub_transpose hac hm.respects
      have : C = C' := by
        funext k
        rw [entails_eq hdet (hC k), entails_eq hdet (hC' k)]
      rw [this]
      simp
    | succ n ih =>
      intro m hm'
      rw [iterates] at hm'
      split at hm'
      · simp at hm'
      · rename_i m1 hm1
        obtain ⟨g1, b1⟩ := ih m1 hm1
        obtain ⟨g2, b2⟩ := C86_iteration hA hac num hs cfg hcvx d hd hn u v I ε hopt n m1 m g1 hm'
        refine ⟨g2, fun C C' hC hC' => ?_⟩
        have hdet := det_one_sub_transpose hac g1.respects
        choose C1 hC1 using fun k : Fin 1 => entails_exists hdet (noiseCov m1.gamma (m1.psis k) (m1.omegas k))
        have := b1 C C1 hC hC1
        have := b2 C1 C' hC1 hC'
        push_cast
        linarith
  intro C C' hC hC'
  have h4 := (key n m h1).2 C C' hC hC'
  have h5 : (n : ℝ) * ε ≤ cfg.stop.maxIter * ε := mul_le_mul_of_nonneg_right (by exact_mod_cast hle) hε
  linarith

/-- C86 for `score_dag` without `init_model`: the documented score of the parameters of the returned model is at most `max_iter * ε` above
the one of the parameters of the initial model. -/
theorem C86_fitted {A : Adj p} (hA : Nonneg A) (hac : Acyclic A) (svd : Matrix (Fin p) (Fin p) ℝ → Matrix (Fin p) (Fin p) ℝ × (Fin p → ℝ))
    (num : NumLib p 1) (hs : GoodSqrt num.sqrtm) (cfg : ScoreCfg) (hcvx : cfg.solver = .cvx) (hpsi : ∀ x, cfg.psiMax = some x → 1 < x)
    (d : Data p 1) (hd : GoodData d) (u v : Nat → Fin (p * p) → ℝ) (I : Finset (Fin p)) (hl : l ≤ p) (ε : ℝ) (hε : 0 ≤ ε)
    (hopt : ∀ Ms : Fin 1 → Matrix (Fin p) (Fin p) ℝ, (Ms 0).PosDef → CvxOptimal num A Ms d ε)
    (m : LModel p l 1) (s : Flt) (h : fitCode it svd num cfg d u v A I none = .ok (m, s)) :
    ∃ m0 : LModel p l 1, initialModel it svd d A I = .ok m0 ∧ ∀ C C', m0.covariances = .ok C → m.covariances = .ok C' →
      weightedNLL d.nObs C' d.covs ≤ weightedNLL d.nObs C d.covs + cfg.stop.maxIter * ε := by
  obtain ⟨-, m0, halt, -, hinit⟩ := fitDag_ok h
  rcases hinit with hinit | ⟨-, hinit⟩
  · simp at hinit
  obtain ⟨m1, hm1, hg⟩ := initialModel_returns (it := it) (l := l) hA hac svd d hd I hl hpsi
  rw [hinit] at hm1
  cases hm1
  refine ⟨m0, hinit, fun C C' hC hC' => ?_⟩
  have hfit := C45_fitted_model (fun hc => by rw [hcvx] at hc; simp at hc) none m s h
  have hent : ∀ (m : LModel p l 1), Respects A m.B → ∀ C, m.covariances = .ok C →
      ∀ k, Entails m.B (noiseCov m.gamma (m.psis k) (m.omegas k)) (C k) := by
    intro m hB C hC k
    have hdet := det_one_sub_transpose hac hB
    obtain ⟨Ck, hk⟩ := entails_exists hdet (noiseCov m.gamma (m.psis k) (m.omegas k))
    have := entails_eq hdet hk
    rw [covariances_ok m hdet] at hC
    simp only [Except.ok.injEq] at hC
    rw [← hC]
    simp only [noise_eq]
    rw [this] at hk
    exact hk
  exact C86_run hA hac num hs cfg hcvx d (hd.posDef 0).posSemidef (hd.pos 0).ne' u v I ε hε hopt m0 m s hg halt C C'
    (hent m0 hg.respects C hC) (hent m hfit.2.1 C' hC')

/-- The hypotheses about the libraries in C86 can be met for every `ε > 0`, for all graphs and data at once. -/
theorem cvxOptimal_exists {e : Nat} (ε : ℝ) (hε : 0 < ε) :
    ∃ num : NumLib p e, GoodSqrt num.sqrtm ∧ ∀ A Ms d, CvxOptimal num A Ms d ε := by
  obtain ⟨f, hf⟩ := goodSqrt_exists (p := p)
  let num0 : NumLib p e := ⟨f, fun _ => true, fun x => x / 2, fun _ _ _ => none⟩
  have key : ∀ A Ms d, ∃ B, Respects A B ∧ ∀ B', Respects A B' → cvxObjective num0 d Ms B ≤ cvxObjective num0 d Ms B' + ε := by
    intro A Ms d
    have hnn : ∀ B, 0 ≤ cvxObjective num0 d Ms B := by
      intro B
      unfold cvxObjective
      positivity
    let S : Set ℝ := { x | ∃ B, Respects A B ∧ x = cvxObjective num0 d Ms B }
    have hne : S.Nonempty := ⟨_, 0, fun _ _ _ => rfl, rfl⟩
    have hbd : BddBelow S := ⟨0, by rintro x ⟨B, -, rfl⟩; exact hnn B⟩
    obtain ⟨x, ⟨B, hB, rfl⟩, hx⟩ := exists_lt_of_csInf_lt hne (show sInf S < sInf S + ε by linarith)
    refine ⟨B, hB, fun B' hB' => ?_⟩
    have := csInf_le hbd ⟨B', hB', rfl⟩
    linarith
  choose g hg1 hg2 using key
  exact ⟨⟨f, fun _ => true, fun x => x / 2, fun A Ms d => some (g A Ms d)⟩, hf, fun A Ms d => ⟨g A Ms d, rfl, hg1 A Ms d, hg2 A Ms d⟩⟩

/-- An example for C86: correlated variables, the graph `0 → 1`, one latent. -/
example (svd : Matrix (Fin 2) (Fin 2) ℝ → Matrix (Fin 2) (Fin 2) ℝ × (Fin 2 → ℝ)) (u v : Nat → Fin (2 * 2) → ℝ) :
    ∃ (num : NumLib 2 1) (cfg : ScoreCfg) (m m0 : LModel 2 1 1) (s : ℝ),
      fitCode (SetIter.incr 2) svd num cfg ⟨fun _ => !![2, 1; 1, 2], fun _ => 10⟩ u v ![![0, 1], ![0, 0]] ∅ none = .ok (m, some s) ∧
      initialModel (SetIter.incr 2) svd ⟨fun _ => !![2, 1; 1, 2], fun _ => 10⟩ ![![0, 1], ![0, 0]] ∅ = .ok m0 ∧
      ∀ C C', m0.covariances = .ok C → m.covariances = .ok C' →
      weightedNLL (fun _ => 10) C' (fun _ => !![2, 1; 1, 2]) ≤ weightedNLL (fun _ => 10) C (fun _ => !![2, 1; 1, 2]) + 1000 * (1 / 10 ^ 10) := by
  obtain ⟨num, hs, hopt⟩ := cvxOptimal_exists (p := 2) (e := 1) (1 / 10 ^ 10) (by norm_num)
  have hn : Nonneg (![![0, 1], ![0, 0]] : Adj 2) := by unfold Nonneg; decide
  have hac : Acyclic (![![0, 1], ![0, 0]] : Adj 2) := (isDag_iff (SetIter.incr 2) hn).1 (by decide)
  have hd : GoodData (⟨fun _ => !![2, 1; 1, 2], fun _ => 10⟩ : Data 2 1) := by
    refine ⟨fun k => ?_, fun k => by norm_num, one_pos⟩
    refine Matrix.PosDef.of_dotProduct_mulVec_pos ?_ ?_
    · ext i j
      fin_cases i <;> fin_cases j <;> simp
    · intro x hx
      have : x 0 ≠ 0 ∨ x 1 ≠ 0 := by
        by_contra hc
        push Not at hc
        exact hx (by funext i; fin_cases i <;> simp [hc.1, hc.2])
      simp [dotProduct, Fin.sum_univ_two, Matrix.mulVec]
      rcases this with h | h
      · nlinarith [sq_nonneg (x 0 + x 1), sq_nonneg (x 1), pow_pos (abs_pos.2 h) 2, sq_abs (x 0)]
      · nlinarith [sq_nonneg (x 0 + x 1), sq_nonneg (x 0), pow_pos (abs_pos.2 h) 2, sq_abs (x 1)]
  obtain ⟨m, s, h⟩ := C71_score_dag_returns (l := 1) (SetIter.incr 2) svd num ⟨.cvx, none, false, ⟨1000, 1 / 1000, 1 / 100000, 10⟩, 1 / 100000, 10⟩ _ hd u v _ hn hac ∅
    (by norm_num) (by norm_num) rfl (by
      intro Ms
      obtain ⟨B, h1, h2, -⟩ := hopt ![![0, 1], ![0, 0]] Ms ⟨fun _ => !![2, 1; 1, 2], fun _ => 10⟩
      exact ⟨B, h1, fun i j hij => by rw [h2 i j hij]; norm_num⟩) (by norm_num) (by simp) (by norm_num) (by norm_num)
  obtain ⟨m0, h0, h1⟩ := C86_fitted hn hac svd num hs _ rfl (by simp) _ hd u v ∅ (by norm_num) (1 / 10 ^ 10) (by norm_num)
    (fun Ms _ => hopt _ _ _) m (some s) h
  exact ⟨num, _, m, m0, s, h, h0, fun C C' hC hC' => h1 C C' hC hC'⟩

end Verif
