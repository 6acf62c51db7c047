import Verif.Proof.Mle
import Verif.Props.Descent
import Verif.Props.RobustExamples
import Verif.Props.PopulationCode

/-!
# C119: one environment and no latents

The fit is the maximum of the likelihood, for every DAG, every set of targets and every data with a positive definite covariance.  Hence the
fits for all sets of targets are the same and `equivalence_class` declares all variables targets.
-/

namespace Verif

open Spec Matrix

variable {p : Nat}

theorem weightedNLL_one {n : Fin 1 → Nat} (hn : 0 < n 0) (C S : Fin 1 → Matrix (Fin p) (Fin p) ℝ) : weightedNLL n C S = gaussNLL (C 0) (S 0) := by
  have : (n 0 : ℝ) ≠ 0 := by exact_mod_cast hn.ne'
  unfold weightedNLL
  rw [Fin.sum_univ_one, Fin.sum_univ_one, mul_comm, mul_div_assoc, div_self this, mul_one]

theorem pooledCov_one (d : Data p 1) (hn : 0 < d.nObs 0) : pooledCov d = d.covs 0 := by
  have : (d.nObs 0 : ℝ) ≠ 0 := by exact_mod_cast hn.ne'
  ext i j
  unfold pooledCov
  rw [Fin.sum_univ_one, Fin.sum_univ_one]
  field_simp

/-- The parameters of the regressions of the variables on their parents. -/
structure Spec.Regressions (A : Adj p) (S : Matrix (Fin p) (Fin p) ℝ) (m : LModel p 0 1) : Prop where
  graph : m.A = A
  respects : Respects A m.B
  normal : ∀ i j, A i j ≠ 0 → ∑ k, S i k * m.B k j = S j i
  var : ∀ j, m.omegas 0 j = residualVar S j (fun i => m.B i j)
  pos : ∀ j, 0 < m.omegas 0 j

/-- Models of regressions on the same data have the same parameters. -/
theorem regressions_unique {A : Adj p} (hac : Acyclic A) {S : Matrix (Fin p) (Fin p) ℝ} (hS : S.PosDef) {m m' : LModel p 0 1} (h : Regressions A S m)
    (h' : Regressions A S m') : m'.B = m.B ∧ m'.omegas = m.omegas := by
  obtain ⟨D, hD⟩ := entails_exists (det_one_sub_transpose hac h.respects) (Matrix.diagonal (m.omegas 0))
  obtain ⟨D', hD'⟩ := entails_exists (det_one_sub_transpose hac h'.respects) (Matrix.diagonal (m'.omegas 0))
  obtain ⟨-, h2⟩ := mle_unique hac hS h.respects h.normal h.var h.pos hD h'.respects h'.pos hD'
  obtain ⟨e1, e2⟩ := h2 (mle_unique hac hS h'.respects h'.normal h'.var h'.pos hD' h.respects h.pos hD).1
  refine ⟨e1, funext fun k => ?_⟩
  rw [Subsingleton.elim k 0]
  exact e2

/-- Every iteration of the optimisation, from the initial model on, keeps the regressions. -/
theorem fit_regressions {it : SetIter p} {A : Adj p} (hA : Nonneg A) (hac : Acyclic A)
    (svd : Matrix (Fin p) (Fin p) ℝ → Matrix (Fin p) (Fin p) ℝ × (Fin p → ℝ)) (num : NumLib p 1) (hs : GoodSqrt num.sqrtm) (cfg : ScoreCfg)
    (hcvx : cfg.solver = .cvx) (d : Data p 1) (hd : GoodData d) (u v : Nat → Fin (p * p) → ℝ) (I : Finset (Fin p))
    (hopt : ∀ Ms : Fin 1 → Matrix (Fin p) (Fin p) ℝ, (Ms 0).PosDef → CvxOptimal num A Ms d 0)
    (m : LModel p 0 1) (s : Flt) (h : fitCode it svd num cfg d u v A I none = .ok (m, s)) :
    Regressions A (d.covs 0) m ∧ m.IB = 1 - m.Bᵀ := by
  have hn := hd.pos 0
  have hSp := hd.posDef 0
  have hsym : ∀ k, (d.covs k).IsSymm := fun k => by
    have := (hd.posDef k).1
    rwa [Matrix.IsHermitian, Matrix.conjTranspose_eq_transpose_of_trivial] at this
  obtain ⟨-, m0, halt, -, hinit⟩ := fitDag_ok h
  rcases hinit with hinit | ⟨-, hinit⟩
  · simp at hinit
  obtain ⟨m1, hm1, hg⟩ := initialModel_returns (it := it) (l := 0) hA hac svd d hd I (Nat.zero_le p) (psiMax := none) (by simp)
  rw [hinit] at hm1
  cases hm1
  obtain ⟨i1, -, i3, i4, -, i6, i7, -⟩ := C53_initial_model it svd A hA I d hsym m0 hinit
  rw [pooledCov_one d hn] at i4
  have hvar : ∀ j, m0.omegas 0 j = residualVar (d.covs 0) j (fun i => m0.B i j) := by
    intro j
    by_cases hj : j ∈ I
    · exact i6 0 j hj
    · rw [i7 0 j hj, Fin.sum_univ_one, Fin.sum_univ_one]
      have : (d.nObs 0 : ℝ) ≠ 0 := by exact_mod_cast hn.ne'
      field_simp
  have hr0 : Regressions A (d.covs 0) m0 := ⟨i1, i3, i4, hvar, fun j => hg.omegas 0 j⟩
  have good : ∀ m' : LModel p 0 1, Regressions A (d.covs 0) m' → GoodModel it A cfg.psiMax m' := fun m' hm' =>
    ⟨hm'.graph, hm'.respects, fun k i => by rw [Subsingleton.elim k 0]; exact hm'.pos i, fun _ i => i.elim0, fun _ _ _ i => i.elim0⟩
  have step : ∀ k (m m' : LModel p 0 1), Regressions A (d.covs 0) m → altBody it (codeSolvers it num cfg d u v I) k m = .ok m' →
      Regressions A (d.covs 0) m' ∧ m'.B = m.B := by
    intro k m m' hm hb
    obtain ⟨g, hle⟩ := C86_iteration hA hac num hs cfg hcvx d hSp.posSemidef hn.ne' u v I 0 hopt k m m' (good m hm) hb
    choose D hD using fun k : Fin 1 => entails_exists (det_one_sub_transpose hac hm.respects) (noiseCov m.gamma (m.psis k) (m.omegas k))
    choose D' hD' using fun k : Fin 1 => entails_exists (det_one_sub_transpose hac g.respects) (noiseCov m'.gamma (m'.psis k) (m'.omegas k))
    have h1 := hle D D' hD hD'
    rw [weightedNLL_one hn, weightedNLL_one hn, add_zero] at h1
    have hD0 := hD 0
    have hD0' := hD' 0
    rw [noiseCov_zero] at hD0 hD0'
    obtain ⟨e1, e2⟩ := (mle_unique hac hSp hm.respects hm.normal hm.var hm.pos hD0 g.respects (fun j => g.omegas 0 j) hD0').2 h1
    refine ⟨⟨g.graph, g.respects, ?_, ?_, fun j => g.omegas 0 j⟩, e1⟩
    · rw [e1]; exact hm.normal
    · rw [e1, e2]; exact hm.var
  obtain ⟨k, m', hP, hb, hm⟩ := alternate_induct halt (Regressions A (d.covs 0)) hr0 (fun k m m' hm hb => (step k m m' hm hb).1)
  refine ⟨hm, ?_⟩
  rw [(altBody_ok hb).2.2.1, (step k m' m hP hb).2]

/-- The hypotheses about the libraries: matrix square roots, and a convex solver that solves its problems. -/
structure Spec.ExactLibs (num : NumLib p 1) (cfg : ScoreCfg) (d : Data p 1) : Prop where
  sqrt : GoodSqrt num.sqrtm
  cvx : cfg.solver = .cvx
  opt : ∀ A Ms, CvxOptimal num A Ms d 0

theorem regressions_proper {it : SetIter p} {A : Adj p} (hA : Nonneg A) (hac : Acyclic A) {S : Matrix (Fin p) (Fin p) ℝ} {m : LModel p 0 1}
    (h : Regressions A S m) (hIB : m.IB = 1 - m.Bᵀ) : Proper it m := by
  refine ⟨A, m.B, m.gamma, m.omegas, m.psis, hA, ?_, fun k i => by rw [Subsingleton.elim k 0]; exact h.pos i, fun _ i => i.elim0⟩
  rw [mkModel_eq_ok hA m.gamma m.omegas m.psis hac h.respects, ← h.graph, ← hIB]

/-- The covariance of such a model is the unique maximum of the likelihood. -/
theorem regressions_mle {A : Adj p} (hac : Acyclic A) {S : Matrix (Fin p) (Fin p) ℝ} (hS : S.PosDef) {m : LModel p 0 1} (h : Regressions A S m) :
    ∃ C, m.covariances = .ok C ∧ Entails m.B (Matrix.diagonal (m.omegas 0)) (C 0) ∧ ∀ D : Fin 1 → Matrix (Fin p) (Fin p) ℝ, EntailedBy Finset.univ A D →
      gaussNLL (C 0) S ≤ gaussNLL (D 0) S ∧ (gaussNLL (D 0) S = gaussNLL (C 0) S → D = C) := by
  have hdet := det_one_sub_transpose hac h.respects
  obtain ⟨C, hC⟩ := entails_exists hdet (Matrix.diagonal (m.omegas 0))
  refine ⟨fun _ => C, ?_, hC, ?_⟩
  · rw [covariances_ok m hdet]
    congr 1
    funext k
    rw [noise_eq, noiseCov_zero, Subsingleton.elim k 0]
    exact (entails_eq hdet hC).symm
  · rintro D ⟨B', w', b1, b2, -, b4⟩
    obtain ⟨h1, h2⟩ := mle_unique hac hS h.respects h.normal h.var h.pos hC b1 (b2 0) (b4 0)
    refine ⟨h1, fun heq => ?_⟩
    obtain ⟨rfl, e2⟩ := h2 heq.le
    funext k
    rw [Subsingleton.elim k 0, entails_eq hdet hC, entails_eq hdet (b4 0), e2]

/-- C119: `score_dag` on one environment without latents and with the convex solver returns the maximum likelihood estimate, for every DAG, every
set of targets and every positive definite sample covariance: the weights into every variable are its least squares regression on its parents,
the noise variances are the residual variances, and the covariance of the model is the only one among those of all models over the graph with
the largest likelihood. The returned score is its negative log-likelihood. -/
theorem C119_fit {it : SetIter p} {A : Adj p} (hA : Nonneg A) (hac : Acyclic A)
    (svd : Matrix (Fin p) (Fin p) ℝ → Matrix (Fin p) (Fin p) ℝ × (Fin p → ℝ)) (num : NumLib p 1) (cfg : ScoreCfg)
    (d : Data p 1) (hd : GoodData d) (hlib : ExactLibs num cfg d) (u v : Nat → Fin (p * p) → ℝ) (I : Finset (Fin p))
    (m : LModel p 0 1) (s : Flt) (h : fitCode it svd num cfg d u v A I none = .ok (m, s)) :
    m.A = A ∧ (∀ i j, A i j = 0 → m.B i j = 0) ∧
    (∀ j (b : Fin p → ℝ), (∀ i, A i j = 0 → b i = 0) → residualVar (d.covs 0) j (fun i => m.B i j) ≤ residualVar (d.covs 0) j b) ∧
    (∀ j, m.omegas 0 j = residualVar (d.covs 0) j (fun i => m.B i j)) ∧
    ∃ C, m.covariances = .ok C ∧ EntailedBy I A C ∧ s = some (gaussNLL (C 0) (d.covs 0)) ∧
      ∀ D : Fin 1 → Matrix (Fin p) (Fin p) ℝ, EntailedBy Finset.univ A D →
        gaussNLL (C 0) (d.covs 0) ≤ gaussNLL (D 0) (d.covs 0) ∧ (gaussNLL (D 0) (d.covs 0) = gaussNLL (C 0) (d.covs 0) → D = C) := by
  obtain ⟨hr, hIB⟩ := fit_regressions hA hac svd num hlib.sqrt cfg hlib.cvx d hd u v I (fun Ms _ => hlib.opt A Ms) m s h
  have hSp := hd.posDef 0
  have hS : ∀ a b, d.covs 0 a b = d.covs 0 b a := fun a b => (congrFun (congrFun hSp.1 a) b).symm
  refine ⟨hr.graph, hr.respects, fun j b hb => ?_, hr.var, ?_⟩
  · rw [residualVar_eq hS hr.respects hr.normal j b hb]
    have := hSp.posSemidef.dotProduct_mulVec_nonneg (fun i => b i - m.B i j)
    simp only [dotProduct, Matrix.mulVec, star_trivial, Finset.mul_sum] at this
    simp only [mul_assoc]
    linarith
  · obtain ⟨C, h1, h2, h3⟩ := regressions_mle hac hSp hr
    refine ⟨C, h1, ⟨m.B, fun k => m.omegas k, hr.respects, fun k i => ?_, fun k k' i _ => ?_, fun k => ?_⟩, ?_, h3⟩
    · rw [Subsingleton.elim k 0]; exact hr.pos i
    · rw [Subsingleton.elim k k']
    · rw [Subsingleton.elim k 0]; exact h2
    · obtain ⟨-, m0, halt, -⟩ := fitDag_ok h
      obtain ⟨-, -, -, hsc, -⟩ := C44_run halt
      obtain ⟨A', B', g', o', ps', p1, p2, p3, p4⟩ := regressions_proper (it := it) hA hac hr hIB
      have hn := hd.pos 0
      have h5 := C37_actual_score it A' p1 B' g' o' ps' m p2 p3 p4 d.nObs (by rw [Fin.sum_univ_one]; exact hn.ne') d.covs C h1
      unfold LModel.scoreOn at hsc
      rw [h5] at hsc
      cases hsc
      congr 1
      have := weightedNLL_one hn C d.covs
      rw [← single_sum] at this
      rw [this]

/-- C119: the fit does not depend on the set of targets. -/
theorem C119_targets_ignored {it : SetIter p} {A : Adj p} (hA : Nonneg A) (hac : Acyclic A)
    (svd : Matrix (Fin p) (Fin p) ℝ → Matrix (Fin p) (Fin p) ℝ × (Fin p → ℝ)) (num : NumLib p 1) (cfg : ScoreCfg)
    (d : Data p 1) (hd : GoodData d) (hlib : ExactLibs num cfg d) (u v u' v' : Nat → Fin (p * p) → ℝ) (I I' : Finset (Fin p))
    (m m' : LModel p 0 1) (s s' : Flt) (h : fitCode it svd num cfg d u v A I none = .ok (m, s))
    (h' : fitCode it svd num cfg d u' v' A I' none = .ok (m', s')) : m' = m ∧ s' = s := by
  obtain ⟨hr, hIB⟩ := fit_regressions hA hac svd num hlib.sqrt cfg hlib.cvx d hd u v I (fun Ms _ => hlib.opt A Ms) m s h
  obtain ⟨hr', hIB'⟩ := fit_regressions hA hac svd num hlib.sqrt cfg hlib.cvx d hd u' v' I' (fun Ms _ => hlib.opt A Ms) m' s' h'
  have hm : m' = m := by
    obtain ⟨e1, e2⟩ := regressions_unique hac (hd.posDef 0) hr hr'
    have hA := hr.graph
    have hA' := hr'.graph
    obtain ⟨A1, B1, g1, o1, q1, k1⟩ := m
    obtain ⟨A2, B2, g2, o2, q2, k2⟩ := m'
    simp only at e1 e2 hA hA' hIB hIB'
    subst hA hA' e1 e2
    rw [hIB, hIB']
    congr 1
    · ext i
      exact i.elim0
    · ext _ i
      exact i.elim0
  obtain ⟨-, -, -, -, C, c1, -, c3, -⟩ := C119_fit hA hac svd num cfg d hd hlib u v I m s h
  obtain ⟨-, -, -, -, C', c1', -, c3', -⟩ := C119_fit hA hac svd num cfg d hd hlib u' v' I' m' s' h'
  refine ⟨hm, ?_⟩
  rw [hm, c1] at c1'
  cases c1'
  rw [c3, c3']

/-- The same for the models that are kept and copied in a run. -/
theorem fitted_regressions {it : SetIter p} {A : Adj p} (hA : Nonneg A)
    {svd : Matrix (Fin p) (Fin p) ℝ → Matrix (Fin p) (Fin p) ℝ × (Fin p → ℝ)} {num : NumLib p 1} {cfg : ScoreCfg}
    {d : Data p 1} (hd : GoodData d) (hlib : ExactLibs num cfg d) {u v : Nat → Nat → Nat → Fin (p * p) → ℝ} {I : Finset (Fin p)}
    {m : AnyModel p 1} {s : Flt} (h : FittedTo it (codeFit it svd num cfg u v d 0) A I m s) :
    Acyclic A ∧ ∃ m' : LModel p 0 1, m = ⟨0, m'⟩ ∧ Regressions A (d.covs 0) m' ∧ m'.IB = 1 - m'.Bᵀ := by
  obtain ⟨n, m0, h1, h2⟩ := h
  have hac : Acyclic A := (codeFit_good it svd num cfg u v d 0 (fun hc => by rw [hlib.cvx] at hc; simp at hc) _ _ _ _ _ h1).2.1 hA
  refine ⟨hac, ?_⟩
  unfold codeFit at h1
  split at h1
  · simp at h1
  · rename_i mm ss hm
    cases h1
    obtain ⟨hr, hIB⟩ := fit_regressions hA hac svd num hlib.sqrt cfg hlib.cvx d hd (u 0 n) (v 0 n) I (fun Ms _ => hlib.opt A Ms) mm s hm
    have hcopy := proper_copy (regressions_proper (it := it) hA hac hr hIB)
    rcases h2 with rfl | h2
    · exact ⟨mm, rfl, hr, hIB⟩
    · unfold AnyModel.copy at h2
      rw [hcopy] at h2
      cases h2
      exact ⟨mm, rfl, hr, hIB⟩

/-- C119: in the terms of C113, the fits of the code are optimal. -/
theorem C119_almost_optimal {it : SetIter p} {svd : Matrix (Fin p) (Fin p) ℝ → Matrix (Fin p) (Fin p) ℝ × (Fin p → ℝ)} {num : NumLib p 1}
    {cfg : ScoreCfg} {d : Data p 1} (hd : GoodData d) (hlib : ExactLibs num cfg d) {u v : Nat → Nat → Nat → Fin (p * p) → ℝ} {δ : ℝ} (hδ : 0 ≤ δ) :
    AlmostOptimal δ it 0 d (codeFit it svd num cfg u v d 0) := by
  intro A I m s hA hm
  obtain ⟨hac, m', rfl, hr, hIB⟩ := fitted_regressions hA hd hlib hm
  refine ⟨fun k k' i _ => by rw [Subsingleton.elim k k'], m'.B, ?_⟩
  obtain ⟨C, h1, -, h3⟩ := regressions_mle hac (hd.posDef 0) hr
  refine ⟨C, regressions_proper hA hac hr hIB, h1, fun D' hD' => ?_⟩
  rw [weightedNLL_one (hd.pos 0), weightedNLL_one (hd.pos 0)]
  obtain ⟨-, B', w', b1, b2, b3, b4⟩ := entailedWith_zero.1 hD'
  have := (h3 D' ⟨B', w', b1, b2, fun k k' i _ => by rw [Subsingleton.elim k k'], b4⟩).1
  linarith

/-- C119 (finding): with data from one environment, whatever they are, a run that selects a model without latents declares all variables targets,
and the returned class consists of the graph of the model alone.  So `equivalence_class` does not return the Markov equivalence class that is the
most that one environment can identify. -/
theorem C119_all_targets (E : FitEnv p 1) (svd : Matrix (Fin p) (Fin p) ℝ → Matrix (Fin p) (Fin p) ℝ × (Fin p → ℝ)) (num : NumLib p 1)
    (cfg : ScoreCfg) (u v : Nat → Nat → Nat → Fin (p * p) → ℝ) (hE : E.fit = codeFit E.it svd num cfg u v)
    (harg : ∀ f, IsArgsort f (E.argsort f)) (candidates : List (Adj p)) (hG : ∀ G ∈ candidates, Nonneg G)
    (data : Fin 1 → Sample p) (solverKnown pruneEdges : Bool) (ns : Option (List Nat)) (folds : List Rat) (rs : Int)
    (training testG testI : List (Sample p)) (hsplit : splitData (E.rng 42) (List.ofFn data) folds = .ok [training, testG, testI])
    (hd : GoodData (foldData E.cov training 1)) (hlib : ExactLibs num cfg (foldData E.cov training 1))
    (P : Adj p) (I : Finset (Fin p)) (m : AnyModel p 1)
    (h : equivalenceClass E candidates data solverKnown pruneEdges ns folds rs = .ok (P, I, m)) (hm : m.1 = 0) :
    I = Finset.univ ∧ ∀ i j, P i j = if m.A i j ≠ 0 then 1 else 0 := by
  obtain ⟨s, hmain, hP⟩ : ∃ s, fitMain E data solverKnown ns pruneEdges folds none none (some candidates) 42 = .ok (m, I, s) ∧
      dagToIcpdag E.it m.A (E.it.toList I) = .ok P := by
    unfold equivalenceClass withIcpdag at h
    split at h
    · simp at h
    · rename_i m' I' s' hm'
      split at h
      · simp at h
      · rename_i P' hP'
        cases h
        exact ⟨_, hm', hP'⟩
  have hfit : ∀ d h, GoodFit (E.fit d h) := fun d h => by
    rw [hE]
    exact codeFit_good _ _ _ _ _ _ _ _ (fun hc => by rw [hlib.cvx] at hc; simp at hc)
  have hlat : ∀ d h n A I m s, E.fit d h n A I = .ok (m, s) → m.1 = h := by
    intro d h n A I m s hm
    rw [hE] at hm
    exact codeFit_latents hm
  obtain ⟨_, _, _, graphs, ns', z1, z2, z3, z4⟩ := fitMain_spec hfit hlat harg hmain
  rw [hsplit] at z1
  cases z1
  cases z2
  obtain ⟨-, ⟨G', g1, g2, -⟩, hac, -⟩ := z4 hG
  have hmA : Nonneg m.A := by
    intro a b
    rcases g2 a b with hc | hc
    · rw [hc]; exact hG G' g1 a b
    · rw [hc]
  obtain ⟨_, _, _, _, w1, w2, w3⟩ := C95_larger_targets_worse hfit hlat harg hmain
  rw [hsplit] at w1
  cases w1
  cases w2
  obtain ⟨m0, s0, order, i, u1, -, -, -, u5, -, ⟨sf, u7⟩, u8, u9⟩ := w3 hG
  rw [hE, hm] at u7 u9
  have hi0 : i = 0 := by
    by_contra hi
    obtain ⟨mj, sf', sj, a1, -, a3, a4⟩ := u9 0 (by omega)
    obtain ⟨-, m1, e1, r1, b1⟩ := fitted_regressions hmA hd hlib u7
    obtain ⟨-, m2, e2, r2, b2⟩ := fitted_regressions hmA hd hlib a1
    have heq : mj.scoreOn (foldData E.cov testI 1) = m.scoreOn (foldData E.cov testI 1) := by
      obtain ⟨c1, c2⟩ := regressions_unique hac (hd.posDef 0) r1 r2
      rw [e1, e2]
      have : m2 = m1 := by
        have hA := r1.graph
        have hA' := r2.graph
        obtain ⟨A1, B1, g1, o1, q1, k1⟩ := m1
        obtain ⟨A2, B2, g2, o2, q2, k2⟩ := m2
        simp only at c1 c2 hA hA' b1 b2
        subst hA' c1 c2
        rw [b1, b2]
        congr 1
        · exact hA.symm
        · ext i
          exact i.elim0
        · ext _ i
          exact i.elim0
      rw [this]
    rw [heq, u8] at a3
    cases a3
    apply a4
    cases s with
    | none => exact Or.inl rfl
    | some x => exact Or.inr ⟨x, x, rfl, rfl, le_rfl⟩
  have hI : I = Finset.univ := by rw [u5, hi0]; simp
  exact ⟨hI, fun a b => C22_all_targets E.it m.A P hmA hac _ (fun i => (E.it.mem I i).2 (by rw [hI]; exact Finset.mem_univ _)) hP a b⟩

end Verif
