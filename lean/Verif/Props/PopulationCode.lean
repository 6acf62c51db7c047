import Mathlib.Analysis.InnerProductSpace.Projection.Basic
import Mathlib.Analysis.InnerProductSpace.PiL2
import Verif.Props.Truth
import Verif.Props.Population
import Verif.Props.Cov

/-!
# C104: what `equivalence_class` returns on the exact covariances of a model without latents

The theorems of `Props/Population.lean` are about any exact fitting procedure.  Here the fitting procedure is the code's own, with the convex
solver.
-/

namespace Verif

open Spec Matrix

variable {p e : Nat}

/-- The models the code fits with the solvers other than `grad`, or with `grad` and good random draws. -/
theorem codeFit_proper (it : SetIter p) (svd : Matrix (Fin p) (Fin p) ℝ → Matrix (Fin p) (Fin p) ℝ × (Fin p → ℝ)) (num : NumLib p e)
    (cfg : ScoreCfg) (u v : Nat → Nat → Nat → Fin (p * p) → ℝ) (d : Data p e) (h : Nat)
    (hu : cfg.solver = .grad → ∀ n, GoodDraws p (u h n)) : ProperFit it (codeFit it svd num cfg u v d h) := by
  intro n A I m s hA hm
  unfold codeFit at hm
  split at hm
  · simp at hm
  · rename_i m0 s0 h0
    cases hm
    have h0' : fitCode it svd num cfg d (u h n) (v h n) A I none = .ok (m0, s) := h0
    obtain ⟨a1, a2, -⟩ := C47_within_bounds none m0 _ h0'
    obtain ⟨b1, b2, -⟩ := C45_fitted_model (fun hc => hu hc n) none m0 _ h0'
    obtain ⟨hdag, mi, halt, hiA, -⟩ := fitDag_ok h0
    obtain ⟨k, m', hP, hb, -⟩ := alternate_induct halt (fun m => m.A = A) hiA (fun k m m' hm hb => by rw [(altBody_ok hb).2.1, hm])
    obtain ⟨c1, c2, c3, -⟩ := altBody_ok hb
    have hac : Acyclic A := (isDag_iff it hA).1 hdag
    rw [hP] at c1
    refine ⟨⟨m'.B, A, m'.B, m0.gamma, m0.omegas, m0.psis, hA, ?_, a1, fun k i => (a2 k i).le⟩, fun m1 hm1 => ?_⟩
    · rw [mkModel_eq_ok hA m0.gamma m0.omegas m0.psis hac c1, ← b1, ← c3]
    · unfold AnyModel.copy at hm1
      split at hm1
      · simp at hm1
      · rename_i m2 hm2
        cases hm1
        refine Spec.Proper.upToB ⟨A, m0.B, m0.gamma, m0.omegas, m0.psis, hA, ?_, a1, fun k i => (a2 k i).le⟩
        rw [← b1]
        exact hm2

/-- Without latents and with the convex solver the code's own procedure is exact on exact covariances. -/
theorem C104_exact (it : SetIter p) (svd : Matrix (Fin p) (Fin p) ℝ → Matrix (Fin p) (Fin p) ℝ × (Fin p → ℝ)) (num : NumLib p e)
    (hs : GoodSqrt num.sqrtm) (cfg : ScoreCfg) (hcvx : cfg.solver = .cvx)
    (hthr : 0 < cfg.thresholdScore) (hpsi : ∀ x, cfg.psiMax = some x → 0 ≤ x) (hit : 0 < cfg.stop.maxIter)
    (hfl : 0 < cfg.stop.maxFluctuations) (hdist : 0 ≤ cfg.stop.thresholdDistB) (hp0 : p ≠ 0) (d : Data p e) (he : 0 < e) (hn : ∀ k, 0 < d.nObs k)
    (u v : Nat → Nat → Nat → Fin (p * p) → ℝ) (hopt : ∀ A Ms, CvxOptimal num A Ms d 0) :
    ExactFit it 0 d.covs (codeFit it svd num cfg u v d 0) := by
  refine ⟨codeFit_proper it svd num cfg u v d 0 (fun hc => by rw [hcvx] at hc; simp at hc), fun n A I m s hA hm hc => ?_⟩
  have hac : Acyclic A := (codeFit_good it svd num cfg u v d 0 (fun hc => by rw [hcvx] at hc; simp at hc) _ _ _ _ _ hm).2.1 hA
  obtain ⟨psis, m₀, -, hadm, hcov⟩ := hc
  obtain ⟨B, w, hB, hw, hwc, hent⟩ := (admissible_iff it I hA hac psis d.covs).1 ⟨m₀, hadm, hcov⟩
  have hmk := mkModel_eq_ok (it := it) (l := 0) hA (0 : Matrix (Fin 0) (Fin p) ℝ) w (0 : Matrix (Fin e) (Fin 0) ℝ) hac hB
  have hcov' : (⟨A, B, 0, w, 0, 1 - Bᵀ⟩ : LModel p 0 e).covariances = .ok d.covs := by
    obtain ⟨-, C', hC', hent'⟩ := C35_covariances it A hA B _ w _ _ hmk
    rw [hC']
    congr 1
    funext k
    refine ((hent' k).2 _ ?_).symm
    rw [noiseCov_zero]
    exact hent k
  obtain ⟨m', s', h1, h2, h3, h4, h5, h6⟩ := C103_recovers it svd num hs cfg hcvx hthr hpsi hit hfl hdist hp0 he d.nObs hn (u 0 n) (v 0 n) I A hA B
    w _ hmk hw (fun i hi k k' => hwc k k' i hi) d.covs hcov' A hA hac (fun _ _ h => h) (hopt _ _)
  unfold codeFit at hm
  rw [show fitDag it svd (fun I => codeSolvers it num cfg d (u 0 n) (v 0 n) I) cfg.stop d A I none = .ok (m', some s') from h1] at hm
  cases hm
  exact ⟨⟨A, B, 0, w, 0, hA, h6, hw, fun _ i => i.elim0⟩, h5⟩

theorem cvxFeasible_of_optimal {num : NumLib p e} {d : Data p e} {A : Adj p} {ε : ℝ} (h : ∀ Ms, CvxOptimal num A Ms d ε) : CvxFeasible num A d := by
  intro Ms
  obtain ⟨B, h1, h2, -⟩ := h Ms
  exact ⟨B, h1, fun i j hij => by rw [h2 i j hij]; norm_num⟩

/-- C104: `equivalence_class` as it is, with the convex solver, no pruning of edges, zero among the numbers of latents, data whose sample
covariances are in all three folds those entailed by a model without latents over one of the candidates.  It returns a model without latents
that entails these covariances, over the first candidate that can entail them; it declares all variables targets and returns the single graph
of this model as the class, whatever the true targets are. -/
theorem C104_no_latents (E : FitEnv p e) (svd : Matrix (Fin p) (Fin p) ℝ → Matrix (Fin p) (Fin p) ℝ × (Fin p → ℝ)) (num : NumLib p e)
    (hs : GoodSqrt num.sqrtm) (cfg : ScoreCfg) (u v : Nat → Nat → Nat → Fin (p * p) → ℝ) (hE : E.fit = codeFit E.it svd num cfg u v)
    (hp0 : p ≠ 0) (he : 0 < e) (hcvx : cfg.solver = .cvx) (hthr : 0 < cfg.thresholdScore) (hpsi : ∀ x, cfg.psiMax = some x → 1 < x)
    (hit : 0 < cfg.stop.maxIter) (hfl : 0 < cfg.stop.maxFluctuations) (hdist : 0 ≤ cfg.stop.thresholdDistB)
    (harg : ∀ f, IsArgsort f (E.argsort f)) (candidates : List (Adj p)) (hG : ∀ G ∈ candidates, Nonneg G ∧ Acyclic G)
    (data : Fin e → Sample p) (ns : List Nat) (h0 : 0 ∈ ns) (hnp : ∀ n ∈ ns, n ≤ p) (folds : List Rat) (rs : Int)
    (training testG testI : List (Sample p)) (hsplit : splitData (E.rng 42) (List.ofFn data) folds = .ok [training, testG, testI])
    (hsize : ∀ s ∈ training, s.length ≠ 1) (C : Fin e → Matrix (Fin p) (Fin p) ℝ)
    (hpop : ∀ f ∈ [training, testG, testI], ∀ k : Fin e, E.cov (f.getD k []) = C k ∧ f.getD k [] ≠ [])
    (hopt : ∀ A Ms, CvxOptimal num A Ms (foldData E.cov training e) 0)
    (G : Adj p) (hGm : G ∈ candidates) (hC : EntailedBy Finset.univ G C) :
    ∃ (P : Adj p) (m : LModel p 0 e), equivalenceClass E candidates data true false (some ns) folds rs = .ok (P, Finset.univ, ⟨0, m⟩) ∧
      m.covariances = .ok C ∧ (∀ i j, P i j = if m.A i j ≠ 0 then 1 else 0) ∧
      ∃ i : Nat, candidates[i]? = some m.A ∧ EntailedBy Finset.univ m.A C ∧
        ∀ j < i, ∀ H, candidates[j]? = some H → ¬ EntailedBy Finset.univ H C := by
  have hcan : ∀ H ∈ candidates, CanEntail E.it 0 Finset.univ H C ↔ EntailedBy Finset.univ H C := by
    intro H hH
    constructor
    · rintro ⟨psis, m, -, h1, h2⟩
      exact (admissible_iff E.it Finset.univ (hG H hH).1 (hG H hH).2 psis C).1 ⟨m, h1, h2⟩
    · intro h
      obtain ⟨m, h1, h2⟩ := (admissible_iff E.it Finset.univ (hG H hH).1 (hG H hH).2 0 C).2 h
      exact ⟨0, m, fun _ i => i.elim0, h1, h2⟩
  have hCp : ∀ k, (C k).PosDef := by
    obtain ⟨m, ⟨B, gamma, omegas, h1, h2, -⟩, h3⟩ := (admissible_iff E.it Finset.univ (hG G hGm).1 (hG G hGm).2 0 C).2 hC
    obtain ⟨-, ⟨C', hC', hpd⟩, -⟩ := C36_posDef E.it G (hG G hGm).1 B gamma omegas 0 m h1 h2 (fun _ i => i.elim0)
    rw [h3] at hC'
    cases hC'
    exact fun k => (hpd k).1
  have hgood : ∀ f ∈ [training, testG, testI], GoodData (foldData E.cov f e) := fun f hf =>
    ⟨fun k => by
      have := hCp k
      rw [← (hpop f hf k).1] at this
      exact this, fun k => List.length_pos_of_ne_nil (hpop f hf k).2, he⟩
  have hcovs : (foldData E.cov training e).covs = C := funext fun k => (hpop training (by simp) k).1
  have hgf : ∀ d h, GoodFit (E.fit d h) := fun d h => by
    rw [hE]
    exact codeFit_good _ _ _ _ _ _ _ _ (fun hc => by rw [hcvx] at hc; simp at hc)
  have hlat : ∀ d h n A I m s, E.fit d h n A I = .ok (m, s) → m.1 = h := by
    intro d h n A I m s hm
    rw [hE] at hm
    exact codeFit_latents hm
  obtain ⟨⟨P, I, m⟩, hr⟩ := C72_cvx E svd num cfg u v hE hp0 candidates (List.ne_nil_of_mem hGm) hG data false ns (List.ne_nil_of_mem h0) hnp
    folds rs training testG testI hsplit hsize hgood harg hcvx (fun A => cvxFeasible_of_optimal (hopt A)) hthr hpsi hit hfl (by simp)
  obtain ⟨k0, k1, rfl, k3, k4, k5⟩ := C95_population E candidates (fun G h => (hG G h).1) data true false ns folds rs hgf hlat harg C hCp he
    training testG testI hsplit hpop 0 (fun h _ => by
      rw [hE]
      exact codeFit_proper _ _ _ _ _ _ _ _ (fun hc => by rw [hcvx] at hc; simp at hc)) (fun h _ hh => by
      obtain rfl : h = 0 := by omega
      rw [hE, ← hcovs]
      exact C104_exact E.it svd num hs cfg hcvx hthr (fun x hx => (zero_lt_one.trans (hpsi x hx)).le) hit hfl hdist hp0 _ he
        (hgood training (by simp)).pos u v hopt) G hGm h0 ((hcan G hGm).2 hC) P I m hr
  have hm0 : m.1 = 0 := by
    have := k4 G hGm 0 h0 ((hcan G hGm).2 hC)
    omega
  obtain ⟨l, m⟩ := m
  change l = 0 at hm0
  subst hm0
  obtain ⟨i, i1, i2⟩ := k5 rfl
  have hmem : m.A ∈ candidates := List.mem_of_getElem? i1
  refine ⟨P, m, hr, k1, k3, i, i1, ?_, fun j hj H hH hHe => i2 j hj H hH ((hcan H (List.mem_of_getElem? hH)).2 hHe)⟩
  obtain ⟨A, B, gamma, omegas, psis, hA, q1, q2, q3⟩ := k0
  obtain ⟨-, -, e1⟩ := mkModel_ok hA q1
  have hmA : m.A = A := congrArg LModel.A e1
  subst hmA
  exact (admissible_iff E.it Finset.univ hA (hG _ hmem).2 psis C).1
    ⟨m, ⟨B, gamma, omegas, q1, q2, fun k k' i hi => absurd (Finset.mem_univ i) hi⟩, k1⟩

/-- C104, with C56: with the convex solver and `prune_edges`, pruning a candidate with an edge never ends when the sample covariances are
diagonal, no latents are considered and the solver is exact: all weights are zero, so no edge is ever removed. -/
theorem C104_prune_uncorrelated (it : SetIter p) (svd : Matrix (Fin p) (Fin p) ℝ → Matrix (Fin p) (Fin p) ℝ × (Fin p → ℝ)) (num : NumLib p e)
    (hs : GoodSqrt num.sqrtm) (cfg : ScoreCfg) (hcvx : cfg.solver = .cvx)
    (hthr : 0 < cfg.thresholdScore) (hpsi : ∀ x, cfg.psiMax = some x → 0 ≤ x) (hit : 0 < cfg.stop.maxIter)
    (hfl : 0 < cfg.stop.maxFluctuations) (hdist : 0 ≤ cfg.stop.thresholdDistB) (d : Data p e) (he : 0 < e) (hn : ∀ k, 0 < d.nObs k)
    (u v : Nat → Nat → Nat → Fin (p * p) → ℝ) (hopt : ∀ A Ms, CvxOptimal num A Ms d 0) (w : Fin e → Fin p → ℝ) (hw : ∀ k i, 0 < w k i)
    (hd : ∀ k, d.covs k = Matrix.diagonal (w k)) (G : Adj p) (hG : Nonneg G) (hac : Acyclic G) (hne : ∃ a b, G a b ≠ 0) (n : Nat) :
    pruneGraph it (codeFit it svd num cfg u v d 0) true none ⟨n, []⟩ G = .error .diverge := by
  have hp0 : p ≠ 0 := by
    obtain ⟨a, -⟩ := hne
    intro h0
    exact absurd a.2 (by omega)
  have hB : Respects G (0 : Matrix (Fin p) (Fin p) ℝ) := fun _ _ _ => rfl
  have hmk := mkModel_eq_ok (it := it) (l := 0) hG (0 : Matrix (Fin 0) (Fin p) ℝ) w (0 : Matrix (Fin e) (Fin 0) ℝ) hac hB
  have hcov : (⟨G, 0, 0, w, 0, 1 - (0 : Matrix (Fin p) (Fin p) ℝ)ᵀ⟩ : LModel p 0 e).covariances = .ok d.covs := by
    obtain ⟨-, C', hC', hent'⟩ := C35_covariances it G hG _ _ w _ _ hmk
    rw [hC']
    congr 1
    funext k
    refine ((hent' k).2 _ ?_).symm
    rw [noiseCov_zero, hd k]
    unfold Entails
    simp
  have hfit : ∀ k, ∃ m s, codeFit it svd num cfg u v d 0 k G Finset.univ = .ok (m, s) ∧ m.B = 0 ∧ m.copy it = .ok m := by
    intro k
    obtain ⟨m', s', h1, h2, h3, h4, h5, h6⟩ := C103_recovers it svd num hs cfg hcvx hthr hpsi hit hfl hdist hp0 he d.nObs hn (u 0 k) (v 0 k)
      Finset.univ G hG 0 w _ hmk hw (fun i hi => absurd (Finset.mem_univ i) hi) d.covs hcov G hG hac (fun _ _ h => h) (hopt _ _)
    refine ⟨⟨0, m'⟩, some s', ?_, h3, ?_⟩
    · unfold codeFit
      rw [show fitDag it svd (fun I => codeSolvers it num cfg d (u 0 k) (v 0 k) I) cfg.stop d G Finset.univ none = .ok (m', some s') from h1]
    · unfold AnyModel.copy
      rw [show m'.copy it = .ok m' from proper_copy ⟨G, 0, 0, w, 0, hG, h6, hw, fun _ i => i.elim0⟩]
  refine C56_diverges it _ (codeFit_good it svd num cfg u v d 0 (fun hc => by rw [hcvx] at hc; simp at hc)) _ (ScoreObj.ok_new it _ n) G hG hne ?_ ?_
  · intro k
    obtain ⟨m, s, h1, -, h3⟩ := hfit k
    exact ⟨m, s, m, h1, h3⟩
  · intro k m s hm
    obtain ⟨m', s', h1, h2, -⟩ := hfit k
    rw [h1] at hm
    cases hm
    exact h2

/-- The hypotheses about the libraries can be met: least squares problems have solutions. -/
theorem cvxOptimal_zero_exists : ∃ num : NumLib p e, GoodSqrt num.sqrtm ∧ ∀ A Ms d, CvxOptimal num A Ms d 0 := by
  obtain ⟨f, hf⟩ := goodSqrt_exists (p := p)
  let num0 : NumLib p e := ⟨f, fun _ => true, fun x => x / 2, fun _ _ _ => none⟩
  have key : ∀ A Ms d, ∃ B, Respects A B ∧ ∀ B', Respects A B' → cvxObjective num0 d Ms B ≤ cvxObjective num0 d Ms B' := by
    intro A Ms d
    let V : Submodule ℝ (Matrix (Fin p) (Fin p) ℝ) :=
      { carrier := { B | Respects A B }
        add_mem' := fun {a b} ha hb i j h => by rw [Matrix.add_apply, ha i j h, hb i j h, add_zero]
        zero_mem' := fun _ _ _ => rfl
        smul_mem' := fun c x hx i j h => by rw [Matrix.smul_apply, hx i j h, smul_zero] }
    let T : Matrix (Fin p) (Fin p) ℝ →ₗ[ℝ] EuclideanSpace ℝ (Fin e × Fin p × Fin p) :=
      { toFun := fun B => WithLp.toLp 2 fun x => Real.sqrt ((d.nObs x.1 : ℝ) / d.total) * (f (Ms x.1) * Bᵀ * f (d.covs x.1)) x.2.1 x.2.2
        map_add' := fun B B' => by
          ext x
          simp [Matrix.mul_add, Matrix.add_mul, mul_add]
        map_smul' := fun c B => by
          ext x
          simp
          ring }
    let v0 : EuclideanSpace ℝ (Fin e × Fin p × Fin p) := T 1
    have hobj : ∀ B, cvxObjective num0 d Ms B = ‖v0 - T B‖ ^ 2 := by
      intro B
      have hsub : v0 - T B = T (1 - B) := (map_sub T 1 B).symm
      rw [hsub, EuclideanSpace.norm_sq_eq, Fintype.sum_prod_type]
      unfold cvxObjective
      rw [Finset.sum_div]
      refine Finset.sum_congr rfl fun k _ => ?_
      rw [Fintype.sum_prod_type, mul_div_assoc, Finset.sum_mul]
      refine Finset.sum_congr rfl fun i _ => ?_
      rw [Finset.sum_mul]
      refine Finset.sum_congr rfl fun j _ => ?_
      have : (T (1 - B)) (k, i, j) = Real.sqrt ((d.nObs k : ℝ) / d.total) * (f (Ms k) * (1 - B)ᵀ * f (d.covs k) : Matrix (Fin p) (Fin p) ℝ) i j := rfl
      rw [this, Real.norm_eq_abs, sq_abs, mul_pow, Real.sq_sqrt (by positivity), Matrix.transpose_sub, Matrix.transpose_one]
      ring
    obtain ⟨w, hw, hmin⟩ := (V.map T).exists_norm_eq_iInf_of_complete_subspace (Submodule.complete_of_finiteDimensional _) v0
    obtain ⟨B, hB, rfl⟩ := hw
    refine ⟨B, hB, fun B' hB' => ?_⟩
    rw [hobj, hobj]
    have : ‖v0 - T B‖ ≤ ‖v0 - T B'‖ := by
      rw [hmin]
      exact ciInf_le ⟨0, by rintro x ⟨y, rfl⟩; exact norm_nonneg _⟩ (⟨T B', ⟨B', hB', rfl⟩⟩ : (V.map T : Set (EuclideanSpace ℝ (Fin e × Fin p × Fin p))))
    gcongr
  choose g hg1 hg2 using key
  exact ⟨⟨f, fun _ => true, fun x => x / 2, fun A Ms d => some (g A Ms d)⟩, hf,
    fun A Ms d => ⟨g A Ms d, rfl, hg1 A Ms d, fun B' hB' => by rw [add_zero]; exact hg2 A Ms d B' hB'⟩⟩

/-! ## An example with data -/

/-- Four observations of `X₀ = c N₀`, `X₁ = X₀ + N₁`. -/
def exBlock (c : ℝ) : Sample 2 := [![c, c], ![-c, -c], ![0, 1], ![0, -1]]

theorem exBlock_cov (c : ℝ) : npCov (exBlock c) = !![2 / 3 * c ^ 2, 2 / 3 * c ^ 2; 2 / 3 * c ^ 2, 2 / 3 * (c ^ 2 + 1)] := by
  ext i j
  fin_cases i <;> fin_cases j <;> simp [npCov, exBlock, colMean] <;> ring

theorem exBlock_split : splitData (fun _ => Rng.front) (List.ofFn ![exBlock 1 ++ exBlock 1 ++ exBlock 1, exBlock 2 ++ exBlock 2 ++ exBlock 2])
    [1 / 3, 1 / 3, 1 / 3] = .ok [[exBlock 1, exBlock 2], [exBlock 1, exBlock 2], [exBlock 1, exBlock 2]] := by
  have hl : ∀ c, (exBlock c ++ exBlock c ++ exBlock c).length = 12 := fun c => rfl
  have r1 : pyRound (4 : Rat) = 4 := pyRound_int 4
  have b0 : sliceBound 12 0 = 0 := by decide
  have b1 : sliceBound 12 4 = 4 := by decide
  have b2 : sliceBound 12 8 = 8 := by decide
  have b3 : sliceBound 12 12 = 12 := by decide
  have hr : List.range 3 = [0, 1, 2] := by decide
  unfold splitData
  rw [if_neg (by norm_num)]
  simp [splitSample, pySlice, List.zipIdx, Rng.front, exBlock]
  norm_num [r1, b0, b1, b2, b3, hr]

/-- The only target is variable 0, all covariances are exact, and the candidates are the two graphs over two variables: the code finds that the
first candidate does not fit and returns `0 → 1`, but with both variables as targets. -/
theorem C104_example (svd : Matrix (Fin 2) (Fin 2) ℝ → Matrix (Fin 2) (Fin 2) ℝ × (Fin 2 → ℝ)) (u v : Nat → Nat → Nat → Fin (2 * 2) → ℝ) :
    ∃ num : NumLib 2 2, ∃ m : LModel 2 0 2,
      EntailedBy {0} ![![0, 1], ![0, 0]] (fun k : Fin 2 => npCov (![exBlock 1, exBlock 2] k)) ∧
      equivalenceClass ⟨SetIter.incr 2, fun _ _ => Rng.front, npCov, insArgsort, fun _ => [], fun _ => fun i j => if i = j then 0 else 1,
        codeFit (SetIter.incr 2) svd num ⟨.cvx, none, false, ⟨1000, 1 / 1000, 1 / 100000, 5⟩, 1 / 100000, 1⟩ u v⟩
        [![![0, 0], ![1, 0]], ![![0, 1], ![0, 0]]] ![exBlock 1 ++ exBlock 1 ++ exBlock 1, exBlock 2 ++ exBlock 2 ++ exBlock 2] true false
        (some [0, 1, 2]) [1 / 3, 1 / 3, 1 / 3] 42 = .ok (![![0, 1], ![0, 0]], {0, 1}, ⟨0, m⟩) := by
  obtain ⟨num, hs, hopt⟩ := cvxOptimal_zero_exists (p := 2) (e := 2)
  have hn1 : Nonneg (![![0, 0], ![1, 0]] : Adj 2) := by unfold Nonneg; decide
  have hn2 : Nonneg (![![0, 1], ![0, 0]] : Adj 2) := by unfold Nonneg; decide
  have ha1 : Acyclic (![![0, 0], ![1, 0]] : Adj 2) := (isDag_iff (SetIter.incr 2) hn1).1 (by decide)
  have ha2 : Acyclic (![![0, 1], ![0, 0]] : Adj 2) := (isDag_iff (SetIter.incr 2) hn2).1 (by decide)
  have hent : EntailedBy {0} ![![0, 1], ![0, 0]] (fun k : Fin 2 => npCov (![exBlock 1, exBlock 2] k)) := by
    refine ⟨!![0, 1; 0, 0], ![![2 / 3, 2 / 3], ![8 / 3, 2 / 3]], ?_, ?_, ?_, ?_⟩
    · intro i j h
      fin_cases i <;> fin_cases j <;> simp at h ⊢
    · intro k i
      fin_cases k <;> fin_cases i <;> norm_num
    · intro k k' i hi
      fin_cases i
      · simp at hi
      · fin_cases k <;> fin_cases k' <;> simp
    · intro k
      unfold Entails
      fin_cases k <;> simp only [exBlock_cov] <;> ext i j <;> fin_cases i <;> fin_cases j <;>
        simp [Matrix.mul_apply, Fin.sum_univ_two, exBlock_cov] <;> norm_num
  have hno : ¬ EntailedBy Finset.univ (![![0, 0], ![1, 0]] : Adj 2) (fun k : Fin 2 => npCov (![exBlock 1, exBlock 2] k)) := by
    rintro ⟨B, w, hB, -, -, h⟩
    have h0 := C103_regression ha1 hB (h 0) 1 0 (by decide)
    have h1 := C103_regression ha1 hB (h 1) 1 0 (by decide)
    have hz := hB 0 0 (by decide)
    rw [Fin.sum_univ_two, hz] at h0 h1
    simp [exBlock_cov] at h0 h1
    norm_num at h0 h1
    linarith
  obtain ⟨P, m, h1, -, h3, i, h4, h5, h6⟩ := C104_no_latents
    ⟨SetIter.incr 2, fun _ _ => Rng.front, npCov, insArgsort, fun _ => [], fun _ => fun i j => if i = j then 0 else 1,
      codeFit (SetIter.incr 2) svd num ⟨.cvx, none, false, ⟨1000, 1 / 1000, 1 / 100000, 5⟩, 1 / 100000, 1⟩ u v⟩
    svd num hs ⟨.cvx, none, false, ⟨1000, 1 / 1000, 1 / 100000, 5⟩, 1 / 100000, 1⟩ u v rfl (by norm_num) (by norm_num) rfl (by norm_num) (by simp)
    (by norm_num) (by norm_num) (by norm_num) insArgsort_spec [![![0, 0], ![1, 0]], ![![0, 1], ![0, 0]]]
    (by
      intro G hG
      simp only [List.mem_cons, List.not_mem_nil, or_false] at hG
      rcases hG with rfl | rfl
      exacts [⟨hn1, ha1⟩, ⟨hn2, ha2⟩])
    ![exBlock 1 ++ exBlock 1 ++ exBlock 1, exBlock 2 ++ exBlock 2 ++ exBlock 2] [0, 1, 2] (by simp) (by simp) [1 / 3, 1 / 3, 1 / 3] 42 _ _ _
    exBlock_split (by simp [exBlock]) (fun k => npCov (![exBlock 1, exBlock 2] k))
    (by
      intro f hf k
      have : f = [exBlock 1, exBlock 2] := by simpa using hf
      subst this
      fin_cases k <;> simp [exBlock])
    (fun A Ms => hopt A Ms _) ![![0, 1], ![0, 0]] (by simp)
    (by
      obtain ⟨B, w, k1, k2, -, k4⟩ := hent
      exact ⟨B, w, k1, k2, fun _ _ i hi => absurd (Finset.mem_univ i) hi, k4⟩)
  have hA : m.A = ![![0, 1], ![0, 0]] := by
    have := List.mem_of_getElem? h4
    simp only [List.mem_cons, List.not_mem_nil, or_false] at this
    rcases this with h | h
    · rw [h] at h5
      exact absurd h5 hno
    · exact h
  refine ⟨num, m, hent, ?_⟩
  rw [h1]
  have hP : P = ![![0, 1], ![0, 0]] := by
    funext a b
    rw [h3, hA]
    fin_cases a <;> fin_cases b <;> rfl
  rw [hP]
  rfl

end Verif
