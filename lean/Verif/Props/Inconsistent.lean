import Verif.Props.Clt
import Verif.Props.Gain
import Verif.Props.FoldRows
import Verif.Props.Consistency

/-!
# C121: with three environments the selection of the targets is not consistent
-/

namespace Verif

open Spec Matrix MeasureTheory ProbabilityTheory Filter Topology

variable {p e : Nat}

/-! ## The folds -/

theorem foldRows_disjoint (r : Rng) (a b c : Rat) (N : Nat) : (foldRows r a b c N 0).Disjoint (foldRows r a b c N 2) := by
  have h0 : (r.shuffle (List.range N)).Nodup := (r.shuffle_perm _).nodup_iff.2 List.nodup_range
  unfold foldRows
  simp only [List.map_cons, List.map_nil, pieces, List.getD_cons_zero, List.getD_cons_succ]
  generalize r.shuffle (List.range N) = l at *
  generalize (pyRound (N * a)).toNat = x
  generalize (pyRound (N * b)).toNat = y
  generalize (pyRound (N * c)).toNat = z
  intro q hq1 hq2
  exact List.disjoint_take_drop h0 le_rfl hq1 (List.drop_subset _ _ (List.take_subset _ _ hq2))

theorem foldRows_length_same (r r' : Rng) (a b c : Rat) (N : Nat) : ∀ i < 3, (foldRows r a b c N i).length = (foldRows r' a b c N i).length := by
  intro i hi
  have h : ∀ r : Rng, (r.shuffle (List.range N)).length = N := fun r => by rw [(r.shuffle_perm _).length_eq, List.length_range]
  unfold foldRows
  simp only [List.map_cons, List.map_nil, pieces]
  interval_cases i <;> simp [h]

theorem foldRows_length_le (r : Rng) (a b c : Rat) (N : Nat) : (foldRows r a b c N 0).length ≤ N := by
  have h : (r.shuffle (List.range N)).length = N := by rw [(r.shuffle_perm _).length_eq, List.length_range]
  unfold foldRows
  simp [pieces, h]

/-- The sample variance of one variable depends on the observations of this variable in the given rows only. -/
theorem npCov_rows_measurable {Ω : Type} [MeasurableSpace Ω] {X : ℕ → Ω → Fin p → ℝ} {J : List ℕ} {i : Fin p} (hX : ∀ a ∈ J, Measurable fun ω => X a ω i) :
    Measurable fun ω => npCov (rowsOf X J ω) i i := by
  have hsum : ∀ (g : ℝ → ℝ), Measurable g → Measurable fun ω => ((rowsOf X J ω).map fun x => g (x i)).sum := by
    intro g hg
    unfold rowsOf
    induction J with
    | nil => simp
    | cons a J ih =>
      simp only [List.map_cons, List.sum_cons]
      exact (hg.comp (hX a (by simp))).add (ih fun b hb => hX b (by simp [hb]))
  rcases J with _ | ⟨a, J⟩
  · simp only [rowsOf, List.map_nil]
    exact measurable_const
  · have : (fun ω => npCov (rowsOf X (a :: J) ω) i i) = fun ω => (((a :: J).length : ℕ) : ℝ) / (((a :: J).length : ℕ) - 1) *
        (((rowsOf X (a :: J) ω).map fun x => x i * x i).sum / ((a :: J).length : ℕ) -
        ((rowsOf X (a :: J) ω).map fun x => x i).sum / ((a :: J).length : ℕ) * (((rowsOf X (a :: J) ω).map fun x => x i).sum / ((a :: J).length : ℕ))) := by
      funext ω
      rw [npCov_eq _ (by simp [rowsOf])]
      simp [rowsOf]
    rw [this]
    have h1 := hsum (fun y => y * y) (measurable_id.mul measurable_id)
    have h2 := hsum id measurable_id
    exact ((h1.div_const _).sub ((h2.div_const _).mul (h2.div_const _))).const_mul _

/-! ## The assumptions -/

/-- Libraries with which every fit returns: the solver `cvx` finds weights on the edges of the graph, and the limits are positive. -/
structure Spec.CvxEnv (E : FitEnv p e) : Prop where
  cov : E.cov = npCov
  argsort : ∀ f, IsArgsort f (E.argsort f)
  fit : ∃ (svd : Matrix (Fin p) (Fin p) ℝ → Matrix (Fin p) (Fin p) ℝ × (Fin p → ℝ)) (num : NumLib p e) (cfg : ScoreCfg)
    (u v : Nat → Nat → Nat → Fin (p * p) → ℝ), E.fit = codeFit E.it svd num cfg u v ∧ cfg.solver = .cvx ∧ (∀ A d, CvxFeasible num A d) ∧
      0 < cfg.thresholdScore ∧ (∀ x, cfg.psiMax = some x → 1 < x) ∧ 0 < cfg.stop.maxIter ∧ 0 < cfg.stop.maxFluctuations

/-- Independent observations of independent variables in some environments, with variances `c` and finite fourth moments. -/
structure Spec.IndepEnvs {Ω : Type} [MeasurableSpace Ω] (μ : Measure Ω) (X : Fin e → ℕ → Ω → Fin p → ℝ) (c : Fin e → Fin p → ℝ) : Prop where
  iid : ∀ k, Iid μ (X k) (Matrix.diagonal (c k))
  indep : iIndepFun (fun (x : Fin e × ℕ × Fin p) ω => X x.1 x.2.1 ω x.2.2) μ
  mem4 : ∀ k i, MemLp (fun ω => X k 0 ω i) 4 μ

/-- Variances of which those of variable `j`, and no others, change between the environments, the last of them being the average of the others. -/
structure Spec.OneChanges (c : Fin 3 → Fin p → ℝ) (j : Fin p) : Prop where
  pos : ∀ k i, 0 < c k i
  differ : c 0 j ≠ c 1 j
  average : c 0 j + c 1 j = 2 * c 2 j
  const : ∀ i, i ≠ j → ∀ k, c k i = c 0 i

/-- C121: the graph without edges can entail the covariances with the targets `I` exactly if `j` is one of them. -/
theorem C121_truth {c : Fin 3 → Fin p → ℝ} {j : Fin p} (h : OneChanges c j) {A : Adj p} (hA : ∀ i j, A i j = 0) (I : Finset (Fin p)) :
    EntailedBy I A (fun k => Matrix.diagonal (c k)) ↔ j ∈ I := by
  constructor
  · rintro ⟨B, w, b1, b2, b3, b4⟩
    by_contra hj
    have hB : B = 0 := by
      ext a b
      exact b1 a b (hA a b)
    have : ∀ k, c k j = w k j := by
      intro k
      have := b4 k
      unfold Entails at this
      rw [hB] at this
      simp only [Matrix.transpose_zero, sub_zero, Matrix.one_mul, Matrix.transpose_one, Matrix.mul_one] at this
      have := congrFun (congrFun this j) j
      rwa [Matrix.diagonal_apply_eq, Matrix.diagonal_apply_eq] at this
    exact h.differ (by rw [this 0, this 1, b3 0 1 j hj])
  · intro hj
    refine ⟨0, c, fun _ _ _ => rfl, h.pos, fun k k' i hi => ?_, fun k => ?_⟩
    · have hij : i ≠ j := fun hc => hi (hc ▸ hj)
      rw [h.const i hij k, h.const i hij k']
    · unfold Entails
      simp

variable {Ω : Type} [MeasurableSpace Ω] {μ : Measure Ω}

/-! ## One large error and small others -/

/-- The scaled error of the sample variance of a variable in the given rows. -/
noncomputable def Spec.scaledError (X : ℕ → Ω → Fin p → ℝ) (v : ℝ) (i : Fin p) (J : List ℕ) (ω : Ω) : ℝ :=
  √(J.length : ℝ) * (npCov (rowsOf X J ω) i i - v)

/-- Many events that are all almost certain occur together with probability at least a half. -/
theorem union_half [IsProbabilityMeasure μ] {ι : Type} [Fintype ι] (s : ι → Set Ω) (hs : ∀ x, MeasurableSet (s x)) {ε : ENNReal}
    (hε : ε * (Fintype.card ι : ℕ) < 2⁻¹) (h : ∀ x, 1 - ε < μ (s x)) : 2⁻¹ ≤ μ (⋂ x, s x) := by
  have hcompl : μ (⋂ x, s x)ᶜ ≤ ∑ _x : ι, ε := by
    rw [Set.compl_iInter]
    refine (measure_iUnion_fintype_le μ _).trans (Finset.sum_le_sum fun x _ => ?_)
    rw [prob_compl_eq_one_sub (hs x)]
    exact (tsub_le_tsub_left (h x).le 1).trans tsub_tsub_le
  rw [Finset.sum_const, Finset.card_univ, nsmul_eq_mul, mul_comm] at hcompl
  have hlt := hcompl.trans_lt hε
  by_contra hcon
  push Not at hcon
  have h1 : (1 : ENNReal) ≤ μ (⋂ x, s x) + μ (⋂ x, s x)ᶜ := by
    rw [← measure_univ (μ := μ), ← Set.union_compl_self (⋂ x, s x)]
    exact measure_union_le _ _
  have h2 := ENNReal.add_lt_add hcon hlt
  rw [ENNReal.inv_two_add_inv_two] at h2
  exact absurd h1 (not_le.2 h2)

/-- The events that some of the random variables determine. -/
@[instance_reducible] def sigmaOf {Ω ι : Type} (f : ι → Ω → ℝ) (W : Set ι) : MeasurableSpace Ω := ⨆ x ∈ W, MeasurableSpace.comap (f x) inferInstance

theorem sigmaOf_indep {ι : Type} {f : ι → Ω → ℝ} (hf : ∀ x, Measurable (f x)) (h : iIndepFun f μ) (W : Set ι) : Indep (sigmaOf f W) (sigmaOf f Wᶜ) μ :=
  indep_iSup_of_disjoint (fun x => (hf x).comap_le) h.iIndep disjoint_compl_right

omit [MeasurableSpace Ω] in
theorem sigmaOf_measurable {ι : Type} (f : ι → Ω → ℝ) {W : Set ι} {x : ι} (hx : x ∈ W) : Measurable[sigmaOf f W] (f x) :=
  measurable_iff_comap_le.2 (le_iSup₂ (f := fun x (_ : x ∈ W) => MeasurableSpace.comap (f x) inferInstance) x hx)

theorem scaledError_measurable {X : ℕ → Ω → Fin p → ℝ} {v : ℝ} {i : Fin p} {J : List ℕ} (hX : ∀ a ∈ J, Measurable fun ω => X a ω i) :
    Measurable (scaledError X v i J) := by
  unfold scaledError
  exact ((npCov_rows_measurable hX).sub_const _).const_mul _

/-- The error of one variance is independent of the others. -/
theorem errors_independent {X : Fin 3 → ℕ → Ω → Fin p → ℝ} {c : Fin 3 → Fin p → ℝ} (hX : IndepEnvs μ X c) (j : Fin p)
    (J : Fin 3 → Fin 2 → List ℕ) (hdis : ∀ k, (J k 0).Disjoint (J k 1)) (M K : ℝ) :
    μ ({ω | M < scaledError (X 2) (c 2 j) j (J 2 0) ω} ∩ {ω | ∀ k i f, ¬ (k = 2 ∧ i = j ∧ f = 0) → |scaledError (X k) (c k i) i (J k f) ω| < K}) =
      μ {ω | M < scaledError (X 2) (c 2 j) j (J 2 0) ω} * μ {ω | ∀ k i f, ¬ (k = 2 ∧ i = j ∧ f = 0) → |scaledError (X k) (c k i) i (J k f) ω| < K} := by
  have hcoord : ∀ k a i, Measurable fun ω => X k a ω i := fun k a i => (measurable_pi_apply i).comp ((hX.iid k).meas a)
  obtain ⟨f, hf⟩ : ∃ f : Fin 3 × ℕ × Fin p → Ω → ℝ, f = fun x ω => X x.1 x.2.1 ω x.2.2 := ⟨_, rfl⟩
  have hfi : iIndepFun f μ := by rw [hf]; exact hX.indep
  have hfm : ∀ x, Measurable (f x) := fun x => by rw [hf]; exact hcoord _ _ _
  obtain ⟨U, hU⟩ : ∃ U : Set (Fin 3 × ℕ × Fin p), ∀ x, x ∈ U ↔ x.1 = 2 ∧ x.2.2 = j ∧ x.2.1 ∈ J 2 0 := ⟨{x | x.1 = 2 ∧ x.2.2 = j ∧ x.2.1 ∈ J 2 0}, fun _ => Iff.rfl⟩
  have hind := sigmaOf_indep hfm hfi U
  have herr : ∀ (W : Set (Fin 3 × ℕ × Fin p)) k g i, (∀ a ∈ J k g, (k, a, i) ∈ W) → Measurable[sigmaOf f W] (scaledError (X k) (c k i) i (J k g)) := by
    intro W k g i hx
    refine @scaledError_measurable p Ω (sigmaOf f W) (X k) (c k i) i (J k g) fun a ha => ?_
    have := sigmaOf_measurable f (hx a ha)
    rw [hf] at this ⊢
    exact this
  rw [Indep_iff] at hind
  refine hind _ _ ?_ ?_
  · exact herr U 2 0 j (fun a ha => (hU _).2 ⟨rfl, rfl, ha⟩) measurableSet_Ioi
  · have : {ω | ∀ k i f, ¬ (k = 2 ∧ i = j ∧ f = 0) → |scaledError (X k) (c k i) i (J k f) ω| < K} =
        ⋂ k, ⋂ i, ⋂ f, ⋂ (_ : ¬ (k = 2 ∧ i = j ∧ f = 0)), (scaledError (X k) (c k i) i (J k f)) ⁻¹' Set.Ioo (-K) K := by
      ext ω
      simp only [Set.mem_iInter, Set.mem_ofPred_eq, Set.mem_preimage, Set.mem_Ioo, abs_lt]
    rw [this]
    refine MeasurableSet.iInter fun k => MeasurableSet.iInter fun i => MeasurableSet.iInter fun g => MeasurableSet.iInter fun hkf => ?_
    refine herr Uᶜ k g i (fun a ha hc => ?_) measurableSet_Ioo
    obtain ⟨c1, c2, c3⟩ := (hU _).1 hc
    simp only at c1 c2 c3
    rcases Fin.exists_fin_two.1 ⟨g, rfl⟩ with hg | hg
    · exact hkf ⟨c1, c2, hg⟩
    · rw [hg, c1] at ha
      exact hdis 2 c3 ha

/-- A large error of one sample variance, and bounded errors of the others, occur together with a probability that stays away from zero. -/
theorem errors_together [IsProbabilityMeasure μ] {X : Fin 3 → ℕ → Ω → Fin p → ℝ} {c : Fin 3 → Fin p → ℝ} (hX : IndepEnvs μ X c) {j : Fin p}
    (hv : sqVar μ (fun ω => X 2 0 ω j) ≠ 0) (J : Fin 3 → Fin 2 → ℕ → List ℕ) (hJ : ∀ k f n, (J k f n).Nodup)
    (hdis : ∀ k n, (J k 0 n).Disjoint (J k 1 n)) (hlen : ∀ k f, Tendsto (fun n => (J k f n).length) atTop atTop) :
    ∃ K > 0, ∀ M, ∃ η > 0, η < ⊤ ∧ ∀ᶠ n in atTop, η ≤ μ ({ω | M < scaledError (X 2) (c 2 j) j (J 2 0 n) ω} ∩
      {ω | ∀ k i f, ¬ (k = 2 ∧ i = j ∧ f = 0) → |scaledError (X k) (c k i) i (J k f n) ω| < K}) := by
  have hcoord : ∀ k a i, Measurable fun ω => X k a ω i := fun k a i => (measurable_pi_apply i).comp ((hX.iid k).meas a)
  have hmeas : ∀ k i (J : List ℕ), Measurable (scaledError (X k) (c k i) i J) := by
    intro k i J
    unfold scaledError
    exact ((npCov_rows_measurable fun a _ => hcoord _ _ _).sub_const _).const_mul _
  obtain ⟨ε, hε, hε'⟩ := ENNReal.exists_nnreal_pos_mul_lt (a := ((Fintype.card (Fin 3 × Fin p × Fin 2) : ℕ) : ENNReal)) (b := 2⁻¹) (ENNReal.natCast_ne_top _)
    (by simp)
  have hq : (1 : ENNReal) - ε < 1 := ENNReal.sub_lt_self (by simp) (by simp) (by exact_mod_cast hε.ne')
  choose K0 hK0 using fun x : Fin 3 × Fin p => rows_tight (hX.iid x.1) x.2 (hX.mem4 x.1 x.2) hq
  have : Nonempty (Fin 3 × Fin p) := ⟨(0, j)⟩
  obtain ⟨x1, hx1⟩ := Finite.exists_max K0
  obtain ⟨K, hK1, hK2⟩ : ∃ K : ℝ, K0 x1 ≤ K ∧ 0 < K := ⟨max (K0 x1) 1, le_max_left _ _, lt_of_lt_of_le one_pos (le_max_right _ _)⟩
  have htight : ∀ k i f, ∀ᶠ n in atTop, 1 - (ε : ENNReal) < μ {ω | |scaledError (X k) (c k i) i (J k f n) ω| < K} := by
    intro k i f
    have := hK0 (k, i) K ((hx1 (k, i)).trans hK1) (J k f) (hJ k f) (hlen k f)
    simpa only [Set.mem_Ioo, abs_lt, scaledError, Matrix.diagonal_apply_eq] using this
  refine ⟨K, hK2, fun M => ?_⟩
  obtain ⟨η, hη, htail⟩ := rows_tail (hX.iid 2) j (hX.mem4 2 j) hv M
  have htail := htail (J 2 0) (hJ 2 0) (hlen 2 0)
  have hηtop : η < ⊤ := by
    obtain ⟨n, hn⟩ := htail.exists
    exact hn.trans_le le_top
  refine ⟨η / 2, ENNReal.div_pos hη.ne' (by simp), lt_of_le_of_lt ENNReal.half_le_self hηtop, ?_⟩
  have hall : ∀ᶠ n in atTop, ∀ x : Fin 3 × Fin p × Fin 2, 1 - (ε : ENNReal) < μ {ω | |scaledError (X x.1) (c x.1 x.2.1) x.2.1 (J x.1 x.2.2 n) ω| < K} :=
    eventually_all.2 fun x => htight _ _ _
  filter_upwards [htail, hall] with n hA hB
  rw [errors_independent hX j (fun k f => J k f n) (fun k => hdis k n) M K, div_eq_mul_inv]
  refine mul_le_mul' ?_ ?_
  · refine hA.le.trans (measure_mono fun ω hω => ?_)
    simp only [Set.mem_ofPred_eq, Set.mem_Ioo, Matrix.diagonal_apply_eq] at hω ⊢
    exact hω.1
  · refine (union_half _ (fun x => ?_) hε' hB).trans (measure_mono fun ω hω k i f _ => ?_)
    · exact measurableSet_lt (hmeas _ _ _).abs measurable_const
    · exact Set.mem_iInter.1 hω (k, i, f)

/-! ## The run -/

theorem getD_ofFn {α : Type} {n : Nat} (f : Fin n → List α) (k : Fin n) : (List.ofFn f).getD k [] = f k := by
  simp

/-- The result of a run in which one variance has a large error. -/
theorem run_misses (E : FitEnv p 3) (hE : CvxEnv E) (hp : p ≠ 0) (candidates : List (Adj p)) (hne : candidates ≠ []) (hG : ∀ G ∈ candidates, ∀ i j, G i j = 0)
    (data : Fin 3 → Sample p) (folds : List Rat) (rs : Int) (Tr Te Ti : Fin 3 → Sample p)
    (hsplit : splitData (E.rng 42) (List.ofFn data) folds = .ok [List.ofFn Tr, List.ofFn Te, List.ofFn Ti])
    {L L' : ℕ} (hL : 2 ≤ L) (hL' : 2 ≤ L') (hn : ∀ k, (Tr k).length = L) (hn' : ∀ k, (Ti k).length = L') (hn1 : ∀ k, Te k ≠ [])
    {c : Fin 3 → Fin p → ℝ} {j : Fin p} (hc : OneChanges c j) {ν V δ K R : ℝ} (hν : 0 < ν) (hδν : δ ≤ ν) (hR : 0 ≤ R)
    (hcν : ∀ k i, 2 * ν ≤ c k i) (hcV : ∀ k i, c k i + ν ≤ V) (hK : 0 ≤ K)
    (hpd : ∀ k (S : Matrix (Fin p) (Fin p) ℝ), S.PosSemidef → (∀ x y, |S x y - Matrix.diagonal (c k) x y| < δ) → S.PosDef)
    (hclose : ∀ s ∈ [Tr, Te, Ti], ∀ k x y, |npCov (s k) x y - Matrix.diagonal (c k) x y| < δ) (hLR : (L : ℝ) ≤ R ^ 2 * L')
    (hTi : ∀ k i, |√(L' : ℝ) * (npCov (Ti k) i i - c k i)| < K)
    (hTr : ∀ k i, ¬ (k = 2 ∧ i = j) → |√(L : ℝ) * (npCov (Tr k) i i - c k i)| < K)
    (hbig : largeError p ν V (K * (1 + R)) R < √(L : ℝ) * (npCov (Tr 2) j j - c 2 j)) :
    ∃ P I m, equivalenceClass E candidates data true false (some [0]) folds rs = .ok (P, I, m) ∧ j ∉ I := by
  obtain ⟨hcov, harg, svd, num, cfg, u, v, hfit, hcvx, hfeas, hthr, hpsi, hit, hfl⟩ := hE
  have hLpos : (0 : ℝ) < L := by exact_mod_cast (by omega : 0 < L)
  have hLpos' : (0 : ℝ) < L' := by exact_mod_cast (by omega : 0 < L')
  have hlen : ∀ s ∈ [Tr, Te, Ti], ∀ k, 0 < (s k).length := by
    simp only [List.mem_cons, List.not_mem_nil, or_false, forall_eq_or_imp, forall_eq]
    exact ⟨fun k => by rw [hn]; omega, fun k => List.length_pos_of_ne_nil (hn1 k), fun k => by rw [hn']; omega⟩
  have hgood : ∀ s ∈ [Tr, Te, Ti], GoodData (foldData E.cov (List.ofFn s) 3) := by
    intro s hs
    refine ⟨fun k => ?_, fun k => ?_, by norm_num⟩
    · change (E.cov ((List.ofFn s).getD k [])).PosDef
      rw [getD_ofFn, hcov]
      exact hpd k _ (C97_posSemidef _ (hlen s hs k)) (hclose s hs k)
    · change 0 < ((List.ofFn s).getD k []).length
      rw [getD_ofFn]
      exact hlen s hs k
  have hgood' : ∀ f ∈ [List.ofFn Tr, List.ofFn Te, List.ofFn Ti], GoodData (foldData E.cov f 3) := by
    simp only [List.mem_cons, List.not_mem_nil, or_false, forall_eq_or_imp, forall_eq]
    exact ⟨hgood Tr (by simp), hgood Te (by simp), hgood Ti (by simp)⟩
  have hGz : ∀ G ∈ candidates, Nonneg G ∧ Acyclic G := fun G h =>
    ⟨fun i j => by rw [hG G h], acyclic_of_rank (f := fun _ => 0) fun i j hij => absurd (hG G h i j) hij⟩
  obtain ⟨⟨P, I, m⟩, hr⟩ := C72_cvx E svd num cfg u v hfit hp candidates hne hGz data false [0] (by simp) (by simp)
    folds rs _ _ _ hsplit (fun s hs => by
      obtain ⟨k, rfl⟩ := (List.mem_ofFn' _ _).1 hs
      rw [hn]
      omega) hgood' harg hcvx (fun A => hfeas A _) hthr hpsi hit hfl (by simp)
  refine ⟨P, I, m, hr, fun hj => ?_⟩
  have hkept := kept_targets E svd num cfg u v hfit hcvx harg candidates hG data true false folds rs _ _ _ hsplit (hgood Tr (by simp)) (hgood Ti (by simp)) P I m hr
  refine absurd hkept (not_le.2 ?_)
  have hsL : 0 < √(L : ℝ) := Real.sqrt_pos.2 hLpos
  have hsL' : 0 < √(L' : ℝ) := Real.sqrt_pos.2 hLpos'
  have ha2 : (1 / √(L : ℝ)) ^ 2 = 1 / L := by rw [div_pow, Real.sq_sqrt hLpos.le, one_pow]
  have hLa : 1 / (L' : ℝ) ≤ R ^ 2 * (1 / √(L : ℝ)) ^ 2 := by
    rw [ha2, mul_one_div, div_le_div_iff₀ hLpos' hLpos, one_mul]
    exact hLR
  have hLa' : 1 / √(L' : ℝ) ≤ R * (1 / √(L : ℝ)) := by
    rw [← pow_le_pow_iff_left₀ (by positivity) (by positivity) two_ne_zero, mul_pow, div_pow, Real.sq_sqrt hLpos'.le, one_pow]
    exact hLa
  have hbound : ∀ s ∈ [Tr, Te, Ti], ∀ k i, ν ≤ npCov (s k) i i ∧ npCov (s k) i i ≤ V := by
    intro s hs k i
    have h1 := hclose s hs k i i
    rw [Matrix.diagonal_apply_eq, abs_lt] at h1
    have h2 := hcν k i
    have h3 := hcV k i
    constructor <;> linarith [h1.1, h1.2]
  have hdc : ∀ (s : Fin 3 → Sample p) k, (foldData E.cov (List.ofFn s) 3).covs k = npCov (s k) := by
    intro s k
    change E.cov ((List.ofFn s).getD k []) = _
    rw [getD_ofFn, hcov]
  have hdn : ∀ (s : Fin 3 → Sample p) k, (foldData E.cov (List.ofFn s) 3).nObs k = (s k).length := by
    intro s k
    change ((List.ofFn s).getD k []).length = _
    rw [getD_ofFn]
  refine gain_pos (foldData E.cov (List.ofFn Tr) 3) (foldData E.cov (List.ofFn Ti) 3) (L := L) (L' := L') (by omega) (by omega) (fun k => by rw [hdn, hn])
    (fun k => by rw [hdn, hn']) (ν := ν) (V := V) (K := K * (1 + R)) (R := R) (a := 1 / √(L : ℝ)) hν (by positivity) (by positivity) hLa
    (fun k i => by rw [hdc]; exact hbound Tr (by simp) k i) (fun k i => by rw [hdc]; exact hbound Ti (by simp) k i) c j hc.average hc.const ?_ ?_ ?_ I hj
  · intro k i
    rw [hdc]
    have h1 := hTi k i
    rw [abs_mul, abs_of_pos hsL'] at h1
    have h2 : |npCov (Ti k) i i - c k i| ≤ K * (1 / √(L' : ℝ)) := by
      rw [mul_one_div, le_div_iff₀ hsL', mul_comm]
      exact h1.le
    have h3 := mul_le_mul_of_nonneg_left hLa' hK
    have h4 : 0 ≤ K * (1 / √(L : ℝ)) := by positivity
    linarith
  · intro k i hki
    rw [hdc]
    have h1 := hTr k i hki
    rw [abs_mul, abs_of_pos hsL] at h1
    have h2 : |npCov (Tr k) i i - c k i| ≤ K * (1 / √(L : ℝ)) := by
      rw [mul_one_div, le_div_iff₀ hsL, mul_comm]
      exact h1.le
    have h4 : 0 ≤ K * R * (1 / √(L : ℝ)) := by positivity
    linarith
  · rw [hdc, mul_one_div, div_le_iff₀ hsL, mul_comm _ (√(L : ℝ))]
    exact hbig.le

/-- C121: although variable `j` is a target in every model over the graph without edges that entails the covariances, the probability that it is not
among the targets that `equivalence_class` returns stays away from zero, however large the samples are. -/
theorem C121_target_missed [IsProbabilityMeasure μ] {X : Fin 3 → ℕ → Ω → Fin p → ℝ} {c : Fin 3 → Fin p → ℝ} (hX : IndepEnvs μ X c) {j : Fin p}
    (hc : OneChanges c j) (hv : sqVar μ (fun ω => X 2 0 ω j) ≠ 0) (candidates : List (Adj p)) (hne : candidates ≠ [])
    (hG : ∀ G ∈ candidates, ∀ i j, G i j = 0) (E : FitEnv p 3) (hE : CvxEnv E) (hblind : ∀ k, Blind (E.rng 42 k)) {r₀ r₁ r₂ : Rat} (h0 : 0 < r₀)
    (h1 : 0 < r₁) (h2 : 0 < r₂) (hs : r₀ + r₁ + r₂ = 1) (rs : Int) :
    ∃ η > 0, ∀ᶠ n in atTop, η ≤ μ {ω | ∃ P I m, equivalenceClass E candidates (fun k => rowsOf (X k) (List.range n) ω) true false (some [0])
      [r₀, r₁, r₂] rs = .ok (P, I, m) ∧ j ∉ I} := by
  have : Nonempty (Fin 3 × Fin p) := ⟨(0, j)⟩
  have hp : p ≠ 0 := by
    rintro rfl
    exact j.elim0
  -- bounds for the variances
  obtain ⟨x0, hx0⟩ := Finite.exists_min fun x : Fin 3 × Fin p => c x.1 x.2
  obtain ⟨x1, hx1⟩ := Finite.exists_max fun x : Fin 3 × Fin p => c x.1 x.2
  have hν : 0 < c x0.1 x0.2 / 2 := half_pos (hc.pos _ _)
  -- positive definiteness
  obtain ⟨δ, hδ, hpd⟩ := exists_uniform (ι := Fin 3)
    (P := fun k δ => ∀ (S : Matrix (Fin p) (Fin p) ℝ), S.PosSemidef → (∀ x y, |S x y - Matrix.diagonal (c k) x y| < δ) → S.PosDef)
    (fun k => posDef_near (Matrix.PosDef.diagonal (hc.pos k))) (fun k δ δ' _ hle h S hS hw => h S hS fun i j => (hw i j).trans_le hle)
  have hδ' : 0 < min δ (c x0.1 x0.2 / 2) := lt_min hδ hν
  -- the errors
  have hlen : ∀ k, ∀ i < 3, Tendsto (fun n => (foldRows (E.rng 42 k) r₀ r₁ r₂ n i).length) atTop atTop :=
    fun k => foldRows_tendsto (fun _ => E.rng 42 k) h0 h1 h2 hs tendsto_id
  obtain ⟨K, hK, herr⟩ := errors_together hX hv (fun k f n => foldRows (E.rng 42 k) r₀ r₁ r₂ n (2 * f.val)) (fun k f n => foldRows_nodup _ _ _ _ _ _)
    (fun k n => foldRows_disjoint _ _ _ _ _) (fun k f => hlen k _ (by omega))
  obtain ⟨η, hη, hηtop, hev⟩ := herr (largeError p (c x0.1 x0.2 / 2) (c x1.1 x1.2 + c x0.1 x0.2 / 2) (K * (1 + √(2 / (r₂ : ℝ)))) (√(2 / (r₂ : ℝ))))
  -- all sample covariances are close
  have hpr : ∀ x : Fin 3 × Fin 3, Tendsto (fun n => μ {ω | ¬ ∀ y z, |npCov (rowsOf (X x.1) (foldRows (E.rng 42 x.1) r₀ r₁ r₂ n x.2) ω) y z -
      Matrix.diagonal (c x.1) y z| < min δ (c x0.1 x0.2 / 2)}) atTop (𝓝 0) :=
    fun x => C120_in_probability (hX.iid x.1) (fun n => foldRows (E.rng 42 x.1) r₀ r₁ r₂ n x.2) (fun n => foldRows_nodup _ _ _ _ _ _) (hlen x.1 x.2 x.2.isLt) hδ'
  have hsum := tendsto_finsetSum (Finset.univ : Finset (Fin 3 × Fin 3)) fun x _ => hpr x
  simp only [Finset.sum_const_zero] at hsum
  have hη2 : 0 < η / 2 := ENNReal.div_pos hη.ne' (by simp)
  refine ⟨η / 2, hη2, ?_⟩
  obtain ⟨N0, hN0⟩ := exists_nat_ge (2 / (r₂ : ℝ))
  have hr2 : (0 : ℝ) < r₂ := by exact_mod_cast h2
  filter_upwards [hev, hsum.eventually (ge_mem_nhds hη2), (hlen 0 0 (by norm_num)).eventually_ge_atTop 2, (hlen 0 1 (by norm_num)).eventually_ge_atTop 2,
    (hlen 0 2 (by norm_num)).eventually_ge_atTop 2, eventually_ge_atTop N0] with n e1 e2 n0 n1 n2 n3
  have hsame : ∀ k, ∀ i < 3, (foldRows (E.rng 42 k) r₀ r₁ r₂ n i).length = (foldRows (E.rng 42 0) r₀ r₁ r₂ n i).length :=
    fun k => foldRows_length_same _ _ _ _ _ _
  -- the sizes of the folds
  have hsize : ((foldRows (E.rng 42 0) r₀ r₁ r₂ n 0).length : ℝ) ≤ √(2 / (r₂ : ℝ)) ^ 2 * (foldRows (E.rng 42 0) r₀ r₁ r₂ n 2).length := by
    have l1 : ((foldRows (E.rng 42 0) r₀ r₁ r₂ n 0).length : ℝ) ≤ n := by exact_mod_cast foldRows_length_le (E.rng 42 0) r₀ r₁ r₂ n
    have l2 : (n : ℝ) * r₂ - 1 ≤ (foldRows (E.rng 42 0) r₀ r₁ r₂ n 2).length := by
      exact_mod_cast (foldRows_length (E.rng 42 0) h0.le h1.le h2.le hs n).2.2
    have l3 : 2 / (r₂ : ℝ) ≤ n := hN0.trans (by exact_mod_cast n3)
    rw [Real.sq_sqrt (by positivity)]
    refine l1.trans (le_trans ?_ (mul_le_mul_of_nonneg_left l2 (by positivity)))
    have l4 : 2 / (r₂ : ℝ) * (n * r₂ - 1) = 2 * n - 2 / r₂ := by
      field_simp
    rw [l4]
    linarith
  have hcut : η ≤ μ {ω | ∃ P I m, equivalenceClass E candidates (fun k => rowsOf (X k) (List.range n) ω) true false (some [0])
      [r₀, r₁, r₂] rs = .ok (P, I, m) ∧ j ∉ I} + η / 2 := by
    refine e1.trans (le_trans ?_ (add_le_add le_rfl e2))
    refine le_trans (measure_mono fun ω hω => ?_) ((measure_union_le _ _).trans (add_le_add le_rfl (measure_iUnion_fintype_le μ _)))
    by_contra hcon
    simp only [Set.mem_union, Set.mem_iUnion, not_or, not_exists, Set.mem_ofPred_eq, not_not] at hcon
    obtain ⟨hcon1, hcon2⟩ := hcon
    obtain ⟨w1, w2⟩ := hω
    simp only [Set.mem_ofPred_eq, scaledError] at w1 w2
    have hm := run_misses E hE hp candidates hne hG (fun k => rowsOf (X k) (List.range n) ω) [r₀, r₁, r₂] rs _ _ _
      (splitData_rows (E.rng 42) hblind h0.le h1.le h2.le hs X (fun _ => n) ω) (L := (foldRows (E.rng 42 0) r₀ r₁ r₂ n 0).length)
      (L' := (foldRows (E.rng 42 0) r₀ r₁ r₂ n 2).length) n0 n2 (fun k => by simpa [rowsOf] using hsame k 0 (by norm_num))
      (fun k => by simpa [rowsOf] using hsame k 2 (by norm_num))
      (fun k hk => by
        have h3 : (foldRows (E.rng 42 k) r₀ r₁ r₂ n 1) = [] := by simpa [rowsOf] using hk
        have h4 := hsame k 1 (by norm_num)
        rw [h3, List.length_nil] at h4
        omega)
      hc (ν := c x0.1 x0.2 / 2) (V := c x1.1 x1.2 + c x0.1 x0.2 / 2) (δ := min δ (c x0.1 x0.2 / 2)) (K := K) (R := √(2 / (r₂ : ℝ))) hν (min_le_right _ _)
      (Real.sqrt_nonneg _) (fun k i => by have := hx0 (k, i); simp only at this; linarith) (fun k i => by have := hx1 (k, i); simp only at this; linarith) hK.le
      (fun k S hS hw => hpd k S hS fun x y => (hw x y).trans_le (min_le_left _ _))
      (by
        simp only [List.mem_cons, List.not_mem_nil, or_false, forall_eq_or_imp, forall_eq]
        exact ⟨fun k => hcon2 (k, 0), fun k => hcon2 (k, 1), fun k => hcon2 (k, 2)⟩)
      hsize
      (fun k i => by
        have := w2 k i 1 (by simp)
        rwa [hsame k _ (by norm_num)] at this)
      (fun k i hki => by
        have := w2 k i 0 (by simpa using hki)
        rwa [hsame k _ (by norm_num)] at this)
      (by
        rw [hsame (2 : Fin 3).val _ (by norm_num)] at w1
        exact w1)
    obtain ⟨P, I, m, m1, m2⟩ := hm
    exact hcon1 P I m ⟨m1, m2⟩
  nth_rewrite 1 [← ENNReal.add_halves η] at hcut
  exact ENNReal.le_of_add_le_add_right (lt_of_le_of_lt ENNReal.half_le_self hηtop).ne hcut

/-- C121: so the returned targets are not consistent: the probability that they are not the variables whose variances change does not tend to zero. -/
theorem C121_inconsistent [IsProbabilityMeasure μ] {X : Fin 3 → ℕ → Ω → Fin p → ℝ} {c : Fin 3 → Fin p → ℝ} (hX : IndepEnvs μ X c) {j : Fin p}
    (hc : OneChanges c j) (hv : sqVar μ (fun ω => X 2 0 ω j) ≠ 0) (candidates : List (Adj p)) (hne : candidates ≠ [])
    (hG : ∀ G ∈ candidates, ∀ i j, G i j = 0) (E : FitEnv p 3) (hE : CvxEnv E) (hblind : ∀ k, Blind (E.rng 42 k)) {r₀ r₁ r₂ : Rat} (h0 : 0 < r₀)
    (h1 : 0 < r₁) (h2 : 0 < r₂) (hs : r₀ + r₁ + r₂ = 1) (rs : Int) :
    ¬ Tendsto (fun n => μ {ω | ¬ ∃ P m, equivalenceClass E candidates (fun k => rowsOf (X k) (List.range n) ω) true false (some [0])
      [r₀, r₁, r₂] rs = .ok (P, {j}, m)}) atTop (𝓝 0) := by
  intro ht
  obtain ⟨η, hη, hev⟩ := C121_target_missed hX hc hv candidates hne hG E hE hblind h0 h1 h2 hs rs
  obtain ⟨n, n1, n2⟩ := (hev.and (ht.eventually (gt_mem_nhds hη))).exists
  refine absurd (n1.trans (measure_mono ?_)) (not_le.2 n2)
  rintro ω ⟨P, I, m, hr, hj⟩ ⟨P', m', hr'⟩
  rw [hr] at hr'
  cases hr'
  exact hj (by simp)

end Verif
