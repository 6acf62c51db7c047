import Verif.Props.CovClt
import Verif.Props.SuperfluousEdge
import Verif.Props.LastEnvProb

/-!
# C125: superfluous edges do not disappear
-/

namespace Verif

open Spec Matrix MeasureTheory ProbabilityTheory Filter Topology

variable {p : Nat}

/-! ## The run -/

/-- The score of a model of regressions on test data. -/
theorem regressions_score {it : SetIter p} {A : Adj p} (hA : Nonneg A) (hac : Acyclic A) {S : Matrix (Fin p) (Fin p) ℝ} (hS : S.PosDef) {m : LModel p 0 1}
    (h : Regressions A S m) (hIB : m.IB = 1 - m.Bᵀ) {d : Data p 1} (hd : GoodData d) : m.scoreOn d = .ok (some (regScore (d.covs 0) m)) := by
  obtain ⟨C, h1, h2, -⟩ := regressions_mle hac hS h
  obtain ⟨A', B', g', o', ps', p1, p2, p3, p4⟩ := regressions_proper (it := it) hA hac h hIB
  have hn := hd.pos 0
  have h5 := C37_actual_score it A' p1 B' g' o' ps' m p2 p3 p4 d.nObs (by rw [Fin.sum_univ_one]; exact hn.ne') d.covs C h1
  unfold LModel.scoreOn
  rw [h5, single_sum d C, weightedNLL_one hn]
  have hsym : ∀ a b, d.covs 0 a b = d.covs 0 b a := fun a b => (congrFun (congrFun (hd.posDef 0).1 a) b).symm
  rw [gaussNLL_diagonal hac h.respects hsym h.pos h2]
  rfl

/-- A graph with a worse score than that of a candidate is not returned. -/
theorem run_not_worse (E : FitEnv p 1) (hE : CodeEnv E) (candidates : List (Adj p)) (hG : ∀ G ∈ candidates, Nonneg G)
    (data : Fin 1 → Sample p) (known prune : Bool) (folds : List Rat) (rs : Int) (training testG testI : List (Sample p))
    (hsplit : splitData (E.rng 42) (List.ofFn data) folds = .ok [training, testG, testI]) (hd : GoodData (foldData E.cov training 1))
    (ht : GoodData (foldData E.cov testG 1)) (G : Adj p) (hGm : G ∈ candidates) (P : Adj p) (I : Finset (Fin p)) (m : AnyModel p 1)
    (h : equivalenceClass E candidates data known prune (some [0]) folds rs = .ok (P, I, m)) :
    ∃ mH mG : LModel p 0 1, Regressions m.A ((foldData E.cov training 1).covs 0) mH ∧ Regressions G ((foldData E.cov training 1).covs 0) mG ∧
      regScore ((foldData E.cov testG 1).covs 0) mH ≤ regScore ((foldData E.cov testG 1).covs 0) mG := by
  obtain ⟨hcov, harg, svd, num, cfg, u, v, hfit, hlib, -⟩ := hE
  have hl := hlib (foldData E.cov training 1)
  have hgf : ∀ d h, GoodFit (E.fit d h) := fun d h => by
    rw [hfit]
    exact codeFit_good _ _ _ _ _ _ _ _ (fun hc => by rw [hl.cvx] at hc; simp at hc)
  have hlat : ∀ d h n A I m s, E.fit d h n A I = .ok (m, s) → m.1 = h := by
    intro d h n A I m s hm
    rw [hfit] at hm
    exact codeFit_latents hm
  obtain ⟨s, hmain⟩ : ∃ s, fitMain E data known (some [0]) prune folds none none (some candidates) 42 = .ok (m, I, s) := by
    unfold equivalenceClass withIcpdag at h
    split at h
    · simp at h
    · rename_i m' I' s' hm'
      split at h
      · simp at h
      · cases h
        exact ⟨_, hm'⟩
  obtain ⟨_, _, _, graphs, ns', z1, z2, z3, z4⟩ := fitMain_spec hgf hlat harg hmain
  rw [hsplit] at z1
  cases z1
  cases z2
  cases z3
  obtain ⟨q1, -, -, -, ⟨sc, ⟨ms, ob, y1, ⟨mm, y2, y3, y4⟩, y5⟩, -⟩, -⟩ := z4 hG
  have hm0 : m.1 = 0 := List.mem_singleton.1 q1
  rw [hm0, hfit] at y1
  obtain ⟨w1, w2⟩ := pruneGraphs_models (by rw [← hfit]; exact hgf _ _) hG (ScoreObj.ok_new E.it _ 0) y1
  have key : ∀ m' ∈ ms, ∃ m0 : LModel p 0 1, Regressions m'.A ((foldData E.cov training 1).covs 0) m0 ∧
      m'.scoreOn (foldData E.cov testG 1) = .ok (some (regScore ((foldData E.cov testG 1).covs 0) m0)) := by
    intro m' hm'
    obtain ⟨w3, s', w4⟩ := w2 m' hm'
    obtain ⟨hac, m0, e1, e2, e3⟩ := fitted_regressions w3 hd hl w4
    refine ⟨m0, e2, ?_⟩
    have := regressions_score (it := E.it) w3 hac (hd.posDef 0) e2 e3 ht
    rw [e1]
    exact this
  obtain ⟨mH, k1, k2⟩ := key mm y2
  obtain ⟨m', hm', hm'A⟩ := w1 G hGm
  obtain ⟨mG, k3, k4⟩ := key m' hm'
  obtain ⟨s', l1, l2⟩ := y5 m' hm'
  rw [y4] at k2
  cases k2
  rw [l1] at k4
  cases k4
  refine ⟨mH, mG, y3 ▸ k1, hm'A ▸ k3, ?_⟩
  unfold AtMost at l2
  simpa using l2

/-! ## The truth -/

/-- If the graph without the edge can entail the covariances the residuals of both variables are uncorrelated. -/
theorem residuals_uncorrelated {C : Matrix (Fin p) (Fin p) ℝ} (hC : C.PosDef) {H G : Adj p} (hac : Acyclic G) {i j : Fin p} (hone : OneMore H G i j)
    (hent : EntailedBy Finset.univ H fun _ : Fin 1 => C) {r s : Fin p → ℝ} (hr : IsResidual C (fun k => H k j ≠ 0) j r)
    (hs : IsResidual C (fun k => H k j ≠ 0) i s) : bil C r s = 0 := by
  obtain ⟨B, w, b1, -, -, b4⟩ := hent
  have hsym : ∀ a b, C a b = C b a := fun a b => (congrFun (congrFun hC.1 a) b).symm
  obtain ⟨f, hf⟩ := hac.exists_rank
  have hBG : Respects G B := fun a b hab => b1 a b (by
    by_contra hne
    exact hone.sub a b hne hab)
  have hreg : ∀ k, G k j ≠ 0 → (C *ᵥ resVec j fun k => B k j) k = 0 := by
    intro k hk
    have := C103_regression hac hBG (b4 0) k j hk
    unfold Matrix.mulVec dotProduct resVec
    simp only [mul_sub, Finset.sum_sub_distrib, this, mul_ite, mul_one, mul_zero, Finset.sum_ite_eq', Finset.mem_univ, if_true]
    rw [hsym k j, sub_self]
  have hjj : H j j = 0 := by
    by_contra hne
    exact lt_irrefl _ (hf j j (hone.sub j j hne))
  have hr' : r = resVec j fun k => B k j := by
    refine residual_unique hC hr ⟨fun k hk hP => ?_, ?_, fun k hP => hreg k (hone.sub k j hP)⟩
    · unfold resVec
      beta_reduce
      rw [if_neg hk, b1 k j (not_not.1 hP), sub_zero]
    · unfold resVec
      beta_reduce
      rw [if_pos rfl, b1 j j hjj, sub_zero]
  rw [bil_comm hsym]
  unfold bil
  rw [dot_residual hs hr.orth, hr']
  exact hreg i hone.present

/-! ## In probability -/

variable {Ω : Type} [MeasurableSpace Ω] {μ : Measure Ω}

theorem foldRows_disjoint01 (r : Rng) (a b c : Rat) (N : Nat) : (foldRows r a b c N 0).Disjoint (foldRows r a b c N 1) := by
  have h0 : (r.shuffle (List.range N)).Nodup := (r.shuffle_perm _).nodup_iff.2 List.nodup_range
  unfold foldRows
  simp only [List.map_cons, List.map_nil, pieces, List.getD_cons_zero, List.getD_cons_succ]
  generalize r.shuffle (List.range N) = l at *
  generalize (pyRound (N * a)).toNat = x
  generalize (pyRound (N * b)).toNat = y
  intro q hq1 hq2
  exact List.disjoint_take_drop h0 le_rfl hq1 (List.take_subset _ _ hq2)

theorem npCov_rows_meas {X : ℕ → Ω → Fin p → ℝ} {J : List ℕ} (hX : ∀ a ∈ J, Measurable (X a)) (i j : Fin p) : Measurable fun ω => npCov (rowsOf X J ω) i j := by
  have : (fun ω => npCov (rowsOf X J ω) i j) = (fun x : Fin J.length → Fin p → ℝ => npCov (List.ofFn x) i j) ∘ fun ω a => X (J.get a) ω := by
    funext ω
    simp only [Function.comp_apply, rows_eq_ofFn]
  rw [this]
  exact (npCov_measurable _ i j).comp (measurable_pi_lambda _ fun a => hX _ (List.get_mem _ _))

/-- Sample covariances of different observations are independent. -/
theorem folds_independent {X : ℕ → Ω → Fin p → ℝ} (hm : ∀ a, Measurable (X a)) (hi : iIndepFun X μ) {J J' : List ℕ} (hdis : J.Disjoint J') (i j : Fin p)
    {U U' : Set ℝ} (hU : MeasurableSet U) (hU' : MeasurableSet U') :
    μ ({ω | npCov (rowsOf X J ω) i j ∈ U} ∩ {ω | npCov (rowsOf X J' ω) i j ∈ U'}) =
      μ {ω | npCov (rowsOf X J ω) i j ∈ U} * μ {ω | npCov (rowsOf X J' ω) i j ∈ U'} := by
  classical
  have hind := hi.indepFun_finset J.toFinset J'.toFinset (by
    rw [Finset.disjoint_left]
    intro a ha hb
    exact hdis (List.mem_toFinset.1 ha) (List.mem_toFinset.1 hb)) hm
  have hfac : ∀ J : List ℕ, ∃ g : (J.toFinset → Fin p → ℝ) → ℝ, Measurable g ∧ ∀ ω, npCov (rowsOf X J ω) i j = g fun a => X a ω := by
    intro J
    set Y : ℕ → (J.toFinset → Fin p → ℝ) → Fin p → ℝ := fun a x => if h : a ∈ J.toFinset then x ⟨a, h⟩ else 0 with hY
    refine ⟨fun x => npCov (rowsOf Y J x) i j, npCov_rows_meas (fun a ha => ?_) i j, fun ω => ?_⟩
    · simp only [hY, List.mem_toFinset.2 ha, dif_pos]
      exact measurable_pi_apply _
    · congr 1
      unfold rowsOf
      refine List.map_congr_left fun a ha => ?_
      simp only [hY, List.mem_toFinset.2 ha, dif_pos]
  obtain ⟨g, hg, e⟩ := hfac J
  obtain ⟨g', hg', e'⟩ := hfac J'
  simp only [e, e']
  exact (hind.comp hg hg').measure_inter_preimage_eq_mul _ _ hU hU'

/-- C125: the probability that the returned graph is the graph `H` stays away from one, if `H` can entail the covariances and some candidate has one more edge. -/
theorem C125_superfluous_edge [IsProbabilityMeasure μ] {X : ℕ → Ω → Fin p → ℝ} {C : Matrix (Fin p) (Fin p) ℝ} (hX : Iid μ X C)
    (h4 : ∀ i, MemLp (fun ω => X 0 ω i) 4 μ) (hC : C.PosDef) (candidates : List (Adj p)) (hG : ∀ G ∈ candidates, Nonneg G ∧ Acyclic G) (H G : Adj p)
    (hGm : G ∈ candidates) {i j : Fin p} (hone : OneMore H G i j) (hent : EntailedBy Finset.univ H fun _ : Fin 1 => C) {r s : Fin p → ℝ}
    (hr : IsResidual C (fun k => H k j ≠ 0) j r) (hs : IsResidual C (fun k => H k j ≠ 0) i s)
    (hv : prodVar μ (fun ω => r ⬝ᵥ X 0 ω) (fun ω => s ⬝ᵥ X 0 ω) ≠ 0) (E : FitEnv p 1) (hE : CodeEnv E) (hblind : ∀ k, Blind (E.rng 42 k)) {a b c : Rat}
    (ha : 0 < a) (hb : 0 < b) (hc : 0 < c) (habc : a + b + c = 1) (known prune : Bool) (rs : Int) :
    ∃ η > 0, ∀ᶠ n in atTop, μ {ω | ∃ P I m, equivalenceClass E candidates (fun _ => rowsOf X (List.range n) ω) known prune (some [0]) [a, b, c] rs =
      .ok (P, I, m) ∧ ∀ x y, m.A x y ≠ 0 ↔ H x y ≠ 0} + η ≤ 1 := by
  have hac := (hG G hGm).2
  obtain ⟨Kd, hKd, η₀, hη₀, hbetter⟩ := superfluous_better hC hac hone hr hs
  have hzero := residuals_uncorrelated hC hac hone hent hr hs
  obtain ⟨δ, hδ, hnear⟩ := posDef_near hC
  -- the residuals
  set M : Fin 2 → Fin p → ℝ := ![r, s] with hM
  set Y : ℕ → Ω → Fin 2 → ℝ := fun n ω => mix M (X n ω) with hY
  have hYi : Iid μ Y (fun x y => M x ⬝ᵥ (C *ᵥ M y)) := iid_mix hX M
  have hY4 := memLp_mix (μ := μ) M h4
  have hYv : prodVar μ (fun ω => Y 0 ω 0) (fun ω => Y 0 ω 1) ≠ 0 := hv
  have hY01 : M 0 ⬝ᵥ (C *ᵥ M 1) = 0 := hzero
  have hYcov : ∀ J ω, npCov (rowsOf Y J ω) 0 1 = bil (npCov (rowsOf X J ω)) r s := by
    intro J ω
    rw [hY, rowsOf_mix, npCov_mix]
    rfl
  -- the folds
  set J : Fin 2 → ℕ → List ℕ := fun f n => foldRows (E.rng 42 0) a b c n f.val with hJ
  have hlen : ∀ f, Tendsto (fun n => (J f n).length) atTop atTop := fun f =>
    foldRows_tendsto (fun _ => E.rng 42 0) ha hb hc habc tendsto_id f.val (by omega)
  have hnd : ∀ f n, (J f n).Nodup := fun f n => foldRows_nodup _ _ _ _ _ _
  obtain ⟨κ, hκ, hκa, hκb⟩ : ∃ κ : ℝ, 0 < κ ∧ κ ≤ a / 2 ∧ κ ≤ b / 2 := by
    have ha' : (0 : ℝ) < a := by exact_mod_cast ha
    have hb' : (0 : ℝ) < b := by exact_mod_cast hb
    exact ⟨min (a / 2) (b / 2), by positivity, min_le_left _ _, min_le_right _ _⟩
  -- the errors of the covariance of the residuals
  obtain ⟨c0, hc0, hev0⟩ := rows_tail2 hYi 0 1 (hY4 0) (hY4 1) hYv 1
  obtain ⟨c1, hc1, hev1⟩ := rows_tail2 hYi 0 1 (hY4 0) (hY4 1) hYv (4 / √κ + 1)
  have hev0 := hev0 (J 0) (hnd 0) (hlen 0)
  have hev1 := hev1 (J 1) (hnd 1) (hlen 1)
  rw [hY01] at hev0 hev1
  simp only [sub_zero] at hev0 hev1
  have hlt1 : ∀ {c : ENNReal} {s : ℕ → Set Ω}, (∀ᶠ n in atTop, c < μ (s n)) → c < 1 := by
    intro c s h
    obtain ⟨n, hn⟩ := h.exists
    exact hn.trans_le prob_le_one
  have hc0' := hlt1 hev0
  have hc1' := hlt1 hev1
  have hcc : 0 < c0 * c1 := ENNReal.mul_pos hc0.ne' hc1.ne'
  have hcctop : c0 * c1 ≠ ⊤ := ENNReal.mul_ne_top hc0'.ne_top hc1'.ne_top
  -- bounds for the others
  obtain ⟨ε, hε, hε'⟩ := ENNReal.exists_nnreal_pos_mul_lt (a := ((Fintype.card (Fin 2 × Fin p × Fin p) : ℕ) : ENNReal)) (b := c0 * c1 / 2)
    (ENNReal.natCast_ne_top _) (ENNReal.div_pos hcc.ne' (by simp)).ne'
  have hq : (1 : ENNReal) - ε < 1 := ENNReal.sub_lt_self (by simp) (by simp) (by exact_mod_cast hε.ne')
  choose K0 hK0 using fun x : Fin p × Fin p => rows_tight2 hX x.1 x.2 (h4 x.1) (h4 x.2) hq
  have : Nonempty (Fin p × Fin p) := ⟨(i, i)⟩
  obtain ⟨x1, hx1⟩ := Finite.exists_max K0
  obtain ⟨K, hK1, hK2⟩ : ∃ K : ℝ, K0 x1 ≤ K ∧ 0 < K := ⟨max (K0 x1) 1, le_max_left _ _, lt_of_lt_of_le one_pos (le_max_right _ _)⟩
  have htight : ∀ᶠ n in atTop, ∀ x : Fin 2 × Fin p × Fin p,
      1 - (ε : ENNReal) < μ {ω | √((J x.1 n).length : ℝ) * (npCov (rowsOf X (J x.1 n) ω) x.2.1 x.2.2 - C x.2.1 x.2.2) ∈ Set.Ioo (-K) K} :=
    eventually_all.2 fun x => hK0 x.2 K ((hx1 x.2).trans hK1) (J x.1) (hnd x.1) (hlen x.1)
  refine ⟨c0 * c1 / 2, ENNReal.div_pos hcc.ne' (by simp), ?_⟩
  obtain ⟨N0, hN0⟩ := exists_nat_ge (2 / (a : ℝ))
  obtain ⟨N1, hN1⟩ := exists_nat_ge (2 / (b : ℝ))
  have hsq : Tendsto (fun n : ℕ => √(n : ℝ)) atTop atTop := Real.tendsto_sqrt_atTop.comp tendsto_natCast_atTop_atTop
  filter_upwards [hev0, hev1, htight, (hlen 0).eventually_ge_atTop 2, (hlen 1).eventually_ge_atTop 2, eventually_ge_atTop N0, eventually_ge_atTop N1,
    hsq.eventually_ge_atTop (K / (√κ * min η₀ (δ / 2))), hsq.eventually_ge_atTop (3 * (Kd * (K ^ 2 / κ)) + 1)] with n e0 e1 e2 n0 n1 m0 m1 q1 q2
  have ha' : (0 : ℝ) < a := by exact_mod_cast ha
  have hb' : (0 : ℝ) < b := by exact_mod_cast hb
  have hhalf := foldRows_half (E.rng 42 0) ha hb hc habc (N := n)
    (by
      have l3 : 2 / (a : ℝ) ≤ n := hN0.trans (by exact_mod_cast m0)
      rw [div_le_iff₀ ha'] at l3
      exact_mod_cast l3)
    (by
      have l3 : 2 / (b : ℝ) ≤ n := hN1.trans (by exact_mod_cast m1)
      rw [div_le_iff₀ hb'] at l3
      exact_mod_cast l3)
  have hnn : (0 : ℝ) ≤ n := Nat.cast_nonneg n
  have hL : ∀ f, κ * n ≤ ((J f n).length : ℝ) ∧ ((J f n).length : ℝ) ≤ n := by
    intro f
    refine ⟨?_, by exact_mod_cast foldRows_le (E.rng 42 0) a b c n f.val (by omega)⟩
    have hf0 : f = 0 ∨ f = 1 := by omega
    rcases hf0 with rfl | rfl
    · exact le_trans (mul_le_mul_of_nonneg_right hκa hnn) hhalf.1
    · exact le_trans (mul_le_mul_of_nonneg_right hκb hnn) hhalf.2
  have hn0 : (0 : ℝ) < n := by
    have : (2 : ℝ) ≤ (J 0 n).length := by exact_mod_cast n0
    linarith [(hL 0).2]
  set q := √(n : ℝ) with hqd
  have hq0 : 0 < q := Real.sqrt_pos.2 hn0
  have hsκ : 0 < √κ := Real.sqrt_pos.2 hκ
  have hsL : ∀ f, √κ * q ≤ √((J f n).length : ℝ) ∧ √((J f n).length : ℝ) ≤ q := by
    intro f
    refine ⟨?_, Real.sqrt_le_sqrt (hL f).2⟩
    rw [hqd, ← Real.sqrt_mul hκ.le]
    exact Real.sqrt_le_sqrt (hL f).1
  have hsL0 : ∀ f, 0 < √((J f n).length : ℝ) := fun f => (mul_pos hsκ hq0).trans_le (hsL f).1
  -- the event
  set U0 : Set ℝ := {x | √((J 0 n).length : ℝ) * x ∈ Set.Ioo (1 : ℝ) (1 + 1)} with hU0
  set U1 : Set ℝ := {x | √((J 1 n).length : ℝ) * x ∈ Set.Ioo (4 / √κ + 1) (4 / √κ + 1 + 1)} with hU1
  have hU0m : MeasurableSet U0 := (measurable_const.mul measurable_id) measurableSet_Ioo
  have hU1m : MeasurableSet U1 := (measurable_const.mul measurable_id) measurableSet_Ioo
  set A : Set Ω := {ω | npCov (rowsOf Y (J 0 n) ω) 0 1 ∈ U0} ∩ {ω | npCov (rowsOf Y (J 1 n) ω) 0 1 ∈ U1} with hA
  set B : Fin 2 × Fin p × Fin p → Set Ω := fun x =>
    {ω | √((J x.1 n).length : ℝ) * (npCov (rowsOf X (J x.1 n) ω) x.2.1 x.2.2 - C x.2.1 x.2.2) ∈ Set.Ioo (-K) K} with hB
  have hAm : MeasurableSet A := by
    have hYm : ∀ f, Measurable fun ω => npCov (rowsOf Y (J f n) ω) 0 1 := fun f => npCov_rows_meas (fun a _ => hYi.meas a) 0 1
    exact (hYm 0 hU0m).inter (hYm 1 hU1m)
  have hBm : ∀ x, MeasurableSet (B x) := fun x =>
    (((npCov_rows_meas (fun a _ => hX.meas a) x.2.1 x.2.2).sub_const _).const_mul _) measurableSet_Ioo
  have hAle : c0 * c1 ≤ μ A := by
    rw [hA, folds_independent hYi.meas hYi.indep (J := J 0 n) (J' := J 1 n) (foldRows_disjoint01 _ _ _ _ _) 0 1 hU0m hU1m]
    exact mul_le_mul' e0.le e1.le
  have hBle : μ (⋂ x, B x)ᶜ ≤ c0 * c1 / 2 := by
    rw [Set.compl_iInter]
    refine (measure_iUnion_fintype_le μ _).trans ?_
    have hx : ∀ x, μ (B x)ᶜ ≤ ε := by
      intro x
      rw [prob_compl_eq_one_sub (hBm x), tsub_le_iff_right]
      exact tsub_le_iff_left.1 (e2 x).le
    refine (Finset.sum_le_sum fun x _ => hx x).trans ?_
    rw [Finset.sum_const, Finset.card_univ, nsmul_eq_mul, mul_comm]
    exact hε'.le
  have hW : c0 * c1 / 2 ≤ μ (A ∩ ⋂ x, B x) := by
    have h1 : c0 * c1 ≤ μ (A ∩ ⋂ x, B x) + c0 * c1 / 2 := by
      refine hAle.trans (le_trans ?_ (add_le_add le_rfl hBle))
      refine le_trans (measure_mono fun ω hω => ?_) (measure_union_le _ _)
      by_cases hb : ω ∈ ⋂ x, B x
      · exact Or.inl ⟨hω, hb⟩
      · exact Or.inr hb
    nth_rewrite 1 [← ENNReal.add_halves (c0 * c1)] at h1
    exact ENNReal.le_of_add_le_add_right (ENNReal.div_ne_top hcctop (by simp)) h1
  have hWm : MeasurableSet (A ∩ ⋂ x, B x) := hAm.inter (MeasurableSet.iInter hBm)
  refine le_trans (add_le_add_right hW _) ?_
  rw [← prob_add_prob_compl (μ := μ) hWm, add_comm]
  refine add_le_add le_rfl (measure_mono ?_)
  rintro ω ⟨P, I, m, hrun, hsame⟩ ⟨⟨w0, w1⟩, wB⟩
  simp only [Set.mem_iInter] at wB
  -- the errors of the covariances
  set η := K / (√κ * q) with hη
  have hηpos : 0 < η := by positivity
  have hηmin : η ≤ min η₀ (δ / 2) := by
    have hmin : 0 < min η₀ (δ / 2) := lt_min hη₀ (by positivity)
    rw [hη, div_le_iff₀ (by positivity)]
    rw [div_le_iff₀ (by positivity)] at q1
    nlinarith
  have hclose : ∀ (f : Fin 2) x y, |npCov (rowsOf X (J f n) ω) x y - C x y| ≤ η := by
    intro f x y
    have h1 := wB (f, x, y)
    simp only [hB, Set.mem_ofPred_eq, Set.mem_Ioo] at h1
    rw [← abs_lt, abs_mul, abs_of_pos (hsL0 f)] at h1
    rw [hη, le_div_iff₀ (by positivity)]
    have h2 := mul_le_mul_of_nonneg_right (hsL f).1 (abs_nonneg (npCov (rowsOf X (J f n) ω) x y - C x y))
    linarith
  have hne : ∀ f, 0 < (rowsOf X (J f n) ω).length := by
    intro f
    have hf0 : f = 0 ∨ f = 1 := by omega
    unfold rowsOf
    rw [List.length_map]
    rcases hf0 with rfl | rfl <;> omega
  have hpd : ∀ f, (npCov (rowsOf X (J f n) ω)).PosDef := fun f => hnear _ (C97_posSemidef _ (hne f)) fun x y => by
    have h1 := hclose f x y
    have h2 := hηmin.trans (min_le_right _ _)
    linarith
  -- the run
  have hsplit := splitData_rows (E.rng 42) hblind ha.le hb.le hc.le habc (fun _ : Fin 1 => X) (fun _ => n) ω
  have hcov := hE.cov
  have hgood : ∀ f : Fin 2, GoodData (foldData E.cov (List.ofFn fun k : Fin 1 => rowsOf X (foldRows (E.rng 42 k) a b c n f.val) ω) 1) := by
    intro f
    refine ⟨fun k => ?_, fun k => ?_, one_pos⟩
    · rw [Subsingleton.elim k 0]
      change (E.cov ((List.ofFn fun k : Fin 1 => rowsOf X (foldRows (E.rng 42 k) a b c n f.val) ω).getD 0 [])).PosDef
      rw [hcov]
      simpa using hpd f
    · rw [Subsingleton.elim k 0]
      change 0 < ((List.ofFn fun k : Fin 1 => rowsOf X (foldRows (E.rng 42 k) a b c n f.val) ω).getD 0 []).length
      simpa using hne f
  have hcovs : ∀ f : Fin 2, (foldData E.cov (List.ofFn fun k : Fin 1 => rowsOf X (foldRows (E.rng 42 k) a b c n f.val) ω) 1).covs 0 = npCov (rowsOf X (J f n) ω) := by
    intro f
    change E.cov ((List.ofFn fun k : Fin 1 => rowsOf X (foldRows (E.rng 42 k) a b c n f.val) ω).getD 0 []) = _
    rw [hcov]
    simp [hJ]
  obtain ⟨mH, mG, r1, r2, r3⟩ := run_not_worse E hE candidates (fun G h => (hG G h).1) (fun _ => rowsOf X (List.range n) ω) known prune [a, b, c] rs _ _ _ hsplit
    (hgood 0) (hgood 1) G hGm P I m hrun
  refine absurd r3 (not_le.2 ?_)
  have e3 := hcovs 0
  have e4 := hcovs 1
  simp only [Fin.val_zero, Fin.val_one] at e3 e4
  rw [e3] at r1 r2
  rw [e4]
  have hr1 : Regressions H (npCov (rowsOf X (J 0 n) ω)) { mH with A := H } :=
    ⟨rfl, fun x y hxy => r1.respects x y (by
        by_contra hne
        exact (hsame x y).1 hne hxy), fun x y hxy => r1.normal x y ((hsame x y).2 hxy), r1.var, r1.pos⟩
  simp only [hU0, hU1, Set.mem_ofPred_eq, hYcov, Set.mem_Ioo] at w0 w1
  have hη2 : η ^ 2 = K ^ 2 / κ / q ^ 2 := by
    rw [hη, div_pow, mul_pow, Real.sq_sqrt hκ.le, div_div]
  have hKη : 3 * (Kd * η ^ 2) ≤ 1 / q ∧ Kd * η ^ 2 < 1 / q := by
    rw [hη2]
    have h1 : 0 ≤ Kd * (K ^ 2 / κ) := by positivity
    have e5 : Kd * (K ^ 2 / κ / q ^ 2) = Kd * (K ^ 2 / κ) / q / q := by
      field_simp
    rw [e5]
    constructor
    · rw [← mul_div_assoc]
      refine div_le_div_of_nonneg_right ?_ hq0.le
      rw [← mul_div_assoc, div_le_one hq0]
      linarith
    · refine div_lt_div_of_pos_right ?_ hq0
      rw [div_lt_one hq0]
      linarith
  set x := bil (npCov (rowsOf X (J 0 n) ω)) r s
  set y := bil (npCov (rowsOf X (J 1 n) ω)) r s
  have hxlow : 1 / q < x := by
    rw [div_lt_iff₀ hq0]
    have hx0 : 0 < x := by
      by_contra hcon
      have := mul_nonpos_of_nonneg_of_nonpos (hsL0 0).le (not_lt.1 hcon)
      linarith [w0.1]
    have := mul_le_mul_of_nonneg_right (hsL 0).2 hx0.le
    linarith [w0.1]
  have hxup : x ≤ 2 / (√κ * q) := by
    rw [le_div_iff₀ (by positivity)]
    have hx0 : 0 < x := lt_trans (by positivity) hxlow
    have := mul_le_mul_of_nonneg_right (hsL 0).1 hx0.le
    linarith [w0.2]
  have hylow : (4 / √κ + 1) / q ≤ y := by
    rw [div_le_iff₀ hq0]
    have hy0 : 0 < y := by
      by_contra hcon
      have h1 := mul_nonpos_of_nonneg_of_nonpos (hsL0 1).le (not_lt.1 hcon)
      have h2 : 0 < 4 / √κ + 1 := by positivity
      linarith [w1.1]
    have := mul_le_mul_of_nonneg_right (hsL 1).2 hy0.le
    linarith [w1.1]
  have hfin : 2 * (2 / (√κ * q)) + 1 / q = (4 / √κ + 1) / q := by
    field_simp
    ring
  exact hbetter η (hηmin.trans (min_le_left _ _)) _ _ (hpd 0) (hpd 1) (hclose 0) (hclose 1) (by linarith [hKη.2]) (by linarith [hKη.1]) { mH with A := H } mG hr1 r2

/-- The hypothesis on the residuals holds if they are independent. -/
theorem prodVar_of_indep [IsProbabilityMeasure μ] {Y Z : Ω → ℝ} (hY : MemLp Y 2 μ) (hZ : MemLp Z 2 μ) (h : IndepFun Y Z μ) (hYv : Var[Y; μ] ≠ 0) (hZv : Var[Z; μ] ≠ 0) :
    prodVar μ Y Z ≠ 0 := by
  unfold prodVar
  set a := ∫ ω, Y ω ∂μ
  set b := ∫ ω, Z ω ∂μ
  have h1 : MemLp (fun ω => Y ω - a) 2 μ := hY.sub (memLp_const a)
  have h2 : MemLp (fun ω => Z ω - b) 2 μ := hZ.sub (memLp_const b)
  have hi : IndepFun (fun ω => Y ω - a) (fun ω => Z ω - b) μ := h.comp (φ := fun x => x - a) (ψ := fun x => x - b) (measurable_id.sub_const _) (measurable_id.sub_const _)
  have hi2 : IndepFun (fun ω => (Y ω - a) ^ 2) (fun ω => (Z ω - b) ^ 2) μ :=
    h.comp (φ := fun x => (x - a) ^ 2) (ψ := fun x => (x - b) ^ 2) ((measurable_id.sub_const _).pow_const 2) ((measurable_id.sub_const _).pow_const 2)
  have hsq : ∫ ω, ((Y ω - a) * (Z ω - b)) ^ 2 ∂μ = Var[Y; μ] * Var[Z; μ] := by
    rw [variance_eq_integral hY.aemeasurable, variance_eq_integral hZ.aemeasurable]
    rw [← hi2.integral_fun_mul_eq_mul_integral h1.integrable_sq.aestronglyMeasurable h2.integrable_sq.aestronglyMeasurable]
    exact integral_congr_ae (Eventually.of_forall fun ω => by simp [mul_pow])
  have hmean : ∫ ω, (Y ω - a) * (Z ω - b) ∂μ = 0 := by
    rw [hi.integral_fun_mul_eq_mul_integral h1.aestronglyMeasurable h2.aestronglyMeasurable, integral_sub (hY.integrable one_le_two) (integrable_const _)]
    simp [a]
  have hae : AEMeasurable (fun ω => (Y ω - a) * (Z ω - b)) μ := h1.aestronglyMeasurable.aemeasurable.mul h2.aestronglyMeasurable.aemeasurable
  rw [variance_eq_integral hae, hmean]
  simp only [sub_zero]
  rw [hsq]
  exact mul_ne_zero hYv hZv

/-- C125: so the graph is not consistent: with the graph `H` that entails the covariances among the candidates, and another one with a superfluous edge,
the probability that `H` is not returned does not tend to zero. -/
theorem C125_inconsistent [IsProbabilityMeasure μ] {X : ℕ → Ω → Fin p → ℝ} {C : Matrix (Fin p) (Fin p) ℝ} (hX : Iid μ X C)
    (h4 : ∀ i, MemLp (fun ω => X 0 ω i) 4 μ) (hC : C.PosDef) (candidates : List (Adj p)) (hG : ∀ G ∈ candidates, Nonneg G ∧ Acyclic G) (H G : Adj p)
    (hGm : G ∈ candidates) {i j : Fin p} (hone : OneMore H G i j) (hent : EntailedBy Finset.univ H fun _ : Fin 1 => C) {r s : Fin p → ℝ}
    (hr : IsResidual C (fun k => H k j ≠ 0) j r) (hs : IsResidual C (fun k => H k j ≠ 0) i s)
    (hi : IndepFun (fun ω => r ⬝ᵥ X 0 ω) (fun ω => s ⬝ᵥ X 0 ω) μ) (E : FitEnv p 1) (hE : CodeEnv E) (hblind : ∀ k, Blind (E.rng 42 k)) {a b c : Rat}
    (ha : 0 < a) (hb : 0 < b) (hc : 0 < c) (habc : a + b + c = 1) (known prune : Bool) (rs : Int) :
    ¬ Tendsto (fun n => μ {ω | ¬ ∃ P I m, equivalenceClass E candidates (fun _ => rowsOf X (List.range n) ω) known prune (some [0]) [a, b, c] rs =
      .ok (P, I, m) ∧ ∀ x y, m.A x y ≠ 0 ↔ H x y ≠ 0}) atTop (𝓝 0) := by
  have hvar : ∀ v : Fin p → ℝ, v ≠ 0 → MemLp (fun ω => v ⬝ᵥ X 0 ω) 2 μ ∧ Var[fun ω => v ⬝ᵥ X 0 ω; μ] ≠ 0 := by
    intro v hv
    have h1 := iid_mix hX (fun _ : Fin 1 => v)
    have h2 : MemLp (fun ω => v ⬝ᵥ X 0 ω) 2 μ := h1.mem 0
    refine ⟨h2, ?_⟩
    rw [← covariance_self h2.aemeasurable]
    have h3 : cov[fun ω => v ⬝ᵥ X 0 ω, fun ω => v ⬝ᵥ X 0 ω; μ] = v ⬝ᵥ (C *ᵥ v) := h1.cov 0 0
    rw [h3]
    have := hC.dotProduct_mulVec_pos hv
    rw [star_trivial] at this
    exact this.ne'
  have hne : ∀ {P : Fin p → Prop} {c : Fin p} {v : Fin p → ℝ}, IsResidual C P c v → v ≠ 0 := by
    intro P c v h hc
    have := h.self
    rw [hc] at this
    simp at this
  obtain ⟨r1, r2⟩ := hvar r (hne hr)
  obtain ⟨s1, s2⟩ := hvar s (hne hs)
  obtain ⟨η, hη, hev⟩ := C125_superfluous_edge hX h4 hC candidates hG H G hGm hone hent hr hs (prodVar_of_indep r1 s1 hi r2 s2) E hE hblind ha hb hc habc known prune rs
  intro ht
  obtain ⟨n, e1, e2⟩ := (hev.and (ht.eventually (gt_mem_nhds hη))).exists
  have h1 : (1 : ENNReal) ≤ μ {ω | ∃ P I m, equivalenceClass E candidates (fun _ => rowsOf X (List.range n) ω) known prune (some [0]) [a, b, c] rs =
      .ok (P, I, m) ∧ ∀ x y, m.A x y ≠ 0 ↔ H x y ≠ 0} + μ {ω | ¬ ∃ P I m, equivalenceClass E candidates (fun _ => rowsOf X (List.range n) ω) known prune (some [0]) [a, b, c] rs =
      .ok (P, I, m) ∧ ∀ x y, m.A x y ≠ 0 ↔ H x y ≠ 0} := by
    rw [← measure_univ (μ := μ)]
    refine le_trans (measure_mono fun ω _ => ?_) (measure_union_le _ _)
    exact Classical.em _
  have hfin : μ {ω | ∃ P I m, equivalenceClass E candidates (fun _ => rowsOf X (List.range n) ω) known prune (some [0]) [a, b, c] rs =
      .ok (P, I, m) ∧ ∀ x y, m.A x y ≠ 0 ↔ H x y ≠ 0} ≠ ⊤ := (measure_lt_top _ _).ne
  exact absurd (h1.trans_lt (ENNReal.add_lt_add_left hfin e2)) (not_lt.2 e1)

end Verif
