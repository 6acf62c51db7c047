import Verif.Props.Concentration
import Verif.Props.LastEnvProb

/-!
# C132: how fast, and almost surely
-/

namespace Verif

open Spec Matrix MeasureTheory ProbabilityTheory Filter Topology

variable {p e : Nat} {Ω : Type} [MeasurableSpace Ω] {μ : Measure Ω} {X : Fin e → ℕ → Ω → Fin p → ℝ} {C : Fin e → Matrix (Fin p) (Fin p) ℝ}

theorem foldRows_share (r : Rng) {a b c : Rat} (ha : 0 < a) (hb : 0 < b) (hc : 0 < c) (hs : a + b + c = 1) (N : Nat) (i : Fin 3) :
    (N : ℝ) * (min a (min b c) : Rat) - 1 ≤ (foldRows r a b c N i).length := by
  obtain ⟨h1, h2, h3⟩ := foldRows_length r ha.le hb.le hc.le hs N
  have hN : (0 : Rat) ≤ N := by positivity
  have key : ∀ (x : Rat) (L : ℕ), min a (min b c) ≤ x → N * x - 1 ≤ (L : Rat) → (N : ℝ) * (min a (min b c) : Rat) - 1 ≤ L := by
    intro x L hx h
    have : (N : Rat) * min a (min b c) - 1 ≤ L := by nlinarith
    exact_mod_cast this
  fin_cases i
  · exact key a _ (min_le_left _ _) h1
  · exact key b _ ((min_le_right _ _).trans (min_le_left _ _)) h2
  · exact key c _ ((min_le_right _ _).trans (min_le_right _ _)) h3

/-- The folds of one environment. -/
theorem fold_rate [IsProbabilityMeasure μ] {Y : ℕ → Ω → Fin p → ℝ} {S : Matrix (Fin p) (Fin p) ℝ} (hY : Iid μ Y S) (hexp : ExpSquares μ (Y 0)) {a b c : Rat}
    (ha : 0 < a) (hb : 0 < b) (hc : 0 < c) (hs : a + b + c = 1) {δ : ℝ} (hδ : 0 < δ) :
    ∃ K : ℝ, 0 < K ∧ ∃ z : ℝ, 0 < z ∧ ∀ (r : Rng) (N : ℕ),
      μ.real {ω | ¬ ∀ (i : Fin 3) (x y : Fin p), |npCov (rowsOf Y (foldRows r a b c N i) ω) x y - S x y| < δ} ≤ K * Real.exp (-z * N) := by
  obtain ⟨K, hK, z, hz, h⟩ := C132_covariance hY hexp hδ
  have hq : (0 : ℝ) < (min a (min b c) : Rat) := by exact_mod_cast lt_min ha (lt_min hb hc)
  refine ⟨3 * (K * Real.exp z), by positivity, z * (min a (min b c) : Rat), by positivity, fun r N => ?_⟩
  have hi : ∀ i : Fin 3, μ.real {ω | ¬ ∀ x y, |npCov (rowsOf Y (foldRows r a b c N i) ω) x y - S x y| < δ} ≤
      K * Real.exp z * Real.exp (-(z * (min a (min b c) : Rat)) * N) := by
    intro i
    refine (h _ (foldRows_nodup r a b c N i)).trans ?_
    rw [mul_assoc, ← Real.exp_add]
    refine mul_le_mul_of_nonneg_left (Real.exp_le_exp.2 ?_) hK.le
    have := mul_le_mul_of_nonneg_left (foldRows_share r ha hb hc hs N i) hz.le
    linarith
  have hsub : {ω | ¬ ∀ (i : Fin 3) (x y : Fin p), |npCov (rowsOf Y (foldRows r a b c N i) ω) x y - S x y| < δ} ⊆
      ⋃ i : Fin 3, {ω | ¬ ∀ x y, |npCov (rowsOf Y (foldRows r a b c N i) ω) x y - S x y| < δ} := by
    intro ω hω
    by_contra hcon
    simp only [Set.mem_iUnion, Set.mem_ofPred_eq, not_exists, not_not] at hcon
    exact hω hcon
  refine (measureReal_mono hsub (measure_ne_top _ _)).trans ((measureReal_iUnion_fintype_le _).trans ((Finset.sum_le_sum fun i _ => hi i).trans (le_of_eq ?_)))
  rw [Finset.sum_const]
  simp
  ring

/-- The folds of all environments. -/
theorem folds_rate [IsProbabilityMeasure μ] (hX : ∀ k, Iid μ (X k) (C k)) (hexp : ∀ k, ExpSquares μ (X k 0)) {a b c : Rat}
    (ha : 0 < a) (hb : 0 < b) (hc : 0 < c) (hs : a + b + c = 1) {δ : ℝ} (hδ : 0 < δ) :
    ∃ K : ℝ, 0 < K ∧ ∃ z : ℝ, 0 < z ∧ ∀ (rng : Nat → Rng) (N : Fin e → ℕ),
      μ.real {ω | ¬ ∀ (i : Fin 3) (k : Fin e) (x y : Fin p), |npCov (rowsOf (X k) (foldRows (rng k) a b c (N k) i) ω) x y - C k x y| < δ} ≤
        K * ∑ k, Real.exp (-z * N k) := by
  choose K hK z hz h using fun k => fold_rate (hX k) (hexp k) ha hb hc hs hδ
  obtain ⟨z0, hz0, hle⟩ : ∃ z0 > 0, ∀ k, z0 ≤ z k := by
    rcases isEmpty_or_nonempty (Fin e) with he | he
    · exact ⟨1, one_pos, fun k => he.elim k⟩
    · obtain ⟨k, hk⟩ := Finite.exists_min z
      exact ⟨z k, hz k, hk⟩
  refine ⟨∑ k, K k + 1, add_pos_of_nonneg_of_pos (Finset.sum_nonneg fun k _ => (hK k).le) one_pos, z0, hz0, fun rng N => ?_⟩
  have hsub : {ω | ¬ ∀ (i : Fin 3) (k : Fin e) (x y : Fin p), |npCov (rowsOf (X k) (foldRows (rng k) a b c (N k) i) ω) x y - C k x y| < δ} ⊆
      ⋃ k : Fin e, {ω | ¬ ∀ (i : Fin 3) (x y : Fin p), |npCov (rowsOf (X k) (foldRows (rng k) a b c (N k) i) ω) x y - C k x y| < δ} := by
    intro ω hω
    by_contra hcon
    simp only [Set.mem_iUnion, Set.mem_ofPred_eq, not_exists, not_not] at hcon
    exact hω fun i k => hcon k i
  refine (measureReal_mono hsub (measure_ne_top _ _)).trans ((measureReal_iUnion_fintype_le _).trans ?_)
  rw [Finset.mul_sum]
  refine Finset.sum_le_sum fun k _ => (h k (rng k) (N k)).trans ?_
  have h1 : K k ≤ ∑ k, K k + 1 := (Finset.single_le_sum (fun k _ => (hK k).le) (Finset.mem_univ k)).trans (by linarith)
  exact mul_le_mul h1 (Real.exp_le_exp.2 (mul_le_mul_of_nonneg_right (neg_le_neg (hle k)) (Nat.cast_nonneg _))) (Real.exp_pos _).le ((hK k).le.trans h1)

/-- A statement about runs on data whose folds are close to `C` fails with exponentially small probability. -/
theorem runs_rate [IsProbabilityMeasure μ] (hX : ∀ k, Iid μ (X k) (C k)) (hexp : ∀ k, ExpSquares μ (X k 0)) (hC : ∀ k, (C k).PosDef) {a b c : Rat}
    (ha : 0 < a) (hb : 0 < b) (hc : 0 < c) (hs : a + b + c = 1) {ρ : ℝ} (hρ : 0 < ρ) (k0 : Fin e) {δ : ℝ} (hδ : 0 < δ) :
    ∃ K : ℝ, 0 < K ∧ ∃ z : ℝ, 0 < z ∧ ∀ (rng : Nat → Rng) (N : Fin e → ℕ) (Q : Ω → Prop), (∀ k, Blind (rng k)) → ρ * ∑ k, (N k : ℝ) ≤ N k0 →
      (∀ ω (training testG testI : List (Sample p)), splitData rng (List.ofFn (dataOf X N ω)) [a, b, c] = .ok [training, testG, testI] →
        (∀ s ∈ training, s.length ≠ 1) →
        (∀ f ∈ [training, testG, testI], ∀ k : Fin e, 0 < (f.getD k []).length) →
        Comparable (min (a / 2 : ℝ) (b / 2)) (fun k : Fin e => (training.getD k []).length) (fun k => (testG.getD k []).length) →
        (a / 2 : ℝ) * ρ * ∑ k : Fin e, ((training.getD k []).length : ℝ) ≤ (training.getD k0 []).length →
        (b / 2 : ℝ) * ρ * ∑ k : Fin e, ((testG.getD k []).length : ℝ) ≤ (testG.getD k0 []).length →
        (∀ f ∈ [training, testG, testI], (∀ k : Fin e, (npCov (f.getD k [])).PosDef) ∧ Within δ C fun k => npCov (f.getD k [])) → Q ω) →
      μ.real {ω | ¬ Q ω} ≤ K * ∑ k, Real.exp (-z * N k) := by
  obtain ⟨δ', hδ', hpd⟩ := exists_uniform (ι := Fin e) (P := fun k δ => ∀ S : Matrix (Fin p) (Fin p) ℝ, S.PosSemidef → (∀ i j, |S i j - C k i j| < δ) → S.PosDef)
    (fun k => posDef_near (hC k)) (fun k δ δ' _ hle h S hS hw => h S hS fun i j => (hw i j).trans_le hle)
  obtain ⟨K, hK, z, hz, h⟩ := folds_rate hX hexp ha hb hc hs (lt_min hδ hδ')
  have hq : (0 : ℝ) < (min a (min b c) : Rat) := by exact_mod_cast lt_min ha (lt_min hb hc)
  obtain ⟨M, hM⟩ := exists_nat_ge (3 / ((min a (min b c) : Rat) : ℝ))
  refine ⟨max K (Real.exp (z * M)), lt_max_of_lt_left hK, z, hz, fun rng N Q hblind hN hQ => ?_⟩
  have hsum : (0 : ℝ) ≤ ∑ k, Real.exp (-z * N k) := Finset.sum_nonneg fun k _ => (Real.exp_pos _).le
  by_cases hbig : ∀ k, M ≤ N k
  · have hq3 : ∀ k, (3 : ℝ) ≤ N k * (min a (min b c) : Rat) := fun k => (div_le_iff₀ hq).1 (hM.trans (by exact_mod_cast hbig k))
    have hl2 : ∀ (i : Fin 3) (k : Fin e), 2 ≤ (foldRows (rng k) a b c (N k) i).length := by
      intro i k
      have h1 := foldRows_share (rng k) ha hb hc hs (N k) i
      have h2 := hq3 k
      have : (2 : ℝ) ≤ (foldRows (rng k) a b c (N k) i).length := by linarith
      exact_mod_cast this
    have hb2 : ∀ k, 2 ≤ (N k : Rat) * a ∧ 2 ≤ (N k : Rat) * b := by
      intro k
      have h1 : (3 : Rat) ≤ N k * min a (min b c) := by exact_mod_cast hq3 k
      have hN0 : (0 : Rat) ≤ N k := by positivity
      constructor
      · nlinarith [min_le_left a (min b c)]
      · nlinarith [(min_le_right a (min b c)).trans (min_le_left b c)]
    exact (measureReal_mono (runs_subset hblind ha hb hc hs hρ hN hpd hl2 hb2 hQ) (measure_ne_top _ _)).trans ((h rng N).trans
      (mul_le_mul_of_nonneg_right (le_max_left _ _) hsum))
  · push Not at hbig
    obtain ⟨k, hk⟩ := hbig
    refine measureReal_le_one.trans ?_
    have h1 : Real.exp (-z * N k) ≤ ∑ k, Real.exp (-z * N k) := Finset.single_le_sum (f := fun k => Real.exp (-z * N k)) (fun k _ => (Real.exp_pos _).le) (Finset.mem_univ k)
    refine le_trans ?_ (mul_le_mul (le_max_right _ _) h1 (Real.exp_pos _).le (le_max_of_le_left hK.le))
    rw [← Real.exp_add]
    refine Real.one_le_exp ?_
    have : (N k : ℝ) ≤ M := by exact_mod_cast hk.le
    nlinarith

/-- C132: without latents and without pruning of edges the probability that a run does not return one of the candidates that can entail the covariance of
the last environment decreases exponentially with the numbers of observations.  The constants depend neither on the shuffling nor on the solver. -/
theorem C132_no_latents [IsProbabilityMeasure μ] (hX : ∀ k, Iid μ (X k) (C k)) (hexp : ∀ k, ExpSquares μ (X k 0)) (hp : p ≠ 0) (candidates : List (Adj p))
    (hG : ∀ G ∈ candidates, Nonneg G ∧ Acyclic G) {k0 : Fin e} (hk0 : k0.val + 1 = e) (G : Adj p) (hGm : G ∈ candidates)
    (hent : EntailedBy Finset.univ G C) (T : Nat) {a b c : Rat} (ha : 0 < a) (hb : 0 < b) (hc : 0 < c) (hs : a + b + c = 1) {ρ : ℝ} (hρ : 0 < ρ) :
    ∃ K : ℝ, 0 < K ∧ ∃ z : ℝ, 0 < z ∧ ∀ (E : FitEnv p e) (N : Fin e → ℕ) (rs : Int), ExactEnv T E → (∀ k, Blind (E.rng 42 k)) → ρ * ∑ k, (N k : ℝ) ≤ N k0 →
      μ.real {ω | ¬ ∃ P I m, equivalenceClass E candidates (dataOf X N ω) true false (some [0]) [a, b, c] rs = .ok (P, I, m) ∧
        m.1 = 0 ∧ m.A ∈ candidates ∧ EntailedBy Finset.univ m.A (fun _ : Fin 1 => C k0)} ≤ K * ∑ k, Real.exp (-z * N k) := by
  obtain ⟨hκ, hκ1⟩ := half_le_one ha hb hc hs
  have hbR : (0 : ℝ) < b := by exact_mod_cast hb
  have hC : ∀ k, (C k).PosDef := by
    obtain ⟨B, w, hB, hw, -, h⟩ := hent
    exact fun k => entails_pd (det_one_sub_transpose (hG G hGm).2 hB) (Matrix.PosDef.diagonal (hw k)) (h k)
  obtain ⟨δ, hδ, h⟩ := no_latents_good hp candidates hG hk0 G hGm hent hC T hκ hκ1 (ρ := b / 2 * ρ) (by positivity)
  obtain ⟨K, hK, z, hz, hr⟩ := runs_rate hX hexp hC ha hb hc hs hρ k0 hδ
  exact ⟨K, hK, z, hz, fun E N rs hE hblind hN => hr (E.rng 42) N _ hblind hN fun ω training testG testI q1 q2 q3 q4 q5 q6 q7 =>
    h E _ _ rs training testG testI hE q1 q2 q3 q4 q6 q7⟩

/-- C132: the probability that a run returns a model without latents whose graph can entail `C` but whose weights are not within `ε` of the true ones, or
whose targets contain the true ones but whose variances of the last environment are not within `ε`, decreases exponentially too. -/
theorem C132_parameters [IsProbabilityMeasure μ] (hX : ∀ k, Iid μ (X k) (C k)) (hexp : ∀ k, ExpSquares μ (X k 0)) (hC : ∀ k, (C k).PosDef) (candidates : List (Adj p))
    (hG : ∀ G ∈ candidates, Nonneg G) (ns : List Nat) {k0 : Fin e} (hk0 : k0.val + 1 = e) (T : Nat) {a b c : Rat} (ha : 0 < a) (hb : 0 < b) (hc : 0 < c)
    (hs : a + b + c = 1) {ρ : ℝ} (hρ : 0 < ρ) {ε : ℝ} (hε : 0 < ε) :
    ∃ K : ℝ, 0 < K ∧ ∃ z : ℝ, 0 < z ∧ ∀ (E : FitEnv p e) (N : Fin e → ℕ) (solverKnown pruneEdges : Bool) (rs : Int), ExactEnv T E → (∀ k, Blind (E.rng 42 k)) →
      ρ * ∑ k, (N k : ℝ) ≤ N k0 →
      μ.real {ω | ∃ P I m, equivalenceClass E candidates (dataOf X N ω) solverKnown pruneEdges (some ns) [a, b, c] rs = .ok (P, I, m) ∧
        m.1 = 0 ∧ ∃ B w, Truth m.A C B w ∧ ¬ ((∀ i j, |m.2.B i j - B i j| < ε) ∧
          ((∀ k k' i, i ∉ I → w k i = w k' i) → ∀ j, |m.2.omegas k0 j - w k0 j| < ε))} ≤ K * ∑ k, Real.exp (-z * N k) := by
  have haR : (0 : ℝ) < a := by exact_mod_cast ha
  obtain ⟨δ, hδ, h⟩ := C122_parameters candidates hG ns C hk0 T (ρ := a / 2 * ρ) (ε := ε) (by positivity) hε
  obtain ⟨K, hK, z, hz, hr⟩ := runs_rate hX hexp hC ha hb hc hs hρ k0 hδ
  refine ⟨K, hK, z, hz, fun E N solverKnown pruneEdges rs hE hblind hN => ?_⟩
  have := hr (E.rng 42) N (fun ω => ∀ P I m,
    equivalenceClass E candidates (dataOf X N ω) solverKnown pruneEdges (some ns) [a, b, c] rs = .ok (P, I, m) →
      m.1 = 0 → ∀ B w, Truth m.A C B w → ((∀ i j, |m.2.B i j - B i j| < ε) ∧
        ((∀ k k' i, i ∉ I → w k i = w k' i) → ∀ j, |m.2.omegas k0 j - w k0 j| < ε))) hblind hN (fun ω training testG testI q1 q2 q3 q4 q5 q6 q7 P I m hrun =>
      h E _ solverKnown pruneEdges _ rs training testG testI P I m hE q1 (q3 _ (by simp)) q5 (q7 _ (by simp)) hrun)
  simpa only [not_forall, exists_prop] using this

/-- Events whose probabilities decrease exponentially happen finitely often. -/
theorem eventually_of_rate [IsProbabilityMeasure μ] {B : ℕ → Set Ω} {K z : ℝ} (hz : 0 < z) {N : ℕ → Fin e → ℕ} (hN : ∀ n k, n ≤ N n k)
    (h : ∀ n, μ.real (B n) ≤ K * ∑ k, Real.exp (-z * N n k)) : ∀ᵐ ω ∂μ, ∀ᶠ n in atTop, ω ∉ B n := by
  refine ae_eventually_notMem ?_
  have hK : Summable fun n : ℕ => |K| * (e * Real.exp (-z) ^ n) := by
    refine ((summable_geometric_of_lt_one (Real.exp_pos _).le (by rw [← Real.exp_zero]; exact Real.exp_lt_exp.2 (by linarith))).mul_left _).mul_left _
  have hle : ∀ n, μ (B n) ≤ ENNReal.ofReal (|K| * (e * Real.exp (-z) ^ n)) := by
    intro n
    rw [← ofReal_measureReal (measure_ne_top _ _)]
    refine ENNReal.ofReal_le_ofReal ((h n).trans ?_)
    have h0 : (0 : ℝ) ≤ ∑ k, Real.exp (-z * N n k) := Finset.sum_nonneg fun k _ => (Real.exp_pos _).le
    refine (mul_le_mul_of_nonneg_right (le_abs_self K) h0).trans (mul_le_mul_of_nonneg_left ?_ (abs_nonneg K))
    calc ∑ k, Real.exp (-z * N n k) ≤ ∑ _k : Fin e, Real.exp (-z) ^ n := Finset.sum_le_sum fun k _ => by
          rw [← Real.exp_nat_mul]
          refine Real.exp_le_exp.2 ?_
          have : (n : ℝ) ≤ N n k := by exact_mod_cast hN n k
          nlinarith
      _ = _ := by simp
  exact ne_top_of_le_ne_top (ENNReal.ofReal_ne_top (r := ∑' n : ℕ, |K| * (e * Real.exp (-z) ^ n))) ((ENNReal.tsum_le_tsum hle).trans
    (ENNReal.ofReal_tsum_of_nonneg (fun n => by positivity) hK).ge)

/-- C132: when observations keep arriving in all environments, almost surely all but finitely many runs return one of the candidates that can entail the
covariance of the last environment. -/
theorem C132_almost_surely [IsProbabilityMeasure μ] (hX : ∀ k, Iid μ (X k) (C k)) (hexp : ∀ k, ExpSquares μ (X k 0)) (hp : p ≠ 0) (candidates : List (Adj p))
    (hG : ∀ G ∈ candidates, Nonneg G ∧ Acyclic G) {k0 : Fin e} (hk0 : k0.val + 1 = e) (G : Adj p) (hGm : G ∈ candidates)
    (hent : EntailedBy Finset.univ G C) {T : Nat} (E : ℕ → FitEnv p e) (hE : ∀ n, ExactEnv T (E n)) (hblind : ∀ n k, Blind ((E n).rng 42 k)) {a b c : Rat}
    (ha : 0 < a) (hb : 0 < b) (hc : 0 < c) (hs : a + b + c = 1) {ρ : ℝ} (hρ : 0 < ρ) {N : ℕ → Fin e → ℕ} (hN : MoreAndMore ρ k0 N) (hn : ∀ n k, n ≤ N n k) (rs : ℕ → Int) :
    ∀ᵐ ω ∂μ, ∀ᶠ n in atTop, ∃ P I m, equivalenceClass (E n) candidates (dataOf X (N n) ω) true false (some [0]) [a, b, c] (rs n) = .ok (P, I, m) ∧
      m.1 = 0 ∧ m.A ∈ candidates ∧ EntailedBy Finset.univ m.A (fun _ : Fin 1 => C k0) := by
  obtain ⟨K, hK, z, hz, h⟩ := C132_no_latents hX hexp hp candidates hG hk0 G hGm hent T ha hb hc hs hρ
  filter_upwards [eventually_of_rate hz hn fun n => h (E n) (N n) (rs n) (hE n) (hblind n) (hN.share n)] with ω hω
  filter_upwards [hω] with n hn
  simpa only [Set.mem_ofPred_eq, not_not] using hn

end Verif
