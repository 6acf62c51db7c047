import Verif.Props.LastEnvRun

/-!
# C122: in probability

Independent observations in several environments, with numbers of observations that tend to infinity.
-/

namespace Verif

open Spec Matrix MeasureTheory ProbabilityTheory Filter Topology

variable {p e : Nat} {Ω : Type} [MeasurableSpace Ω] {μ : Measure Ω}

theorem foldRows_le (r : Rng) (a b c : Rat) (N : Nat) : ∀ i < 3, (foldRows r a b c N i).length ≤ N := by
  have h : (r.shuffle (List.range N)).length = N := by rw [(r.shuffle_perm _).length_eq, List.length_range]
  intro i hi
  unfold foldRows
  simp only [List.map_cons, List.map_nil, pieces]
  interval_cases i
  · simp [h]
  · simp [h]
  · simp [h]

/-- Eventually a fold has at least half of its share of the observations. -/
theorem foldRows_half (r : Rng) {a b c : Rat} (ha : 0 < a) (hb : 0 < b) (hc : 0 < c) (hs : a + b + c = 1) {N : Nat} (hNa : 2 ≤ N * a) (hNb : 2 ≤ N * b) :
    (a / 2 : ℝ) * N ≤ (foldRows r a b c N 0).length ∧ (b / 2 : ℝ) * N ≤ (foldRows r a b c N 1).length := by
  obtain ⟨h1, h2, -⟩ := foldRows_length r ha.le hb.le hc.le hs N
  have h1' : (N : Rat) * a / 2 ≤ (foldRows r a b c N 0).length := by linarith
  have h2' : (N : Rat) * b / 2 ≤ (foldRows r a b c N 1).length := by linarith
  constructor
  · have : ((((N : Rat) * a / 2 : Rat)) : ℝ) ≤ (((foldRows r a b c N 0).length : Rat) : ℝ) := by exact_mod_cast h1'
    push_cast at this
    linarith
  · have : ((((N : Rat) * b / 2 : Rat)) : ℝ) ≤ (((foldRows r a b c N 1).length : Rat) : ℝ) := by exact_mod_cast h2'
    push_cast at this
    linarith

/-- The sample covariances of all folds are close to the truth. -/
theorem folds_close [IsProbabilityMeasure μ] {X : Fin e → ℕ → Ω → Fin p → ℝ} {C : Fin e → Matrix (Fin p) (Fin p) ℝ} (hX : ∀ k, Iid μ (X k) (C k))
    (rng : Nat → Rng) {a b c : Rat} (ha : 0 < a) (hb : 0 < b) (hc : 0 < c) (hs : a + b + c = 1) {N : ℕ → Fin e → ℕ} (hN : ∀ k, Tendsto (fun n => N n k) atTop atTop)
    {δ : ℝ} (hδ : 0 < δ) :
    Tendsto (fun n => μ {ω | ¬ ∀ (i : Fin 3) (k : Fin e) (x y : Fin p), |npCov (rowsOf (X k) (foldRows (rng k) a b c (N n k) i) ω) x y - C k x y| < δ}) atTop (𝓝 0) := by
  have h1 : ∀ z : Fin 3 × Fin e, Tendsto (fun n => μ {ω | ¬ ∀ x y, |npCov (rowsOf (X z.2) (foldRows (rng z.2) a b c (N n z.2) z.1) ω) x y - C z.2 x y| < δ}) atTop (𝓝 0) :=
    fun z => C120_in_probability (hX z.2) (fun n => foldRows (rng z.2) a b c (N n z.2) z.1) (fun n => foldRows_nodup _ _ _ _ _ _)
      (foldRows_tendsto (fun _ => rng z.2) ha hb hc hs (hN z.2) z.1 z.1.isLt) hδ
  have h2 := tendsto_finsetSum (Finset.univ : Finset (Fin 3 × Fin e)) fun z _ => h1 z
  rw [Finset.sum_const_zero] at h2
  refine tendsto_of_tendsto_of_tendsto_of_le_of_le tendsto_const_nhds h2 (fun _ => zero_le) fun n => ?_
  refine le_trans (measure_mono fun ω hω => ?_) (measure_iUnion_fintype_le μ fun z : Fin 3 × Fin e =>
    {ω | ¬ ∀ x y, |npCov (rowsOf (X z.2) (foldRows (rng z.2) a b c (N n z.2) z.1) ω) x y - C z.2 x y| < δ})
  simp only [Set.mem_ofPred_eq, Set.mem_iUnion] at hω ⊢
  by_contra hcon
  push Not at hcon
  exact hω fun i k => hcon (i, k)

/-- The observations of the environments. -/
def Spec.dataOf (X : Fin e → ℕ → Ω → Fin p → ℝ) (N : Fin e → ℕ) (ω : Ω) : Fin e → Sample p := fun k => rowsOf (X k) (List.range (N k)) ω

/-- Numbers of observations that tend to infinity in all environments, with at least the share `ρ` in environment `k`. -/
structure Spec.MoreAndMore (ρ : ℝ) (k : Fin e) (N : ℕ → Fin e → ℕ) : Prop where
  tends : ∀ k, Tendsto (fun n => N n k) atTop atTop
  share : ∀ n, ρ * ∑ k, (N n k : ℝ) ≤ N n k

theorem moreAndMore_large {ρ : ℝ} {k : Fin e} {N : ℕ → Fin e → ℕ} (h : MoreAndMore ρ k N) {a b : Rat} (ha : 0 < a) (hb : 0 < b) :
    ∀ᶠ n in atTop, ∀ k, 2 ≤ (N n k : Rat) * a ∧ 2 ≤ (N n k : Rat) * b ∧ 0 < N n k := by
  rw [eventually_all]
  intro k
  obtain ⟨K, hK⟩ := exists_nat_ge (2 / a)
  obtain ⟨L, hL⟩ := exists_nat_ge (2 / b)
  filter_upwards [(h.tends k).eventually_ge_atTop K, (h.tends k).eventually_ge_atTop L, (h.tends k).eventually_ge_atTop 1] with n h1 h2 h3
  refine ⟨(div_le_iff₀ ha).1 (hK.trans (by exact_mod_cast h1)), (div_le_iff₀ hb).1 (hL.trans (by exact_mod_cast h2)), h3⟩

variable {X : Fin e → ℕ → Ω → Fin p → ℝ} {C : Fin e → Matrix (Fin p) (Fin p) ℝ}

omit [MeasurableSpace Ω] in
/-- A statement about runs on data whose folds are close to `C` fails only when the sample covariances of the folds are not close. -/
theorem runs_subset {rng : Nat → Rng} (hblind : ∀ k, Blind (rng k)) {a b c : Rat} (ha : 0 < a) (hb : 0 < b) (hc : 0 < c) (hs : a + b + c = 1) {ρ : ℝ} (hρ : 0 < ρ)
    {k0 : Fin e} {N : Fin e → ℕ} (hN : ρ * ∑ k, (N k : ℝ) ≤ N k0) {δ δ' : ℝ} {Q : Ω → Prop}
    (hpd : ∀ k, ∀ S : Matrix (Fin p) (Fin p) ℝ, S.PosSemidef → (∀ i j, |S i j - C k i j| < δ') → S.PosDef)
    (hl2 : ∀ (i : Fin 3) (k : Fin e), 2 ≤ (foldRows (rng k) a b c (N k) i).length)
    (hbig : ∀ k, 2 ≤ (N k : Rat) * a ∧ 2 ≤ (N k : Rat) * b)
    (hQ : ∀ ω (training testG testI : List (Sample p)), splitData rng (List.ofFn (dataOf X N ω)) [a, b, c] = .ok [training, testG, testI] →
      (∀ s ∈ training, s.length ≠ 1) →
      (∀ f ∈ [training, testG, testI], ∀ k : Fin e, 0 < (f.getD k []).length) →
      Comparable (min (a / 2 : ℝ) (b / 2)) (fun k : Fin e => (training.getD k []).length) (fun k => (testG.getD k []).length) →
      (a / 2 : ℝ) * ρ * ∑ k : Fin e, ((training.getD k []).length : ℝ) ≤ (training.getD k0 []).length →
      (b / 2 : ℝ) * ρ * ∑ k : Fin e, ((testG.getD k []).length : ℝ) ≤ (testG.getD k0 []).length →
      (∀ f ∈ [training, testG, testI], (∀ k : Fin e, (npCov (f.getD k [])).PosDef) ∧ Within δ C fun k => npCov (f.getD k [])) → Q ω) :
    {ω | ¬ Q ω} ⊆ {ω | ¬ ∀ (i : Fin 3) (k : Fin e) (x y : Fin p), |npCov (rowsOf (X k) (foldRows (rng k) a b c (N k) i) ω) x y - C k x y| < min δ δ'} := by
  intro ω hω
  simp only [Set.mem_ofPred_eq] at hω ⊢
  intro hclose
  apply hω
  have hhalf := fun k : Fin e => foldRows_half (rng k) ha hb hc hs (hbig k).1 (hbig k).2
  have haR : (0 : ℝ) < a := by exact_mod_cast ha
  have hbR : (0 : ℝ) < b := by exact_mod_cast hb
  have hle : ∀ (i : Fin 3) (k : Fin e), ((foldRows (rng k) a b c (N k) i).length : ℝ) ≤ N k := fun i k => by exact_mod_cast foldRows_le (rng k) a b c (N k) i i.isLt
  have hsh : ∀ (i : Fin 3) (z : ℝ), 0 < z → z * N k0 ≤ (foldRows (rng k0) a b c (N k0) i).length →
      z * ρ * ∑ k : Fin e, ((foldRows (rng k) a b c (N k) i).length : ℝ) ≤ (foldRows (rng k0) a b c (N k0) i).length := by
    intro i z hz h
    refine le_trans ?_ h
    rw [mul_assoc]
    refine mul_le_mul_of_nonneg_left (le_trans (mul_le_mul_of_nonneg_left (Finset.sum_le_sum fun k _ => hle i k) hρ.le) (hN)) hz.le
  have hfolds : ∀ i : Fin 3, (∀ k : Fin e, (npCov (rowsOf (X k) (foldRows (rng k) a b c (N k) i) ω)).PosDef) ∧
      Within δ C fun k => npCov (rowsOf (X k) (foldRows (rng k) a b c (N k) i) ω) := by
    intro i
    refine ⟨fun k => hpd k _ (C97_posSemidef _ ?_) fun x y => (hclose i k x y).trans_le (min_le_right _ _), fun k x y => (hclose i k x y).trans_le (min_le_left _ _)⟩
    have := hl2 i k
    simp only [rowsOf, List.length_map]
    omega
  refine hQ ω _ _ _ (splitData_rows rng hblind ha.le hb.le hc.le hs X N ω) ?_ ?_ ?_ ?_ ?_ ?_
  · intro s hs'
    rw [List.mem_ofFn] at hs'
    obtain ⟨k, rfl⟩ := hs'
    have := hl2 0 k
    simp only [rowsOf, List.length_map]
    exact fun hc => by simp at this; omega
  · simp only [List.mem_cons, List.not_mem_nil, or_false, forall_eq_or_imp, forall_eq]
    refine ⟨fun k => ?_, fun k => ?_, fun k => ?_⟩
    · have := hl2 0 k; simp at this; simp [rowsOf]; omega
    · have := hl2 1 k; simp at this; simp [rowsOf]; omega
    · have := hl2 2 k; simp at this; simp [rowsOf]; omega
  · intro k
    have h0 := hle 0 k
    have h1 := hle 1 k
    simp at h0 h1
    simp [rowsOf]
    constructor
    · refine le_trans ?_ (hhalf k).2
      exact mul_le_mul (min_le_right _ _) (by exact_mod_cast h0) (Nat.cast_nonneg _) (by positivity)
    · refine le_trans ?_ (hhalf k).1
      exact mul_le_mul (min_le_left _ _) (by exact_mod_cast h1) (Nat.cast_nonneg _) (by positivity)
  · have := hsh 0 (a / 2) (by positivity) (hhalf k0).1
    simpa [rowsOf] using this
  · have := hsh 1 (b / 2) (by positivity) (hhalf k0).2
    simpa [rowsOf] using this
  · simp only [List.mem_cons, List.not_mem_nil, or_false, forall_eq_or_imp, forall_eq]
    exact ⟨by simpa using hfolds 0, by simpa using hfolds 1, by simpa using hfolds 2⟩

/-- A statement about runs on data whose folds are close to `C` holds with a probability that tends to one. -/
theorem runs_close [IsProbabilityMeasure μ] (hX : ∀ k, Iid μ (X k) (C k)) (hC : ∀ k, (C k).PosDef) {rng : Nat → Rng} (hblind : ∀ k, Blind (rng k))
    {a b c : Rat} (ha : 0 < a) (hb : 0 < b) (hc : 0 < c) (hs : a + b + c = 1) {ρ : ℝ} (hρ : 0 < ρ) {k0 : Fin e} {N : ℕ → Fin e → ℕ} (hN : MoreAndMore ρ k0 N)
    {δ : ℝ} (hδ : 0 < δ) {Q : ℕ → Ω → Prop}
    (hQ : ∀ n ω (training testG testI : List (Sample p)), splitData rng (List.ofFn (dataOf X (N n) ω)) [a, b, c] = .ok [training, testG, testI] →
      (∀ s ∈ training, s.length ≠ 1) →
      (∀ f ∈ [training, testG, testI], ∀ k : Fin e, 0 < (f.getD k []).length) →
      Comparable (min (a / 2 : ℝ) (b / 2)) (fun k : Fin e => (training.getD k []).length) (fun k => (testG.getD k []).length) →
      (a / 2 : ℝ) * ρ * ∑ k : Fin e, ((training.getD k []).length : ℝ) ≤ (training.getD k0 []).length →
      (b / 2 : ℝ) * ρ * ∑ k : Fin e, ((testG.getD k []).length : ℝ) ≤ (testG.getD k0 []).length →
      (∀ f ∈ [training, testG, testI], (∀ k : Fin e, (npCov (f.getD k [])).PosDef) ∧ Within δ C fun k => npCov (f.getD k [])) → Q n ω) :
    Tendsto (fun n => μ {ω | ¬ Q n ω}) atTop (𝓝 0) := by
  obtain ⟨δ', hδ', hpd⟩ := exists_uniform (ι := Fin e) (P := fun k δ => ∀ S : Matrix (Fin p) (Fin p) ℝ, S.PosSemidef → (∀ i j, |S i j - C k i j| < δ) → S.PosDef)
    (fun k => posDef_near (hC k)) (fun k δ δ' _ hle h S hS hw => h S hS fun i j => (hw i j).trans_le hle)
  have hcl := folds_close hX rng ha hb hc hs hN.tends (lt_min hδ hδ')
  have hlen2 : ∀ᶠ n in atTop, ∀ (i : Fin 3) (k : Fin e), 2 ≤ (foldRows (rng k) a b c (N n k) i).length := by
    rw [eventually_all]
    intro i
    rw [eventually_all]
    intro k
    exact (foldRows_tendsto (fun _ => rng k) ha hb hc hs (hN.tends k) i i.isLt).eventually_ge_atTop 2
  refine tendsto_of_tendsto_of_tendsto_of_le_of_le' tendsto_const_nhds hcl (Eventually.of_forall fun _ => zero_le) ?_
  filter_upwards [hlen2, moreAndMore_large hN ha hb] with n hl2 hbig
  exact measure_mono (runs_subset hblind ha hb hc hs hρ (hN.share n) hpd hl2 (fun k => ⟨(hbig k).1, (hbig k).2.1⟩) (hQ n))

theorem half_le_one {a b c : Rat} (ha : 0 < a) (hb : 0 < b) (hc : 0 < c) (hs : a + b + c = 1) : 0 < min (a / 2 : ℝ) (b / 2) ∧ min (a / 2 : ℝ) (b / 2) ≤ 1 := by
  have haR : (0 : ℝ) < a := by exact_mod_cast ha
  have hbR : (0 : ℝ) < b := by exact_mod_cast hb
  have h1 : (a : ℝ) ≤ 1 := by exact_mod_cast (by linarith : a ≤ 1)
  exact ⟨lt_min (by positivity) (by positivity), (min_le_left _ _).trans (by linarith)⟩

/-- C122: independent observations in several environments from distributions with covariances `C` that one of the candidates can entail without
latents.  The probability that a run returns a graph and a number of latents with which the covariance of the last environment cannot be approximated
tends to zero with the numbers of observations. -/
theorem C122_last_environment [IsProbabilityMeasure μ] (hX : ∀ k, Iid μ (X k) (C k)) (candidates : List (Adj p)) (hG : ∀ G ∈ candidates, Nonneg G) (ns : List Nat)
    (hns : 0 ∈ ns) {k0 : Fin e} (hk0 : k0.val + 1 = e) (G : Adj p) (hGm : G ∈ candidates) (hac : Acyclic G) (hent : EntailedBy Finset.univ G C) {T : Nat}
    (E : FitEnv p e) (hE : ExactEnv T E) (hblind : ∀ k, Blind (E.rng 42 k)) {a b c : Rat} (ha : 0 < a) (hb : 0 < b) (hc : 0 < c) (hs : a + b + c = 1)
    {ρ : ℝ} (hρ : 0 < ρ) {N : ℕ → Fin e → ℕ} (hN : MoreAndMore ρ k0 N) (solverKnown pruneEdges : Bool) (rs : Int) :
    Tendsto (fun n => μ {ω | ∃ P I m, equivalenceClass E candidates (dataOf X (N n) ω) solverKnown pruneEdges (some ns) [a, b, c] rs = .ok (P, I, m) ∧
      ¬ Approximates m.1 Finset.univ m.A (fun _ : Fin 1 => C k0)}) atTop (𝓝 0) := by
  obtain ⟨hκ, hκ1⟩ := half_le_one ha hb hc hs
  have hbR : (0 : ℝ) < b := by exact_mod_cast hb
  have hC : ∀ k, (C k).PosDef := by
    obtain ⟨B, w, hB, hw, -, h⟩ := hent
    exact fun k => entails_pd (det_one_sub_transpose hac hB) (Matrix.PosDef.diagonal (hw k)) (h k)
  obtain ⟨δ, hδ, h⟩ := C122_returned candidates hG ns hns C hk0 G hGm hac hent T (ρ := b / 2 * ρ) (by positivity) hκ hκ1
  have := runs_close hX hC hblind ha hb hc hs hρ hN hδ (Q := fun n ω => ∀ P I m,
    equivalenceClass E candidates (dataOf X (N n) ω) solverKnown pruneEdges (some ns) [a, b, c] rs = .ok (P, I, m) →
      Approximates m.1 Finset.univ m.A (fun _ : Fin 1 => C k0)) (fun n ω training testG testI q1 q2 q3 q4 q5 q6 q7 P I m hrun => by
      refine h E _ solverKnown pruneEdges _ rs training testG testI P I m hE q1 (fun k => ⟨q3 _ (by simp) k, q3 _ (by simp) k⟩) q4 q6 (fun f hf => q7 f ?_) hrun
      simp only [List.mem_cons, List.not_mem_nil, or_false] at hf ⊢
      tauto)
  simpa only [not_forall, exists_prop] using this

/-- C122: the probability that a run returns a model without latents whose graph can entail `C` but whose weights are not within `ε` of the true ones
tends to zero, and so does the one that the returned targets contain the true ones but some variance of the last environment is not within `ε`. -/
theorem C122_consistent_parameters [IsProbabilityMeasure μ] (hX : ∀ k, Iid μ (X k) (C k)) (hC : ∀ k, (C k).PosDef) (candidates : List (Adj p))
    (hG : ∀ G ∈ candidates, Nonneg G) (ns : List Nat) {k0 : Fin e} (hk0 : k0.val + 1 = e) {T : Nat} (E : FitEnv p e) (hE : ExactEnv T E)
    (hblind : ∀ k, Blind (E.rng 42 k)) {a b c : Rat} (ha : 0 < a) (hb : 0 < b) (hc : 0 < c) (hs : a + b + c = 1)
    {ρ : ℝ} (hρ : 0 < ρ) {N : ℕ → Fin e → ℕ} (hN : MoreAndMore ρ k0 N) (solverKnown pruneEdges : Bool) (rs : Int) {ε : ℝ} (hε : 0 < ε) :
    Tendsto (fun n => μ {ω | ∃ P I m, equivalenceClass E candidates (dataOf X (N n) ω) solverKnown pruneEdges (some ns) [a, b, c] rs = .ok (P, I, m) ∧
      m.1 = 0 ∧ ∃ B w, Truth m.A C B w ∧ ¬ ((∀ i j, |m.2.B i j - B i j| < ε) ∧
        ((∀ k k' i, i ∉ I → w k i = w k' i) → ∀ j, |m.2.omegas k0 j - w k0 j| < ε))}) atTop (𝓝 0) := by
  have haR : (0 : ℝ) < a := by exact_mod_cast ha
  obtain ⟨δ, hδ, h⟩ := C122_parameters candidates hG ns C hk0 T (ρ := a / 2 * ρ) (ε := ε) (by positivity) hε
  have := runs_close hX hC hblind ha hb hc hs hρ hN hδ (Q := fun n ω => ∀ P I m,
    equivalenceClass E candidates (dataOf X (N n) ω) solverKnown pruneEdges (some ns) [a, b, c] rs = .ok (P, I, m) →
      m.1 = 0 → ∀ B w, Truth m.A C B w → ((∀ i j, |m.2.B i j - B i j| < ε) ∧
        ((∀ k k' i, i ∉ I → w k i = w k' i) → ∀ j, |m.2.omegas k0 j - w k0 j| < ε))) (fun n ω training testG testI q1 q2 q3 q4 q5 q6 q7 P I m hrun =>
      h E _ solverKnown pruneEdges _ rs training testG testI P I m hE q1 (q3 _ (by simp)) q5 (q7 _ (by simp)) hrun)
  simpa only [not_forall, exists_prop] using this

/-- Without latents and without pruning of edges a run on data whose folds are close to `C` returns one of the candidates that can entail the covariance
of the last environment. -/
theorem no_latents_good (hp : p ≠ 0) (candidates : List (Adj p)) (hG : ∀ G ∈ candidates, Nonneg G ∧ Acyclic G) {k0 : Fin e} (hk0 : k0.val + 1 = e) (G : Adj p)
    (hGm : G ∈ candidates) (hent : EntailedBy Finset.univ G C) (hC : ∀ k, (C k).PosDef) (T : Nat) {κ ρ : ℝ} (hκ : 0 < κ) (hκ1 : κ ≤ 1) (hρ : 0 < ρ) :
    ∃ δ > 0, ∀ (E : FitEnv p e) (data : Fin e → Sample p) (folds : List Rat) (rs : Int) (training testG testI : List (Sample p)), ExactEnv T E →
      splitData (E.rng 42) (List.ofFn data) folds = .ok [training, testG, testI] → (∀ s ∈ training, s.length ≠ 1) →
      (∀ f ∈ [training, testG, testI], ∀ k : Fin e, 0 < (f.getD k []).length) →
      Comparable κ (fun k : Fin e => (training.getD k []).length) (fun k => (testG.getD k []).length) →
      ρ * ∑ k : Fin e, ((testG.getD k []).length : ℝ) ≤ (testG.getD k0 []).length →
      (∀ f ∈ [training, testG, testI], (∀ k : Fin e, (npCov (f.getD k [])).PosDef) ∧ Within δ C fun k => npCov (f.getD k [])) →
      ∃ P I m, equivalenceClass E candidates data true false (some [0]) folds rs = .ok (P, I, m) ∧
        m.1 = 0 ∧ m.A ∈ candidates ∧ EntailedBy Finset.univ m.A (fun _ : Fin 1 => C k0) := by
  have hac := (hG G hGm).2
  obtain ⟨δ, hδ, h⟩ := C122_returned candidates (fun G h => (hG G h).1) [0] (by simp) C hk0 G hGm hac hent T (ρ := ρ) hρ hκ hκ1
  refine ⟨δ, hδ, fun E data folds rs training testG testI hE q1 q2 q3 q4 q6 q7 => ?_⟩
  obtain ⟨svd, num, cfg, u, v, hEfit, hcvx, hsqrt, hopt, hT, hthr, hpsi, hit, hfl⟩ := hE.fit
  obtain ⟨⟨P, I, m⟩, hr⟩ := C72_cvx E svd num cfg u v hEfit hp candidates (List.ne_nil_of_mem hGm) hG _ false [0] (by simp) (by simp)
    _ rs training testG testI q1 q2 (fun f hf => ⟨fun k => by
      show (E.cov _).PosDef
      rw [hE.cov]
      exact (q7 f hf).1 k, fun k => q3 f hf k, by omega⟩) hE.argsort hcvx (fun A => cvxFeasible_of_optimal (fun Ms => hopt A Ms _)) hthr hpsi hit hfl (by simp)
  have happ := h E _ true false _ rs training testG testI P I m hE q1 (fun k => ⟨q3 _ (by simp) k, q3 _ (by simp) k⟩) q4 q6 (fun f hf => q7 f (by
    simp only [List.mem_cons, List.not_mem_nil, or_false] at hf ⊢
    tauto)) hr
  have hfit : ∀ d h, GoodFit (E.fit d h) := fun d h => by
    rw [hEfit]
    exact codeFit_good _ _ _ _ _ _ _ _ (fun hc => by rw [hcvx] at hc; cases hc)
  have hlat : ∀ d h n A I m s, E.fit d h n A I = .ok (m, s) → m.1 = h := fun d h n A I m s hm => by
    rw [hEfit] at hm
    exact codeFit_latents hm
  obtain ⟨s, hmain⟩ : ∃ s, fitMain E data true (some [0]) false folds none none (some candidates) 42 = .ok (m, I, s) := by
    have hr' := hr
    unfold equivalenceClass withIcpdag at hr'
    split at hr'
    · simp at hr'
    · rename_i m' I' s' hm'
      split at hr'
      · simp at hr'
      · cases hr'
        exact ⟨_, hm'⟩
  obtain ⟨_, _, _, graphs, ns', z1, z2, z3, z4⟩ := fitMain_spec hfit hlat hE.argsort hmain
  cases z2
  cases z3
  obtain ⟨q1, ⟨G', g1, -, g3⟩, -⟩ := z4 (fun G h => (hG G h).1)
  obtain rfl := g3 rfl
  have hm0 : m.1 = 0 := List.mem_singleton.1 q1
  refine ⟨P, I, m, hr, hm0, g1, ?_⟩
  rw [hm0] at happ
  exact (entailedWith_zero.1 ((C113_closed fun _ => hC k0).1 happ)).2

/-- C122: without latents and without pruning of edges the probability that the run returns one of the candidates that can entail the covariance of
the last environment tends to one. -/
theorem C122_no_latents [IsProbabilityMeasure μ] (hX : ∀ k, Iid μ (X k) (C k)) (hp : p ≠ 0) (candidates : List (Adj p))
    (hG : ∀ G ∈ candidates, Nonneg G ∧ Acyclic G) {k0 : Fin e} (hk0 : k0.val + 1 = e) (G : Adj p) (hGm : G ∈ candidates)
    (hent : EntailedBy Finset.univ G C) {T : Nat} (E : FitEnv p e) (hE : ExactEnv T E) (hblind : ∀ k, Blind (E.rng 42 k)) {a b c : Rat} (ha : 0 < a) (hb : 0 < b)
    (hc : 0 < c) (hs : a + b + c = 1) {ρ : ℝ} (hρ : 0 < ρ) {N : ℕ → Fin e → ℕ} (hN : MoreAndMore ρ k0 N) (rs : Int) :
    Tendsto (fun n => μ {ω | ¬ ∃ P I m, equivalenceClass E candidates (dataOf X (N n) ω) true false (some [0]) [a, b, c] rs = .ok (P, I, m) ∧
      m.1 = 0 ∧ m.A ∈ candidates ∧ EntailedBy Finset.univ m.A (fun _ : Fin 1 => C k0)}) atTop (𝓝 0) := by
  obtain ⟨hκ, hκ1⟩ := half_le_one ha hb hc hs
  have hbR : (0 : ℝ) < b := by exact_mod_cast hb
  have hac := (hG G hGm).2
  have hC : ∀ k, (C k).PosDef := by
    obtain ⟨B, w, hB, hw, -, h⟩ := hent
    exact fun k => entails_pd (det_one_sub_transpose hac hB) (Matrix.PosDef.diagonal (hw k)) (h k)
  obtain ⟨δ, hδ, h⟩ := no_latents_good hp candidates hG hk0 G hGm hent hC T hκ hκ1 (ρ := b / 2 * ρ) (by positivity)
  exact runs_close hX hC hblind ha hb hc hs hρ hN hδ fun n ω training testG testI q1 q2 q3 q4 q5 q6 q7 => h E _ _ rs training testG testI hE q1 q2 q3 q4 q6 q7

end Verif
