import Verif.Props.LastEnvProb
import Verif.Props.ConsistencyExamples

/-!
# Cases that meet the hypotheses of C122
-/

namespace Verif

open Spec Matrix MeasureTheory ProbabilityTheory Filter Topology

variable {p e : Nat}

theorem exactEnv_exists : ∃ E : FitEnv p e, ExactEnv 1000 E ∧ ∀ k, Blind (E.rng 42 k) := by
  obtain ⟨num, hs, hopt⟩ := cvxOptimal_zero_exists (p := p) (e := e)
  refine ⟨⟨SetIter.incr p, fun _ _ => Rng.front, npCov, insArgsort, fun _ => [], fun _ => 0,
    codeFit (SetIter.incr p) (fun _ => (0, 0)) num ⟨.cvx, none, false, ⟨1000, 1 / 1000, 1 / 100000, 10⟩, 1 / 100000, 10⟩ (fun _ _ _ => 0) (fun _ _ _ => 0)⟩,
    ⟨rfl, insArgsort_spec, _, num, _, _, _, rfl, rfl, hs, hopt, by norm_num, by norm_num, by simp, by norm_num, by norm_num⟩, fun k => ?_⟩
  intro α β f l
  rfl

namespace LastEnvEx

/-- The graph `0 → 1`. -/
def graph : Adj 2 := ![![0, 1], ![0, 0]]

/-- The graph without edges. -/
def empty : Adj 2 := fun _ _ => 0

theorem graph_nonneg : Nonneg graph := by unfold Nonneg graph; decide

theorem graph_acyclic : Acyclic graph := (isDag_iff (SetIter.incr 2) graph_nonneg).1 (by unfold graph; decide)

theorem empty_nonneg : Nonneg empty := fun _ _ => le_refl _

theorem empty_acyclic : Acyclic empty := (isDag_iff (SetIter.incr 2) empty_nonneg).1 (by decide)

/-- The standard deviation of the noise of the second variable in the two environments. -/
noncomputable def sd : Fin 2 → ℝ := ![1, 2]

/-- The covariances of the environments: weight 1, and the variance of the noise of the second variable changes. -/
noncomputable def covs (k : Fin 2) : Matrix (Fin 2) (Fin 2) ℝ := !![1, 1; 1, 1 + sd k ^ 2]

/-- The model. -/
theorem truth : Truth graph covs !![0, 1; 0, 0] (fun k => ![1, sd k ^ 2]) where
  respects := by
    intro i j hij
    fin_cases i <;> fin_cases j <;> simp [graph] at hij ⊢
  pos := by
    intro k i
    fin_cases k <;> fin_cases i <;> simp [sd]
  entails := by
    intro k
    unfold Entails
    ext i j
    fin_cases i <;> fin_cases j <;> simp [Matrix.mul_apply, Fin.sum_univ_two, covs]

theorem entailed : EntailedBy Finset.univ graph covs :=
  ⟨_, _, truth.respects, truth.pos, fun _ _ i hi => absurd (Finset.mem_univ i) hi, truth.entails⟩

/-- The graph without edges cannot entail the covariance of the last environment. -/
theorem empty_not : ¬ EntailedBy Finset.univ empty (fun _ : Fin 1 => covs 1) := by
  rintro ⟨B, w, hB, -, -, h⟩
  have hB0 : B = 0 := by
    ext i j
    exact hB i j rfl
  have h1 := congrFun (congrFun (h 0) 0) 1
  rw [hB0] at h1
  simp [covs] at h1

/-- The variables of environment `k` as functions of independent standard normal variables. -/
noncomputable def vars (k : Fin 2) (x : Fin 0 ⊕ Fin 2 → ℝ) : Fin 2 → ℝ := ![x (Sum.inr 0), x (Sum.inr 0) + sd k * x (Sum.inr 1)]

/-- Independent standard normal variables. -/
noncomputable def space : Measure (Fin 0 ⊕ Fin 2 → ℝ) := gaussSpace (l := 0) (p := 2) (fun _ => 0) (fun _ => 1)

instance : IsProbabilityMeasure space := by
  unfold space
  infer_instance

theorem iid (k : Fin 2) : Iid (Measure.infinitePi fun _ : ℕ => space) (fun a ω => vars k (ω a)) (covs k) := by
  have hcov := gaussSpace_cov (l := 0) (p := 2) (psi := fun _ => 0) (omega := fun _ => 1) (fun _ => le_rfl) (fun _ => zero_le_one)
  have hmem := gaussSpace_memLp (l := 0) (p := 2) (fun _ => 0) (fun _ => 1)
  have hmem' : MemLp (fun x : Fin 0 ⊕ Fin 2 → ℝ => sd k * x (Sum.inr 1)) 2 space := (hmem (Sum.inr 1)).const_mul _
  have h0 : MemLp (fun x : Fin 0 ⊕ Fin 2 → ℝ => x (Sum.inr 0)) 2 space := hmem (Sum.inr 0)
  refine iid_copies space (vars k) ?_ ?_ ?_
  · refine measurable_pi_lambda _ fun i => ?_
    fin_cases i
    · exact measurable_pi_apply _
    · exact (measurable_pi_apply _).add ((measurable_pi_apply _).const_mul _)
  · intro i
    fin_cases i
    · exact h0
    · exact h0.add hmem'
  · have e : ∀ s t, cov[fun x : Fin 0 ⊕ Fin 2 → ℝ => x s, fun x => x t; space] = if s = t then 1 else 0 := by
      intro s t
      unfold space
      rw [hcov]
      rcases s with s | s
      · exact s.elim0
      · rfl
    have b1 : cov[fun x : Fin 0 ⊕ Fin 2 → ℝ => x (Sum.inr 0), fun x => sd k * x (Sum.inr 1); space] = 0 := by
      rw [covariance_const_mul_right, e]
      simp
    have b2 : cov[fun x : Fin 0 ⊕ Fin 2 → ℝ => sd k * x (Sum.inr 1), fun x => x (Sum.inr 0); space] = 0 := by
      rw [covariance_const_mul_left, e]
      simp
    have b3 : cov[fun x : Fin 0 ⊕ Fin 2 → ℝ => sd k * x (Sum.inr 1), fun x => sd k * x (Sum.inr 1); space] = sd k ^ 2 := by
      rw [covariance_const_mul_left, covariance_const_mul_right, e]
      simp
      ring
    have a1 := covariance_add_right h0 h0 hmem'
    have a2 := covariance_add_left h0 hmem' h0
    have a3 := covariance_add_left h0 hmem' (h0.add hmem')
    have a4 := covariance_add_right hmem' h0 hmem'
    rw [a1, a4, b1, b2, b3, e] at a3
    rw [b1, e] at a1
    rw [b2, e] at a2
    intro i j
    fin_cases i <;> fin_cases j
    · exact (e (Sum.inr 0) (Sum.inr 0)).trans (by simp [covs])
    · exact a1.trans (by simp [covs])
    · exact a2.trans (by simp [covs])
    · exact a3.trans (by simp [covs])

/-- As many observations in the first environment as in the last one. -/
theorem sizes : MoreAndMore (1 / 2) (1 : Fin 2) (fun n _ => n) where
  tends := fun _ => tendsto_id
  share := fun n => by
    rw [Fin.sum_univ_two]
    linarith

/-- With these observations the probability that the run returns the graph of the model tends to one. -/
example : ∃ E : FitEnv 2 2, Tendsto (fun n => (Measure.infinitePi fun _ : ℕ => space) {ω | ¬ ∃ P I m,
    equivalenceClass E [empty, graph] (dataOf (fun k a ω => vars k (ω a)) (fun _ => n) ω) true false (some [0]) [1 / 2, 1 / 4, 1 / 4] 42 = .ok (P, I, m) ∧
      m.1 = 0 ∧ m.A = graph}) atTop (𝓝 0) := by
  obtain ⟨E, hE, hblind⟩ := exactEnv_exists (p := 2) (e := 2)
  refine ⟨E, ?_⟩
  have h := C122_no_latents iid (by norm_num) [empty, graph] (by
      simp only [List.mem_cons, List.not_mem_nil, or_false, forall_eq_or_imp, forall_eq]
      exact ⟨⟨empty_nonneg, empty_acyclic⟩, graph_nonneg, graph_acyclic⟩) (k0 := 1) rfl graph (by simp) entailed E hE hblind (a := 1 / 2) (b := 1 / 4) (c := 1 / 4)
      (by norm_num) (by norm_num) (by norm_num) (by norm_num) (by norm_num) sizes 42
  refine tendsto_of_tendsto_of_tendsto_of_le_of_le tendsto_const_nhds h (fun _ => zero_le) fun n => measure_mono fun ω hω hr => hω ?_
  obtain ⟨P, I, m, h1, h2, h3, h4⟩ := hr
  refine ⟨P, I, m, h1, h2, ?_⟩
  simp only [List.mem_cons, List.not_mem_nil, or_false] at h3
  rcases h3 with h3 | h3
  · rw [h3] at h4
    exact absurd h4 empty_not
  · exact h3

/-- The other theorems apply to the same observations, with any numbers of latents and with pruning of edges. -/
example : ∃ E : FitEnv 2 2, (∀ (solverKnown pruneEdges : Bool), Tendsto (fun n => (Measure.infinitePi fun _ : ℕ => space) {ω | ∃ P I m,
    equivalenceClass E [empty, graph] (dataOf (fun k a ω => vars k (ω a)) (fun _ => n) ω) solverKnown pruneEdges (some [0, 1]) [1 / 2, 1 / 4, 1 / 4] 42 = .ok (P, I, m) ∧
      ¬ Approximates m.1 Finset.univ m.A (fun _ : Fin 1 => covs 1)}) atTop (𝓝 0)) ∧
    ∀ (solverKnown pruneEdges : Bool), Tendsto (fun n => (Measure.infinitePi fun _ : ℕ => space) {ω | ∃ P I m,
    equivalenceClass E [empty, graph] (dataOf (fun k a ω => vars k (ω a)) (fun _ => n) ω) solverKnown pruneEdges (some [0, 1]) [1 / 2, 1 / 4, 1 / 4] 42 = .ok (P, I, m) ∧
      m.1 = 0 ∧ m.A = graph ∧ (1 / 10 : ℝ) ≤ |m.2.B 0 1 - 1|}) atTop (𝓝 0) := by
  obtain ⟨E, hE, hblind⟩ := exactEnv_exists (p := 2) (e := 2)
  have hnn : ∀ G ∈ [empty, graph], Nonneg G := by
    simp only [List.mem_cons, List.not_mem_nil, or_false, forall_eq_or_imp, forall_eq]
    exact ⟨empty_nonneg, graph_nonneg⟩
  have hpd : ∀ k, (covs k).PosDef := fun k => entails_pd (det_one_sub_transpose graph_acyclic truth.respects) (Matrix.PosDef.diagonal (truth.pos k)) (truth.entails k)
  refine ⟨E, fun solverKnown pruneEdges => C122_last_environment iid [empty, graph] hnn [0, 1] (by simp) (k0 := 1) rfl graph (by simp) graph_acyclic entailed E hE hblind
    (by norm_num) (by norm_num) (by norm_num) (by norm_num) (by norm_num) sizes solverKnown pruneEdges 42, fun solverKnown pruneEdges => ?_⟩
  have h := C122_consistent_parameters iid hpd [empty, graph] hnn [0, 1] (k0 := 1) rfl E hE hblind (a := 1 / 2) (b := 1 / 4) (c := 1 / 4)
    (by norm_num) (by norm_num) (by norm_num) (by norm_num) (by norm_num) sizes solverKnown pruneEdges 42 (ε := 1 / 10) (by norm_num)
  refine tendsto_of_tendsto_of_tendsto_of_le_of_le tendsto_const_nhds h (fun _ => zero_le) fun n => measure_mono fun ω hω => ?_
  obtain ⟨P, I, m, h1, h2, h3, h4⟩ := hω
  refine ⟨P, I, m, h1, h2, !![0, 1; 0, 0], _, by rw [h3]; exact truth, fun hc => ?_⟩
  have := hc.1 0 1
  simp at this
  norm_num at h4
  linarith

/-- A fit as in `C122_variances`, with exact data of both environments, all variables as targets and the weights of the code for ten observations. -/
example (svd : Matrix (Fin 2) (Fin 2) ℝ → Matrix (Fin 2) (Fin 2) ℝ × (Fin 2 → ℝ)) (u v : Nat → Fin (2 * 2) → ℝ) :
    ∃ (num : NumLib 2 2) (cfg : ScoreCfg) (m : LModel 2 0 2) (s : Flt),
      fitCode (SetIter.incr 2) svd num cfg ⟨covs, fun _ => 10⟩ u v graph Finset.univ none = .ok (m, s) ∧
      |m.B 0 1 - 1| < 1 / 10 ∧ |m.omegas 1 1 - 4| < 1 / 10 := by
  obtain ⟨num, hs, hopt⟩ := cvxOptimal_zero_exists (p := 2) (e := 2)
  have hpd : ∀ k, (covs k).PosDef := fun k => entails_pd (det_one_sub_transpose graph_acyclic truth.respects) (Matrix.PosDef.diagonal (truth.pos k)) (truth.entails k)
  have hd : GoodData (⟨covs, fun _ => 10⟩ : Data 2 2) := ⟨hpd, fun _ => by norm_num, by norm_num⟩
  obtain ⟨m, s, h⟩ := C71_score_dag_returns (l := 0) (SetIter.incr 2) svd num ⟨.cvx, none, false, ⟨1000, 1 / 1000, 1 / 100000, 10⟩, 1 / 100000, 10⟩ _ hd u v _
    graph_nonneg graph_acyclic Finset.univ (by norm_num) (by norm_num) rfl (cvxFeasible_of_optimal (fun Ms => hopt _ Ms _)) (by norm_num) (by simp)
    (by norm_num) (by norm_num)
  refine ⟨num, _, m, some s, h, ?_⟩
  obtain ⟨δ, hδ, hv⟩ := C122_variances graph_nonneg graph_acyclic truth.respects truth.pos truth.entails (I := Finset.univ)
    (fun _ _ i hi => absurd (Finset.mem_univ i) hi) 1000 (ρ := 1 / 2) (by norm_num) (ε := 1 / 10) (by norm_num)
  obtain ⟨h1, h2⟩ := hv (SetIter.incr 2) svd num _ ⟨covs, fun _ => 10⟩ u v m _ hs rfl (by norm_num) hd (fun Ms => hopt _ Ms _) (fun k i j => by simpa using hδ) h
  have h3 := h2 1 (C122_last_weight (by norm_num) (fun _ => by norm_num) (by norm_num) rfl (by rw [Fin.sum_univ_two]; norm_num)) 1
  have h4 := h1 0 1
  simp [sd] at h3 h4
  norm_num at h3 h4 ⊢
  exact ⟨h4, h3⟩

end LastEnvEx

end Verif
