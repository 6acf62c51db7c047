import Verif.Props.ConsistencyGraph
import Verif.Props.ApartExamples

/-!
# Cases that meet the hypotheses of C119 and C120
-/

namespace Verif

open Spec Matrix MeasureTheory ProbabilityTheory Filter Topology

variable {p : Nat}

theorem exactLibs_exists : ∃ (num : NumLib p 1) (cfg : ScoreCfg), (∀ d, ExactLibs num cfg d) ∧
    cfg = ⟨.cvx, none, false, ⟨1000, 1 / 1000, 1 / 100000, 10⟩, 1 / 100000, 10⟩ := by
  obtain ⟨num, hs, hopt⟩ := cvxOptimal_zero_exists (p := p) (e := 1)
  exact ⟨num, _, fun d => ⟨hs, rfl, fun A Ms => hopt A Ms d⟩, rfl⟩

theorem codeEnv_exists : ∃ E : FitEnv p 1, CodeEnv E ∧ ∀ k, Blind (E.rng 42 k) := by
  obtain ⟨num, cfg, h, rfl⟩ := exactLibs_exists (p := p)
  refine ⟨⟨SetIter.incr p, fun _ _ => Rng.front, npCov, insArgsort, fun _ => [], fun _ => 0,
    codeFit (SetIter.incr p) (fun _ => (0, 0)) num _ (fun _ _ _ => 0) (fun _ _ _ => 0)⟩,
    ⟨rfl, insArgsort_spec, _, num, _, _, _, rfl, h, by norm_num, by simp, by norm_num, by norm_num⟩, fun k => ?_⟩
  intro α β f l
  rfl

theorem exS_posDef : (!![2, 1; 1, 2] : Matrix (Fin 2) (Fin 2) ℝ).PosDef := by
  refine Matrix.PosDef.of_dotProduct_mulVec_pos ?_ ?_
  · ext i j
    fin_cases i <;> fin_cases j <;> simp
  · intro x hx
    have : x 0 ≠ 0 ∨ x 1 ≠ 0 := by
      by_contra hc
      push Not at hc
      exact hx (by funext i; fin_cases i <;> simp [hc.1, hc.2])
    simp [dotProduct, Fin.sum_univ_two, Matrix.mulVec]
    rcases this with h | h
    · nlinarith [sq_nonneg (x 0 + x 1), sq_nonneg (x 1), pow_pos (abs_pos.2 h) 2, sq_abs (x 0)]
    · nlinarith [sq_nonneg (x 0 + x 1), sq_nonneg (x 0), pow_pos (abs_pos.2 h) 2, sq_abs (x 1)]

/-- A fit as in C119: the weight of the edge is the regression coefficient `1/2`, and the variances are `2` and `3/2`. -/
example (svd : Matrix (Fin 2) (Fin 2) ℝ → Matrix (Fin 2) (Fin 2) ℝ × (Fin 2 → ℝ)) (u v : Nat → Fin (2 * 2) → ℝ) :
    ∃ (num : NumLib 2 1) (cfg : ScoreCfg) (m : LModel 2 0 1) (s : Flt),
      fitCode (SetIter.incr 2) svd num cfg ⟨fun _ => !![2, 1; 1, 2], fun _ => 10⟩ u v ![![0, 1], ![0, 0]] ∅ none = .ok (m, s) ∧
      m.B 0 1 = 1 / 2 ∧ m.omegas 0 0 = 2 ∧ m.omegas 0 1 = 3 / 2 := by
  obtain ⟨num, cfg, hl, hcfg⟩ := exactLibs_exists (p := 2)
  have hn : Nonneg (![![0, 1], ![0, 0]] : Adj 2) := by unfold Nonneg; decide
  have hac : Acyclic (![![0, 1], ![0, 0]] : Adj 2) := (isDag_iff (SetIter.incr 2) hn).1 (by decide)
  have hd : GoodData (⟨fun _ => !![2, 1; 1, 2], fun _ => 10⟩ : Data 2 1) := ⟨fun _ => exS_posDef, fun _ => by norm_num, one_pos⟩
  obtain ⟨m, s, h⟩ := C71_score_dag_returns (l := 0) (SetIter.incr 2) svd num cfg _ hd u v _ hn hac ∅
    (by norm_num) (by norm_num) (hl ⟨fun _ => !![2, 1; 1, 2], fun _ => 10⟩).cvx (cvxFeasible_of_optimal ((hl _).opt _)) (by rw [hcfg]; norm_num) (by rw [hcfg]; simp)
    (by rw [hcfg]; norm_num) (by rw [hcfg]; norm_num)
  refine ⟨num, cfg, m, some s, h, ?_⟩
  obtain ⟨hr, -⟩ := fit_regressions hn hac svd num (hl ⟨fun _ => !![2, 1; 1, 2], fun _ => 10⟩).sqrt cfg (hl ⟨fun _ => !![2, 1; 1, 2], fun _ => 10⟩).cvx _ hd u v ∅ (fun Ms _ => (hl _).opt _ Ms) m _ h
  have h00 : m.B 0 0 = 0 := hr.respects 0 0 (by simp)
  have h10 : m.B 1 0 = 0 := hr.respects 1 0 (by simp)
  have h11 : m.B 1 1 = 0 := hr.respects 1 1 (by simp)
  have h01 : m.B 0 1 = 1 / 2 := by
    have := hr.normal 0 1 (by simp)
    simp [Fin.sum_univ_two, h11] at this
    linarith
  refine ⟨h01, ?_, ?_⟩
  · rw [hr.var]
    simp [residualVar, Fin.sum_univ_two, h00, h10]
  · rw [hr.var]
    simp [residualVar, Fin.sum_univ_two, h01, h11]
    norm_num

/-- Data as in C120: observations of the Gaussian model with the graph `0 → 1`, weight 1 and unit variances, and both graphs with one edge as
candidates. -/
example : ∃ (E : FitEnv 2 1) (Ω : Type) (_ : MeasurableSpace Ω) (μ : Measure Ω) (_ : IsProbabilityMeasure μ) (X : ℕ → Ω → Fin 2 → ℝ), ∀ ε > 0,
    Tendsto (fun n => μ {ω | ¬ GoodRun ε [![![0, 1], ![0, 0]], ![![0, 0], ![1, 0]]] !![1, 1; 1, 2]
      (equivalenceClass E [![![0, 1], ![0, 0]], ![![0, 0], ![1, 0]]] (fun _ => rowsOf X (List.range n) ω) true false (some [0])
        [1 / 2, 1 / 4, 1 / 4] 42)}) atTop (𝓝 0) := by
  obtain ⟨E, hE, hblind⟩ := codeEnv_exists (p := 2)
  have hn1 : Nonneg (![![0, 1], ![0, 0]] : Adj 2) := by unfold Nonneg; decide
  have hn2 : Nonneg (![![0, 0], ![1, 0]] : Adj 2) := by unfold Nonneg; decide
  have ha1 : Acyclic (![![0, 1], ![0, 0]] : Adj 2) := (isDag_iff (SetIter.incr 2) hn1).1 (by decide)
  have ha2 : Acyclic (![![0, 0], ![1, 0]] : Adj 2) := (isDag_iff (SetIter.incr 2) hn2).1 (by decide)
  have hent : EntailedBy Finset.univ (![![0, 1], ![0, 0]] : Adj 2) fun _ : Fin 1 => (!![1, 1; 1, 2] : Matrix (Fin 2) (Fin 2) ℝ) := by
    refine ⟨!![0, 1; 0, 0], fun _ => 1, ?_, fun _ _ => one_pos, fun _ _ _ _ => rfl, fun _ => ?_⟩
    · intro i j hij
      fin_cases i <;> fin_cases j <;> simp at hij ⊢
    · unfold Entails
      ext i j
      fin_cases i <;> fin_cases j <;> simp [Matrix.mul_apply, Fin.sum_univ_two] <;> norm_num
  have hpd : (!![1, 1; 1, 2] : Matrix (Fin 2) (Fin 2) ℝ).PosDef := by
    obtain ⟨B, w, b1, b2, -, b4⟩ := hent
    exact entails_pd (det_one_sub_transpose ha1 b1) (Matrix.PosDef.diagonal (b2 0)) (b4 0)
  have hcov := gaussSpace_cov (l := 0) (p := 2) (psi := fun _ => 0) (omega := fun _ => 1) (fun _ => le_rfl) (fun _ => zero_le_one)
  have hmem := gaussSpace_memLp (l := 0) (p := 2) (fun _ => 0) (fun _ => 1)
  have hiid : Iid (Measure.infinitePi fun _ : ℕ => gaussSpace (l := 0) (p := 2) (fun _ => 0) (fun _ => 1))
      (fun a ω => (fun x : Fin 0 ⊕ Fin 2 → ℝ => ![x (Sum.inr 0), x (Sum.inr 0) + x (Sum.inr 1)]) (ω a)) !![1, 1; 1, 2] := by
    refine iid_copies (gaussSpace (l := 0) (p := 2) (fun _ => 0) (fun _ => 1)) (fun x => ![x (Sum.inr 0), x (Sum.inr 0) + x (Sum.inr 1)]) ?_ ?_ ?_
    · refine measurable_pi_lambda _ fun i => ?_
      fin_cases i
      · exact measurable_pi_apply _
      · exact (measurable_pi_apply _).add (measurable_pi_apply _)
    · intro i
      fin_cases i
      · exact hmem _
      · exact (hmem _).add (hmem _)
    · have e : ∀ s t, cov[fun x : Fin 0 ⊕ Fin 2 → ℝ => x s, fun x => x t; gaussSpace (l := 0) (p := 2) (fun _ => 0) (fun _ => 1)] = if s = t then 1 else 0 := by
        intro s t
        rw [hcov]
        rcases s with s | s
        · exact s.elim0
        · rfl
      have a1 := covariance_add_right (hmem (Sum.inr 0)) (hmem (Sum.inr 0)) (hmem (Sum.inr 1))
      have a2 := covariance_add_left (hmem (Sum.inr 0)) (hmem (Sum.inr 1)) (hmem (Sum.inr 0))
      have a3 := covariance_add_left (hmem (Sum.inr 0)) (hmem (Sum.inr 1)) ((hmem (Sum.inr 0)).add (hmem (Sum.inr 1)))
      have a4 := covariance_add_right (hmem (Sum.inr 1)) (hmem (Sum.inr 0)) (hmem (Sum.inr 1))
      rw [a1, a4] at a3
      simp only [e] at a1 a2 a3
      intro i j
      fin_cases i <;> fin_cases j
      · simpa using e (Sum.inr 0) (Sum.inr 0)
      · exact a1.trans (by simp)
      · exact a2.trans (by simp)
      · refine a3.trans ?_
        simp
        norm_num
  refine ⟨E, _, _, _, inferInstance, _, fun ε hε => C120_consistent hiid hpd (by norm_num) _ ?_ ![![0, 1], ![0, 0]] (by simp) hent E hE hblind
    (by norm_num) (by norm_num) (by norm_num) (by norm_num) 42 hε⟩
  simp only [List.mem_cons, List.not_mem_nil, or_false, forall_eq_or_imp, forall_eq]
  exact ⟨⟨hn1, ha1⟩, hn2, ha2⟩

end Verif
