import Verif.Props.AlmostSureIid
import Verif.Props.ConsistencyExamples
import Verif.Props.InconsistentExamples

/-!
# Cases that meet the hypotheses of C127
-/

namespace Verif

open Spec Matrix MeasureTheory ProbabilityTheory

variable {p e : Nat}

theorem gaussEnvs_density {c : Fin e → Fin p → ℝ} (hc : ∀ k i, 0 < c k i) (N : Fin e → ℕ) :
    HasDensity (gaussEnvs c) (fun k a (ω : Fin e × ℕ → Fin p → ℝ) => ω (k, a)) N := by
  refine C127_density (fun k a => measurable_pi_apply (k, a)) ?_ (fun k a => ?_) N
  · exact iIndepFun_infinitePi (P := fun x : Fin e × ℕ => Measure.infinitePi fun i => gaussianReal 0 (c x.1 i).toNNReal) (X := fun _ => id) fun _ => measurable_id
  · rw [(gaussEnvs_vector c (k, a)).map_eq, Measure.infinitePi_eq_pi]
    exact pi_ac _ _ fun i => gaussianReal_absolutelyContinuous _ (by simpa using hc k i)

/-- Twelve independent Gaussian observations of two variables, split into three equal folds: almost surely the runs of both functions return, with
pruning, in one environment. -/
example : ∃ E : FitEnv 2 1, CodeEnv E ∧ ∀ᵐ ω ∂(gaussEnvs fun (_ : Fin 1) (_ : Fin 2) => 1),
    (∃ r, equivalenceClass E [![![0, 1], ![0, 0]], ![![0, 0], ![1, 0]]] (fun k => rowsOf (fun a (ω : Fin 1 × ℕ → Fin 2 → ℝ) => ω (k, a)) (List.range 12) ω)
      true true (some [0]) [1 / 3, 1 / 3, 1 / 3] 42 = .ok r) ∧
    ∃ r, equivalenceClassGes E (fun k => rowsOf (fun a (ω : Fin 1 × ℕ → Fin 2 → ℝ) => ω (k, a)) (List.range 12) ω) true (some [0])
      [1 / 3, 1 / 3, 1 / 3] 42 = .ok r := by
  obtain ⟨num, cfg, h, rfl⟩ := exactLibs_exists (p := 2)
  let E : FitEnv 2 1 := ⟨SetIter.incr 2, fun _ _ => Rng.front, npCov, insArgsort, fun _ => [], fun _ => ![![0, 1], ![1, 0]],
    codeFit (SetIter.incr 2) (fun _ => (0, 0)) num ⟨.cvx, none, false, ⟨1000, 1 / 1000, 1 / 100000, 10⟩, 1 / 100000, 10⟩ (fun _ _ _ => 0) (fun _ _ _ => 0)⟩
  have hE : CodeEnv E := ⟨rfl, insArgsort_spec, _, num, _, _, _, rfl, h, by norm_num, by simp, by norm_num, by norm_num⟩
  have hbl : ∀ k, Blind (E.rng 42 k) := fun k _ _ _ _ => rfl
  have hn1 : Nonneg (![![0, 0], ![1, 0]] : Adj 2) := by unfold Nonneg; decide
  have hn2 : Nonneg (![![0, 1], ![0, 0]] : Adj 2) := by unfold Nonneg; decide
  have ha1 : Acyclic (![![0, 0], ![1, 0]] : Adj 2) := (isDag_iff (SetIter.incr 2) hn1).1 (by decide)
  have ha2 : Acyclic (![![0, 1], ![0, 0]] : Adj 2) := (isDag_iff (SetIter.incr 2) hn2).1 (by decide)
  have hd := gaussEnvs_density (c := fun (_ : Fin 1) (_ : Fin 2) => 1) (fun _ _ => one_pos) (fun _ => 12)
  refine ⟨E, hE, ?_⟩
  rw [Filter.eventually_and]
  constructor
  · refine C127_prune_returns E hE hbl le_rfl _ (by simp) ?_ 42 hd (by norm_num) (by norm_num) (by norm_num) (by norm_num) (by norm_num)
    intro G hG
    simp only [List.mem_cons, List.not_mem_nil, or_false] at hG
    rcases hG with rfl | rfl
    · exact ⟨hn2, ha2⟩
    · exact ⟨hn1, ha1⟩
  · refine C127_ges_returns E hE hbl le_rfl (fun s => ⟨?_, ![![0, 1], ![0, 0]], ha2, ?_⟩) 42 hd (by norm_num) (by norm_num) (by norm_num) (by norm_num) (by norm_num)
    · show ZeroOne (![![0, 1], ![1, 0]] : Adj 2)
      unfold ZeroOne; decide
    · show _ ∧ _ ∧ _
      refine ⟨?_, ?_, ?_⟩
      · intro i j
        simp only [E]
        unfold Adjacent
        fin_cases i <;> fin_cases j <;> simp
      · intro i c j
        simp only [E]
        unfold VStructure DirEdge
        fin_cases i <;> fin_cases c <;> fin_cases j <;> simp [Adjacent]
      · intro i j
        simp only [E]
        unfold DirEdge
        fin_cases i <;> fin_cases j <;> simp

/-- Two environments, with one latent or none, without pruning. -/
example : ∃ E : FitEnv 2 2, ∀ᵐ ω ∂(gaussEnvs fun (k : Fin 2) (_ : Fin 2) => (k : ℝ) + 1),
    ∃ r, equivalenceClass E [![![0, 1], ![0, 0]], ![![0, 0], ![1, 0]]] (fun k => rowsOf (fun a (ω : Fin 2 × ℕ → Fin 2 → ℝ) => ω (k, a)) (List.range 12) ω)
      true false (some [0, 1]) [1 / 3, 1 / 3, 1 / 3] 42 = .ok r := by
  obtain ⟨num, hs, hopt⟩ := cvxOptimal_zero_exists (p := 2) (e := 2)
  have hn1 : Nonneg (![![0, 0], ![1, 0]] : Adj 2) := by unfold Nonneg; decide
  have hn2 : Nonneg (![![0, 1], ![0, 0]] : Adj 2) := by unfold Nonneg; decide
  have ha1 : Acyclic (![![0, 0], ![1, 0]] : Adj 2) := (isDag_iff (SetIter.incr 2) hn1).1 (by decide)
  have ha2 : Acyclic (![![0, 1], ![0, 0]] : Adj 2) := (isDag_iff (SetIter.incr 2) hn2).1 (by decide)
  have hd := gaussEnvs_density (c := fun (k : Fin 2) (_ : Fin 2) => (k : ℝ) + 1) (fun _ _ => by positivity) (fun _ => 12)
  refine ⟨⟨SetIter.incr 2, fun _ _ => Rng.front, npCov, insArgsort, fun _ => [], fun _ => 0,
    codeFit (SetIter.incr 2) (fun _ => (0, 0)) num ⟨.cvx, none, false, ⟨1000, 1 / 1000, 1 / 100000, 10⟩, 1 / 100000, 10⟩ (fun _ _ _ => 0) (fun _ _ _ => 0)⟩, ?_⟩
  refine C127_returns _ _ num _ _ _ rfl rfl (fun k _ _ _ _ => rfl) le_rfl (by norm_num) _ (by simp) ?_ [0, 1] (by simp) (by simp) 42 insArgsort_spec rfl
    (fun A d => cvxFeasible_of_optimal fun Ms => hopt A Ms d) (by norm_num) (by simp) (by norm_num) (by norm_num) hd (by norm_num) (by norm_num) (by norm_num)
    (by norm_num) (by norm_num)
  intro G hG
  simp only [List.mem_cons, List.not_mem_nil, or_false] at hG
  rcases hG with rfl | rfl
  · exact ⟨hn2, ha2⟩
  · exact ⟨hn1, ha1⟩

end Verif
