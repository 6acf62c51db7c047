import Verif.Props.FalseTargets
import Verif.Props.InconsistentExamples

/-!
# Cases that meet the hypotheses of C124
-/

namespace Verif

open Spec Matrix MeasureTheory ProbabilityTheory Filter Topology

/-- Data as in C124: Gaussian observations of two independent variables, the first with variances 1 and 2 in the two environments and the second
with variance 1.  The second is not a target, but it is returned as one. -/
example : ∃ (E : FitEnv 2 2) (Ω : Type) (_ : MeasurableSpace Ω) (μ : Measure Ω) (_ : IsProbabilityMeasure μ) (X : Fin 2 → ℕ → Ω → Fin 2 → ℝ),
    IndepEnvs μ X (fun k i => if i = 0 then ![1, 2] k else 1) ∧
    (∃ η > 0, ∀ᶠ n in atTop, η ≤ μ {ω | ∃ P I m, equivalenceClass E [0] (fun k => rowsOf (X k) (List.range n) ω) true false (some [0])
      [1 / 2, 1 / 4, 1 / 4] 42 = .ok (P, I, m) ∧ 1 ∈ I}) ∧
    ¬ Tendsto (fun n => μ {ω | ¬ ∃ P m, equivalenceClass E [0] (fun k => rowsOf (X k) (List.range n) ω) true false (some [0])
      [1 / 2, 1 / 4, 1 / 4] 42 = .ok (P, {0}, m)}) atTop (𝓝 0) := by
  obtain ⟨E, hE, hblind⟩ := cvxEnv_exists (p := 2) (e := 2)
  have hc : ∀ (k : Fin 2) (i : Fin 2), 0 < if i = 0 then (![1, 2] : Fin 2 → ℝ) k else 1 := by
    intro k i
    split_ifs
    · fin_cases k <;> simp
    · exact one_pos
  refine ⟨E, _, _, gaussEnvs (fun (k : Fin 2) (i : Fin 2) => if i = 0 then (![1, 2] : Fin 2 → ℝ) k else 1), inferInstance, _, gaussEnvs_indep hc, ?_, ?_⟩
  · exact C124_false_target (gaussEnvs_indep hc) hc le_rfl (last := 1) rfl (j := 1) (by simp) (gaussEnvs_sqVar hc 1 1) [0] (by simp) (by simp) E hE hblind
      (by norm_num) (by norm_num) (by norm_num) (by norm_num) 42
  · refine C124_inconsistent (gaussEnvs_indep hc) hc le_rfl (last := 1) rfl {0} (fun i => ?_) (by decide) (fun i => gaussEnvs_sqVar hc 1 i) [0] (by simp)
      (by simp) E hE hblind (by norm_num) (by norm_num) (by norm_num) (by norm_num) 42
    fin_cases i
    · simp only [Fin.zero_eta, Finset.mem_singleton, true_iff]
      exact ⟨0, 1, by simp⟩
    · simp

/-- The targets of these data. -/
example (I : Finset (Fin 2)) : EntailedBy I 0 (fun k : Fin 2 => Matrix.diagonal (fun i : Fin 2 => if i = 0 then (![1, 2] : Fin 2 → ℝ) k else 1)) ↔ 0 ∈ I := by
  rw [C124_truth (fun k i => by
    split_ifs
    · fin_cases k <;> simp
    · exact one_pos) (by simp)]
  constructor
  · intro h
    exact h 0 ⟨0, 1, by simp⟩
  · rintro h i ⟨k, k', hk⟩
    fin_cases i
    · exact h
    · simp at hk

end Verif
