import Verif.Props.FalseEdges
import Verif.Props.InconsistentExamples

/-!
# A case that meets the hypotheses of C125
-/

namespace Verif

open Spec Matrix MeasureTheory ProbabilityTheory Filter Topology

/-- Three standard Gaussian variables: the first, its sum with independent noise, and one that is independent of both. -/
def chainWeights : Fin 3 → Fin 3 → ℝ := ![![1, 0, 0], ![1, 1, 0], ![0, 0, 1]]

def chainCov : Matrix (Fin 3) (Fin 3) ℝ := !![1, 1, 0; 1, 2, 0; 0, 0, 1]

/-- The graph with the edge from the first variable to the second, and the same with a superfluous edge from the third to the second. -/
def chainTrue : Adj 3 := ![![0, 1, 0], ![0, 0, 0], ![0, 0, 0]]

def chainMore : Adj 3 := ![![0, 1, 0], ![0, 0, 0], ![0, 1, 0]]

theorem chainMore_acyclic : Acyclic chainMore := by
  refine acyclic_of_rank (fun i => if i = 1 then 1 else 0) fun i j h => ?_
  fin_cases i <;> fin_cases j <;> simp [chainMore, Edge] at h ⊢

theorem chainTrue_acyclic : Acyclic chainTrue := by
  refine acyclic_of_rank (fun i => if i = 1 then 1 else 0) fun i j h => ?_
  fin_cases i <;> fin_cases j <;> simp [chainTrue, Edge] at h ⊢

theorem chain_oneMore : OneMore chainTrue chainMore 2 1 := by
  refine ⟨by simp [chainTrue], by simp [chainMore], fun a b h => ?_⟩
  fin_cases a <;> fin_cases b <;> simp [chainTrue, chainMore] at h ⊢

theorem chain_entailed : EntailedBy Finset.univ chainTrue fun _ : Fin 1 => chainCov := by
  refine ⟨!![0, 1, 0; 0, 0, 0; 0, 0, 0], fun _ _ => 1, fun i j h => ?_, fun _ _ => one_pos, fun _ _ _ _ => rfl, fun _ => ?_⟩
  · fin_cases i <;> fin_cases j <;> simp [chainTrue] at h ⊢
  · unfold Entails chainCov
    ext i j
    fin_cases i <;> fin_cases j <;> simp [Matrix.mul_apply, Fin.sum_univ_three, Matrix.one_apply] <;> norm_num

theorem chainCov_posDef : chainCov.PosDef := by
  have h : chainCov = (Matrix.of chainWeights) * (Matrix.of chainWeights)ᴴ := by
    ext i j
    fin_cases i <;> fin_cases j <;> simp [chainCov, chainWeights, Matrix.mul_apply, Fin.sum_univ_three] <;> norm_num
  rw [h]
  refine Matrix.PosDef.mul_conjTranspose_self _ ?_
  have hdet : IsUnit (Matrix.of chainWeights).det := by
    rw [Matrix.det_fin_three]
    simp [chainWeights]
  exact Matrix.vecMul_injective_of_isUnit ((Matrix.isUnit_iff_isUnit_det _).2 hdet)

example : ∃ (E : FitEnv 3 1) (Ω : Type) (_ : MeasurableSpace Ω) (μ : Measure Ω) (_ : IsProbabilityMeasure μ) (X : ℕ → Ω → Fin 3 → ℝ), Iid μ X chainCov ∧
    ¬ Tendsto (fun n => μ {ω | ¬ ∃ P I m, equivalenceClass E [chainTrue, chainMore] (fun _ => rowsOf X (List.range n) ω) true true (some [0]) [1 / 2, 1 / 4, 1 / 4] 42 =
      .ok (P, I, m) ∧ ∀ x y, m.A x y ≠ 0 ↔ chainTrue x y ≠ 0}) atTop (𝓝 0) := by
  obtain ⟨E, hE, hblind⟩ := codeEnv_exists (p := 3)
  have hg := gaussEnvs_indep (e := 1) (p := 3) (c := fun _ _ => 1) fun _ _ => one_pos
  have hiid := hg.iid 0
  have hX := iid_mix hiid chainWeights
  have hcov : (fun a b => chainWeights a ⬝ᵥ (Matrix.diagonal (fun _ : Fin 3 => (1 : ℝ)) *ᵥ chainWeights b)) = chainCov := by
    funext a b
    fin_cases a <;> fin_cases b <;> simp [chainWeights, chainCov, dotProduct, Fin.sum_univ_three] <;> norm_num
  rw [hcov] at hX
  refine ⟨E, _, _, gaussEnvs (fun (_ : Fin 1) (_ : Fin 3) => 1), inferInstance, _, hX, ?_⟩
  refine C125_inconsistent hX (memLp_mix (X := fun a (ω : Fin 1 × ℕ → Fin 3 → ℝ) i => ω (0, a) i) chainWeights (hg.mem4 0)) chainCov_posDef [chainTrue, chainMore] ?_ chainTrue chainMore (by simp) chain_oneMore chain_entailed
    (r := ![-1, 1, 0]) (s := ![0, 0, 1]) ?_ ?_ ?_ E hE hblind (by norm_num) (by norm_num) (by norm_num) (by norm_num) true true 42
  · simp only [List.mem_cons, List.not_mem_nil, or_false, forall_eq_or_imp, forall_eq]
    refine ⟨⟨fun i j => ?_, chainTrue_acyclic⟩, fun i j => ?_, chainMore_acyclic⟩
    · fin_cases i <;> fin_cases j <;> simp [chainTrue]
    · fin_cases i <;> fin_cases j <;> simp [chainMore]
  · refine ⟨fun k hk hP => ?_, by simp, fun k hP => ?_⟩
    · fin_cases k <;> simp [chainTrue] at hk hP ⊢
    · fin_cases k <;> simp [chainTrue] at hP ⊢
      simp [chainCov, Matrix.mulVec, dotProduct, Fin.sum_univ_three]
  · refine ⟨fun k hk hP => ?_, by simp, fun k hP => ?_⟩
    · fin_cases k <;> simp [chainTrue] at hk hP ⊢
    · fin_cases k <;> simp [chainTrue] at hP ⊢
      simp [chainCov, Matrix.mulVec, dotProduct, Fin.sum_univ_three]
  · have hind := (hg.indep.indepFun (i := (0, 0, 1)) (j := (0, 0, 2)) (by simp))
    have e1 : (fun ω : Fin 1 × ℕ → Fin 3 → ℝ => (![-1, 1, 0] : Fin 3 → ℝ) ⬝ᵥ mix chainWeights (fun i => ω (0, 0) i)) = fun ω => ω (0, 0) 1 := by
      funext ω
      simp [mix, chainWeights, dotProduct, Fin.sum_univ_three]
    have e2 : (fun ω : Fin 1 × ℕ → Fin 3 → ℝ => (![0, 0, 1] : Fin 3 → ℝ) ⬝ᵥ mix chainWeights (fun i => ω (0, 0) i)) = fun ω => ω (0, 0) 2 := by
      funext ω
      simp [mix, chainWeights, dotProduct, Fin.sum_univ_three]
    rw [e1, e2]
    exact hind

end Verif
