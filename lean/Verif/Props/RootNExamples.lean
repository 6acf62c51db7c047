import Verif.Props.RootN
import Verif.Props.Workflow
import Verif.Props.ConsistencyExamples

/-!
# C134: normal observations meet the hypotheses
-/

namespace Verif

open Spec Matrix MeasureTheory ProbabilityTheory Filter Topology

variable {p : Nat} {Ω : Type} [MeasurableSpace Ω] {μ : Measure Ω}

theorem normal_mem4 {C : Matrix (Fin p) (Fin p) ℝ} {X : Ω → EuclideanSpace ℝ (Fin p)} (h1 : Measurable X) (h3 : μ.map X = multivariateGaussian 0 C) (i : Fin p) :
    MemLp (fun ω => X ω i) 4 μ := by
  have h : MemLp (fun x : EuclideanSpace ℝ (Fin p) => x i) 4 (μ.map X) := by
    rw [h3]
    exact (IsGaussian.memLp_id (multivariateGaussian 0 C) 4 (by norm_num)).eval_piLp i
  exact h.comp_of_map h1.aemeasurable

/-- Normal observations of the model with the graph `0 → 1`, weight 1 and unit variances, and both graphs with one edge as candidates: the parameters are
within `K / √n` of the true ones up to a probability of one in a hundred, and almost surely they converge to them. -/
example : ∃ (E : FitEnv 2 1) (Ω : Type) (_ : MeasurableSpace Ω) (μ : Measure Ω) (_ : IsProbabilityMeasure μ) (X : ℕ → Ω → Fin 2 → ℝ),
    (∃ K > 0, ∀ᶠ n : ℕ in atTop, μ.real {ω | ¬ GoodRun (K / √n) [![![0, 1], ![0, 0]], ![![0, 0], ![1, 0]]] !![1, 1; 1, 2]
      (equivalenceClass E [![![0, 1], ![0, 0]], ![![0, 0], ![1, 0]]] (fun _ => rowsOf X (List.range n) ω) true false (some [0]) [1 / 2, 1 / 4, 1 / 4] 42)} ≤ 1 / 100) ∧
    ∀ᵐ ω ∂μ, ∀ ε > 0, ∀ᶠ n : ℕ in atTop, GoodRun ε [![![0, 1], ![0, 0]], ![![0, 0], ![1, 0]]] !![1, 1; 1, 2]
      (equivalenceClass E [![![0, 1], ![0, 0]], ![![0, 0], ![1, 0]]] (fun _ => rowsOf X (List.range n) ω) true false (some [0]) [1 / 2, 1 / 4, 1 / 4] 42) := by
  obtain ⟨E, hE, hblind⟩ := codeEnv_exists (p := 2)
  have hn1 : Nonneg (![![0, 1], ![0, 0]] : Adj 2) := by unfold Nonneg; decide
  have hn2 : Nonneg (![![0, 0], ![1, 0]] : Adj 2) := by unfold Nonneg; decide
  have ha1 : Acyclic (![![0, 1], ![0, 0]] : Adj 2) := (isDag_iff (SetIter.incr 2) hn1).1 (by decide)
  have ha2 : Acyclic (![![0, 0], ![1, 0]] : Adj 2) := (isDag_iff (SetIter.incr 2) hn2).1 (by decide)
  have hG : ∀ G ∈ [(![![0, 1], ![0, 0]] : Adj 2), ![![0, 0], ![1, 0]]], Nonneg G ∧ Acyclic G := by
    simp only [List.mem_cons, List.not_mem_nil, or_false, forall_eq_or_imp, forall_eq]
    exact ⟨⟨hn1, ha1⟩, hn2, ha2⟩
  have hent : EntailedBy Finset.univ (![![0, 1], ![0, 0]] : Adj 2) fun _ : Fin 1 => (!![1, 1; 1, 2] : Matrix (Fin 2) (Fin 2) ℝ) := by
    refine ⟨!![0, 1; 0, 0], fun _ => 1, ?_, fun _ _ => one_pos, fun _ _ _ _ => rfl, fun _ => ?_⟩
    · intro i j hij
      fin_cases i <;> fin_cases j <;> simp at hij ⊢
    · unfold Entails
      ext i j
      fin_cases i <;> fin_cases j <;> simp [Matrix.mul_apply, Fin.sum_univ_two] <;> norm_num
  have hpd : (!![1, 1; 1, 2] : Matrix (Fin 2) (Fin 2) ℝ).PosDef := by
    obtain ⟨B, w, b1, b2, -, b4⟩ := hent
    exact entails_pd (det_one_sub_transpose ha1 b1) (Matrix.PosDef.diagonal (b2 0)) (b4 0)
  obtain ⟨normal, hnormal⟩ := normalDraws_exists 2
  obtain ⟨X, h1, h2, h3, -⟩ := hnormal 0 !![1, 1; 1, 2] hpd.posSemidef
  have hiid := normal_iid hpd.posSemidef h1 h2 h3
  obtain ⟨K, hK, h⟩ := C134_root_n hiid (normal_mem4 (h1 0) (h3 0)) hpd (by norm_num) _ hG ![![0, 1], ![0, 0]] (by simp) hent (a := 1 / 2) (b := 1 / 4) (c := 1 / 4)
    (by norm_num) (by norm_num) (by norm_num) (by norm_num) (η := 1 / 100) (by norm_num)
  refine ⟨E, _, _, _, inferInstance, _, ⟨K, hK, h E 42 hE hblind⟩, C134_strongly_consistent hiid (normal_exp (h1 0) (h3 0)) hpd (by norm_num) _ hG
    ![![0, 1], ![0, 0]] (by simp) hent (by norm_num) (by norm_num) (by norm_num) (by norm_num) (fun _ => E) (fun _ => hE) (fun _ => hblind) fun _ => 42⟩

/-- Three variables that no model without edges and with at most one latent describes: the probability that the empty graph is returned decreases
exponentially. -/
example : ∃ (δ : ℝ) (Ω : Type) (_ : MeasurableSpace Ω) (μ : Measure Ω) (_ : IsProbabilityMeasure μ) (X : ℕ → Ω → Fin 3 → ℝ) (K z : ℝ), 0 < δ ∧ 0 < z ∧ ∀ n : ℕ,
    μ.real {ω | ∃ P I m, equivalenceClass (idealEnv 3 δ) [0, fullThree] (fun _ => rowsOf X (List.range n) ω) true false (some [0, 1])
      [1 / 2, 1 / 4, 1 / 4] 42 = .ok (P, I, m) ∧ m.A = 0 ∧ m.1 ≤ 1} ≤ K * Real.exp (-z * n) := by
  have hz : Nonneg (0 : Adj 3) ∧ Acyclic (0 : Adj 3) := ⟨fun _ _ => le_rfl, acyclic_of_rank (fun _ => 0) (by simp [Edge])⟩
  have hG : ∀ G ∈ [(0 : Adj 3), fullThree], Nonneg G ∧ Acyclic G := by
    simp only [List.mem_cons, List.not_mem_nil, or_false, forall_eq_or_imp, forall_eq]
    exact ⟨hz, fullThree_dag⟩
  obtain ⟨δ, hδ, h⟩ := C134_latents [0, fullThree] (fun G h => (hG G h).1) [0, 1] negC negC_posDef fullThree (by simp) 0 (by simp) negC_full.approximates
  obtain ⟨normal, hnormal⟩ := normalDraws_exists 3
  obtain ⟨X, h1, h2, h3, -⟩ := hnormal 0 negC negC_posDef.posSemidef
  obtain ⟨K, -, z, hz, hr⟩ := h (a := 1 / 2) (b := 1 / 4) (c := 1 / 4) (by norm_num) (by norm_num) (by norm_num) (by norm_num)
    (Measure.infinitePi fun _ : ℕ × ℕ => stdGaussian (EuclideanSpace ℝ (Fin 3))) _ (normal_iid negC_posDef.posSemidef h1 h2 h3) (normal_exp (h1 0) (h3 0))
  refine ⟨δ, _, _, Measure.infinitePi fun _ : ℕ × ℕ => stdGaussian (EuclideanSpace ℝ (Fin 3)), inferInstance,
    fun a ω i => X a ω i, K, z, hδ, hz, fun n => ?_⟩
  refine (measureReal_mono (fun ω hω => ?_) (measure_ne_top _ _)).trans (hr (idealEnv 3 δ) true false 42 n rfl (fun d h => nearFit_good _ _ d h) (fun d h n A I m s hm => by
    obtain ⟨-, -, m', rfl, -⟩ := nearFit_ok (n := n) hm
    rfl) insArgsort_spec (fun k α β f l => rfl) fun d h _ => nearFit_almostOptimal _ _ _ _)
  obtain ⟨P, I, m, e1, e2, e3⟩ := hω
  refine ⟨P, I, m, e1, ?_⟩
  rw [e2]
  exact negC_one_latent _ e3 I

end Verif
