import Verif.Props.Inconsistent
import Verif.Props.ConsistencyExamples

/-!
# Cases that meet the hypotheses of C121
-/

namespace Verif

open Spec Matrix MeasureTheory ProbabilityTheory Filter Topology

variable {p e : Nat}

theorem cvxEnv_exists : ∃ E : FitEnv p e, CvxEnv E ∧ ∀ k, Blind (E.rng 42 k) := by
  obtain ⟨num, -, hopt⟩ := cvxOptimal_zero_exists (p := p) (e := e)
  refine ⟨⟨SetIter.incr p, fun _ _ => Rng.front, npCov, insArgsort, fun _ => [], fun _ => 0,
    codeFit (SetIter.incr p) (fun _ => (0, 0)) num ⟨.cvx, none, false, ⟨1000, 1 / 1000, 1 / 100000, 10⟩, 1 / 100000, 10⟩ (fun _ _ _ => 0) (fun _ _ _ => 0)⟩,
    ⟨rfl, insArgsort_spec, _, num, _, _, _, rfl, rfl, fun A d => cvxFeasible_of_optimal fun Ms => hopt A Ms d, by norm_num, by simp, by norm_num, by norm_num⟩,
    fun k => ?_⟩
  intro α β f l
  rfl

/-- The square of a Gaussian variable is not constant. -/
theorem gauss_sq_var {v : NNReal} (hv : v ≠ 0) : Var[fun x : ℝ => x ^ 2; gaussianReal 0 v] ≠ 0 := by
  intro h0
  have hm : MemLp (fun x : ℝ => x ^ 2) 2 (gaussianReal 0 v) := by
    have h1 : MemLp (id : ℝ → ℝ) 4 (gaussianReal 0 v) := memLp_id_gaussianReal' 4 (by simp)
    have h2 := MemLp.mul (p := 4) (q := 4) (r := 2) h1 h1 (hpqr := ⟨by
      rw [show (4 : ENNReal) = 2 * 2 by norm_num, ENNReal.mul_inv (by simp) (by simp), ← mul_add, ENNReal.inv_two_add_inv_two, mul_one]⟩)
    refine h2.ae_eq (Eventually.of_forall fun ω => ?_)
    simp [pow_two]
  have hae := ae_eq_integral_of_variance_eq_zero hm h0
  set c := ∫ x : ℝ, x ^ 2 ∂gaussianReal 0 v
  have hfin : ({x : ℝ | x ^ 2 = c}).Finite := by
    refine Set.Finite.subset (Set.toFinite {√c, -√c}) fun x hx => ?_
    have hx : x ^ 2 = c := hx
    have h1 : √c = |x| := by rw [← hx, Real.sqrt_sq_eq_abs]
    rcases abs_choice x with h2 | h2
    · exact Or.inl (by rw [h1, h2])
    · exact Or.inr (by rw [Set.mem_singleton_iff, h1, h2, neg_neg])
  have hnull : gaussianReal 0 v {x : ℝ | x ^ 2 = c} = 0 := gaussianReal_absolutelyContinuous 0 hv (hfin.measure_zero _)
  have h1 : gaussianReal 0 v Set.univ ≤ 0 := by
    rw [← Set.union_compl_self {x : ℝ | x ^ 2 = c}]
    refine (measure_union_le _ _).trans ?_
    rw [hnull, zero_add]
    exact hae.le
  rw [measure_univ] at h1
  simp at h1

/-- Independent Gaussian observations. -/
noncomputable def gaussEnvs (c : Fin e → Fin p → ℝ) : Measure (Fin e × ℕ → Fin p → ℝ) :=
  Measure.infinitePi fun x => Measure.infinitePi fun i => gaussianReal 0 (c x.1 i).toNNReal

noncomputable instance (c : Fin e → Fin p → ℝ) : IsProbabilityMeasure (gaussEnvs c) := by
  unfold gaussEnvs
  infer_instance

theorem gaussEnvs_vector (c : Fin e → Fin p → ℝ) (x : Fin e × ℕ) :
    MeasurePreserving (fun ω : Fin e × ℕ → Fin p → ℝ => ω x) (gaussEnvs c) (Measure.infinitePi fun i => gaussianReal 0 (c x.1 i).toNNReal) :=
  measurePreserving_eval_infinitePi (fun x : Fin e × ℕ => Measure.infinitePi fun i => gaussianReal 0 (c x.1 i).toNNReal) x

theorem gaussEnvs_coord (c : Fin e → Fin p → ℝ) (x : Fin e × ℕ) (i : Fin p) :
    IdentDistrib (fun ω : Fin e × ℕ → Fin p → ℝ => ω x i) id (gaussEnvs c) (gaussianReal 0 (c x.1 i).toNNReal) := by
  have h := (measurePreserving_eval_infinitePi (fun i => gaussianReal 0 (c x.1 i).toNNReal) i).comp (gaussEnvs_vector c x)
  refine ⟨h.measurable.aemeasurable, aemeasurable_id, ?_⟩
  rw [Measure.map_id]
  exact h.map_eq

theorem gaussEnvs_indep {c : Fin e → Fin p → ℝ} (hc : ∀ k i, 0 < c k i) : IndepEnvs (gaussEnvs c) (fun k a ω i => ω (k, a) i) c := by
  have hvec : iIndepFun (fun (x : Fin e × ℕ) (ω : Fin e × ℕ → Fin p → ℝ) => ω x) (gaussEnvs c) :=
    iIndepFun_infinitePi (P := fun x : Fin e × ℕ => Measure.infinitePi fun i => gaussianReal 0 (c x.1 i).toNNReal) (X := fun _ => id) fun _ => measurable_id
  have hco : iIndepFun (fun (x : (Fin e × ℕ) × Fin p) (ω : Fin e × ℕ → Fin p → ℝ) => ω x.1 x.2) (gaussEnvs c) :=
    iIndepFun_uncurry_infinitePi' (X := fun _ _ => id) (fun (x : Fin e × ℕ) i => gaussianReal 0 (c x.1 i).toNNReal) fun _ _ => measurable_id
  have h2 : ∀ k i, MemLp (fun ω : Fin e × ℕ → Fin p → ℝ => ω (k, 0) i) 2 (gaussEnvs c) := fun k i =>
    (gaussEnvs_coord c (k, 0) i).memLp_iff.2 (memLp_id_gaussianReal' 2 (by simp))
  refine ⟨fun k => ⟨fun a => ?_, ?_, fun a => ?_, h2 k, fun i j => ?_⟩, ?_, fun k i => ?_⟩
  · exact measurable_pi_apply (k, a)
  · exact hvec.precomp (g := fun a : ℕ => (k, a)) fun a b hab => (Prod.mk.inj hab).2
  · exact ⟨(measurable_pi_apply (k, a)).aemeasurable, (measurable_pi_apply (k, 0)).aemeasurable,
      (gaussEnvs_vector c (k, a)).map_eq.trans (gaussEnvs_vector c (k, 0)).map_eq.symm⟩
  · by_cases hij : i = j
    · subst hij
      rw [Matrix.diagonal_apply_eq, covariance_self (h2 k i).aemeasurable, (gaussEnvs_coord c (k, 0) i).variance_eq, variance_id_gaussianReal]
      exact Real.coe_toNNReal _ (hc k i).le
    · rw [Matrix.diagonal_apply_ne _ hij]
      have := hco.indepFun (i := ((k, 0), i)) (j := ((k, 0), j)) (by simpa using hij)
      exact this.covariance_eq_zero (h2 k i) (h2 k j)
  · exact hco.precomp (g := fun x : Fin e × ℕ × Fin p => ((x.1, x.2.1), x.2.2)) fun x y hxy => by
      simp only [Prod.mk.injEq] at hxy
      exact Prod.ext hxy.1.1 (Prod.ext hxy.1.2 hxy.2)
  · exact (gaussEnvs_coord c (k, 0) i).memLp_iff.2 (memLp_id_gaussianReal' 4 (by simp))

theorem gaussEnvs_sqVar {c : Fin e → Fin p → ℝ} (hc : ∀ k i, 0 < c k i) (k : Fin e) (i : Fin p) :
    sqVar (gaussEnvs c) (fun ω => ω (k, 0) i) ≠ 0 := by
  have h := gaussEnvs_coord c (k, 0) i
  unfold sqVar
  rw [h.integral_eq]
  simp only [id, integral_id_gaussianReal, sub_zero]
  have h2 := (h.comp (u := fun x : ℝ => x ^ 2) (measurable_id.pow_const 2)).variance_eq
  have h3 : Var[fun ω : Fin e × ℕ → Fin p → ℝ => ω (k, 0) i ^ 2; gaussEnvs c] = Var[fun x : ℝ => x ^ 2; gaussianReal 0 (c k i).toNNReal] := h2
  rw [h3]
  exact gauss_sq_var (by rw [Ne, Real.toNNReal_eq_zero, not_le]; exact hc k i)

/-- Data as in C121: Gaussian observations of two independent variables, the first with variances 1, 3 and 2 in the three environments and the second
with variance 1. -/
example : ∃ (E : FitEnv 2 3) (Ω : Type) (_ : MeasurableSpace Ω) (μ : Measure Ω) (_ : IsProbabilityMeasure μ) (X : Fin 3 → ℕ → Ω → Fin 2 → ℝ),
    IndepEnvs μ X (fun k i => if i = 0 then ![1, 3, 2] k else 1) ∧
    ¬ Tendsto (fun n => μ {ω | ¬ ∃ P m, equivalenceClass E [0] (fun k => rowsOf (X k) (List.range n) ω) true false (some [0])
      [1 / 2, 1 / 4, 1 / 4] 42 = .ok (P, {0}, m)}) atTop (𝓝 0) := by
  obtain ⟨E, hE, hblind⟩ := cvxEnv_exists (p := 2) (e := 3)
  have hc : OneChanges (fun (k : Fin 3) (i : Fin 2) => if i = 0 then (![1, 3, 2] : Fin 3 → ℝ) k else 1) 0 := by
    refine ⟨fun k i => ?_, by simp, by simp; norm_num, fun i hi k => by simp [hi]⟩
    split_ifs
    · fin_cases k <;> simp
    · exact one_pos
  refine ⟨E, _, _, gaussEnvs (fun (k : Fin 3) (i : Fin 2) => if i = 0 then (![1, 3, 2] : Fin 3 → ℝ) k else 1), inferInstance, _, gaussEnvs_indep hc.pos, ?_⟩
  exact C121_inconsistent (gaussEnvs_indep hc.pos) hc (gaussEnvs_sqVar hc.pos 2 0) [0] (by simp) (by simp) E hE hblind (by norm_num) (by norm_num)
    (by norm_num) (by norm_num) 42

end Verif
