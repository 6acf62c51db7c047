import Verif.Props.Gen
import Mathlib.MeasureTheory.Measure.Lebesgue.Basic
import Mathlib.MeasureTheory.Integral.Bochner.Set

/-!
# C82: the average degree of the random graphs
-/

namespace Verif

open Spec MeasureTheory

variable {p : Nat}

/-- The average degree of the graph of a weight matrix: twice the number of edges divided by the number of nodes. -/
noncomputable def Spec.avgDegree (W : Matrix (Fin p) (Fin p) ℝ) : ℝ :=
  open Classical in 2 * (∑ i, ∑ j, if W i j ≠ 0 then (1 : ℝ) else 0) / (p : ℝ)

/-- The number of edges does not depend on the permutation. -/
theorem edges_eq {k : ℝ} {g : GraphDraws p} {W : Matrix (Fin p) (Fin p) ℝ} {order : List (Fin p)} (h : dagAvgDeg k g = .ok (W, order))
    (hw : ∀ i j, g.weights i j ≠ 0) :
    (open Classical in ∑ i, ∑ j, if W i j ≠ 0 then (1 : ℝ) else 0) =
      open Classical in ∑ i, ∑ j, if i < j then (if g.unif i j ≤ k / ((p : ℝ) - 1) then (1 : ℝ) else 0) else 0 := by
  classical
  unfold dagAvgDeg at h
  split_ifs at h
  simp only [Except.ok.injEq, Prod.mk.injEq] at h
  obtain ⟨rfl, -⟩ := h
  symm
  rw [← Equiv.sum_comp g.perm]
  refine Finset.sum_congr rfl (fun i _ => ?_)
  rw [← Equiv.sum_comp g.perm]
  refine Finset.sum_congr rfl (fun j _ => ?_)
  simp only [Matrix.of_apply, upperGraph]
  by_cases h1 : g.perm i < g.perm j
  · by_cases h2 : g.unif (g.perm i) (g.perm j) ≤ k / ((p : ℝ) - 1)
    · simp [h1, h2, hw]
    · simp [h1, h2]
  · simp [h1]

theorem pairs_count (p : Nat) : (∑ i : Fin p, ∑ j : Fin p, if i < j then (1 : ℝ) else 0) = (p : ℝ) * ((p : ℝ) - 1) / 2 := by
  have h1 : (∑ i : Fin p, ∑ j : Fin p, if i < j then (1 : ℝ) else 0) = ∑ i : Fin p, ∑ j : Fin p, if j < i then (1 : ℝ) else 0 :=
    Finset.sum_comm
  have h2 : (∑ i : Fin p, ∑ j : Fin p, if i < j then (1 : ℝ) else 0) + (∑ i : Fin p, ∑ j : Fin p, if j < i then (1 : ℝ) else 0) +
      (∑ i : Fin p, ∑ j : Fin p, if i = j then (1 : ℝ) else 0) = (p : ℝ) * p := by
    rw [← Finset.sum_add_distrib, ← Finset.sum_add_distrib]
    have : ∀ i : Fin p, (∑ j : Fin p, if i < j then (1 : ℝ) else 0) + (∑ j : Fin p, if j < i then (1 : ℝ) else 0) +
        (∑ j : Fin p, if i = j then (1 : ℝ) else 0) = p := by
      intro i
      rw [← Finset.sum_add_distrib, ← Finset.sum_add_distrib]
      rw [Finset.sum_congr rfl (g := fun _ => (1 : ℝ)) (fun j _ => by
        rcases lt_trichotomy i j with h | h | h
        · simp [h, h.not_gt, h.ne]
        · simp [h]
        · simp [h, h.not_gt, h.ne'])]
      simp
    simp only [this, Finset.sum_const, Finset.card_univ, Fintype.card_fin, nsmul_eq_mul]
  simp only [Finset.sum_ite_eq, Finset.mem_univ, if_true, Finset.sum_const, Finset.card_univ, Fintype.card_fin, nsmul_eq_mul, mul_one] at h2
  rw [← h1] at h2
  linarith

/-- C82: if the draws of `np.random.uniform` are uniform on the unit interval (no independence is needed), then for at least two nodes the
expected average degree of the graph of `_dag_avg_deg` is `k`, for `0 ≤ k ≤ p - 1`; above, it is `p - 1`.  The permutations and the (nonzero)
weights are arbitrary. -/
theorem C82_average_degree {Ω : Type*} [MeasurableSpace Ω] (μ : Measure Ω) [IsProbabilityMeasure μ] (hp : 2 ≤ p) (k : ℝ) (hk : 0 ≤ k)
    (g : Ω → GraphDraws p) (hm : ∀ i j, Measurable (fun ω => (g ω).unif i j))
    (hu : ∀ i j, i < j → μ.map (fun ω => (g ω).unif i j) = volume.restrict (Set.Icc 0 1)) (hw : ∀ ω i j, (g ω).weights i j ≠ 0)
    (W : Ω → Matrix (Fin p) (Fin p) ℝ) (order : Ω → List (Fin p)) (hW : ∀ ω, dagAvgDeg k (g ω) = .ok (W ω, order ω)) :
    ∫ ω, avgDegree (W ω) ∂μ = min k ((p : ℝ) - 1) := by
  classical
  have hp1 : (0 : ℝ) < (p : ℝ) - 1 := by
    have : (2 : ℝ) ≤ p := by exact_mod_cast hp
    linarith
  have hprob : 0 ≤ k / ((p : ℝ) - 1) := div_nonneg hk hp1.le
  have hset : ∀ i j, MeasurableSet {ω | (g ω).unif i j ≤ k / ((p : ℝ) - 1)} := fun i j => measurableSet_le (hm i j) measurable_const
  have hind : ∀ i j ω, (if i < j then (if (g ω).unif i j ≤ k / ((p : ℝ) - 1) then (1 : ℝ) else 0) else 0) =
      (if i < j then {ω | (g ω).unif i j ≤ k / ((p : ℝ) - 1)} else ∅ : Set Ω).indicator 1 ω := by
    intro i j ω
    by_cases h : i < j <;> simp [h, Set.indicator_apply]
  have hms : ∀ i j, MeasurableSet (if i < j then {ω | (g ω).unif i j ≤ k / ((p : ℝ) - 1)} else ∅ : Set Ω) := by
    intro i j
    split_ifs
    · exact hset i j
    · exact MeasurableSet.empty
  have hval : ∀ i j, μ.real (if i < j then {ω | (g ω).unif i j ≤ k / ((p : ℝ) - 1)} else ∅ : Set Ω) =
      (if i < j then (1 : ℝ) else 0) * min (k / ((p : ℝ) - 1)) 1 := by
    intro i j
    by_cases h : i < j
    · simp only [h, if_true, one_mul]
      have h1 : {ω | (g ω).unif i j ≤ k / ((p : ℝ) - 1)} = (fun ω => (g ω).unif i j) ⁻¹' Set.Iic (k / ((p : ℝ) - 1)) := rfl
      rw [Measure.real, h1, ← Measure.map_apply (hm i j) measurableSet_Iic, hu i j h, Measure.restrict_apply measurableSet_Iic]
      have h2 : Set.Iic (k / ((p : ℝ) - 1)) ∩ Set.Icc 0 1 = Set.Icc 0 (min (k / ((p : ℝ) - 1)) 1) := by
        ext x
        simp only [Set.mem_inter_iff, Set.mem_Iic, Set.mem_Icc, le_min_iff]
        tauto
      rw [h2, Real.volume_Icc, sub_zero, ENNReal.toReal_ofReal (le_min hprob zero_le_one)]
    · simp [h]
  have hrew : ∀ ω, avgDegree (W ω) = 2 / (p : ℝ) * ∑ i, ∑ j, (if i < j then {ω | (g ω).unif i j ≤ k / ((p : ℝ) - 1)} else ∅ : Set Ω).indicator 1 ω := by
    intro ω
    unfold avgDegree
    have := edges_eq (hW ω) (hw ω)
    rw [show (∑ i, ∑ j, if W ω i j ≠ 0 then (1 : ℝ) else 0) = _ from by convert this]
    simp only [hind]
    ring
  simp only [hrew]
  have hint : ∀ i j, Integrable ((if i < j then {ω | (g ω).unif i j ≤ k / ((p : ℝ) - 1)} else ∅ : Set Ω).indicator (1 : Ω → ℝ)) μ :=
    fun i j => (integrable_const (1 : ℝ)).indicator (hms i j)
  rw [integral_const_mul, integral_finsetSum _ (fun i _ => integrable_finsetSum _ (fun j _ => hint i j))]
  simp only [integral_finsetSum _ (fun j _ => hint _ j), integral_indicator_one (hms _ _), hval, ← Finset.sum_mul]
  rw [pairs_count]
  have hp0 : (p : ℝ) ≠ 0 := by
    intro h
    rw [h] at hp1
    linarith
  have : min k ((p : ℝ) - 1) = ((p : ℝ) - 1) * min (k / ((p : ℝ) - 1)) 1 := by
    rw [mul_min_of_nonneg _ _ hp1.le, mul_div_cancel₀ _ hp1.ne', mul_one]
  rw [this]
  field_simp

/-- Non-vacuity: three nodes, average degree one, the permutation reversed; all draws equal to one uniform variable. -/
example : ∃ W : ℝ → Matrix (Fin 3) (Fin 3) ℝ, ∃ order : ℝ → List (Fin 3),
    (∀ ω, dagAvgDeg 1 { unif := fun _ _ => ω, weights := fun _ _ => 2, perm := Fin.revPerm } = .ok (W ω, order ω)) ∧
      ∫ ω, avgDegree (W ω) ∂(volume.restrict (Set.Icc (0 : ℝ) 1)) = 1 := by
  have hP : IsProbabilityMeasure (volume.restrict (Set.Icc (0 : ℝ) 1)) := ⟨by simp⟩
  have h : ∀ ω : ℝ, ∃ r : Matrix (Fin 3) (Fin 3) ℝ × List (Fin 3),
      dagAvgDeg 1 { unif := fun _ _ => ω, weights := fun _ _ => 2, perm := Fin.revPerm } = .ok r := by
    intro ω
    unfold dagAvgDeg
    rw [if_neg (by decide)]
    exact ⟨_, rfl⟩
  choose r hr using h
  refine ⟨fun ω => (r ω).1, fun ω => (r ω).2, hr, ?_⟩
  rw [C82_average_degree _ (by norm_num) 1 zero_le_one (fun ω => { unif := fun _ _ => ω, weights := fun _ _ => 2, perm := Fin.revPerm })
    (fun _ _ => measurable_id) (fun _ _ _ => Measure.map_id) (fun _ _ _ => two_ne_zero) _ (fun ω => (r ω).2) hr]
  norm_num

end Verif
