import Verif.Props.AlmostSure

/-!
# C127: independent observations that have a density
-/

namespace Verif

open Spec Matrix MeasureTheory ProbabilityTheory

variable {p e : Nat}

theorem pi_ac_fin {F : Type} [MeasurableSpace F] : ∀ {n : ℕ} (μ ν : Fin n → Measure F) [∀ i, SigmaFinite (μ i)] [∀ i, SigmaFinite (ν i)],
    (∀ i, μ i ≪ ν i) → Measure.pi μ ≪ Measure.pi ν
  | 0, μ, ν, _, _, _ => by
    rw [Measure.pi_of_empty, Measure.pi_of_empty]
  | n + 1, μ, ν, _, _, h => by
    have h1 := measurePreserving_piFinSuccAbove μ 0
    have h2 := measurePreserving_piFinSuccAbove ν 0
    have ih := pi_ac_fin (fun j : Fin n => μ (Fin.succAbove 0 j)) (fun j => ν (Fin.succAbove 0 j)) fun j => h _
    have hp := (h 0).prod ih
    have e1 := h1.symm.map_eq
    have e2 := h2.symm.map_eq
    rw [← e1, ← e2]
    exact hp.map (MeasurableEquiv.measurable _)

theorem pi_ac {ι : Type} [Fintype ι] {F : Type} [MeasurableSpace F] (μ ν : ι → Measure F) [∀ i, SigmaFinite (μ i)] [∀ i, SigmaFinite (ν i)]
    (h : ∀ i, μ i ≪ ν i) : Measure.pi μ ≪ Measure.pi ν := by
  let f := (Fintype.equivFin ι).symm
  have h1 := measurePreserving_piCongrLeft μ f
  have h2 := measurePreserving_piCongrLeft ν f
  rw [← h1.map_eq, ← h2.map_eq]
  exact (pi_ac_fin _ _ fun i => h _).map (MeasurableEquiv.measurable _)

theorem uncurry_volume {ι κ : Type} [Fintype ι] [Fintype κ] :
    (volume : Measure (ι → κ → ℝ)).map (fun x (q : ι × κ) => x q.1 q.2) = volume := by
  symm
  refine Measure.pi_eq fun s hs => ?_
  have hm : Measurable fun (x : ι → κ → ℝ) (q : ι × κ) => x q.1 q.2 := by fun_prop
  rw [Measure.map_apply hm (MeasurableSet.univ_pi hs)]
  have : (fun (x : ι → κ → ℝ) (q : ι × κ) => x q.1 q.2) ⁻¹' Set.univ.pi s = Set.univ.pi fun i => Set.univ.pi fun k => s (i, k) := by
    ext x
    simp
  rw [this, volume_pi_pi, Fintype.prod_prod_type]
  exact Finset.prod_congr rfl fun i _ => volume_pi_pi _

variable {Ω : Type} [MeasurableSpace Ω] {μ : Measure Ω}

/-- C127: independent observations, each of which has a density, have a joint density. -/
theorem C127_density [IsProbabilityMeasure μ] {X : Fin e → ℕ → Ω → Fin p → ℝ} (hm : ∀ k a, Measurable (X k a))
    (hi : iIndepFun (fun (q : Fin e × ℕ) => X q.1 q.2) μ) (hd : ∀ k a, μ.map (X k a) ≪ volume) (N : Fin e → ℕ) : HasDensity μ X N := by
  refine ⟨hm, ?_⟩
  let ι := Σ k : Fin e, Fin (N k)
  have hi' : iIndepFun (fun q : ι => X q.1 q.2) μ := hi.precomp (g := fun q : ι => (q.1, (q.2 : ℕ))) (by
    rintro ⟨k, a⟩ ⟨k', a'⟩ h
    simp only [Prod.mk.injEq] at h
    obtain ⟨rfl, h⟩ := h
    rw [Fin.ext h])
  have hlaw := (iIndepFun_iff_map_fun_eq_pi_map fun q : ι => (hm q.1 q.2).aemeasurable).1 hi'
  have hprob : ∀ q : ι, IsProbabilityMeasure (μ.map (X q.1 q.2)) := fun q => Measure.isProbabilityMeasure_map (hm _ _).aemeasurable
  have hac : μ.map (fun ω (q : ι) => X q.1 q.2 ω) ≪ volume := by
    rw [hlaw]
    exact pi_ac _ _ fun q => hd _ _
  have hmu : Measurable fun (x : ι → Fin p → ℝ) (q : ι × Fin p) => x q.1 q.2 := by fun_prop
  have := hac.map hmu
  rw [uncurry_volume, Measure.map_map hmu (measurable_pi_lambda _ fun q => hm _ _)] at this
  exact this

end Verif
