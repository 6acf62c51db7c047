import Mathlib.Probability.Independence.InfinitePi
import Verif.Props.Consistency
import Verif.Props.FaithfulCode
import Verif.Props.Descent

/-!
# C120: data of a model with one environment, and the class of the selected graph
-/

namespace Verif

open Spec Matrix MeasureTheory ProbabilityTheory Filter Topology

variable {p : Nat}

/-- Independent copies of one observation. -/
theorem iid_copies {Ω₀ : Type} [MeasurableSpace Ω₀] (ν : Measure Ω₀) [IsProbabilityMeasure ν] (Y : Ω₀ → Fin p → ℝ) (hm : Measurable Y)
    (h2 : ∀ i, MemLp (fun x => Y x i) 2 ν) {C : Matrix (Fin p) (Fin p) ℝ} (hC : ∀ i j, cov[fun x => Y x i, fun x => Y x j; ν] = C i j) :
    Iid (Measure.infinitePi fun _ : ℕ => ν) (fun a ω => Y (ω a)) C := by
  have hmp : ∀ a, MeasurePreserving (fun ω : ℕ → Ω₀ => ω a) (Measure.infinitePi fun _ : ℕ => ν) ν := fun a =>
    measurePreserving_eval_infinitePi (fun _ : ℕ => ν) a
  refine ⟨fun a => hm.comp (measurable_pi_apply a), iIndepFun_infinitePi (P := fun _ : ℕ => ν) (X := fun _ => Y) fun _ => hm, fun a => ?_, fun i => ?_, fun i j => ?_⟩
  · refine ⟨(hm.comp (measurable_pi_apply a)).aemeasurable, (hm.comp (measurable_pi_apply 0)).aemeasurable, ?_⟩
    rw [show (fun ω : ℕ → Ω₀ => Y (ω a)) = Y ∘ (fun ω => ω a) from rfl, show (fun ω : ℕ → Ω₀ => Y (ω 0)) = Y ∘ (fun ω => ω 0) from rfl,
      ← Measure.map_map hm (measurable_pi_apply a), ← Measure.map_map hm (measurable_pi_apply 0), (hmp a).map_eq, (hmp 0).map_eq]
  · exact (h2 i).comp_measurePreserving (hmp 0)
  · rw [← hC i j]
    have h1 : ∀ f : Ω₀ → ℝ, AEStronglyMeasurable f ν → ∫ ω : ℕ → Ω₀, f (ω 0) ∂(Measure.infinitePi fun _ : ℕ => ν) = ∫ x, f x ∂ν := by
      intro f hf
      have := integral_map (μ := Measure.infinitePi fun _ : ℕ => ν) (φ := fun ω : ℕ → Ω₀ => ω 0) (hmp 0).measurable.aemeasurable (f := f) (by rw [(hmp 0).map_eq]; exact hf)
      rw [(hmp 0).map_eq] at this
      exact this.symm
    have hmem : ∀ i, MemLp (fun ω : ℕ → Ω₀ => Y (ω 0) i) 2 (Measure.infinitePi fun _ : ℕ => ν) := fun i => (h2 i).comp_measurePreserving (hmp 0)
    rw [covariance_eq_sub (hmem i) (hmem j), covariance_eq_sub (h2 i) (h2 j)]
    have e1 := h1 (fun x => Y x i * Y x j) ((h2 i).1.mul (h2 j).1)
    have e2 := h1 (fun x => Y x i) (h2 i).1
    have e3 := h1 (fun x => Y x j) (h2 j).1
    simp only [Pi.mul_apply]
    rw [e1, e2, e3]

theorem Spec.CloseTo.entailed {ε : ℝ} {C : Matrix (Fin p) (Fin p) ℝ} {m : LModel p 0 1} (h : CloseTo ε C m) :
    EntailedBy Finset.univ m.A fun _ : Fin 1 => C := by
  obtain ⟨B, w, h1, h2, h3, -⟩ := h
  exact ⟨B, fun _ => w, h1, fun _ => h2, fun _ _ i hi => absurd (Finset.mem_univ i) hi, fun _ => h3⟩

/-- C120: the observations follow a model without latents whose graph `A` is a candidate with the largest number of edges.  For almost all weights
the probability that `equivalence_class` returns a graph with other d-separations than `A` tends to zero. -/
theorem C120_markov_class (E : FitEnv p 1) (hE : CodeEnv E) (hblind : ∀ k, Blind (E.rng 42 k)) (hp : p ≠ 0) (candidates : List (Adj p))
    (hG : ∀ G ∈ candidates, Nonneg G ∧ Acyclic G) (A : Adj p) (hA : A ∈ candidates) (hmin : ∀ G ∈ candidates, edgeCount G ≤ edgeCount A) (chk : Bool)
    (omegas : Matrix (Fin 1) (Fin p) ℝ) (ho : ∀ k i, 0 < omegas k i) {a b c : Rat} (ha : 0 < a) (hb : 0 < b) (hc : 0 < c) (hs : a + b + c = 1) (rs : Int)
    (ν : Measure (Fin p × Fin p → ℝ)) (hν : ν ≪ volume) :
    ∃ Gs, mec E.it A chk = .ok Gs ∧
      ∀ᵐ W ∂ν, ∃ m C, mkModel E.it A (Matrix.of (fun i j => if A i j = 0 then 0 else W (i, j))) (0 : Matrix (Fin 0) (Fin p) ℝ) omegas 0 = .ok m ∧
        m.covariances = .ok C ∧
        ∀ {Ω : Type} [MeasurableSpace Ω] (μ : Measure Ω) [IsProbabilityMeasure μ] (X : ℕ → Ω → Fin p → ℝ), Iid μ X (C 0) →
          Tendsto (fun n => μ {ω | ¬ ∃ P ∈ Gs, ∃ r, equivalenceClass E candidates (fun _ => rowsOf X (List.range n) ω) true false (some [0]) [a, b, c] rs =
            .ok (P, r)}) atTop (𝓝 0) := by
  obtain ⟨hAn, hac⟩ := hG A hA
  obtain ⟨Gs, h1, -, h2⟩ := C24_mec E.it A hAn hac chk (Or.inl (by omega))
  refine ⟨Gs, h1, hν.ae_le ?_⟩
  filter_upwards [ae_Generic hac ho] with W hW
  obtain ⟨m, hm, hcv⟩ := model_semC (l := 0) E.it hAn hac W (gamma := 0) (fun k => k.elim0) ho 0
  refine ⟨m, _, hm, hcv, fun μ _ X hX => ?_⟩
  have hconst : ∀ k k' : Fin 1, ∀ i, i ∉ (∅ : Finset (Fin p)) → omegas k i = omegas k' i := fun k k' i _ => by rw [Subsingleton.elim k k']
  have hch : ChangeDifferently A ∅ omegas := fun x y _ hor => by simp at hor
  have hfit := fitsAll_of_entailedBy (semC_entailed hac ho hconst W)
  have hent := entailedBy_univ_iff.2 hfit
  have hfun : (fun k : Fin 1 => semC (Edge A) (omegas k) W) = fun _ => semC (Edge A) (omegas 0) W := funext fun k => by rw [Subsingleton.elim k 0]
  rw [hfun] at hent
  have hpd : (semC (Edge A) (omegas 0) W).PosDef := by
    obtain ⟨B, w, b1, b2, -, b4⟩ := hent
    exact entails_pd (det_one_sub_transpose hac b1) (Matrix.PosDef.diagonal (b2 0)) (b4 0)
  refine tendsto_of_tendsto_of_tendsto_of_le_of_le tendsto_const_nhds
    (C120_consistent hX hpd hp candidates hG A hA hent E hE hblind ha hb hc hs rs one_pos) (fun _ => zero_le) fun n => measure_mono fun ω hω hgood => hω ?_
  obtain ⟨P, m', r1, r2, r3, r4⟩ := hgood
  refine ⟨P, ?_, _, r1⟩
  have hmem := hG _ r2
  have hiff := hW.sparsest_iff (I := ∅) hac ho hconst hch one_pos
  have hH : Sparsest m'.A (fun k => semC (Edge A) (omegas k) W) := by
    refine ⟨hmem.2, ?_, fun H hH hf => (hmin _ r2).trans ?_⟩
    · rw [hfun]
      exact entailedBy_univ_iff.1 r3.entailed
    · exact ((hiff A).2 ⟨hac, ⟨⟨fun _ _ => Iff.rfl, fun _ _ _ => Iff.rfl⟩, fun _ _ _ => Iff.rfl⟩⟩).2.2 H hH hf
  obtain ⟨z1, z2, z3⟩ := iequiv_support r4 ((hiff m'.A).1 hH)
  exact (h2 P).2 ⟨z1, z2, z3.1⟩

/-- C120: the observations follow a model, with or without latents, whose covariance matrix some candidate can entail. -/
theorem C120_model {l : Nat} {Ω₀ : Type} [MeasurableSpace Ω₀] (ν : Measure Ω₀) [IsProbabilityMeasure ν] (it : SetIter p) (A : Adj p) (hA : Nonneg A)
    (B : Matrix (Fin p) (Fin p) ℝ) (gamma : Matrix (Fin l) (Fin p) ℝ) (omegas : Matrix (Fin 1) (Fin p) ℝ) (psis : Matrix (Fin 1) (Fin l) ℝ)
    (m : LModel p l 1) (hm : mkModel it A B gamma omegas psis = .ok m) (C : Fin 1 → Matrix (Fin p) (Fin p) ℝ) (hcv : m.covariances = .ok C)
    (hC : (C 0).PosDef) (X : Fin p → Ω₀ → ℝ) (hmeas : ∀ j, Measurable (X j)) (H : Fin l → Ω₀ → ℝ) (N : Fin p → Ω₀ → ℝ)
    (hX : Follows ν B gamma (psis 0) (omegas 0) X H N) (E : FitEnv p 1) (hE : CodeEnv E) (hblind : ∀ k, Blind (E.rng 42 k)) (hp : p ≠ 0)
    (candidates : List (Adj p)) (hG : ∀ G ∈ candidates, Nonneg G ∧ Acyclic G) (G : Adj p) (hGm : G ∈ candidates) (hent : EntailedBy Finset.univ G C)
    {a b c : Rat} (ha : 0 < a) (hb : 0 < b) (hc : 0 < c) (hs : a + b + c = 1) (rs : Int) {ε : ℝ} (hε : 0 < ε) :
    Tendsto (fun n => Measure.infinitePi (fun _ : ℕ => ν) {ω | ¬ GoodRun ε candidates (C 0)
      (equivalenceClass E candidates (fun _ => (List.range n).map fun a => fun j => X j (ω a)) true false (some [0]) [a, b, c] rs)}) atTop (𝓝 0) := by
  have h := iid_copies ν (fun x j => X j x) (measurable_pi_lambda _ hmeas) hX.memX
    (C100_covariances ν it A hA B gamma omegas psis m hm C hcv 0 X H N hX)
  refine C120_consistent h hC hp candidates hG G hGm ?_ E hE hblind ha hb hc hs rs hε
  rwa [show (fun _ : Fin 1 => C 0) = C from funext fun k => by rw [Subsingleton.elim k 0]]

end Verif
