import Verif.Props.Faithful
import Verif.Props.PopulationCode

/-!
# C117: `equivalence_class` on the exact covariances of a generic model

The covariances are those of a model without latents with almost all weights; if the graph of the model is among the candidates and no candidate
has more edges, the returned graph is in the interventional class of the graph of the model.
-/

namespace Verif

open Spec Matrix MeasureTheory

variable {p e : Nat}

theorem iequiv_support {I : Finset (Fin p)} {A G P : Adj p} (hP : ∀ i j, P i j = if G i j ≠ 0 then 1 else 0) (h : Acyclic G ∧ IEquiv I A G) :
    ZeroOne P ∧ Acyclic P ∧ IEquiv I A P := by
  have hedge : ∀ i j, Edge P i j ↔ Edge G i j := by
    intro i j
    unfold Edge
    rw [hP]
    split_ifs with h <;> simp [h]
  have hz : ∀ i j, P i j = 0 ↔ G i j = 0 := fun i j => not_iff_not.1 (hedge i j)
  have hE : Edge P = Edge G := funext fun i => funext fun j => propext (hedge i j)
  refine ⟨fun i j => ?_, ?_, ?_⟩
  · rw [hP]
    split_ifs <;> simp
  · unfold Acyclic
    rw [hE]
    exact h.1
  · obtain ⟨⟨h1, h2⟩, h3⟩ := h.2
    refine ⟨⟨fun i j => ?_, fun i c j => ?_⟩, fun i hi k => ?_⟩
    · rw [h1 i j]
      simp only [Adjacent, ne_eq, hz]
    · rw [h2 i c j]
      simp only [VStructure, DirEdge, Adjacent, ne_eq, hz]
    · rw [h3 i hi k, hedge]

/-- C117: `equivalence_class` with the convex solver, on data whose folds have the exact covariances of a model without latent effects.  The
graph of the model is among the candidates and no candidate has more edges.  For almost all weights the returned graph is one of those of
`imec(A, I)`, where `I` are the targets of the model; and all variables are returned as targets, so that it is a single DAG. -/
theorem C117_equivalence_class (E : FitEnv p e) (svd : Matrix (Fin p) (Fin p) ℝ → Matrix (Fin p) (Fin p) ℝ × (Fin p → ℝ)) (num : NumLib p e)
    (hs : GoodSqrt num.sqrtm) (cfg : ScoreCfg) (u v : Nat → Nat → Nat → Fin (p * p) → ℝ) (hE : E.fit = codeFit E.it svd num cfg u v)
    (hp0 : p ≠ 0) (he : 0 < e) (hcvx : cfg.solver = .cvx) (hthr : 0 < cfg.thresholdScore) (hpsi : ∀ x, cfg.psiMax = some x → 1 < x)
    (hit : 0 < cfg.stop.maxIter) (hfl : 0 < cfg.stop.maxFluctuations) (hdist : 0 ≤ cfg.stop.thresholdDistB)
    (harg : ∀ f, IsArgsort f (E.argsort f)) (candidates : List (Adj p)) (hG : ∀ G ∈ candidates, Nonneg G ∧ Acyclic G)
    (ns : List Nat) (h0 : 0 ∈ ns) (hnp : ∀ n ∈ ns, n ≤ p) (folds : List Rat) (rs : Int)
    (A : Adj p) (hA : A ∈ candidates) (hmin : ∀ G ∈ candidates, edgeCount G ≤ edgeCount A) (I : Finset (Fin p)) (c : Bool)
    (omegas : Matrix (Fin e) (Fin p) ℝ) (ho : ∀ k i, 0 < omegas k i)
    (hconst : ∀ k k' i, i ∉ I → omegas k i = omegas k' i) (hch : ChangeDifferently A I omegas)
    (μ : Measure (Fin p × Fin p → ℝ)) (hμ : μ ≪ volume) :
    ∃ Gs, imec E.it A (I.image (fun i : Fin p => (i.val : Int))) c = .ok Gs ∧
      ∀ᵐ W ∂μ, ∃ m C, mkModel E.it A (Matrix.of (fun i j => if A i j = 0 then 0 else W (i, j))) (0 : Matrix (Fin 0) (Fin p) ℝ) omegas 0 = .ok m ∧
        m.covariances = .ok C ∧
        ∀ (data : Fin e → Sample p) (training testG testI : List (Sample p)),
          splitData (E.rng 42) (List.ofFn data) folds = .ok [training, testG, testI] → (∀ s ∈ training, s.length ≠ 1) →
          (∀ f ∈ [training, testG, testI], ∀ k : Fin e, E.cov (f.getD k []) = C k ∧ f.getD k [] ≠ []) →
          (∀ A Ms, CvxOptimal num A Ms (foldData E.cov training e) 0) →
          ∃ (P : Adj p) (m : LModel p 0 e), equivalenceClass E candidates data true false (some ns) folds rs = .ok (P, Finset.univ, ⟨0, m⟩) ∧
            P ∈ Gs := by
  obtain ⟨hAn, hac⟩ := hG A hA
  obtain ⟨Gs, h1, -, h2⟩ := C26_imec E.it A hAn hac I c (Or.inl (by omega))
  refine ⟨Gs, h1, hμ.ae_le ?_⟩
  filter_upwards [ae_Generic hac ho] with W hW
  obtain ⟨m, hm, hc⟩ := model_semC (l := 0) E.it hAn hac W (gamma := 0) (fun k => k.elim0) ho 0
  refine ⟨m, _, hm, hc, fun data training testG testI hsplit hsize hpop hopt => ?_⟩
  have hent := entailedBy_univ_iff.2 (fitsAll_of_entailedBy (semC_entailed hac ho hconst W))
  obtain ⟨P, m', k1, -, k3, i, k4, k5, -⟩ := C104_no_latents E svd num hs cfg u v hE hp0 he hcvx hthr hpsi hit hfl hdist harg candidates hG data
    ns h0 hnp folds rs training testG testI hsplit hsize _ hpop hopt A hA hent
  refine ⟨P, m', k1, (h2 P).2 (iequiv_support k3 ?_)⟩
  have hmem := List.mem_of_getElem? k4
  rw [← hW.sparsest_iff hac ho hconst hch he]
  refine ⟨(hG _ hmem).2, entailedBy_univ_iff.1 k5, fun H hH hfit => (hmin _ hmem).trans ?_⟩
  exact ((hW.sparsest_iff hac ho hconst hch he A).2 ⟨hac, ⟨⟨fun _ _ => Iff.rfl, fun _ _ _ => Iff.rfl⟩, fun _ _ _ => Iff.rfl⟩⟩).2.2 H hH hfit

/-- Data as required exist for all weights: four observations of `X₀ = c N₀`, `X₁ = b X₀ + N₁` with the exact covariance of the model with
weight `b`. -/
example (b c : ℝ) : Entails !![0, b; 0, 0] (Matrix.diagonal ![2 / 3 * c ^ 2, 2 / 3]) (npCov [![c, b * c], ![-c, -(b * c)], ![0, 1], ![0, -1]]) := by
  unfold Entails
  ext i j
  fin_cases i <;> fin_cases j <;> simp [npCov, colMean, Matrix.mul_apply, Fin.sum_univ_two] <;> ring

-- the conditions on the variances: the target 0 has variance 2/3 in the first environment and 8/3 in the second
example : ChangeDifferently (![![0, 1], ![0, 0]] : Adj 2) {0} (![![2 / 3, 2 / 3], ![8 / 3, 2 / 3]] : Matrix (Fin 2) (Fin 2) ℝ) := by
  intro x y hxy _
  refine ⟨0, 1, ?_⟩
  fin_cases x <;> fin_cases y <;> simp [Edge] at hxy ⊢

end Verif
