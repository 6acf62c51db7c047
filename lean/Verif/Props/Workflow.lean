import Mathlib.Probability.Distributions.Gaussian.Multivariate
import Verif.Props.LastEnvExamples
import Verif.Props.ConsistencyGraph
import Verif.Props.Rate

/-!
# C129: simulation studies

A model is drawn by `sample_parameters`, data are drawn by `Model.sample`, and `equivalence_class` is run on them.
-/

namespace Verif

open Spec Matrix MeasureTheory ProbabilityTheory Filter Topology

variable {p l e : Nat} {Ω : Type} [MeasurableSpace Ω] {μ : Measure Ω}

/-- The calls `generator.multivariate_normal(0, C, n)` return `n` independent observations of the normal distribution with mean zero and
covariance matrix `C`; a larger request starts with the same observations.  (Nothing is assumed about different calls.) -/
def Spec.NormalDraws (μ : Measure Ω) (normal : Ω → Nat → Matrix (Fin p) (Fin p) ℝ → Nat → List (Fin p → ℝ)) : Prop :=
  ∀ k C, C.PosSemidef → ∃ X : ℕ → Ω → EuclideanSpace ℝ (Fin p), (∀ a, Measurable (X a)) ∧ iIndepFun X μ ∧
    (∀ a, μ.map (X a) = multivariateGaussian 0 C) ∧ ∀ ω n, normal ω k C n = (List.range n).map fun a i => X a ω i

theorem normal_iid [IsProbabilityMeasure μ] {C : Matrix (Fin p) (Fin p) ℝ} (hC : C.PosSemidef) {X : ℕ → Ω → EuclideanSpace ℝ (Fin p)}
    (h1 : ∀ a, Measurable (X a)) (h2 : iIndepFun X μ) (h3 : ∀ a, μ.map (X a) = multivariateGaussian 0 C) :
    Iid μ (fun a ω i => X a ω i) C := by
  have hm : Measurable fun (x : EuclideanSpace ℝ (Fin p)) (i : Fin p) => x i := measurable_pi_lambda _ fun i => by fun_prop
  have hmem : ∀ i, MemLp (fun x : EuclideanSpace ℝ (Fin p) => x i) 2 (multivariateGaussian 0 C) := fun i =>
    (IsGaussian.memLp_id (multivariateGaussian 0 C) 2 (by norm_num)).eval_piLp i
  refine ⟨fun a => hm.comp (h1 a), h2.comp _ fun _ => hm, fun a => ⟨(hm.comp (h1 a)).aemeasurable, (hm.comp (h1 0)).aemeasurable, ?_⟩, fun i => ?_, fun i j => ?_⟩
  · rw [show (fun ω i => X a ω i) = (fun (x : EuclideanSpace ℝ (Fin p)) (i : Fin p) => x i) ∘ X a from rfl,
      show (fun ω i => X 0 ω i) = (fun (x : EuclideanSpace ℝ (Fin p)) (i : Fin p) => x i) ∘ X 0 from rfl, ← Measure.map_map hm (h1 a), ← Measure.map_map hm (h1 0), h3, h3]
  · have := hmem i
    rw [← h3 0] at this
    exact this.comp_of_map (h1 0).aemeasurable
  · rw [← covariance_eval_multivariateGaussian (μ := 0) hC i j, ← h3 0, covariance_map]
    · rfl
    · fun_prop
    · fun_prop
    · exact (h1 0).aemeasurable

/-- The generated variances do not depend on the drawn weights. -/
theorem genOmegas_weights (it : SetIter p) (I : Finset (Fin p)) (obs : Bool) (dr : Draws p l e) (W : Fin p → Fin p → ℝ) :
    genOmegas it I obs { dr with weights := W } = genOmegas it I obs dr := by
  have h : ∀ (L : List (Fin p)) (ints om : Matrix (Fin e) (Fin p) ℝ), omegaLoop { dr with weights := W } L ints om = omegaLoop dr L ints om := by
    intro L
    induction L with
    | nil => intro ints om; rfl
    | cons j js ih => intro ints om; exact ih _ _
  unfold genOmegas
  simp only [h]

theorem genOmegas_pos (it : SetIter p) (I : Finset (Fin p)) (obs : Bool) (dr : Draws p l e) (hb : ∀ j, 0 < dr.base j) (hi : ∀ j k, 0 < dr.interventions j k)
    (ho : ∀ k j, 0 < dr.omegas k j) (k : Fin e) (j : Fin p) : 0 < genOmegas it I obs dr k j := by
  have he : 0 < e := Fin.pos k
  by_cases hc : obs = true ∧ 1 < e
  · obtain ⟨rfl, h1⟩ := hc
    rw [genOmegas_obs it I dr h1]
    split_ifs with hj
    · have h2 := List.idxOf_lt_length_of_mem ((it.mem I j).2 hj.2)
      have hlen : (it.toList I).length = I.card := by
        rw [← List.toFinset_card_of_nodup (it.nodup I)]
        congr 1
        ext x
        rw [List.mem_toFinset, it.mem]
      rw [hlen] at h2
      have h3 : ((it.toList I).idxOf j : ℝ) < I.card := by exact_mod_cast h2
      exact add_pos (hb j) (mul_pos (hi j k) (by linarith))
    · rw [add_zero]; exact hb j
  · unfold genOmegas
    rw [if_neg hc]
    simp only [Matrix.of_apply]
    split_ifs
    · exact ho k j
    · exact div_pos (Finset.sum_pos (fun h _ => ho h j) ⟨k, Finset.mem_univ k⟩) (by exact_mod_cast he)

theorem normal_exp {C : Matrix (Fin p) (Fin p) ℝ} {X : Ω → EuclideanSpace ℝ (Fin p)} (h1 : Measurable X) (h3 : μ.map X = multivariateGaussian 0 C) :
    ExpSquares μ (fun ω i => X ω i) := by
  obtain ⟨t, ht, hint⟩ := IsGaussian.exists_integrable_exp_sq (multivariateGaussian (0 : EuclideanSpace ℝ (Fin p)) C)
  refine ⟨t, ht, fun i => ?_⟩
  rw [← h3] at hint
  have h := hint.comp_measurable h1
  refine h.mono' (by
    have : Measurable fun ω => X ω i := by
      have : Measurable fun x : EuclideanSpace ℝ (Fin p) => x i := by fun_prop
      exact this.comp h1
    exact ((this.pow_const 2).const_mul t).exp.aestronglyMeasurable) (Eventually.of_forall fun ω => ?_)
  rw [Real.norm_eq_abs, abs_of_pos (Real.exp_pos _)]
  refine Real.exp_le_exp.2 (mul_le_mul_of_nonneg_left ?_ ht.le)
  have := PiLp.norm_apply_le (X ω) i
  rw [Real.norm_eq_abs] at this
  exact sq_le_sq' (by linarith [neg_abs_le (X ω i), this]) ((le_abs_self _).trans this)

/-- What the simulation theorems rest on: the data are independent observations with covariances `C` that `A` can entail, and a candidate that can entail
the last of them leads to the class of `A`. -/
theorem simulation_core {T : Nat} (E : FitEnv p e) (hE : ExactEnv T E) (hp : p ≠ 0) (he : 0 < e) (candidates : List (Adj p))
    (hG : ∀ G ∈ candidates, Nonneg G ∧ Acyclic G) (A : Adj p) (hA : A ∈ candidates) (hA01 : ZeroOne A)
    (hmin : ∀ G ∈ candidates, edgeCount G ≤ edgeCount A) (chk sparse obs : Bool) (I : Finset (Fin p)) (dr : Draws p 0 e) (hb : ∀ j, 0 < dr.base j)
    (hi : ∀ j k, 0 < dr.interventions j k) (ho : ∀ k j, 0 < dr.omegas k j)
    (ν : Measure (Fin p × Fin p → ℝ)) (hν : ν ≪ volume) :
    ∃ Gs, mec E.it A chk = .ok Gs ∧ ∀ᵐ W ∂ν, ∃ m : LModel p 0 e,
      sampleParameters E.it A (I.image (fun i : Fin p => (i.val : Int))) sparse obs { dr with weights := fun i j => W (i, j) } = .ok m ∧
      ∃ C : Fin e → Matrix (Fin p) (Fin p) ℝ, EntailedBy Finset.univ A C ∧
      (∀ (data : Fin e → Sample p) (folds : List Rat) (rs : Int), (∃ P I' m', equivalenceClass E candidates data true false (some [0]) folds rs = .ok (P, I', m') ∧
        m'.1 = 0 ∧ m'.A ∈ candidates ∧ EntailedBy Finset.univ m'.A (fun _ : Fin 1 => C ⟨e - 1, by omega⟩)) →
        ∃ P I' m', equivalenceClass E candidates data true false (some [0]) folds rs = .ok (P, I', m') ∧
            IsExtension m'.A P ∧ ∀ H, ZeroOne H → IsExtension H P → H ∈ Gs) ∧
      ∀ {Ω : Type} [MeasurableSpace Ω] (μ : Measure Ω) [IsProbabilityMeasure μ] (normal : Ω → Nat → Matrix (Fin p) (Fin p) ℝ → Nat → List (Fin p → ℝ)),
        NormalDraws μ normal → ∃ data : ℕ → Ω → List (Sample p),
          (∀ (n : ℕ) ω, 0 < n → m.sample (normal ω) npCov (.single n) false = .ok (data n ω, none)) ∧
          ∃ X : Fin e → ℕ → Ω → Fin p → ℝ, (∀ k, Iid μ (X k) (C k)) ∧ (∀ k, ExpSquares μ (X k 0)) ∧
            ∀ n ω, (fun k : Fin e => (data n ω).getD k []) = dataOf X (fun _ => n) ω := by
  obtain ⟨hAn, hac⟩ := hG A hA
  obtain ⟨Gs, h1, -, h2⟩ := C24_mec E.it A hAn hac chk (Or.inl (by omega))
  have hpos := fun k j => genOmegas_pos E.it I obs dr hb hi ho k j
  have hT : targetsOf p (I.image (fun i : Fin p => (i.val : Int))) = I := by
    ext j
    rw [mem_targetsOf, Finset.mem_image]
    constructor
    · rintro ⟨i, hi, hij⟩
      rwa [show j = i from Fin.ext (by omega)]
    · exact fun hj => ⟨j, hj, rfl⟩
  refine ⟨Gs, h1, hν.ae_le ?_⟩
  filter_upwards [ae_Generic hac hpos] with W hW
  obtain ⟨m, hm, hcv⟩ := model_semC (l := 0) E.it hAn hac W (gamma := genGamma sparse dr) (fun k => k.elim0) hpos (genPsis obs dr)
  refine ⟨m, ?_, ?_⟩
  · rw [sampleParameters_ok E.it hAn sparse obs _ hac, hT, ← hm]
    · have hB : (Matrix.of (fun i j => (A i j : ℝ) * W (i, j)) : Matrix (Fin p) (Fin p) ℝ) =
          Matrix.of (fun i j => if A i j = 0 then 0 else W (i, j)) := by
        ext i j
        rcases hA01 i j with h | h <;> simp [h]
      have hP : genPsis obs { dr with weights := fun i j => W (i, j) } = genPsis obs dr := by
        ext k i
        exact i.elim0
      rw [← hB, mkModel_eq_ok hAn _ _ _ hac, genOmegas_weights, hP]
      · rfl
      · intro i j h
        simp [h]
    · intro z hz
      rw [Finset.mem_image] at hz
      obtain ⟨i, -, rfl⟩ := hz
      exact ⟨by positivity, by exact_mod_cast i.2⟩
  have hent : EntailedBy Finset.univ A (fun k => semC (Edge A) (genOmegas E.it I obs dr k) W) :=
    ⟨semB (Edge A) W, _, semB_respects A W, hpos, fun _ _ i hi => absurd (Finset.mem_univ i) hi, fun k => (sem_linear hac (hpos k) W).eqs⟩
  have hpd : ∀ k, (semC (Edge A) (genOmegas E.it I obs dr k) W).PosDef := by
    obtain ⟨B, w, b1, b2, -, b4⟩ := hent
    exact fun k => entails_pd (det_one_sub_transpose hac b1) (Matrix.PosDef.diagonal (b2 k)) (b4 k)
  set k0 : Fin e := ⟨e - 1, by omega⟩ with hk0
  refine ⟨_, hent, fun data folds rs hgood => ?_, ?_⟩
  · obtain ⟨P, I', m', r1, -, r3, r4⟩ := hgood
    refine ⟨P, I', m', r1, ?_⟩
    obtain ⟨svd, num, cfg, u, v, hEfit, hcvx, -⟩ := hE.fit
    have hfit : ∀ d h, GoodFit (E.fit d h) := fun d h => by
      rw [hEfit]
      exact codeFit_good _ _ _ _ _ _ _ _ (fun hc => by rw [hcvx] at hc; cases hc)
    have hlat : ∀ d h n A I m s, E.fit d h n A I = .ok (m, s) → m.1 = h := fun d h n A I m s hm => by
      rw [hEfit] at hm
      exact codeFit_latents hm
    obtain ⟨-, -, -, -, -, c5, c6, -⟩ := C59_coherent E hfit hlat hE.argsort candidates (fun G h => (hG G h).1) _ _ _ _ _ _ _ _ _ r1
    refine ⟨c6, fun H hH hHP => ?_⟩
    obtain ⟨hHac, hHI⟩ := (c5 H).1 hHP
    have hgen : Generic (e := 1) A (fun _ => genOmegas E.it I obs dr k0) W := ⟨fun _ => hW.1 k0, fun _ _ => hW.2 k0 k0⟩
    have hconst : ∀ k k' : Fin 1, ∀ i, i ∉ (∅ : Finset (Fin p)) → (fun _ : Fin 1 => genOmegas E.it I obs dr k0) k i = (fun _ : Fin 1 => genOmegas E.it I obs dr k0) k' i :=
      fun k k' i _ => rfl
    have hch : ChangeDifferently (e := 1) A ∅ (fun _ => genOmegas E.it I obs dr k0) := fun x y _ hor => by simp at hor
    have hiff := hgen.sparsest_iff (I := ∅) hac (fun _ => hpos k0) hconst hch one_pos
    have hSp : Sparsest m'.A (fun _ : Fin 1 => semC (Edge A) (genOmegas E.it I obs dr k0) W) :=
      ⟨(hG _ r3).2, entailedBy_univ_iff.1 r4, fun H hH hf => (hmin _ r3).trans
        (((hiff A).2 ⟨hac, ⟨⟨fun _ _ => Iff.rfl, fun _ _ _ => Iff.rfl⟩, fun _ _ _ => Iff.rfl⟩⟩).2.2 H hH hf)⟩
    have hA' := ((hiff m'.A).1 hSp).2.1
    exact (h2 H).2 ⟨hH, hHac, markov_trans hA' hHI.1⟩
  intro Ω _ μ _ normal hnormal
  choose X x1 x2 x3 x4 using fun k : Fin e => hnormal k.val _ (hpd k).posSemidef
  refine ⟨fun n ω => (List.finRange e).map fun k => normal ω k.val (semC (Edge A) (genOmegas E.it I obs dr k) W) n, fun n ω hn => ?_,
    fun k a ω i => X k a ω i, fun k => normal_iid (hpd k).posSemidef (x1 k) (x2 k) (x3 k), fun k => normal_exp (x1 k 0) (x3 k 0), ?_⟩
  · unfold LModel.sample sampleSizes
    simp only [hcv]
    rw [if_neg (by simp), if_pos (by exact_mod_cast hn)]
    simp only [Int.toNat_natCast, Bool.false_eq_true, if_false]
    congr 2
    refine List.map_congr_left fun k _ => ?_
    simp [List.getD_eq_getElem?_getD]
  · intro n ω
    funext k
    simp only [List.getD_eq_getElem?_getD, List.getElem?_map]
    rw [List.getElem?_eq_getElem (by simp)]
    simp [x4, dataOf, rowsOf]

/-- The same number of observations in all environments. -/
theorem equal_numbers (he : 0 < e) (k0 : Fin e) : MoreAndMore (1 / (e : ℝ)) k0 (fun n _ => n) := ⟨fun _ => tendsto_id, fun n => by
    have : (e : ℝ) ≠ 0 := by exact_mod_cast he.ne'
    simp
    field_simp
    exact le_rfl⟩

/-- C129: simulated data.  A model without latents over a graph `A` is drawn by `sample_parameters`, `n` observations in each environment are drawn
by `Model.sample`, and `equivalence_class` with the convex solver is run on them, where `A` is a candidate and no candidate has more edges.  For almost
all drawn weights the probability that the returned class contains a graph that is not Markov equivalent to `A`, or that nothing is returned, tends to
zero. -/
theorem C129_simulation {T : Nat} (E : FitEnv p e) (hE : ExactEnv T E) (hblind : ∀ k, Blind (E.rng 42 k)) (hp : p ≠ 0) (he : 0 < e) (candidates : List (Adj p))
    (hG : ∀ G ∈ candidates, Nonneg G ∧ Acyclic G) (A : Adj p) (hA : A ∈ candidates) (hA01 : ZeroOne A)
    (hmin : ∀ G ∈ candidates, edgeCount G ≤ edgeCount A) (chk sparse obs : Bool) (I : Finset (Fin p)) (dr : Draws p 0 e) (hb : ∀ j, 0 < dr.base j)
    (hi : ∀ j k, 0 < dr.interventions j k) (ho : ∀ k j, 0 < dr.omegas k j) {a b c : Rat} (ha : 0 < a) (hbb : 0 < b) (hc : 0 < c) (hs : a + b + c = 1) (rs : Int)
    (ν : Measure (Fin p × Fin p → ℝ)) (hν : ν ≪ volume) :
    ∃ Gs, mec E.it A chk = .ok Gs ∧ ∀ᵐ W ∂ν, ∃ m : LModel p 0 e,
      sampleParameters E.it A (I.image (fun i : Fin p => (i.val : Int))) sparse obs { dr with weights := fun i j => W (i, j) } = .ok m ∧
      ∀ {Ω : Type} [MeasurableSpace Ω] (μ : Measure Ω) [IsProbabilityMeasure μ] (normal : Ω → Nat → Matrix (Fin p) (Fin p) ℝ → Nat → List (Fin p → ℝ)),
        NormalDraws μ normal → ∃ data : ℕ → Ω → List (Sample p),
          (∀ (n : ℕ) ω, 0 < n → m.sample (normal ω) npCov (.single n) false = .ok (data n ω, none)) ∧
          Tendsto (fun n => μ {ω | ¬ ∃ P I' m', equivalenceClass E candidates (fun k => (data n ω).getD k []) true false (some [0]) [a, b, c] rs = .ok (P, I', m') ∧
            IsExtension m'.A P ∧ ∀ H, ZeroOne H → IsExtension H P → H ∈ Gs}) atTop (𝓝 0) := by
  obtain ⟨Gs, h1, h2⟩ := simulation_core E hE hp he candidates hG A hA hA01 hmin chk sparse obs I dr hb hi ho ν hν
  refine ⟨Gs, h1, ?_⟩
  filter_upwards [h2] with W ⟨m, m1, C, hent, hgood, hdraw⟩
  refine ⟨m, m1, fun {Ω} _ μ _ normal hnormal => ?_⟩
  obtain ⟨data, d1, X, hX, -, d2⟩ := hdraw μ normal hnormal
  refine ⟨data, d1, ?_⟩
  have hlim := C122_no_latents (k0 := ⟨e - 1, by omega⟩) hX hp candidates hG (by simp; omega) A hA hent E hE hblind ha hbb hc hs (by positivity) (equal_numbers he _) rs
  refine tendsto_of_tendsto_of_tendsto_of_le_of_le tendsto_const_nhds hlim (fun _ => zero_le) fun n => measure_mono fun ω hω hg => hω ?_
  rw [d2]
  exact hgood _ _ _ hg

/-- C132: in the situation of C129 the probability that a graph outside the class of `A` is returned, or nothing, decreases exponentially with the number of
observations per environment, and almost surely this happens for finitely many numbers of observations only. -/
theorem C132_simulation {T : Nat} (E : FitEnv p e) (hE : ExactEnv T E) (hblind : ∀ k, Blind (E.rng 42 k)) (hp : p ≠ 0) (he : 0 < e) (candidates : List (Adj p))
    (hG : ∀ G ∈ candidates, Nonneg G ∧ Acyclic G) (A : Adj p) (hA : A ∈ candidates) (hA01 : ZeroOne A)
    (hmin : ∀ G ∈ candidates, edgeCount G ≤ edgeCount A) (chk sparse obs : Bool) (I : Finset (Fin p)) (dr : Draws p 0 e) (hb : ∀ j, 0 < dr.base j)
    (hi : ∀ j k, 0 < dr.interventions j k) (ho : ∀ k j, 0 < dr.omegas k j) {a b c : Rat} (ha : 0 < a) (hbb : 0 < b) (hc : 0 < c) (hs : a + b + c = 1) (rs : Int)
    (ν : Measure (Fin p × Fin p → ℝ)) (hν : ν ≪ volume) :
    ∃ Gs, mec E.it A chk = .ok Gs ∧ ∀ᵐ W ∂ν, ∃ m : LModel p 0 e,
      sampleParameters E.it A (I.image (fun i : Fin p => (i.val : Int))) sparse obs { dr with weights := fun i j => W (i, j) } = .ok m ∧
      ∀ {Ω : Type} [MeasurableSpace Ω] (μ : Measure Ω) [IsProbabilityMeasure μ] (normal : Ω → Nat → Matrix (Fin p) (Fin p) ℝ → Nat → List (Fin p → ℝ)),
        NormalDraws μ normal → ∃ data : ℕ → Ω → List (Sample p),
          (∀ (n : ℕ) ω, 0 < n → m.sample (normal ω) npCov (.single n) false = .ok (data n ω, none)) ∧
          (∃ K z : ℝ, 0 < z ∧ ∀ n : ℕ, μ.real {ω | ¬ ∃ P I' m', equivalenceClass E candidates (fun k => (data n ω).getD k []) true false (some [0]) [a, b, c] rs = .ok (P, I', m') ∧
            IsExtension m'.A P ∧ ∀ H, ZeroOne H → IsExtension H P → H ∈ Gs} ≤ K * Real.exp (-z * n)) ∧
          ∀ᵐ ω ∂μ, ∀ᶠ n in atTop, ∃ P I' m', equivalenceClass E candidates (fun k => (data n ω).getD k []) true false (some [0]) [a, b, c] rs = .ok (P, I', m') ∧
            IsExtension m'.A P ∧ ∀ H, ZeroOne H → IsExtension H P → H ∈ Gs := by
  obtain ⟨Gs, h1, h2⟩ := simulation_core E hE hp he candidates hG A hA hA01 hmin chk sparse obs I dr hb hi ho ν hν
  refine ⟨Gs, h1, ?_⟩
  filter_upwards [h2] with W ⟨m, m1, C, hent, hgood, hdraw⟩
  refine ⟨m, m1, fun {Ω} _ μ _ normal hnormal => ?_⟩
  obtain ⟨data, d1, X, hX, hexp, d2⟩ := hdraw μ normal hnormal
  refine ⟨data, d1, ?_⟩
  obtain ⟨K, hK, z, hz, h⟩ := C132_no_latents (k0 := ⟨e - 1, by omega⟩) hX hexp hp candidates hG (by simp; omega) A hA hent T ha hbb hc hs
    (ρ := 1 / (e : ℝ)) (by positivity)
  have hrate : ∀ n : ℕ, μ.real {ω | ¬ ∃ P I' m', equivalenceClass E candidates (fun k => (data n ω).getD k []) true false (some [0]) [a, b, c] rs = .ok (P, I', m') ∧
      IsExtension m'.A P ∧ ∀ H, ZeroOne H → IsExtension H P → H ∈ Gs} ≤ K * ∑ _k : Fin e, Real.exp (-z * n) := by
    intro n
    refine (measureReal_mono ?_ (measure_ne_top _ _)).trans (h E (fun _ => n) rs hE hblind ((equal_numbers he ⟨e - 1, by omega⟩).share n))
    intro ω hω hg
    apply hω
    rw [d2]
    exact hgood _ _ _ hg
  refine ⟨⟨K * e, z, hz, fun n => (hrate n).trans (le_of_eq ?_)⟩, ?_⟩
  · simp
    ring
  · filter_upwards [eventually_of_rate (N := fun n _ => n) hz (fun _ _ => le_rfl) hrate] with ω hω
    filter_upwards [hω] with n hn
    simpa only [Set.mem_ofPred_eq, not_not] using hn

open scoped MatrixOrder in
/-- Such generators exist: standard normal observations, one sequence for each call, and a root of the covariance matrix. -/
theorem normalDraws_exists (p : Nat) : ∃ normal : (ℕ × ℕ → EuclideanSpace ℝ (Fin p)) → Nat → Matrix (Fin p) (Fin p) ℝ → Nat → List (Fin p → ℝ),
    NormalDraws (Measure.infinitePi fun _ : ℕ × ℕ => stdGaussian (EuclideanSpace ℝ (Fin p))) normal := by
  refine ⟨fun ω k C n => (List.range n).map fun a i => toEuclideanCLM (𝕜 := ℝ) (CFC.sqrt C) (ω (k, a)) i, fun k C _ =>
    ⟨fun a ω => toEuclideanCLM (𝕜 := ℝ) (CFC.sqrt C) (ω (k, a)), fun a => ?_, ?_, fun a => ?_, fun ω n => rfl⟩⟩
  · exact (toEuclideanCLM (𝕜 := ℝ) (CFC.sqrt C)).continuous.measurable.comp (measurable_pi_apply _)
  · have h := iIndepFun_infinitePi (P := fun _ : ℕ × ℕ => stdGaussian (EuclideanSpace ℝ (Fin p)))
      (X := fun _ => toEuclideanCLM (𝕜 := ℝ) (CFC.sqrt C)) fun _ => (toEuclideanCLM (𝕜 := ℝ) (CFC.sqrt C)).continuous.measurable
    exact h.precomp (g := fun a : ℕ => (k, a)) fun x y hxy => (Prod.mk.inj hxy).2
  · have h := measurePreserving_eval_infinitePi (fun _ : ℕ × ℕ => stdGaussian (EuclideanSpace ℝ (Fin p))) (k, a)
    beta_reduce
    rw [show (fun ω : ℕ × ℕ → EuclideanSpace ℝ (Fin p) => toEuclideanCLM (𝕜 := ℝ) (CFC.sqrt C) (ω (k, a))) =
        toEuclideanCLM (𝕜 := ℝ) (CFC.sqrt C) ∘ (fun ω => ω (k, a)) from rfl,
      ← Measure.map_map (toEuclideanCLM (𝕜 := ℝ) (CFC.sqrt C)).continuous.measurable h.measurable, h.map_eq]
    simp [multivariateGaussian]

namespace WorkflowEx

/-- The chain `0 → 1 → 2`. -/
def chain : Adj 3 := ![![0, 1, 0], ![0, 0, 1], ![0, 0, 0]]

/-- The collider `0 → 1 ← 2`. -/
def collider : Adj 3 := ![![0, 1, 0], ![0, 0, 0], ![0, 1, 0]]

/-- The chain `2 → 1 → 0`. -/
def back : Adj 3 := ![![0, 0, 0], ![1, 0, 0], ![0, 1, 0]]

theorem good : ∀ G ∈ [collider, back, chain], Nonneg G ∧ Acyclic G := by
  have h : ∀ G : Adj 3, Nonneg G → isDag (SetIter.incr 3) G = true → Nonneg G ∧ Acyclic G := fun G h1 h2 => ⟨h1, (isDag_iff (SetIter.incr 3) h1).1 h2⟩
  simp only [List.mem_cons, List.not_mem_nil, or_false, forall_eq_or_imp, forall_eq]
  exact ⟨h _ (by unfold Nonneg collider; decide) (by unfold collider; decide), h _ (by unfold Nonneg back; decide) (by unfold back; decide),
    h _ (by unfold Nonneg chain; decide) (by unfold chain; decide)⟩

/-- A chain of three variables, three environments with an intervention on the last variable, and weights drawn uniformly from the unit cube: for almost
all of them the probability that the graphs returned are not all in the class of the chain tends to zero, and the collider is not in that class. -/
example : ∃ (E : FitEnv 3 3) (Gs : List (Adj 3)) (normal : (ℕ × ℕ → EuclideanSpace ℝ (Fin 3)) → Nat → Matrix (Fin 3) (Fin 3) ℝ → Nat → List (Fin 3 → ℝ)),
    mec E.it chain true = .ok Gs ∧ collider ∉ Gs ∧
    ∀ᵐ W ∂(volume.restrict (Set.Icc (0 : Fin 3 × Fin 3 → ℝ) 1)), ∃ m : LModel 3 0 3,
      sampleParameters E.it chain (({2} : Finset (Fin 3)).image (fun i : Fin 3 => (i.val : Int))) false true
        ⟨fun i j => W (i, j), fun k => k.elim0, fun k => k.elim0, fun _ => 1, fun _ k => k.val + 1, fun _ _ => 1, fun k => k.elim0, fun _ _ k => k.elim0, fun _ k => k.elim0⟩ = .ok m ∧
      ∃ data : ℕ → (ℕ × ℕ → EuclideanSpace ℝ (Fin 3)) → List (Sample 3),
        (∀ (n : ℕ) ω, 0 < n → m.sample (normal ω) npCov (.single n) false = .ok (data n ω, none)) ∧
        Tendsto (fun n => (Measure.infinitePi fun _ : ℕ × ℕ => stdGaussian (EuclideanSpace ℝ (Fin 3))) {ω | ¬ ∃ P I' m',
          equivalenceClass E [collider, back, chain] (fun k => (data n ω).getD k []) true false (some [0]) [1 / 2, 1 / 4, 1 / 4] 42 = .ok (P, I', m') ∧
            IsExtension m'.A P ∧ ∀ H, ZeroOne H → IsExtension H P → H ∈ Gs}) atTop (𝓝 0) := by
  obtain ⟨E, hE, hblind⟩ := exactEnv_exists (p := 3) (e := 3)
  obtain ⟨normal, hn⟩ := normalDraws_exists 3
  have hchain := good chain (by simp)
  obtain ⟨Gs, h1, h2⟩ := C129_simulation E hE hblind (by norm_num) (by norm_num) [collider, back, chain] good chain (by simp)
    (by unfold ZeroOne chain; decide) (by
      simp only [List.mem_cons, List.not_mem_nil, or_false, forall_eq_or_imp, forall_eq]
      decide) true false true {2}
    ⟨fun _ _ => 0, fun k => k.elim0, fun k => k.elim0, fun _ => 1, fun _ k => k.val + 1, fun _ _ => 1, fun k => k.elim0, fun _ _ k => k.elim0, fun _ k => k.elim0⟩
    (fun _ => one_pos) (fun _ k => by positivity) (fun _ _ => one_pos) (a := 1 / 2) (b := 1 / 4) (c := 1 / 4) (by norm_num) (by norm_num) (by norm_num) (by norm_num) 42
    (volume.restrict (Set.Icc (0 : Fin 3 × Fin 3 → ℝ) 1)) Measure.absolutelyContinuous_restrict
  refine ⟨E, Gs, normal, h1, fun hc => ?_, ?_⟩
  · obtain ⟨Gs', g1, -, g2⟩ := C24_mec E.it chain hchain.1 hchain.2 true (Or.inl (by norm_num))
    obtain rfl : Gs' = Gs := by rw [g1] at h1; exact Except.ok.inj h1
    obtain ⟨-, -, hm⟩ := (g2 collider).1 hc
    have := (hm.2 0 1 2)
    revert this
    simp [VStructure, Adjacent, DirEdge, chain, collider]
  · filter_upwards [h2] with W hW
    obtain ⟨m, m1, m2⟩ := hW
    exact ⟨m, m1, m2 _ normal hn⟩

/-- The same study: the probability decreases exponentially, and almost surely all but finitely many runs return graphs in the class of the chain only. -/
example : ∃ (E : FitEnv 3 3) (Gs : List (Adj 3)) (normal : (ℕ × ℕ → EuclideanSpace ℝ (Fin 3)) → Nat → Matrix (Fin 3) (Fin 3) ℝ → Nat → List (Fin 3 → ℝ)),
    mec E.it chain true = .ok Gs ∧
    ∀ᵐ W ∂(volume.restrict (Set.Icc (0 : Fin 3 × Fin 3 → ℝ) 1)), ∃ m : LModel 3 0 3,
      sampleParameters E.it chain (({2} : Finset (Fin 3)).image (fun i : Fin 3 => (i.val : Int))) false true
        ⟨fun i j => W (i, j), fun k => k.elim0, fun k => k.elim0, fun _ => 1, fun _ k => k.val + 1, fun _ _ => 1, fun k => k.elim0, fun _ _ k => k.elim0, fun _ k => k.elim0⟩ = .ok m ∧
      ∃ data : ℕ → (ℕ × ℕ → EuclideanSpace ℝ (Fin 3)) → List (Sample 3),
        (∀ (n : ℕ) ω, 0 < n → m.sample (normal ω) npCov (.single n) false = .ok (data n ω, none)) ∧
        (∃ K z : ℝ, 0 < z ∧ ∀ n : ℕ, (Measure.infinitePi fun _ : ℕ × ℕ => stdGaussian (EuclideanSpace ℝ (Fin 3))).real {ω | ¬ ∃ P I' m',
          equivalenceClass E [collider, back, chain] (fun k => (data n ω).getD k []) true false (some [0]) [1 / 2, 1 / 4, 1 / 4] 42 = .ok (P, I', m') ∧
            IsExtension m'.A P ∧ ∀ H, ZeroOne H → IsExtension H P → H ∈ Gs} ≤ K * Real.exp (-z * n)) ∧
        ∀ᵐ ω ∂(Measure.infinitePi fun _ : ℕ × ℕ => stdGaussian (EuclideanSpace ℝ (Fin 3))), ∀ᶠ n in atTop, ∃ P I' m',
          equivalenceClass E [collider, back, chain] (fun k => (data n ω).getD k []) true false (some [0]) [1 / 2, 1 / 4, 1 / 4] 42 = .ok (P, I', m') ∧
            IsExtension m'.A P ∧ ∀ H, ZeroOne H → IsExtension H P → H ∈ Gs := by
  obtain ⟨E, hE, hblind⟩ := exactEnv_exists (p := 3) (e := 3)
  obtain ⟨normal, hn⟩ := normalDraws_exists 3
  obtain ⟨Gs, h1, h2⟩ := C132_simulation E hE hblind (by norm_num) (by norm_num) [collider, back, chain] good chain (by simp)
    (by unfold ZeroOne chain; decide) (by
      simp only [List.mem_cons, List.not_mem_nil, or_false, forall_eq_or_imp, forall_eq]
      decide) true false true {2}
    ⟨fun _ _ => 0, fun k => k.elim0, fun k => k.elim0, fun _ => 1, fun _ k => k.val + 1, fun _ _ => 1, fun k => k.elim0, fun _ _ k => k.elim0, fun _ k => k.elim0⟩
    (fun _ => one_pos) (fun _ k => by positivity) (fun _ _ => one_pos) (a := 1 / 2) (b := 1 / 4) (c := 1 / 4) (by norm_num) (by norm_num) (by norm_num) (by norm_num) 42
    (volume.restrict (Set.Icc (0 : Fin 3 × Fin 3 → ℝ) 1)) Measure.absolutelyContinuous_restrict
  refine ⟨E, Gs, normal, h1, ?_⟩
  filter_upwards [h2] with W ⟨m, m1, m2⟩
  exact ⟨m, m1, m2 _ normal hn⟩

/-- Normal observations meet the hypotheses of `C132_covariance`, `C132_no_latents`, `C132_parameters` and `C132_almost_surely`. -/
example (C : Matrix (Fin 3) (Fin 3) ℝ) (hC : C.PosDef) : ∃ (Ω : Type) (_ : MeasurableSpace Ω) (μ : Measure Ω) (_ : IsProbabilityMeasure μ) (X : ℕ → Ω → Fin 3 → ℝ),
    Iid μ X C ∧ ExpSquares μ (X 0) := by
  obtain ⟨normal, hn⟩ := normalDraws_exists 3
  obtain ⟨X, x1, x2, x3, -⟩ := hn 0 C hC.posSemidef
  exact ⟨_, _, _, inferInstance, _, normal_iid hC.posSemidef x1 x2 x3, normal_exp (x1 0) (x3 0)⟩

end WorkflowEx

end Verif
