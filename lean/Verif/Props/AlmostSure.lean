import Verif.Proof.Faithful
import Verif.Props.FalseEdges

/-!
# C127: for data with a density almost all runs return
-/

namespace Verif

open Spec Matrix MeasureTheory ProbabilityTheory

variable {p e : Nat}

/-! ## Sample covariances as polynomials in the data -/

section Poly

variable {σ : Type}

/-- The mean of a variable. -/
noncomputable def meanPoly (L : List (Fin p → σ)) (i : Fin p) : MvPolynomial σ ℝ :=
  MvPolynomial.C ((L.length : ℝ)⁻¹) * (L.map fun f => MvPolynomial.X (f i)).sum

/-- The sample covariance. -/
noncomputable def covPoly (L : List (Fin p → σ)) (i j : Fin p) : MvPolynomial σ ℝ :=
  MvPolynomial.C (((L.length : ℝ) - 1)⁻¹) *
    (L.map fun f => (MvPolynomial.X (f i) - meanPoly L i) * (MvPolynomial.X (f j) - meanPoly L j)).sum

/-- The observations whose coordinates are at the given places. -/
def sampleAt (L : List (Fin p → σ)) (W : σ → ℝ) : Sample p := L.map fun f i => W (f i)

theorem eval_list_sum {α : Type} (W : σ → ℝ) (l : List α) (g : α → MvPolynomial σ ℝ) :
    MvPolynomial.eval W (l.map g).sum = (l.map fun a => MvPolynomial.eval W (g a)).sum := by
  rw [map_list_sum, List.map_map]
  rfl

theorem eval_meanPoly (L : List (Fin p → σ)) (W : σ → ℝ) (i : Fin p) : MvPolynomial.eval W (meanPoly L i) = colMean (sampleAt L W) i := by
  unfold meanPoly colMean sampleAt
  rw [map_mul, MvPolynomial.eval_C, eval_list_sum, List.map_map, List.length_map, div_eq_inv_mul]
  simp [Function.comp_def]

theorem eval_covPoly (L : List (Fin p → σ)) (W : σ → ℝ) (i j : Fin p) : MvPolynomial.eval W (covPoly L i j) = npCov (sampleAt L W) i j := by
  unfold covPoly npCov
  rw [map_mul, MvPolynomial.eval_C, eval_list_sum, div_eq_inv_mul]
  simp only [map_mul, map_sub, MvPolynomial.eval_X, eval_meanPoly]
  simp [sampleAt, Function.comp_def]

theorem ae_of_poly [Fintype σ] (q : MvPolynomial σ ℝ) {W₀ : σ → ℝ} (h : MvPolynomial.eval W₀ q ≠ 0) : ∀ᵐ W : σ → ℝ, MvPolynomial.eval W q ≠ 0 := by
  have := poly_null q (by rintro rfl; simp at h)
  exact measure_eq_zero_iff_ae_notMem.1 this

/-- Covariances are almost never zero. -/
theorem ae_cov_ne [Fintype σ] {L : List (Fin p → σ)} {i j : Fin p} {W₀ : σ → ℝ} (h : npCov (sampleAt L W₀) i j ≠ 0) : ∀ᵐ W : σ → ℝ, npCov (sampleAt L W) i j ≠ 0 := by
  filter_upwards [ae_of_poly (covPoly L i j) (W₀ := W₀) (by rwa [eval_covPoly])] with W hW
  rwa [eval_covPoly] at hW

/-- The sample covariance matrix is almost never singular. -/
theorem ae_posDef [Fintype σ] {L : List (Fin p → σ)} (hL : 1 ≤ L.length) {W₀ : σ → ℝ} (h : (npCov (sampleAt L W₀)).PosDef) :
    ∀ᵐ W : σ → ℝ, (npCov (sampleAt L W)).PosDef := by
  let q := (Matrix.of fun i j => covPoly L i j).det
  have hq : ∀ W : σ → ℝ, MvPolynomial.eval W q = (npCov (sampleAt L W)).det := by
    intro W
    rw [RingHom.map_det]
    congr 1
    ext i j
    simp [eval_covPoly]
  filter_upwards [ae_of_poly q (W₀ := W₀) (by rw [hq]; exact h.det_pos.ne')] with W hW
  rw [hq] at hW
  have hps := C97_posSemidef (sampleAt L W) (by simpa [sampleAt] using hL)
  exact hps.posDef_iff_isUnit.2 ((Matrix.isUnit_iff_isUnit_det _).2 (isUnit_iff_ne_zero.2 hW))

end Poly

/-! ## Samples with positive definite covariances -/

section Witness

variable {σ : Type}

/-- Different places for different coordinates of different observations. -/
structure Places (J : List ℕ) (pl : ℕ → Fin p → σ) : Prop where
  nodup : J.Nodup
  inj : ∀ a ∈ J, ∀ b ∈ J, ∀ i j, pl a i = pl b j → a = b ∧ i = j

theorem sample_exists {J : List ℕ} {pl : ℕ → Fin p → σ} (h : Places J pl) (y : ℕ → Fin p → ℝ) :
    ∃ W : σ → ℝ, sampleAt (J.map pl) W = J.map y := by
  classical
  refine ⟨fun s => if hs : ∃ q : ℕ × Fin p, q.1 ∈ J ∧ pl q.1 q.2 = s then y hs.choose.1 hs.choose.2 else 0, ?_⟩
  unfold sampleAt
  rw [List.map_map]
  refine List.map_congr_left fun a ha => ?_
  funext i
  have hs : ∃ q : ℕ × Fin p, q.1 ∈ J ∧ pl q.1 q.2 = pl a i := ⟨(a, i), ha, rfl⟩
  simp only [Function.comp_apply, dif_pos hs]
  obtain ⟨h1, h2⟩ := h.inj _ hs.choose_spec.1 _ ha _ _ hs.choose_spec.2
  rw [h1, h2]

theorem ae_sample [Fintype σ] {J : List ℕ} {pl : ℕ → Fin p → σ} (h : Places J pl) (hp : 1 ≤ p) (hJ : p + 1 ≤ J.length) :
    ∀ᵐ W : σ → ℝ, (npCov (sampleAt (J.map pl) W)).PosDef ∧ ∀ i j, npCov (sampleAt (J.map pl) W) i j ≠ 0 := by
  rw [Filter.eventually_and]
  constructor
  · obtain ⟨W, hW⟩ := sample_exists h fun a i => if a = J[i.val + 1]'(by omega) then 1 else 0
    refine ae_posDef (by simpa using by omega) (W₀ := W) ?_
    rw [hW, C97_posDef_iff _ (by simpa using by omega)]
    intro v hv
    obtain ⟨i, hi⟩ := Function.ne_iff.1 hv
    refine ⟨_, List.mem_map_of_mem (List.getElem_mem (l := J) (n := 0) (by omega)), _,
      List.mem_map_of_mem (List.getElem_mem (l := J) (n := i.val + 1) (by omega)), ?_⟩
    have hne : ∀ j : Fin p, J[0]'(by omega) ≠ J[j.val + 1]'(by omega) := fun j hc => by
      have := (h.nodup.getElem_inj_iff).1 hc
      omega
    have hij : ∀ j : Fin p, J[i.val + 1]'(by omega) = J[j.val + 1]'(by omega) ↔ i = j := fun j => by
      rw [h.nodup.getElem_inj_iff, Fin.ext_iff]
      omega
    simp [combine, hne, hij]
    exact fun hc => hi hc.symm
  · rw [ae_all_iff]
    intro i
    rw [ae_all_iff]
    intro j
    obtain ⟨W, hW⟩ := sample_exists h fun a _ => if a = J[0]'(by omega) then 1 else 0
    refine ae_cov_ne (W₀ := W) ?_
    rw [hW]
    have hsum : (J.map fun a => if a = J[0]'(by omega) then (1 : ℝ) else 0).sum = 1 := by
      obtain ⟨a, J', rfl⟩ : ∃ a J', J = a :: J' := by
        cases J with
        | nil => simp at hJ
        | cons a J' => exact ⟨a, J', rfl⟩
      have hz : (J'.map fun b => if b = a then (1 : ℝ) else 0) = J'.map fun _ => 0 :=
        List.map_congr_left fun b hb => if_neg (by rintro rfl; exact (List.nodup_cons.1 h.nodup).1 hb)
      simp [hz]
    rw [npCov_eq _ (by rw [ne_eq, List.map_eq_nil_iff, ← ne_eq, ← List.length_pos_iff]; omega)]
    simp only [List.map_map, Function.comp_def, mul_ite, mul_one, mul_zero, List.length_map]
    have hsame : (J.map fun a => if a = J[0]'(by omega) then if a = J[0]'(by omega) then (1 : ℝ) else 0 else 0) =
        J.map fun a => if a = J[0]'(by omega) then (1 : ℝ) else 0 := List.map_congr_left fun a _ => by split_ifs <;> rfl
    rw [hsame, hsum]
    have hn : (2 : ℝ) ≤ (J.length : ℝ) := by exact_mod_cast (by omega : 2 ≤ J.length)
    have e1 : (J.length : ℝ) / (J.length - 1) * (1 / J.length - 1 / J.length * (1 / J.length)) = 1 / J.length := by
      have h1 : (J.length : ℝ) - 1 ≠ 0 := by linarith
      have h0 : (J.length : ℝ) ≠ 0 := by linarith
      field_simp
    rw [e1]
    have h0 : (J.length : ℝ) ≠ 0 := by linarith
    exact one_div_ne_zero h0

end Witness

/-! ## Folds -/

variable {Ω : Type} [MeasurableSpace Ω] {μ : Measure Ω}

/-- The joint distribution of the first `N k` observations in each environment `k` has a density. -/
structure Spec.HasDensity (μ : Measure Ω) (X : Fin e → ℕ → Ω → Fin p → ℝ) (N : Fin e → ℕ) : Prop where
  meas : ∀ k a, Measurable (X k a)
  density : μ.map (fun ω (q : (Σ k : Fin e, Fin (N k)) × Fin p) => X q.1.1 q.1.2 ω q.2) ≪ volume

theorem fold_ae {X : Fin e → ℕ → Ω → Fin p → ℝ} {N : Fin e → ℕ} (h : HasDensity μ X N) (hp : 1 ≤ p) (k : Fin e) {J : List ℕ} (hnd : J.Nodup)
    (hJN : ∀ a ∈ J, a < N k) (hJ : p + 1 ≤ J.length) :
    ∀ᵐ ω ∂μ, (npCov (rowsOf (X k) J ω)).PosDef ∧ ∀ i j, npCov (rowsOf (X k) J ω) i j ≠ 0 := by
  have hN : 0 < N k := by
    have := hJN _ (List.getElem_mem (l := J) (n := 0) (by omega))
    omega
  let pl : ℕ → Fin p → (Σ k : Fin e, Fin (N k)) × Fin p := fun a i => (⟨k, ⟨min a (N k - 1), by omega⟩⟩, i)
  have hpl : Places J pl := by
    refine ⟨hnd, fun a ha b hb i j hab => ?_⟩
    simp only [pl, Prod.mk.injEq, Sigma.mk.injEq, heq_eq_eq, Fin.mk.injEq, true_and] at hab
    have := hJN a ha
    have := hJN b hb
    exact ⟨by omega, hab.2⟩
  have hmeas : Measurable (fun ω (q : (Σ k : Fin e, Fin (N k)) × Fin p) => X q.1.1 q.1.2 ω q.2) :=
    measurable_pi_lambda _ fun q => (measurable_pi_apply q.2).comp (h.meas _ _)
  have hae := ae_of_ae_map hmeas.aemeasurable (h.density.ae_le (ae_sample hpl hp hJ))
  filter_upwards [hae] with ω hω
  have he : sampleAt (J.map pl) (fun q : (Σ k : Fin e, Fin (N k)) × Fin p => X q.1.1 q.1.2 ω q.2) = rowsOf (X k) J ω := by
    unfold sampleAt rowsOf
    rw [List.map_map]
    refine List.map_congr_left fun a ha => ?_
    funext i
    have := hJN a ha
    simp only [pl, Function.comp_apply]
    rw [min_eq_left (by omega)]
  rwa [he] at hω

theorem foldRows_lt {r : Rng} {a b c : Rat} {N i x : Nat} (h : x ∈ foldRows r a b c N i) : x < N := by
  have hs : ∀ (ks : List Nat) (l : List ℕ) (i : Nat), x ∈ (pieces l ks).getD i [] → x ∈ l := by
    intro ks
    induction ks with
    | nil => intro l i hx; simp [pieces] at hx
    | cons k ks ih =>
      intro l i hx
      cases i with
      | zero => exact List.mem_of_mem_take (by simpa [pieces] using hx)
      | succ i => exact List.mem_of_mem_drop (ih _ i (by simpa [pieces] using hx))
  exact List.mem_range.1 ((r.shuffle_perm _).mem_iff.1 (hs _ _ _ h))

/-- Almost surely all three folds of all environments have positive definite covariances without zeros. -/
theorem folds_ae {X : Fin e → ℕ → Ω → Fin p → ℝ} {N : Fin e → ℕ} (h : HasDensity μ X N) (hp : 1 ≤ p) (r : Nat → Rng) {a b c : Rat} (ha : 0 < a)
    (hb : 0 < b) (hc : 0 < c) (hs : a + b + c = 1) (hN : ∀ k, ∀ x ∈ [a, b, c], (p : Rat) + 2 ≤ N k * x) :
    ∀ᵐ ω ∂μ, ∀ k : Fin e, ∀ i < 3, p + 1 ≤ (foldRows (r k) a b c (N k) i).length ∧ (npCov (rowsOf (X k) (foldRows (r k) a b c (N k) i) ω)).PosDef ∧
      ∀ x y, npCov (rowsOf (X k) (foldRows (r k) a b c (N k) i) ω) x y ≠ 0 := by
  rw [ae_all_iff]
  intro k
  have hlen : ∀ i < 3, p + 1 ≤ (foldRows (r k) a b c (N k) i).length := by
    have h0 := foldRows_length (r k) ha.le hb.le hc.le hs (N k)
    have hk := hN k
    simp only [List.mem_cons, List.not_mem_nil, or_false, forall_eq_or_imp, forall_eq] at hk
    intro i hi
    interval_cases i
    · have : (p : Rat) + 1 ≤ ((foldRows (r k) a b c (N k) 0).length : Rat) := by linarith [h0.1, hk.1]
      exact_mod_cast this
    · have : (p : Rat) + 1 ≤ ((foldRows (r k) a b c (N k) 1).length : Rat) := by linarith [h0.2.1, hk.2.1]
      exact_mod_cast this
    · have : (p : Rat) + 1 ≤ ((foldRows (r k) a b c (N k) 2).length : Rat) := by linarith [h0.2.2, hk.2.2]
      exact_mod_cast this
  have : ∀ᵐ ω ∂μ, ∀ i : Fin 3, (npCov (rowsOf (X k) (foldRows (r k) a b c (N k) i) ω)).PosDef ∧
      ∀ x y, npCov (rowsOf (X k) (foldRows (r k) a b c (N k) i) ω) x y ≠ 0 :=
    ae_all_iff.2 fun i => fold_ae h hp k (foldRows_nodup _ _ _ _ _ _) (fun x hx => foldRows_lt hx) (hlen i i.2)
  filter_upwards [this] with ω hω
  intro i hi
  exact ⟨hlen i hi, hω ⟨i, hi⟩⟩

theorem goodData_rows {X : Fin e → ℕ → Ω → Fin p → ℝ} (he : 0 < e) {J : Fin e → List ℕ} {ω : Ω} (hl : ∀ k, 0 < (J k).length)
    (h : ∀ k, (npCov (rowsOf (X k) (J k) ω)).PosDef) : GoodData (foldData npCov (List.ofFn fun k => rowsOf (X k) (J k) ω) e) := by
  refine ⟨fun k => ?_, fun k => ?_, he⟩
  · simpa [foldData] using h k
  · simpa [foldData, rowsOf] using hl k

/-- C127: for data with a density, with the convex solver, any list of numbers of latents between zero and `p` and any number of environments, almost all
runs of `equivalence_class` without pruning return, if the folds of each environment are given at least `p + 2` observations. -/
theorem C127_returns (E : FitEnv p e) (svd : Matrix (Fin p) (Fin p) ℝ → Matrix (Fin p) (Fin p) ℝ × (Fin p → ℝ)) (num : NumLib p e)
    (cfg : ScoreCfg) (u v : Nat → Nat → Nat → Fin (p * p) → ℝ) (hE : E.fit = codeFit E.it svd num cfg u v) (hcov : E.cov = npCov)
    (hblind : ∀ k, Blind (E.rng 42 k)) (hp : 2 ≤ p) (he : 0 < e)
    (candidates : List (Adj p)) (hne : candidates ≠ []) (hG : ∀ G ∈ candidates, Nonneg G ∧ Acyclic G)
    (ns : List Nat) (hns : ns ≠ []) (hnp : ∀ n ∈ ns, n ≤ p) (rs : Int)
    (harg : ∀ f, IsArgsort f (E.argsort f)) (hcvx : cfg.solver = .cvx) (hnum : ∀ A d, CvxFeasible num A d)
    (hthr : 0 < cfg.thresholdScore) (hpsi : ∀ x, cfg.psiMax = some x → 1 < x) (hit : 0 < cfg.stop.maxIter)
    (hfl : 0 < cfg.stop.maxFluctuations) {X : Fin e → ℕ → Ω → Fin p → ℝ} {N : Fin e → ℕ} (hX : HasDensity μ X N) {a b c : Rat} (ha : 0 < a)
    (hb : 0 < b) (hc : 0 < c) (hs : a + b + c = 1) (hN : ∀ k, ∀ x ∈ [a, b, c], (p : Rat) + 2 ≤ N k * x) :
    ∀ᵐ ω ∂μ, ∃ r, equivalenceClass E candidates (fun k => rowsOf (X k) (List.range (N k)) ω) true false (some ns) [a, b, c] rs = .ok r := by
  filter_upwards [folds_ae hX (by omega) (E.rng 42) ha hb hc hs hN] with ω hω
  refine C72_cvx E svd num cfg u v hE (by omega) candidates hne hG _ false ns hns hnp _ rs _ _ _
    (splitData_rows (E.rng 42) hblind ha.le hb.le hc.le hs X N ω) ?_ ?_ harg hcvx (fun A => hnum A _) hthr hpsi hit hfl (by simp)
  · intro s hs'
    obtain ⟨k, rfl⟩ := List.mem_ofFn.1 hs'
    have := (hω k 0 (by norm_num)).1
    simp only [rowsOf, List.length_map]
    omega
  · rw [hcov]
    have key : ∀ i < 3, GoodData (foldData npCov (List.ofFn fun k => rowsOf (X k) (foldRows (E.rng 42 k) a b c (N k) i) ω) e) := fun i hi =>
      goodData_rows he (fun k => by have := (hω k i hi).1; omega) (fun k => (hω k i hi).2.1)
    simp only [List.mem_cons, List.not_mem_nil, or_false, forall_eq_or_imp, forall_eq]
    exact ⟨key 0 (by norm_num), key 1 (by norm_num), key 2 (by norm_num)⟩

/-- Regressions on data without zero covariances have weights other than zero. -/
theorem regressions_weights {A : Adj p} {S : Matrix (Fin p) (Fin p) ℝ} {m : LModel p 0 1} (h : Regressions A S m) (hS : ∀ i j, S i j ≠ 0)
    (hA : ∃ i j, A i j ≠ 0) : m.B ≠ 0 := by
  obtain ⟨i, j, hij⟩ := hA
  intro hB
  have := h.normal i j hij
  simp [hB] at this
  exact hS j i this.symm

/-- The runs with pruning, for data that are good. -/
theorem prune_returns (E : FitEnv p 1) (hE : CodeEnv E) (hblind : ∀ k, Blind (E.rng 42 k)) (hp : 2 ≤ p)
    {X : Fin 1 → ℕ → Ω → Fin p → ℝ} {N : Fin 1 → ℕ} {a b c : Rat} (ha : 0 < a)
    (hb : 0 < b) (hc : 0 < c) (hs : a + b + c = 1) {ω : Ω} (hω : ∀ k : Fin 1, ∀ i < 3, p + 1 ≤ (foldRows (E.rng 42 k) a b c (N k) i).length ∧
      (npCov (rowsOf (X k) (foldRows (E.rng 42 k) a b c (N k) i) ω)).PosDef ∧ ∀ x y, npCov (rowsOf (X k) (foldRows (E.rng 42 k) a b c (N k) i) ω) x y ≠ 0)
    (candidates : List (Adj p)) (hne : candidates ≠ []) (hG : ∀ G ∈ candidates, Nonneg G ∧ Acyclic G) (rs : Int) :
    ∃ r, equivalenceClass E candidates (fun k => rowsOf (X k) (List.range (N k)) ω) true true (some [0]) [a, b, c] rs = .ok r := by
  obtain ⟨hcov, harg, svd, num, cfg, u, v, hfit, hlib, h1, h2, h3, h4⟩ := hE
  have key : ∀ i < 3, GoodData (foldData npCov (List.ofFn fun k => rowsOf (X k) (foldRows (E.rng 42 k) a b c (N k) i) ω) 1) := fun i hi =>
    goodData_rows one_pos (fun k => by have := (hω k i hi).1; omega) (fun k => (hω k i hi).2.1)
  refine C72_cvx E svd num cfg u v hfit (by omega) candidates hne hG _ true [0] (by simp) (by simp) _ rs _ _ _
    (splitData_rows (E.rng 42) hblind ha.le hb.le hc.le hs X N ω) ?_ ?_ harg (hlib ⟨0, 0⟩).cvx (fun A => cvxFeasible_of_optimal ((hlib _).opt A)) h1 h2 h3 h4 ?_
  · intro s hs'
    obtain ⟨k, rfl⟩ := List.mem_ofFn.1 hs'
    have := (hω k 0 (by norm_num)).1
    simp only [rowsOf, List.length_map]
    omega
  · rw [hcov]
    simp only [List.mem_cons, List.not_mem_nil, or_false, forall_eq_or_imp, forall_eq]
    exact ⟨key 0 (by norm_num), key 1 (by norm_num), key 2 (by norm_num)⟩
  · intro _ h hh G hGm n H m s hH hsub hm hedge
    rw [List.mem_singleton] at hh
    subst hh
    rw [hcov, hfit] at hm
    obtain ⟨-, m', rfl, hr, -⟩ := fitted_regressions hH (key 0 (by norm_num)) (hlib _) ⟨n, m, hm, Or.inl rfl⟩
    refine regressions_weights hr (fun i j => ?_) hedge
    simpa [foldData] using (hω 0 0 (by norm_num)).2.2 i j

/-- C127, `prune_edges=True`: with one environment and without latents almost all runs return as well. -/
theorem C127_prune_returns (E : FitEnv p 1) (hE : CodeEnv E) (hblind : ∀ k, Blind (E.rng 42 k)) (hp : 2 ≤ p)
    (candidates : List (Adj p)) (hne : candidates ≠ []) (hG : ∀ G ∈ candidates, Nonneg G ∧ Acyclic G) (rs : Int)
    {X : Fin 1 → ℕ → Ω → Fin p → ℝ} {N : Fin 1 → ℕ} (hX : HasDensity μ X N) {a b c : Rat} (ha : 0 < a)
    (hb : 0 < b) (hc : 0 < c) (hs : a + b + c = 1) (hN : ∀ k, ∀ x ∈ [a, b, c], (p : Rat) + 2 ≤ N k * x) :
    ∀ᵐ ω ∂μ, ∃ r, equivalenceClass E candidates (fun k => rowsOf (X k) (List.range (N k)) ω) true true (some [0]) [a, b, c] rs = .ok r := by
  filter_upwards [folds_ae hX (by omega) (E.rng 42) ha hb hc hs hN] with ω hω
  exact prune_returns E hE hblind hp ha hb hc hs hω candidates hne hG rs

/-- C127, `equivalence_class_w_ges`: if GES returns PDAGs that have extensions, almost all runs return, with one environment and without latents. -/
theorem C127_ges_returns (E : FitEnv p 1) (hE : CodeEnv E) (hblind : ∀ k, Blind (E.rng 42 k)) (hp : 2 ≤ p)
    (hges : ∀ s, ZeroOne (E.gesFit s) ∧ ∃ D, IsExtension D (E.gesFit s)) (rs : Int)
    {X : Fin 1 → ℕ → Ω → Fin p → ℝ} {N : Fin 1 → ℕ} (hX : HasDensity μ X N) {a b c : Rat} (ha : 0 < a)
    (hb : 0 < b) (hc : 0 < c) (hs : a + b + c = 1) (hN : ∀ k, ∀ x ∈ [a, b, c], (p : Rat) + 2 ≤ N k * x) :
    ∀ᵐ ω ∂μ, ∃ r, equivalenceClassGes E (fun k => rowsOf (X k) (List.range (N k)) ω) true (some [0]) [a, b, c] rs = .ok r := by
  filter_upwards [folds_ae hX (by omega) (E.rng 42) ha hb hc hs hN] with ω hω
  have hsplit := splitData_rows (E.rng 42) hblind ha.le hb.le hc.le hs X N ω
  set training := List.ofFn fun k => rowsOf (X k) (foldRows (E.rng 42 k) a b c (N k) 0) ω
  obtain ⟨h01, D, hD⟩ := hges training.flatten
  have hc' : (∃ i j, UndEdge (E.gesFit training.flatten) i j) ∨ Acyclic (E.gesFit training.flatten) := by
    by_cases hu : ∃ i j, UndEdge (E.gesFit training.flatten) i j
    · exact Or.inl hu
    · obtain ⟨graphs, g1, -, g3⟩ := allDags_ext E.it h01 ⟨D, hD⟩
      rw [allDags_none E.it h01 hD.noLoops hu] at g1
      cases g1
      exact Or.inr ((g3 _).1 (by simp)).2.1
  obtain ⟨L, -, l2, l3⟩ := C61_ges E one_pos _ true (some [0]) [a, b, c] rs _ _ _ hsplit h01 hD.noLoops hc'
  rw [l3]
  refine prune_returns E hE hblind hp ha hb hc hs hω L ?_ ?_ rs
  · have hme := markovEquiv_support D
    refine List.ne_nil_of_mem ((l2 (support D)).2 ⟨support_zeroOne D, acyclic_congr (fun i j => edge_support.symm) hD.1,
      fun i j => (hme.1 i j).symm.trans (hD.2.1 i j), fun i c j => (hme.2 i c j).symm.trans (hD.2.2.1 i c j), fun i j h => edge_support.2 (hD.2.2.2 i j h)⟩)
  · intro G hGm
    obtain ⟨k1, k2⟩ := (l2 G).1 hGm
    exact ⟨fun i j => by rcases k1 i j with hh | hh <;> rw [hh]; norm_num, k2.1⟩

end Verif
