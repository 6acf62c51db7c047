import Verif.Props.Inconsistent
import Verif.Props.LastEnv

/-!
# C124: variables that do not change are declared targets, however large the samples are
-/

namespace Verif

open Spec Matrix MeasureTheory ProbabilityTheory Filter Topology

variable {p e : Nat}

/-! ## Independent blocks -/

section Blocks

variable {Ω : Type} [MeasurableSpace Ω] {μ : Measure Ω}

omit [MeasurableSpace Ω] in
theorem sigmaOf_mono {ι : Type} (f : ι → Ω → ℝ) {W W' : Set ι} (h : W ⊆ W') : sigmaOf f W ≤ sigmaOf f W' :=
  iSup₂_le fun x hx => le_iSup₂ (f := fun x (_ : x ∈ W') => MeasurableSpace.comap (f x) inferInstance) x (h hx)

/-- Events that depend on different ones of independent random variables. -/
theorem blocks_independent [IsProbabilityMeasure μ] {ι κ : Type} {f : ι → Ω → ℝ} (hf : ∀ x, Measurable (f x)) (h : iIndepFun f μ) (W : κ → Set ι)
    (hW : ∀ x y, x ≠ y → Disjoint (W x) (W y)) (s : κ → Set Ω) (hs : ∀ x, MeasurableSet[sigmaOf f (W x)] (s x)) (T : Finset κ) :
    μ (⋂ x ∈ T, s x) = ∏ x ∈ T, μ (s x) := by
  classical
  induction T using Finset.induction_on with
  | empty => simp
  | insert x T hx ih =>
    rw [Finset.set_biInter_insert, Finset.prod_insert hx, ← ih]
    refine (Indep_iff _ _ _).1 (sigmaOf_indep hf h (W x)) _ _ (hs x) ?_
    refine @Finset.measurableSet_biInter Ω κ (sigmaOf f (W x)ᶜ) _ T fun y hy => ?_
    exact sigmaOf_mono f (fun z hz hz' => Set.disjoint_left.1 (hW x y fun hc => hx (hc ▸ hy)) hz' hz) _ (hs y)

/-- The errors of all sample variances, in two parts of every sample, are independent: what each of them does with a probability that stays away from
zero they also do together with such a probability. -/
theorem errors_joint [IsProbabilityMeasure μ] {X : Fin e → ℕ → Ω → Fin p → ℝ} {c : Fin e → Fin p → ℝ} (hX : IndepEnvs μ X c)
    (J : Fin e → Fin 2 → ℕ → List ℕ) (hdis : ∀ k n, (J k 0 n).Disjoint (J k 1 n)) (U : Fin e → Fin p → Fin 2 → Set ℝ)
    (hU : ∀ k i f, MeasurableSet (U k i f))
    (h : ∀ k i f, ∃ η > 0, ∀ᶠ n in atTop, η < μ {ω | scaledError (X k) (c k i) i (J k f n) ω ∈ U k i f}) :
    ∃ η > 0, η < ⊤ ∧ ∀ᶠ n in atTop, η ≤ μ {ω | ∀ k i f, scaledError (X k) (c k i) i (J k f n) ω ∈ U k i f} := by
  have hcoord : ∀ k a i, Measurable fun ω => X k a ω i := fun k a i => (measurable_pi_apply i).comp ((hX.iid k).meas a)
  choose η hη hev using h
  obtain ⟨g, hg⟩ : ∃ g : Fin e × ℕ × Fin p → Ω → ℝ, g = fun x ω => X x.1 x.2.1 ω x.2.2 := ⟨_, rfl⟩
  have hgi : iIndepFun g μ := by rw [hg]; exact hX.indep
  have hgm : ∀ x, Measurable (g x) := fun x => by rw [hg]; exact hcoord _ _ _
  refine ⟨∏ x : Fin e × Fin p × Fin 2, η x.1 x.2.1 x.2.2, ?_, ?_, ?_⟩
  · rw [gt_iff_lt, pos_iff_ne_zero, Finset.prod_ne_zero_iff]
    exact fun x _ => (hη _ _ _).ne'
  · refine ENNReal.prod_lt_top fun x _ => ?_
    obtain ⟨n, hn⟩ := (hev x.1 x.2.1 x.2.2).exists
    exact hn.trans_le le_top
  · have hall : ∀ᶠ n in atTop, ∀ x : Fin e × Fin p × Fin 2, η x.1 x.2.1 x.2.2 < μ {ω | scaledError (X x.1) (c x.1 x.2.1) x.2.1 (J x.1 x.2.2 n) ω ∈ U x.1 x.2.1 x.2.2} :=
      eventually_all.2 fun x => hev _ _ _
    filter_upwards [hall] with n hn
    have hblocks := blocks_independent hgm hgi (fun x : Fin e × Fin p × Fin 2 => {y : Fin e × ℕ × Fin p | y.1 = x.1 ∧ y.2.2 = x.2.1 ∧ y.2.1 ∈ J x.1 x.2.2 n})
      (by
        rintro ⟨k, i, f⟩ ⟨k', i', f'⟩ hne
        rw [Set.disjoint_left]
        rintro ⟨y1, y2, y3⟩ ⟨a1, a2, a3⟩ ⟨b1, b2, b3⟩
        simp only at a1 a2 a3 b1 b2 b3
        subst a1 a2 b1 b2
        have hff : f ≠ f' := fun hc => hne (by rw [hc])
        have hf0 : ∀ f : Fin 2, f = 0 ∨ f = 1 := by decide
        rcases hf0 f with rfl | rfl <;> rcases hf0 f' with rfl | rfl
        · exact hff rfl
        · exact hdis _ n a3 b3
        · exact hdis _ n b3 a3
        · exact hff rfl)
      (fun x => {ω | scaledError (X x.1) (c x.1 x.2.1) x.2.1 (J x.1 x.2.2 n) ω ∈ U x.1 x.2.1 x.2.2})
      (by
        rintro ⟨k, i, f⟩
        have hm : Measurable[sigmaOf g {y : Fin e × ℕ × Fin p | y.1 = k ∧ y.2.2 = i ∧ y.2.1 ∈ J k f n}] (scaledError (X k) (c k i) i (J k f n)) := by
          refine @scaledError_measurable p Ω (sigmaOf g _) (X k) (c k i) i (J k f n) fun a ha => ?_
          have := sigmaOf_measurable g (W := {y : Fin e × ℕ × Fin p | y.1 = k ∧ y.2.2 = i ∧ y.2.1 ∈ J k f n}) (x := (k, a, i)) ⟨rfl, rfl, ha⟩
          rw [hg] at this ⊢
          exact this
        exact hm (hU k i f))
      Finset.univ
    have heq : {ω | ∀ k i f, scaledError (X k) (c k i) i (J k f n) ω ∈ U k i f} =
        ⋂ x ∈ (Finset.univ : Finset (Fin e × Fin p × Fin 2)), {ω | scaledError (X x.1) (c x.1 x.2.1) x.2.1 (J x.1 x.2.2 n) ω ∈ U x.1 x.2.1 x.2.2} := by
      ext ω
      simp only [Set.mem_iInter, Set.mem_ofPred_eq, Finset.mem_univ, true_imp_iff]
      exact ⟨fun h x => h _ _ _, fun h k i f => h (k, i, f)⟩
    rw [heq, hblocks]
    exact Finset.prod_le_prod' fun x _ => (hn x).le

end Blocks

/-! ## The score -/

theorem nll_upper {ν T P s : ℝ} (hν : 0 < ν) (hT : ν ≤ T) (hP : ν ≤ P) (hs : ν ≤ s) : nll T s - nll P s ≤ (s - T) ^ 2 / ν ^ 2 := by
  have h1 := nll_min (hν.trans_le hs) (hν.trans_le hP)
  have h2 := nll_above_min (hν.trans_le hs) (hν.trans_le hT)
  have h3 : (s - T) ^ 2 / (s * T) ≤ (s - T) ^ 2 / ν ^ 2 := by
    refine div_le_div_of_nonneg_left (sq_nonneg _) (by positivity) ?_
    rw [pow_two]
    exact mul_le_mul hs hT hν.le (hν.le.trans hs)
  linarith

/-- Below the observed variance a smaller variance is worse. -/
theorem nll_quadratic_below {s v w : ℝ} (hw : 0 < w) (hwv : w ≤ v) (hvs : v ≤ s) : (v - w) ^ 2 / (4 * v ^ 2) ≤ nll w s - nll v s := by
  have hv : 0 < v := hw.trans_le hwv
  obtain ⟨a, ha, hva⟩ : ∃ a, 1 ≤ a ∧ v = a ^ 2 * w := by
    refine ⟨√(v / w), ?_, ?_⟩
    · rw [Real.one_le_sqrt]
      exact (one_le_div hw).2 hwv
    · rw [Real.sq_sqrt (by positivity)]
      field_simp
  have ha0 : 0 < a := by linarith
  have hlog : Real.log v = 2 * Real.log a + Real.log w := by
    rw [hva, Real.log_mul (by positivity) hw.ne', Real.log_pow]
    norm_num
  have h1 := Real.log_le_sub_one_of_pos ha0
  have h2 : a ^ 2 - 1 ≤ s / w - s / v := by
    have : s / w - s / v = s / v * (a ^ 2 - 1) := by
      rw [hva]
      field_simp
    rw [this]
    exact le_mul_of_one_le_left (by nlinarith) ((one_le_div hv).2 hvs)
  have h3 : (v - w) ^ 2 / (4 * v ^ 2) ≤ (a - 1) ^ 2 := by
    rw [div_le_iff₀ (by positivity), hva]
    have e1 : (a ^ 2 * w - w) ^ 2 = (a - 1) ^ 2 * ((a + 1) ^ 2 * w ^ 2) := by ring
    rw [e1]
    refine mul_le_mul_of_nonneg_left ?_ (sq_nonneg _)
    have : (a + 1) ^ 2 ≤ 4 * a ^ 4 := by nlinarith [sq_nonneg (a - 1), sq_nonneg (a ^ 2 - 1)]
    nlinarith [sq_nonneg w]
  unfold nll
  nlinarith

/-- C124: common variances of the variables that are not returned as targets are together no worse than separate ones. -/
theorem lost_targets (E : FitEnv p e) (svd : Matrix (Fin p) (Fin p) ℝ → Matrix (Fin p) (Fin p) ℝ × (Fin p → ℝ)) (num : NumLib p e)
    (cfg : ScoreCfg) (u v : Nat → Nat → Nat → Fin (p * p) → ℝ) (hE : E.fit = codeFit E.it svd num cfg u v) (hcvx : cfg.solver = .cvx)
    (harg : ∀ f, IsArgsort f (E.argsort f)) (candidates : List (Adj p)) (hG : ∀ G ∈ candidates, ∀ i j, G i j = 0)
    (data : Fin e → Sample p) (solverKnown pruneEdges : Bool) (folds : List Rat) (rs : Int)
    (training testG testI : List (Sample p)) (hsplit : splitData (E.rng 42) (List.ofFn data) folds = .ok [training, testG, testI])
    (hd : GoodData (foldData E.cov training e)) (ht : GoodData (foldData E.cov testI e)) (P : Adj p) (I : Finset (Fin p)) (m : AnyModel p e)
    (h : equivalenceClass E candidates data solverKnown pruneEdges (some [0]) folds rs = .ok (P, I, m)) :
    0 ≤ ∑ j ∈ Iᶜ, gain (foldData E.cov training e) (foldData E.cov testI e) j := by
  obtain ⟨s, hmain⟩ : ∃ s, fitMain E data solverKnown (some [0]) pruneEdges folds none none (some candidates) 42 = .ok (m, I, s) := by
    unfold equivalenceClass withIcpdag at h
    split at h
    · simp at h
    · rename_i m' I' s' hm'
      split at h
      · simp at h
      · cases h
        exact ⟨_, hm'⟩
  have hfit : ∀ d h, GoodFit (E.fit d h) := fun d h => by
    rw [hE]
    exact codeFit_good _ _ _ _ _ _ _ _ (fun hc => by rw [hcvx] at hc; simp at hc)
  have hlat : ∀ d h n A I m s, E.fit d h n A I = .ok (m, s) → m.1 = h := by
    intro d h n A I m s hm
    rw [hE] at hm
    exact codeFit_latents hm
  obtain ⟨_, _, _, graphs, ns', z1, z2, z3, z4⟩ := fitMain_spec hfit hlat harg hmain
  rw [hsplit] at z1
  cases z1
  cases z2
  cases z3
  obtain ⟨q1, ⟨G', g1, g2, -⟩, -, -, -, ⟨m0, s0, order, -, o2, -, -, ⟨sf, o5⟩, o6, o7⟩⟩ := z4 fun G h i j => by rw [hG G h]
  have hm0 : m.1 = 0 := List.mem_singleton.1 q1
  have hmA : ∀ i j, m.A i j = 0 := fun a b => by
    rcases g2 a b with hc | hc
    · rw [hc]; exact hG G' g1 a b
    · exact hc
  obtain ⟨mi, sf', si, b1, b2, b3⟩ := o7 0 (Nat.zero_le _)
  have hfull : Finset.univ \ (order.take 0).toFinset = Finset.univ := by simp
  rw [hfull] at b1
  rw [hE, hm0] at o5 b1
  rw [fitted_empty hmA hcvx hd o5 ht] at o6
  rw [fitted_empty hmA hcvx hd b1 ht] at b2
  cases o6
  cases b2
  have g1 := score_gain (foldData E.cov training e) (foldData E.cov testI e) I
  have g2 := score_gain (foldData E.cov training e) (foldData E.cov testI e) Finset.univ
  have g3 := Finset.sum_add_sum_compl I (gain (foldData E.cov training e) (foldData E.cov testI e))
  rcases b3 with hc | ⟨x, y, hx, hy, hxy⟩
  · simp at hc
  · cases hx
    cases hy
    linarith

theorem pooledVar_equal {n : Fin e → Nat} {L : ℕ} (hL : 0 < L) (hn : ∀ k, n k = L) (S : Fin e → Matrix (Fin p) (Fin p) ℝ) (j : Fin p) :
    pooledVar n S j = (∑ k, S k j j) / e := by
  have h0 : (L : ℝ) ≠ 0 := by exact_mod_cast hL.ne'
  unfold pooledVar
  simp only [hn, ← Finset.mul_sum, Finset.sum_const, Finset.card_univ, Fintype.card_fin, nsmul_eq_mul]
  rw [mul_comm (e : ℝ), mul_div_mul_left _ _ h0]

/-- The error from which a separate variance looks better. -/
noncomputable def spuriousError (p e : Nat) (ν V K : ℝ) : ℝ := K + 1 + 64 * e * p * K ^ 2 * V ^ 2 / ν ^ 2

/-- If variable `j` has the same variance in all environments, and in the last one the training variance and the test variance are both much too large,
the latter even more so, then a separate variance of `j` looks better than a common one. -/
theorem gain_neg (d t : Data p e) {last : Fin e} (hlast : last.val + 1 = e) (he : 2 ≤ e) {L L' : ℕ} (hL : 0 < L) (hL' : 0 < L')
    (hn : ∀ k, d.nObs k = L) (hn' : ∀ k, t.nObs k = L') {ν V K a : ℝ} (hν : 0 < ν) (ha : 0 < a)
    (hd1 : ∀ k i, ν ≤ d.covs k i i ∧ d.covs k i i ≤ V) (ht1 : ∀ k i, ν ≤ t.covs k i i ∧ t.covs k i i ≤ V) (c : Fin e → Fin p → ℝ) (j : Fin p)
    (hc : ∀ k, c k j = c last j) (ht2 : ∀ k i, ¬ (k = last ∧ i = j) → |t.covs k i i - c k i| ≤ K * a)
    (hd2 : ∀ k i, ¬ (k = last ∧ i = j) → |d.covs k i i - c k i| ≤ K * a) (hd3 : spuriousError p e ν V K * a ≤ d.covs last j j - c last j)
    (ht3 : d.covs last j j ≤ t.covs last j j) (I : Finset (Fin p)) (hI : j ∈ I) : ∑ i ∈ I, gain d t i < 0 := by
  have he0 : (0 : ℝ) < e := by exact_mod_cast (by omega : 0 < e)
  have he2 : (2 : ℝ) ≤ e := by exact_mod_cast he
  have hwpos : ∀ k, 0 ≤ codeWeight t.nObs k := fun k => (codeWeight_pos (by omega) (fun k => by rw [hn']; exact hL') k).le
  have hwsum : ∑ k, codeWeight t.nObs k ≤ 1 := codeWeight_sum_le (by omega) (fun k => by rw [hn']; exact hL')
  have hwlast : codeWeight t.nObs last = 1 / e := by
    rw [codeWeight_last hlast]
    simp only [hn', Finset.sum_const, Finset.card_univ, Fintype.card_fin, nsmul_eq_mul]
    have : (L' : ℝ) ≠ 0 := by exact_mod_cast hL'.ne'
    field_simp
  have hV : 0 < V := hν.trans_le ((hd1 last j).1.trans (hd1 last j).2)
  have hpool : ∀ i, ν ≤ pooledVar d.nObs d.covs i := by
    intro i
    rw [pooledVar_equal hL hn, le_div_iff₀ he0]
    have := Finset.card_nsmul_le_sum (Finset.univ : Finset (Fin e)) (fun k => d.covs k i i) ν fun k _ => (hd1 k i).1
    simpa [mul_comm] using this
  set Q : ℝ := 4 * K ^ 2 * a ^ 2 / ν ^ 2 with hQ
  have hQ0 : 0 ≤ Q := by positivity
  have hterm : ∀ k i, ¬ (k = last ∧ i = j) → nll (d.covs k i i) (t.covs k i i) - nll (pooledVar d.nObs d.covs i) (t.covs k i i) ≤ Q := by
    intro k i hki
    refine (nll_upper hν (hd1 k i).1 (hpool i) (ht1 k i).1).trans ?_
    rw [hQ]
    refine div_le_div_of_nonneg_right ?_ (by positivity)
    have h1 := abs_le.1 (ht2 k i hki)
    have h2 := abs_le.1 (hd2 k i hki)
    have h3 : |t.covs k i i - d.covs k i i| ≤ 2 * (K * a) := by
      rw [abs_le]
      constructor <;> linarith [h1.1, h1.2, h2.1, h2.2]
    have := pow_le_pow_left₀ (abs_nonneg _) h3 2
    rw [sq_abs] at this
    linarith
  have hother : ∀ i, i ≠ j → gain d t i ≤ Q := by
    intro i hij
    unfold gain
    calc ∑ k, codeWeight t.nObs k * (nll (d.covs k i i) (t.covs k i i) - nll (pooledVar d.nObs d.covs i) (t.covs k i i))
        ≤ ∑ k, codeWeight t.nObs k * Q := Finset.sum_le_sum fun k _ => mul_le_mul_of_nonneg_left (hterm k i (by simp [hij])) (hwpos k)
      _ = (∑ k, codeWeight t.nObs k) * Q := (Finset.sum_mul _ _ _).symm
      _ ≤ Q := by nlinarith
  set M := spuriousError p e ν V K with hM
  have hMK : 1 + 64 * e * p * K ^ 2 * V ^ 2 / ν ^ 2 = M - K := by
    rw [hM]
    unfold spuriousError
    ring
  have hY : 0 ≤ 64 * e * p * K ^ 2 * V ^ 2 / ν ^ 2 := by positivity
  -- the common variance is too small
  have hTP : (M - K) * a / 2 ≤ d.covs last j j - pooledVar d.nObs d.covs j := by
    have h1 : ∀ k, k ≠ last → (M - K) * a ≤ d.covs last j j - d.covs k j j := by
      intro k hk
      have h2 := abs_le.1 (hd2 k j (by simp [hk]))
      rw [hc k] at h2
      linarith [h2.2]
    have h2 : ∑ k, (d.covs last j j - d.covs k j j) = ∑ k ∈ Finset.univ.erase last, (d.covs last j j - d.covs k j j) := by
      rw [← Finset.add_sum_erase Finset.univ _ (Finset.mem_univ last)]
      simp
    have h3 := Finset.card_nsmul_le_sum (Finset.univ.erase last) (fun k => d.covs last j j - d.covs k j j) ((M - K) * a)
      fun k hk => h1 k (Finset.ne_of_mem_erase hk)
    rw [← h2, Finset.card_erase_of_mem (Finset.mem_univ _), Finset.card_univ, Fintype.card_fin, nsmul_eq_mul, Finset.sum_sub_distrib, Finset.sum_const,
      Finset.card_univ, Fintype.card_fin, nsmul_eq_mul, Nat.cast_sub (by omega), Nat.cast_one] at h3
    rw [pooledVar_equal hL hn]
    have h4 : d.covs last j j - (∑ k, d.covs k j j) / e = (e * d.covs last j j - ∑ k, d.covs k j j) / e := by
      field_simp
    rw [h4, le_div_iff₀ he0]
    have h5 : 0 ≤ (M - K) * a := mul_nonneg (by linarith) ha.le
    nlinarith
  have hMKa : 0 ≤ (M - K) * a / 2 := by
    have : 0 ≤ (M - K) * a := mul_nonneg (by linarith) ha.le
    linarith
  have hlastterm : nll (d.covs last j j) (t.covs last j j) - nll (pooledVar d.nObs d.covs j) (t.covs last j j) ≤ -((M - K) ^ 2 * a ^ 2 / (16 * V ^ 2)) := by
    have h1 := nll_quadratic_below (hν.trans_le (hpool j)) (show pooledVar d.nObs d.covs j ≤ d.covs last j j by linarith) ht3
    have h2 : (M - K) ^ 2 * a ^ 2 / (16 * V ^ 2) ≤ (d.covs last j j - pooledVar d.nObs d.covs j) ^ 2 / (4 * d.covs last j j ^ 2) := by
      have e1 : (M - K) ^ 2 * a ^ 2 / (16 * V ^ 2) = ((M - K) * a / 2) ^ 2 / (4 * V ^ 2) := by
        field_simp
        ring
      rw [e1]
      have hT : 0 < d.covs last j j := hν.trans_le (hd1 last j).1
      refine div_le_div₀ (sq_nonneg _) (pow_le_pow_left₀ hMKa hTP 2) (by positivity) ?_
      have := pow_le_pow_left₀ hT.le (hd1 last j).2 2
      linarith
    linarith
  have hj : gain d t j ≤ Q - 1 / e * ((M - K) ^ 2 * a ^ 2 / (16 * V ^ 2)) := by
    unfold gain
    rw [← Finset.add_sum_erase Finset.univ _ (Finset.mem_univ last), hwlast]
    have h1 : ∑ k ∈ Finset.univ.erase last, codeWeight t.nObs k * (nll (d.covs k j j) (t.covs k j j) - nll (pooledVar d.nObs d.covs j) (t.covs k j j)) ≤ Q := by
      calc _ ≤ ∑ k ∈ Finset.univ.erase last, codeWeight t.nObs k * Q := Finset.sum_le_sum fun k hk =>
            mul_le_mul_of_nonneg_left (hterm k j (by simp [Finset.ne_of_mem_erase hk])) (hwpos k)
        _ = (∑ k ∈ Finset.univ.erase last, codeWeight t.nObs k) * Q := (Finset.sum_mul _ _ _).symm
        _ ≤ (∑ k, codeWeight t.nObs k) * Q := mul_le_mul_of_nonneg_right (Finset.sum_le_sum_of_subset_of_nonneg (Finset.erase_subset _ _) fun k _ _ => hwpos k) hQ0
        _ ≤ Q := by nlinarith
    have h2 := mul_le_mul_of_nonneg_left hlastterm (show 0 ≤ 1 / (e : ℝ) by positivity)
    linarith
  have hsum : ∑ i ∈ I, gain d t i ≤ p * Q - 1 / e * ((M - K) ^ 2 * a ^ 2 / (16 * V ^ 2)) := by
    rw [← Finset.add_sum_erase I _ hI]
    have h1 : ∑ i ∈ I.erase j, gain d t i ≤ (I.erase j).card • Q := Finset.sum_le_card_nsmul _ _ _ fun i hi => hother i (Finset.ne_of_mem_erase hi)
    have h2 : ((I.erase j).card : ℝ) + 1 ≤ p := by
      have h3 := Finset.card_le_univ I
      rw [Fintype.card_fin] at h3
      have h4 := Finset.card_erase_add_one hI
      exact_mod_cast h4 ▸ h3
    rw [nsmul_eq_mul] at h1
    nlinarith
  refine hsum.trans_lt ?_
  have hkey : p * (4 * K ^ 2 / ν ^ 2) < 1 / e * ((M - K) ^ 2 / (16 * V ^ 2)) := by
    rw [← hMK]
    set Y := 64 * e * p * K ^ 2 * V ^ 2 / ν ^ 2 with hYd
    have e1 : p * (4 * K ^ 2 / ν ^ 2) = 1 / e * (Y / (16 * V ^ 2)) := by
      rw [hYd]
      field_simp
      ring
    rw [e1]
    refine mul_lt_mul_of_pos_left (div_lt_div_of_pos_right ?_ (by positivity)) (by positivity)
    nlinarith
  have hfin := mul_lt_mul_of_pos_right hkey (show 0 < a ^ 2 by positivity)
  have e1 : p * (4 * K ^ 2 / ν ^ 2) * a ^ 2 = p * Q := by rw [hQ]; ring
  have e2 : 1 / e * ((M - K) ^ 2 / (16 * V ^ 2)) * a ^ 2 = 1 / e * ((M - K) ^ 2 * a ^ 2 / (16 * V ^ 2)) := by ring
  rw [e1, e2] at hfin
  linarith

/-! ## The run -/

/-- The result of a run in which the training variance and the test variance of one variable have large errors. -/
theorem run_keeps (E : FitEnv p e) (hE : CvxEnv E) (hp : p ≠ 0) (he : 2 ≤ e) (candidates : List (Adj p)) (hne : candidates ≠ [])
    (hG : ∀ G ∈ candidates, ∀ i j, G i j = 0) (data : Fin e → Sample p) (folds : List Rat) (rs : Int) (Tr Te Ti : Fin e → Sample p)
    (hsplit : splitData (E.rng 42) (List.ofFn data) folds = .ok [List.ofFn Tr, List.ofFn Te, List.ofFn Ti])
    {L L' : ℕ} (hL : 2 ≤ L) (hL' : 2 ≤ L') (hn : ∀ k, (Tr k).length = L) (hn' : ∀ k, (Ti k).length = L') (hn1 : ∀ k, Te k ≠ [])
    {last : Fin e} (hlast : last.val + 1 = e) {c : Fin e → Fin p → ℝ} {j : Fin p} (hc : ∀ k, c k j = c last j) {ν V δ K R R' : ℝ} (hν : 0 < ν)
    (hδν : δ ≤ ν) (hR : 0 ≤ R) (hR' : 0 ≤ R') (hcν : ∀ k i, 2 * ν ≤ c k i) (hcV : ∀ k i, c k i + ν ≤ V) (hK : 0 ≤ K)
    (hpd : ∀ k (S : Matrix (Fin p) (Fin p) ℝ), S.PosSemidef → (∀ x y, |S x y - Matrix.diagonal (c k) x y| < δ) → S.PosDef)
    (hclose : ∀ s ∈ [Tr, Te, Ti], ∀ k x y, |npCov (s k) x y - Matrix.diagonal (c k) x y| < δ) (hLR : (L : ℝ) ≤ R ^ 2 * L') (hLR' : (L' : ℝ) ≤ R' ^ 2 * L)
    (hTi : ∀ k i, ¬ (k = last ∧ i = j) → |√(L' : ℝ) * (npCov (Ti k) i i - c k i)| < K)
    (hTr : ∀ k i, ¬ (k = last ∧ i = j) → |√(L : ℝ) * (npCov (Tr k) i i - c k i)| < K)
    (hbig : spuriousError p e ν V (K * (1 + R)) < √(L : ℝ) * (npCov (Tr last) j j - c last j))
    (hbig' : √(L : ℝ) * (npCov (Tr last) j j - c last j) < spuriousError p e ν V (K * (1 + R)) + 1)
    (hbigger : R' * (spuriousError p e ν V (K * (1 + R)) + 1) < √(L' : ℝ) * (npCov (Ti last) j j - c last j)) :
    ∃ P I m, equivalenceClass E candidates data true false (some [0]) folds rs = .ok (P, I, m) ∧ j ∈ I := by
  obtain ⟨hcov, harg, svd, num, cfg, u, v, hfit, hcvx, hfeas, hthr, hpsi, hit, hfl⟩ := hE
  have hLpos : (0 : ℝ) < L := by exact_mod_cast (by omega : 0 < L)
  have hLpos' : (0 : ℝ) < L' := by exact_mod_cast (by omega : 0 < L')
  have hlen : ∀ s ∈ [Tr, Te, Ti], ∀ k, 0 < (s k).length := by
    simp only [List.mem_cons, List.not_mem_nil, or_false, forall_eq_or_imp, forall_eq]
    exact ⟨fun k => by rw [hn]; omega, fun k => List.length_pos_of_ne_nil (hn1 k), fun k => by rw [hn']; omega⟩
  have hgood : ∀ s ∈ [Tr, Te, Ti], GoodData (foldData E.cov (List.ofFn s) e) := by
    intro s hs
    refine ⟨fun k => ?_, fun k => ?_, by omega⟩
    · change (E.cov ((List.ofFn s).getD k [])).PosDef
      rw [getD_ofFn, hcov]
      exact hpd k _ (C97_posSemidef _ (hlen s hs k)) (hclose s hs k)
    · change 0 < ((List.ofFn s).getD k []).length
      rw [getD_ofFn]
      exact hlen s hs k
  have hgood' : ∀ f ∈ [List.ofFn Tr, List.ofFn Te, List.ofFn Ti], GoodData (foldData E.cov f e) := by
    simp only [List.mem_cons, List.not_mem_nil, or_false, forall_eq_or_imp, forall_eq]
    exact ⟨hgood Tr (by simp), hgood Te (by simp), hgood Ti (by simp)⟩
  have hGz : ∀ G ∈ candidates, Nonneg G ∧ Acyclic G := fun G h =>
    ⟨fun i j => by rw [hG G h], acyclic_of_rank (f := fun _ => 0) fun i j hij => absurd (hG G h i j) hij⟩
  obtain ⟨⟨P, I, m⟩, hr⟩ := C72_cvx E svd num cfg u v hfit hp candidates hne hGz data false [0] (by simp) (by simp)
    folds rs _ _ _ hsplit (fun s hs => by
      obtain ⟨k, rfl⟩ := (List.mem_ofFn' _ _).1 hs
      rw [hn]
      omega) hgood' harg hcvx (fun A => hfeas A _) hthr hpsi hit hfl (by simp)
  refine ⟨P, I, m, hr, ?_⟩
  by_contra hj
  have hlost := lost_targets E svd num cfg u v hfit hcvx harg candidates hG data true false folds rs _ _ _ hsplit (hgood Tr (by simp)) (hgood Ti (by simp)) P I m hr
  refine absurd hlost (not_le.2 ?_)
  have hsL : 0 < √(L : ℝ) := Real.sqrt_pos.2 hLpos
  have hsL' : 0 < √(L' : ℝ) := Real.sqrt_pos.2 hLpos'
  have hLa' : 1 / √(L' : ℝ) ≤ R * (1 / √(L : ℝ)) := by
    rw [mul_one_div, div_le_div_iff₀ hsL' hsL, one_mul, ← pow_le_pow_iff_left₀ hsL.le (by positivity) two_ne_zero, mul_pow, Real.sq_sqrt hLpos.le,
      Real.sq_sqrt hLpos'.le]
    exact hLR
  have hLb : √(L' : ℝ) ≤ R' * √(L : ℝ) := by
    rw [← pow_le_pow_iff_left₀ hsL'.le (by positivity) two_ne_zero, mul_pow, Real.sq_sqrt hLpos.le, Real.sq_sqrt hLpos'.le]
    exact hLR'
  have hbound : ∀ s ∈ [Tr, Te, Ti], ∀ k i, ν ≤ npCov (s k) i i ∧ npCov (s k) i i ≤ V := by
    intro s hs k i
    have h1 := hclose s hs k i i
    rw [Matrix.diagonal_apply_eq, abs_lt] at h1
    have h2 := hcν k i
    have h3 := hcV k i
    constructor <;> linarith [h1.1, h1.2]
  have hdc : ∀ (s : Fin e → Sample p) k, (foldData E.cov (List.ofFn s) e).covs k = npCov (s k) := by
    intro s k
    change E.cov ((List.ofFn s).getD k []) = _
    rw [getD_ofFn, hcov]
  have hdn : ∀ (s : Fin e → Sample p) k, (foldData E.cov (List.ofFn s) e).nObs k = (s k).length := by
    intro s k
    change ((List.ofFn s).getD k []).length = _
    rw [getD_ofFn]
  refine gain_neg (foldData E.cov (List.ofFn Tr) e) (foldData E.cov (List.ofFn Ti) e) hlast he (L := L) (L' := L') (by omega) (by omega)
    (fun k => by rw [hdn, hn]) (fun k => by rw [hdn, hn']) (ν := ν) (V := V) (K := K * (1 + R)) (a := 1 / √(L : ℝ)) hν (by positivity)
    (fun k i => by rw [hdc]; exact hbound Tr (by simp) k i) (fun k i => by rw [hdc]; exact hbound Ti (by simp) k i) c j hc ?_ ?_ ?_ ?_ _ (by simpa using hj)
  · intro k i hki
    rw [hdc]
    have h1 := hTi k i hki
    rw [abs_mul, abs_of_pos hsL'] at h1
    have h2 : |npCov (Ti k) i i - c k i| ≤ K * (1 / √(L' : ℝ)) := by
      rw [mul_one_div, le_div_iff₀ hsL', mul_comm]
      exact h1.le
    have h3 := mul_le_mul_of_nonneg_left hLa' hK
    have h4 : 0 ≤ K * (1 / √(L : ℝ)) := by positivity
    linarith
  · intro k i hki
    rw [hdc]
    have h1 := hTr k i hki
    rw [abs_mul, abs_of_pos hsL] at h1
    have h2 : |npCov (Tr k) i i - c k i| ≤ K * (1 / √(L : ℝ)) := by
      rw [mul_one_div, le_div_iff₀ hsL, mul_comm]
      exact h1.le
    have h4 : 0 ≤ K * R * (1 / √(L : ℝ)) := by positivity
    linarith
  · rw [hdc, mul_one_div, div_le_iff₀ hsL, mul_comm _ (√(L : ℝ))]
    exact hbig.le
  · rw [hdc, hdc]
    have hpos : 0 ≤ npCov (Ti last) j j - c last j := by
      have h1 : 0 ≤ spuriousError p e ν V (K * (1 + R)) := by
        unfold spuriousError
        positivity
      have h2 : 0 < √(L' : ℝ) * (npCov (Ti last) j j - c last j) := lt_of_le_of_lt (by positivity) hbigger
      exact (pos_of_mul_pos_right h2 hsL'.le).le
    have h1 : R' * (√(L : ℝ) * (npCov (Tr last) j j - c last j)) ≤ R' * (√(L : ℝ) * (npCov (Ti last) j j - c last j)) := by
      calc R' * (√(L : ℝ) * (npCov (Tr last) j j - c last j)) ≤ R' * (spuriousError p e ν V (K * (1 + R)) + 1) := mul_le_mul_of_nonneg_left hbig'.le hR'
        _ ≤ √(L' : ℝ) * (npCov (Ti last) j j - c last j) := hbigger.le
        _ ≤ R' * √(L : ℝ) * (npCov (Ti last) j j - c last j) := mul_le_mul_of_nonneg_right hLb hpos
        _ = R' * (√(L : ℝ) * (npCov (Ti last) j j - c last j)) := mul_assoc _ _ _
    have hR0 : 0 < R' := by
      rcases hR'.lt_or_eq with h | h
      · exact h
      · rw [← h] at hLb
        linarith
    have h2 := le_of_mul_le_mul_left (le_of_mul_le_mul_left h1 hR0) hsL
    linarith

/-- C124: with the graph without edges the targets `I` can explain independent variables with variances `c` exactly if they contain all variables whose
variance changes. -/
theorem C124_truth {c : Fin e → Fin p → ℝ} (hc : ∀ k i, 0 < c k i) {A : Adj p} (hA : ∀ i j, A i j = 0) (I : Finset (Fin p)) :
    EntailedBy I A (fun k => Matrix.diagonal (c k)) ↔ ∀ i, (∃ k k', c k i ≠ c k' i) → i ∈ I := by
  constructor
  · rintro ⟨B, w, b1, b2, b3, b4⟩ i ⟨k, k', hk⟩
    by_contra hi
    have hB : B = 0 := by
      ext a b
      exact b1 a b (hA a b)
    have : ∀ k, c k i = w k i := by
      intro k
      have := b4 k
      unfold Entails at this
      rw [hB] at this
      simp only [Matrix.transpose_zero, sub_zero, Matrix.one_mul, Matrix.transpose_one, Matrix.mul_one] at this
      have := congrFun (congrFun this i) i
      rwa [Matrix.diagonal_apply_eq, Matrix.diagonal_apply_eq] at this
    exact hk (by rw [this k, this k', b3 k k' i hi])
  · intro h
    refine ⟨0, c, fun _ _ _ => rfl, hc, fun k k' i hi => ?_, fun k => ?_⟩
    · by_contra hk
      exact hi (h i ⟨k, k', hk⟩)
    · unfold Entails
      simp

variable {Ω : Type} [MeasurableSpace Ω] {μ : Measure Ω}

/-- C124: although variable `j` has the same variance in all environments, the probability that it is among the targets that `equivalence_class` returns
stays away from zero, however large the samples are. -/
theorem C124_false_target [IsProbabilityMeasure μ] {X : Fin e → ℕ → Ω → Fin p → ℝ} {c : Fin e → Fin p → ℝ} (hX : IndepEnvs μ X c)
    (hcpos : ∀ k i, 0 < c k i) (he : 2 ≤ e) {last : Fin e} (hlast : last.val + 1 = e) {j : Fin p} (hc : ∀ k, c k j = c last j)
    (hv : sqVar μ (fun ω => X last 0 ω j) ≠ 0) (candidates : List (Adj p)) (hne : candidates ≠ [])
    (hG : ∀ G ∈ candidates, ∀ i j, G i j = 0) (E : FitEnv p e) (hE : CvxEnv E) (hblind : ∀ k, Blind (E.rng 42 k)) {r₀ r₁ r₂ : Rat} (h0 : 0 < r₀)
    (h1 : 0 < r₁) (h2 : 0 < r₂) (hs : r₀ + r₁ + r₂ = 1) (rs : Int) :
    ∃ η > 0, ∀ᶠ n in atTop, η ≤ μ {ω | ∃ P I m, equivalenceClass E candidates (fun k => rowsOf (X k) (List.range n) ω) true false (some [0])
      [r₀, r₁, r₂] rs = .ok (P, I, m) ∧ j ∈ I} := by
  have : Nonempty (Fin e × Fin p) := ⟨(last, j)⟩
  have hp : p ≠ 0 := by
    rintro rfl
    exact j.elim0
  -- bounds for the variances
  obtain ⟨x0, hx0⟩ := Finite.exists_min fun x : Fin e × Fin p => c x.1 x.2
  obtain ⟨x1, hx1⟩ := Finite.exists_max fun x : Fin e × Fin p => c x.1 x.2
  have hν : 0 < c x0.1 x0.2 / 2 := half_pos (hcpos _ _)
  -- positive definiteness
  obtain ⟨δ, hδ, hpd⟩ := exists_uniform (ι := Fin e)
    (P := fun k δ => ∀ (S : Matrix (Fin p) (Fin p) ℝ), S.PosSemidef → (∀ x y, |S x y - Matrix.diagonal (c k) x y| < δ) → S.PosDef)
    (fun k => posDef_near (Matrix.PosDef.diagonal (hcpos k))) (fun k δ δ' _ hle h S hS hw => h S hS fun i j => (hw i j).trans_le hle)
  have hδ' : 0 < min δ (c x0.1 x0.2 / 2) := lt_min hδ hν
  have hr0 : (0 : ℝ) < r₀ := by exact_mod_cast h0
  have hr2 : (0 : ℝ) < r₂ := by exact_mod_cast h2
  -- the errors
  have hlen : ∀ k, ∀ i < 3, Tendsto (fun n => (foldRows (E.rng 42 k) r₀ r₁ r₂ n i).length) atTop atTop :=
    fun k => foldRows_tendsto (fun _ => E.rng 42 k) h0 h1 h2 hs tendsto_id
  choose K0 hK0 using fun x : Fin e × Fin p => rows_tight (hX.iid x.1) x.2 (hX.mem4 x.1 x.2) (c := 2⁻¹) (by simp)
  obtain ⟨x2, hx2⟩ := Finite.exists_max K0
  obtain ⟨K, hK1, hK⟩ : ∃ K : ℝ, K0 x2 ≤ K ∧ 0 < K := ⟨max (K0 x2) 1, le_max_left _ _, lt_of_lt_of_le one_pos (le_max_right _ _)⟩
  set R : ℝ := √(2 / (r₂ : ℝ)) with hR
  set R' : ℝ := √(2 / (r₀ : ℝ)) with hR'
  set M := spuriousError p e (c x0.1 x0.2 / 2) (c x1.1 x1.2 + c x0.1 x0.2 / 2) (K * (1 + R)) with hM
  obtain ⟨η, hη, hηtop, hev⟩ := errors_joint hX (fun k f n => foldRows (E.rng 42 k) r₀ r₁ r₂ n (2 * f.val)) (fun k n => foldRows_disjoint _ _ _ _ _)
    (fun k i f => if k = last ∧ i = j then (if f = 0 then Set.Ioo M (M + 1) else Set.Ioo (R' * (M + 1)) (R' * (M + 1) + 1)) else Set.Ioo (-K) K)
    (fun k i f => by
      split_ifs <;> exact measurableSet_Ioo)
    (fun k i f => by
      by_cases hki : k = last ∧ i = j
      · obtain ⟨rfl, rfl⟩ := hki
        simp only [and_self, if_true]
        obtain ⟨M', hM'⟩ : ∃ M', (if f = 0 then Set.Ioo M (M + 1) else Set.Ioo (R' * (M + 1)) (R' * (M + 1) + 1)) = Set.Ioo M' (M' + 1) := by
          split_ifs
          · exact ⟨_, rfl⟩
          · exact ⟨_, rfl⟩
        obtain ⟨η, hη, htail⟩ := rows_tail (hX.iid k) i (hX.mem4 k i) hv M'
        refine ⟨η, hη, ?_⟩
        rw [hM']
        have := htail (fun n => foldRows (E.rng 42 k) r₀ r₁ r₂ n (2 * f.val)) (fun n => foldRows_nodup _ _ _ _ _ _) (hlen k _ (by omega))
        simpa only [scaledError, Matrix.diagonal_apply_eq] using this
      · rw [if_neg hki]
        refine ⟨2⁻¹, by simp, ?_⟩
        have := hK0 (k, i) K ((hx2 (k, i)).trans hK1) (fun n => foldRows (E.rng 42 k) r₀ r₁ r₂ n (2 * f.val)) (fun n => foldRows_nodup _ _ _ _ _ _)
          (hlen k _ (by omega))
        simpa only [scaledError, Matrix.diagonal_apply_eq] using this)
  -- all sample covariances are close
  have hpr : ∀ x : Fin e × Fin 3, Tendsto (fun n => μ {ω | ¬ ∀ y z, |npCov (rowsOf (X x.1) (foldRows (E.rng 42 x.1) r₀ r₁ r₂ n x.2) ω) y z -
      Matrix.diagonal (c x.1) y z| < min δ (c x0.1 x0.2 / 2)}) atTop (𝓝 0) :=
    fun x => C120_in_probability (hX.iid x.1) (fun n => foldRows (E.rng 42 x.1) r₀ r₁ r₂ n x.2) (fun n => foldRows_nodup _ _ _ _ _ _) (hlen x.1 x.2 x.2.isLt) hδ'
  have hsum := tendsto_finsetSum (Finset.univ : Finset (Fin e × Fin 3)) fun x _ => hpr x
  simp only [Finset.sum_const_zero] at hsum
  have hη2 : 0 < η / 2 := ENNReal.div_pos hη.ne' (by simp)
  refine ⟨η / 2, hη2, ?_⟩
  obtain ⟨N0, hN0⟩ := exists_nat_ge (2 / (r₂ : ℝ))
  obtain ⟨N1, hN1⟩ := exists_nat_ge (2 / (r₀ : ℝ))
  filter_upwards [hev, hsum.eventually (ge_mem_nhds hη2), (hlen last 0 (by norm_num)).eventually_ge_atTop 2, (hlen last 1 (by norm_num)).eventually_ge_atTop 2,
    (hlen last 2 (by norm_num)).eventually_ge_atTop 2, eventually_ge_atTop N0, eventually_ge_atTop N1] with n e1 e2 n0 n1 n2 n3 n4
  have hsame : ∀ k, ∀ i < 3, (foldRows (E.rng 42 k) r₀ r₁ r₂ n i).length = (foldRows (E.rng 42 last) r₀ r₁ r₂ n i).length :=
    fun k => foldRows_length_same _ _ _ _ _ _
  -- the sizes of the folds
  have hratio : ∀ {r : ℝ} {x y : ℕ}, 0 < r → (x : ℝ) ≤ n → (n : ℝ) * r - 1 ≤ y → 2 / r ≤ n → (x : ℝ) ≤ √(2 / r) ^ 2 * y := by
    intro r x y hr l1 l2 l3
    rw [Real.sq_sqrt (by positivity)]
    refine l1.trans (le_trans ?_ (mul_le_mul_of_nonneg_left l2 (by positivity)))
    have l4 : 2 / r * (n * r - 1) = 2 * n - 2 / r := by
      field_simp
    rw [l4]
    linarith
  have hfl := foldRows_length (E.rng 42 last) h0.le h1.le h2.le hs n
  have hle : ∀ i < 3, ((foldRows (E.rng 42 last) r₀ r₁ r₂ n i).length : ℝ) ≤ n := by
    intro i hi
    have h3 : ((E.rng 42 last).shuffle (List.range n)).length = n := by rw [((E.rng 42 last).shuffle_perm _).length_eq, List.length_range]
    have h4 : (foldRows (E.rng 42 last) r₀ r₁ r₂ n i).length ≤ n := by
      unfold foldRows
      simp only [List.map_cons, List.map_nil, pieces]
      interval_cases i <;> simp [h3] <;> omega
    exact_mod_cast h4
  have hcut : η ≤ μ {ω | ∃ P I m, equivalenceClass E candidates (fun k => rowsOf (X k) (List.range n) ω) true false (some [0])
      [r₀, r₁, r₂] rs = .ok (P, I, m) ∧ j ∈ I} + η / 2 := by
    refine e1.trans (le_trans ?_ (add_le_add le_rfl e2))
    refine le_trans (measure_mono fun ω hω => ?_) ((measure_union_le _ _).trans (add_le_add le_rfl (measure_iUnion_fintype_le μ _)))
    by_contra hcon
    simp only [Set.mem_union, Set.mem_iUnion, not_or, not_exists, Set.mem_ofPred_eq, not_not] at hcon
    obtain ⟨hcon1, hcon2⟩ := hcon
    simp only [Set.mem_ofPred_eq, scaledError] at hω
    have w1 := hω last j 0
    have w2 := hω last j 1
    simp only [and_self, if_true, one_ne_zero, if_false, Set.mem_Ioo] at w1 w2
    have w3 : ∀ k i (f : Fin 2), ¬ (k = last ∧ i = j) →
        |√((foldRows (E.rng 42 k) r₀ r₁ r₂ n (2 * f.val)).length : ℝ) * (npCov (rowsOf (X k) (foldRows (E.rng 42 k) r₀ r₁ r₂ n (2 * f.val)) ω) i i - c k i)| < K := by
      intro k i f hki
      have := hω k i f
      rw [if_neg hki] at this
      exact abs_lt.2 this
    have hm := run_keeps E hE hp he candidates hne hG (fun k => rowsOf (X k) (List.range n) ω) [r₀, r₁, r₂] rs _ _ _
      (splitData_rows (E.rng 42) hblind h0.le h1.le h2.le hs X (fun _ => n) ω) (L := (foldRows (E.rng 42 last) r₀ r₁ r₂ n 0).length)
      (L' := (foldRows (E.rng 42 last) r₀ r₁ r₂ n 2).length) n0 n2 (fun k => by simpa [rowsOf] using hsame k 0 (by norm_num))
      (fun k => by simpa [rowsOf] using hsame k 2 (by norm_num))
      (fun k hk => by
        have h3 : (foldRows (E.rng 42 k) r₀ r₁ r₂ n 1) = [] := by simpa [rowsOf] using hk
        have h4 := hsame k 1 (by norm_num)
        rw [h3, List.length_nil] at h4
        omega)
      hlast hc (ν := c x0.1 x0.2 / 2) (V := c x1.1 x1.2 + c x0.1 x0.2 / 2) (δ := min δ (c x0.1 x0.2 / 2)) (K := K) (R := R) (R' := R') hν (min_le_right _ _)
      (Real.sqrt_nonneg _) (Real.sqrt_nonneg _) (fun k i => by have := hx0 (k, i); simp only at this; linarith)
      (fun k i => by have := hx1 (k, i); simp only at this; linarith) hK.le
      (fun k S hS hw => hpd k S hS fun x y => (hw x y).trans_le (min_le_left _ _))
      (by
        simp only [List.mem_cons, List.not_mem_nil, or_false, forall_eq_or_imp, forall_eq]
        exact ⟨fun k => hcon2 (k, 0), fun k => hcon2 (k, 1), fun k => hcon2 (k, 2)⟩)
      (hratio hr2 (hle 0 (by norm_num)) (by exact_mod_cast hfl.2.2) (hN0.trans (by exact_mod_cast n3)))
      (hratio hr0 (hle 2 (by norm_num)) (by exact_mod_cast hfl.1) (hN1.trans (by exact_mod_cast n4)))
      (fun k i hki => by
        have := w3 k i 1 hki
        rwa [hsame k _ (by norm_num)] at this)
      (fun k i hki => by
        have := w3 k i 0 hki
        rwa [hsame k _ (by norm_num)] at this)
      w1.1 w1.2 w2.1
    obtain ⟨P, I, m, m1, m2⟩ := hm
    exact hcon1 P I m ⟨m1, m2⟩
  nth_rewrite 1 [← ENNReal.add_halves η] at hcut
  exact ENNReal.le_of_add_le_add_right (lt_of_le_of_lt ENNReal.half_le_self hηtop).ne hcut

/-- C124: so the returned targets are not consistent: unless the variances of all variables change, the probability that the returned targets are not the
variables whose variances change does not tend to zero. -/
theorem C124_inconsistent [IsProbabilityMeasure μ] {X : Fin e → ℕ → Ω → Fin p → ℝ} {c : Fin e → Fin p → ℝ} (hX : IndepEnvs μ X c)
    (hcpos : ∀ k i, 0 < c k i) (he : 2 ≤ e) {last : Fin e} (hlast : last.val + 1 = e) (T : Finset (Fin p)) (hT : ∀ i, i ∈ T ↔ ∃ k k', c k i ≠ c k' i)
    (hne' : T ≠ Finset.univ) (hv : ∀ i, sqVar μ (fun ω => X last 0 ω i) ≠ 0) (candidates : List (Adj p)) (hne : candidates ≠ [])
    (hG : ∀ G ∈ candidates, ∀ i j, G i j = 0) (E : FitEnv p e) (hE : CvxEnv E) (hblind : ∀ k, Blind (E.rng 42 k)) {r₀ r₁ r₂ : Rat} (h0 : 0 < r₀)
    (h1 : 0 < r₁) (h2 : 0 < r₂) (hs : r₀ + r₁ + r₂ = 1) (rs : Int) :
    ¬ Tendsto (fun n => μ {ω | ¬ ∃ P m, equivalenceClass E candidates (fun k => rowsOf (X k) (List.range n) ω) true false (some [0])
      [r₀, r₁, r₂] rs = .ok (P, T, m)}) atTop (𝓝 0) := by
  intro ht
  obtain ⟨j, hj⟩ : ∃ j, j ∉ T := by
    by_contra hcon
    push Not at hcon
    exact hne' (Finset.eq_univ_of_forall hcon)
  have hc : ∀ k, c k j = c last j := by
    intro k
    by_contra hk
    exact hj ((hT j).2 ⟨k, last, hk⟩)
  obtain ⟨η, hη, hev⟩ := C124_false_target hX hcpos he hlast hc (hv j) candidates hne hG E hE hblind h0 h1 h2 hs rs
  obtain ⟨n, n1, n2⟩ := (hev.and (ht.eventually (gt_mem_nhds hη))).exists
  refine absurd (n1.trans (measure_mono ?_)) (not_le.2 n2)
  rintro ω ⟨P, I, m, hr, hjI⟩ ⟨P', m', hr'⟩
  rw [hr] at hr'
  cases hr'
  exact hj hjI

end Verif
