import Mathlib.Analysis.SpecificLimits.Basic
import Mathlib.Topology.Instances.Matrix
import Verif.Props.Proper
import Verif.Props.Sym

/-!
# C109: the score when the samples grow

The sum over the environments is divided by the total number of observations once per remaining environment (C37).  When the samples grow, all
environments but the last one disappear from the score.
-/

namespace Verif

open Matrix Spec Filter Topology

variable {p l e : Nat}

/-- Samples that grow: the total number of observations exceeds every bound, the environment `k` has the share `r k` of it in the limit, and
the sample covariances have the limits `S'`. -/
structure Spec.Growing (n : ℕ → Fin e → ℕ) (r : Fin e → ℝ) (S : ℕ → Fin e → Matrix (Fin p) (Fin p) ℝ)
    (S' : Fin e → Matrix (Fin p) (Fin p) ℝ) : Prop where
  total : Tendsto (fun t => ∑ k, n t k) atTop atTop
  share : ∀ k, Tendsto (fun t => (n t k : ℝ) / ∑ k, (n t k : ℝ)) atTop (𝓝 (r k))
  covs : ∀ k, Tendsto (fun t => S t k) atTop (𝓝 (S' k))

theorem gaussNLL_tendsto (C : Matrix (Fin p) (Fin p) ℝ) {S : ℕ → Matrix (Fin p) (Fin p) ℝ} {S' : Matrix (Fin p) (Fin p) ℝ}
    (h : Tendsto S atTop (𝓝 S')) : Tendsto (fun t => gaussNLL C (S t)) atTop (𝓝 (gaussNLL C S')) := by
  have hc : Continuous (fun X : Matrix (Fin p) (Fin p) ℝ => gaussNLL C X) := by
    unfold gaussNLL
    fun_prop
  exact (hc.tendsto S').comp h

/-- C109: when the samples grow, the documented score approaches the average of the environments, weighted by their shares. -/
theorem C109_documented (n : ℕ → Fin e → ℕ) (r : Fin e → ℝ) (S : ℕ → Fin e → Matrix (Fin p) (Fin p) ℝ)
    (S' : Fin e → Matrix (Fin p) (Fin p) ℝ) (h : Growing n r S S') (C : Fin e → Matrix (Fin p) (Fin p) ℝ) :
    Tendsto (fun t => weightedNLL (n t) C (S t)) atTop (𝓝 (∑ k, r k * gaussNLL (C k) (S' k))) := by
  have h1 : (fun t => weightedNLL (n t) C (S t)) = fun t => ∑ k, (n t k : ℝ) / (∑ k, (n t k : ℝ)) * gaussNLL (C k) (S t k) := by
    funext t
    unfold weightedNLL
    rw [Finset.sum_div]
    exact Finset.sum_congr rfl fun k _ => by ring
  rw [h1]
  exact tendsto_finsetSum _ fun k _ => (h.share k).mul (gaussNLL_tendsto _ (h.covs k))

/-- C109: when the samples grow, the score computed for a model approaches the share of the last environment times the likelihood of the last
environment alone. -/
theorem C109_limit (it : SetIter p) (m : LModel p l (e + 1)) (hm : Proper it m) (C : Fin (e + 1) → Matrix (Fin p) (Fin p) ℝ)
    (hC : m.covariances = .ok C) (n : ℕ → Fin (e + 1) → ℕ) (r : Fin (e + 1) → ℝ) (S : ℕ → Fin (e + 1) → Matrix (Fin p) (Fin p) ℝ)
    (S' : Fin (e + 1) → Matrix (Fin p) (Fin p) ℝ) (h : Growing n r S S') :
    ∃ s : ℕ → ℝ, (∀ᶠ t in atTop, m.score (List.ofFn (S t)) (List.ofFn (n t)) = .ok (some (s t))) ∧
      Tendsto s atTop (𝓝 (r (Fin.last e) * gaussNLL (C (Fin.last e)) (S' (Fin.last e)))) := by
  obtain ⟨A, B, gamma, omegas, psis, hA, hmk, ho, hp⟩ := hm
  have hN : ∀ᶠ t in atTop, ∑ k, n t k ≠ 0 := by
    filter_upwards [h.total.eventually_ge_atTop 1] with t ht
    omega
  have hNr : Tendsto (fun t => (∑ k, (n t k : ℝ))) atTop atTop := by
    have := tendsto_natCast_atTop_atTop (R := ℝ) |>.comp h.total
    refine this.congr fun t => ?_
    simp
  refine ⟨fun t => ∑ k : Fin (e + 1), (n t k : ℝ) * gaussNLL (C k) (S t k) / (∑ k, (n t k : ℝ)) ^ (e + 1 - k.val), ?_, ?_⟩
  · filter_upwards [hN] with t ht
    exact C37_actual_score it A hA B gamma omegas psis m hmk ho hp (n t) ht (S t) C hC
  · have hterm : ∀ k : Fin (e + 1), Tendsto (fun t => (n t k : ℝ) * gaussNLL (C k) (S t k) / (∑ k, (n t k : ℝ)) ^ (e + 1 - k.val)) atTop
        (𝓝 (r k * gaussNLL (C k) (S' k) * (if k = Fin.last e then 1 else 0))) := by
      intro k
      have hpow : Tendsto (fun t => ((∑ k, (n t k : ℝ)) ^ (e - k.val))⁻¹) atTop (𝓝 (if k = Fin.last e then 1 else 0)) := by
        split_ifs with hk
        · subst hk
          simp
        · have hlt : e - k.val ≠ 0 := by
            have := k.isLt
            have : k.val ≠ e := fun hc => hk (Fin.ext hc)
            omega
          exact ((tendsto_pow_atTop hlt).comp hNr).inv_tendsto_atTop
      refine (((h.share k).mul (gaussNLL_tendsto (C k) (h.covs k))).mul hpow).congr fun t => ?_
      have he : e + 1 - k.val = (e - k.val) + 1 := by
        have := k.isLt
        omega
      rw [he, pow_succ]
      field_simp
    have hsum := tendsto_finsetSum Finset.univ fun k _ => hterm k
    simpa using hsum

/-- C109, violation: when the samples grow, the selection among models looks at the last environment only.  From some sample size on, the
model that is selected from a list fits the last environment at least as well as all others, however badly it fits the other environments. -/
theorem C109_selection (it : SetIter p) (ms : List (AnyModel p (e + 1))) (hne : ms ≠ []) (hm : ∀ m ∈ ms, Proper it m.2)
    (n : ℕ → Fin (e + 1) → ℕ) (r : Fin (e + 1) → ℝ) (hr : 0 < r (Fin.last e)) (S : ℕ → Fin (e + 1) → Matrix (Fin p) (Fin p) ℝ)
    (S' : Fin (e + 1) → Matrix (Fin p) (Fin p) ℝ) (h : Growing n r S S') :
    ∀ᶠ t in atTop, ∃ scores s m, testScores ⟨S t, n t⟩ id ms = .ok scores ∧ bestScoring scores = .ok (s, m) ∧ m ∈ ms ∧
      ∀ m' ∈ ms, ∀ C C', m.2.covariances = .ok C → m'.2.covariances = .ok C' →
        gaussNLL (C (Fin.last e)) (S' (Fin.last e)) ≤ gaussNLL (C' (Fin.last e)) (S' (Fin.last e)) := by
  have hs1 : ∀ m ∈ ms, ∀ᶠ t in atTop, ∃ s : ℝ, m.scoreOn (⟨S t, n t⟩ : Data p (e + 1)) = .ok (some s) := by
    intro m hmm
    obtain ⟨A, B, gamma, omegas, psis, hA, hmk, ho, hp⟩ := hm m hmm
    obtain ⟨-, C, hC, -⟩ := C35_covariances it A hA B gamma omegas psis _ hmk
    obtain ⟨s, h1, -⟩ := C109_limit it m.2 (hm m hmm) C hC n r S S' h
    filter_upwards [h1] with t ht
    exact ⟨_, ht⟩
  have hs2 : ∀ m ∈ ms, ∀ m' ∈ ms, ∀ᶠ t in atTop, ∀ C C', m.2.covariances = .ok C → m'.2.covariances = .ok C' →
      gaussNLL (C' (Fin.last e)) (S' (Fin.last e)) < gaussNLL (C (Fin.last e)) (S' (Fin.last e)) →
      ∃ s s' : ℝ, m.scoreOn (⟨S t, n t⟩ : Data p (e + 1)) = .ok (some s) ∧ m'.scoreOn (⟨S t, n t⟩ : Data p (e + 1)) = .ok (some s') ∧ s' < s := by
    intro m hmm m' hmm'
    obtain ⟨A, B, gamma, omegas, psis, hA, hmk, ho, hp⟩ := hm m hmm
    obtain ⟨-, C, hC, -⟩ := C35_covariances it A hA B gamma omegas psis _ hmk
    obtain ⟨A', B', gamma', omegas', psis', hA', hmk', ho', hp'⟩ := hm m' hmm'
    obtain ⟨-, C', hC', -⟩ := C35_covariances it A' hA' B' gamma' omegas' psis' _ hmk'
    obtain ⟨s, h1, h2⟩ := C109_limit it m.2 (hm m hmm) C hC n r S S' h
    obtain ⟨s', h1', h2'⟩ := C109_limit it m'.2 (hm m' hmm') C' hC' n r S S' h
    by_cases hlt : gaussNLL (C' (Fin.last e)) (S' (Fin.last e)) < gaussNLL (C (Fin.last e)) (S' (Fin.last e))
    · filter_upwards [h1, h1', h2'.eventually_lt h2 (mul_lt_mul_of_pos_left hlt hr)] with t a1 a2 a3 C₁ C₁' b1 b2 _
      exact ⟨s t, s' t, a1, a2, a3⟩
    · refine Eventually.of_forall fun t C₁ C₁' b1 b2 b3 => ?_
      rw [hC] at b1
      rw [hC'] at b2
      cases b1
      cases b2
      exact absurd b3 hlt
  have hs3 : ∀ᶠ t in atTop, ∀ m ∈ ms, ∃ s : ℝ, m.scoreOn (⟨S t, n t⟩ : Data p (e + 1)) = .ok (some s) := by
    have := (Filter.eventually_all_finite (l := atTop) (List.finite_toSet ms)).2 (fun m hm => hs1 m hm)
    exact this
  have hs4 := (Filter.eventually_all_finite (l := atTop) (List.finite_toSet ms)).2 (fun m hm =>
    (Filter.eventually_all_finite (l := atTop) (List.finite_toSet ms)).2 (fun m' hm' => hs2 m hm m' hm'))
  filter_upwards [hs3, hs4] with t h3 h4
  obtain ⟨scores, hsc⟩ := testScores_returns (d := (⟨S t, n t⟩ : Data p (e + 1))) (model := id) ms (fun m hm => by
    obtain ⟨s, hs⟩ := h3 m hm
    exact ⟨_, hs⟩)
  obtain ⟨k1, k2⟩ := testScores_spec ms hsc
  have hscne : scores ≠ [] := by
    rintro rfl
    simp at k1
    exact hne k1
  obtain ⟨i, ⟨s, m⟩, b1, b2, b3, -⟩ := bestScoring_spec hscne
  have hmem : (s, m) ∈ scores := List.mem_of_getElem? b2
  have hmm : m ∈ ms := by
    rw [← k1]
    exact List.mem_map.2 ⟨_, hmem, rfl⟩
  refine ⟨scores, s, m, hsc, b1, hmm, fun m' hm' C C' hC hC' => ?_⟩
  by_contra hlt
  obtain ⟨x, x', c1, c2, c3⟩ := h4 m hmm m' hm' C C' hC hC' (not_le.1 hlt)
  have d1 : s = some x := by
    have := k2 _ hmem
    simp only [id] at this
    rw [c1] at this
    exact (Except.ok.inj this).symm
  obtain ⟨⟨s', m''⟩, d2, d3⟩ := List.mem_map.1 (show m' ∈ scores.map Prod.snd by rw [k1]; exact hm')
  simp only at d3
  subst d3
  have d4 : s' = some x' := by
    have := k2 _ d2
    simp only [id] at this
    rw [c2] at this
    exact (Except.ok.inj this).symm
  have d5 := b3 _ d2
  rw [d1, d4] at d5
  have d6 : (x : WithBot ℝ) ≤ (x' : WithBot ℝ) := d5
  exact absurd (WithBot.coe_le_coe.1 d6) (not_le.2 c3)

/-- C109, violation: an estimate that converges to the truth as fast as estimates from samples can (the variance of the second environment is
off by `2 / √t` with `t` observations in each environment) is never selected, however large the samples, over a model whose variance in the
first environment is four times the true one at all sample sizes.  The documented score prefers the converging estimate at every size. -/
theorem C109_inconsistent :
    Tendsto (fun t : ℕ => 1 + 2 / Real.sqrt t) atTop (𝓝 1) ∧
    ∀ t : ℕ, 4 ≤ t →
      (∃ scores s, testScores (⟨fun _ => 1, ![t, t]⟩ : Data 1 2) id
          [(⟨0, varModel 1 (1 + 2 / Real.sqrt t)⟩ : AnyModel 1 2), ⟨0, varModel 4 1⟩] = .ok scores ∧
        bestScoring scores = .ok (s, ⟨0, varModel 4 1⟩)) ∧
      ∃ C C', (varModel 1 (1 + 2 / Real.sqrt t)).covariances = .ok C ∧ (varModel 4 1).covariances = .ok C' ∧
        weightedNLL ![t, t] C (fun _ => 1) < weightedNLL ![t, t] C' (fun _ => 1) := by
  constructor
  · have h : Tendsto (fun t : ℕ => 2 / Real.sqrt t) atTop (𝓝 0) :=
      tendsto_const_nhds.div_atTop (Real.tendsto_sqrt_atTop.comp tendsto_natCast_atTop_atTop)
    simpa using h.const_add 1
  intro t ht
  have ht' : (4 : ℝ) ≤ t := by exact_mod_cast ht
  have htp : (0 : ℝ) < t := by linarith
  obtain ⟨x, hx⟩ : ∃ x, x = 2 / Real.sqrt t := ⟨_, rfl⟩
  rw [← hx]
  have hsq : Real.sqrt t ^ 2 = t := Real.sq_sqrt htp.le
  have hs0 : 0 < Real.sqrt t := Real.sqrt_pos.2 htp
  have hs2 : 2 ≤ Real.sqrt t := by
    rw [Real.le_sqrt (by norm_num) htp.le]
    linarith
  have hx0 : 0 < x := by rw [hx]; positivity
  have hx1 : x ≤ 1 := by rw [hx, div_le_one hs0]; exact hs2
  have hxt : x ^ 2 * t = 4 := by
    rw [hx, div_pow, hsq]
    field_simp
    norm_num
  have h2 := Real.log_two_gt_d9
  have h2' := Real.log_two_lt_d9
  have h4 : Real.log 4 = 2 * Real.log 2 := by
    rw [show (4 : ℝ) = 2 ^ 2 by norm_num, Real.log_pow]
    norm_num
  have hlow : 1 + x ^ 2 / 6 ≤ Real.log (1 + x) + 1 / (1 + x) := by
    have h := Real.le_log_one_add_of_nonneg hx0.le
    have h' : 1 + x ^ 2 / 6 ≤ 2 * x / (x + 2) + 1 / (1 + x) := by
      rw [div_add_div _ _ (by positivity) (by positivity), le_div_iff₀ (by positivity)]
      nlinarith [mul_pos hx0 hx0, mul_nonneg (mul_pos hx0 hx0).le (sub_nonneg.2 hx1), mul_nonneg (mul_pos (mul_pos hx0 hx0) hx0).le (sub_nonneg.2 hx1)]
    linarith
  have hupp : Real.log (1 + x) + 1 / (1 + x) ≤ 3 / 2 := by
    have h := Real.log_le_sub_one_of_pos (show 0 < 1 + x by linarith)
    have h' : x + 1 / (1 + x) ≤ 3 / 2 := by
      rw [← le_sub_iff_add_le', div_le_iff₀ (by linarith)]
      nlinarith
    linarith
  have hs : ∀ a b : ℝ, 0 < a → 0 < b → AnyModel.scoreOn (⟨fun _ => 1, ![t, t]⟩ : Data 1 2) ⟨0, varModel a b⟩ =
      .ok (some (t * (Real.log a + 1 / a) / ((t : ℝ) + t) ^ 2 + t * (Real.log b + 1 / b) / ((t : ℝ) + t))) :=
    fun a b ha hb => varModel_score a b ha hb t t (by omega)
  have hts : testScores (⟨fun _ => 1, ![t, t]⟩ : Data 1 2) id [(⟨0, varModel 1 (1 + x)⟩ : AnyModel 1 2), ⟨0, varModel 4 1⟩] =
      .ok [(some (t * (Real.log 1 + 1 / 1) / ((t : ℝ) + t) ^ 2 + t * (Real.log (1 + x) + 1 / (1 + x)) / ((t : ℝ) + t)), ⟨0, varModel 1 (1 + x)⟩),
        (some (t * (Real.log 4 + 1 / 4) / ((t : ℝ) + t) ^ 2 + t * (Real.log 1 + 1 / 1) / ((t : ℝ) + t)), ⟨0, varModel 4 1⟩)] := by
    simp only [testScores, id, hs 1 (1 + x) (by norm_num) (by linarith), hs 4 1 (by norm_num) (by norm_num)]
  refine ⟨⟨_, _, hts, (bestScoring_two _ _ _ _).2 ?_⟩, _, _, varModel_cov 1 (1 + x), varModel_cov 4 1, ?_⟩
  · have e : ∀ u v : ℝ, t * u / ((t : ℝ) + t) ^ 2 + t * v / ((t : ℝ) + t) = u * (x ^ 2 / 16) + v / 2 := by
      intro u v
      have : x ^ 2 = 4 / t := by rw [← hxt]; field_simp
      rw [this]
      field_simp
      ring
    rw [e, e, h4, Real.log_one]
    nlinarith [mul_pos hx0 hx0]
  · have e : ∀ u v : ℝ, (t * u + t * v) / ((t : ℝ) + t) = (u + v) / 2 := by
      intro u v
      field_simp
      ring
    simp [weightedNLL, Fin.sum_univ_two, gaussNLL, Matrix.trace, h4]
    simp only [one_div] at hupp
    have e1 := e 1 (Real.log (1 + x) + (1 + x)⁻¹)
    have e2 := e (2 * Real.log 2 + 4⁻¹) 1
    rw [mul_one] at e1 e2
    rw [e1, e2]
    linarith

/-- The hypotheses of the theorems above are met by samples of the same size in each environment. -/
theorem growing_equal (S : Fin 2 → Matrix (Fin p) (Fin p) ℝ) : Growing (fun t => ![t, t]) (fun _ => 1 / 2) (fun _ => S) S where
  total := by
    refine tendsto_atTop_mono (f := fun t : ℕ => t) (fun t => ?_) tendsto_id
    simp [Fin.sum_univ_two]
  share := by
    intro k
    refine tendsto_const_nhds.congr' ?_
    filter_upwards [eventually_ge_atTop 1] with t ht
    have : (t : ℝ) ≠ 0 := by
      have : t ≠ 0 := by omega
      exact_mod_cast this
    fin_cases k <;> simp [Fin.sum_univ_two] <;> field_simp <;> norm_num
  covs := fun _ => tendsto_const_nhds

theorem varModel_proper (a b : ℝ) (ha : 0 < a) (hb : 0 < b) : Proper (SetIter.incr 1) (varModel a b) :=
  ⟨fun _ _ => 0, 0, Matrix.of ![], !![a; b], Matrix.of fun _ => Fin.elim0, fun _ _ => le_refl _,
    mkModel_eq_ok (fun _ _ => le_refl _) _ _ _ (acyclic_of_rank (fun _ => 0) (by simp [Edge])) (fun _ _ _ => rfl),
    by intro k i; fin_cases k <;> fin_cases i <;> simpa, fun _ i => i.elim0⟩

/-- From some sample size on, the first of two models is not selected although it is exact in the first environment, where the other one is
off by any factor `c`. -/
example (c : ℝ) (hc : 0 < c) : ∀ᶠ t : ℕ in atTop, ∃ scores s, testScores (⟨fun _ => 1, ![t, t]⟩ : Data 1 2) id
    [(⟨0, varModel 1 2⟩ : AnyModel 1 2), ⟨0, varModel c 1⟩] = .ok scores ∧ bestScoring scores = .ok (s, ⟨0, varModel c 1⟩) := by
  have h := C109_selection (SetIter.incr 1) [(⟨0, varModel 1 2⟩ : AnyModel 1 2), ⟨0, varModel c 1⟩] (by simp)
    (by
      intro m hm
      simp only [List.mem_cons, List.not_mem_nil, or_false] at hm
      rcases hm with rfl | rfl
      · exact varModel_proper 1 2 (by norm_num) (by norm_num)
      · exact varModel_proper c 1 hc (by norm_num))
    (fun t => ![t, t]) (fun _ => 1 / 2) (by norm_num) _ (fun _ => 1) (growing_equal _)
  filter_upwards [h] with t ⟨scores, s, m, h1, h2, h3, h4⟩
  simp only [List.mem_cons, List.not_mem_nil, or_false] at h3
  rcases h3 with rfl | rfl
  · have := h4 ⟨0, varModel c 1⟩ (by simp) _ _ (varModel_cov 1 2) (varModel_cov c 1)
    simp [gaussNLL, Matrix.trace] at this
    have := Real.log_two_gt_d9
    linarith
  · exact ⟨scores, s, h1, h2⟩

end Verif
