import Mathlib.Analysis.SpecialFunctions.Log.Deriv
import Verif.Props.EmptyFit

/-!
# C121: when the gain of a common variance is positive although the variances differ
-/

namespace Verif

open Spec Matrix

variable {p : Nat}

theorem nll_min {s v : ℝ} (hs : 0 < s) (hv : 0 < v) : nll s s ≤ nll v s := by
  unfold nll
  have h := Real.log_le_sub_one_of_pos (div_pos hs hv)
  rw [Real.log_div hs.ne' hv.ne'] at h
  rw [div_self hs.ne']
  linarith

theorem nll_above_min {s v : ℝ} (hs : 0 < s) (hv : 0 < v) : nll v s - nll s s ≤ (s - v) ^ 2 / (s * v) := by
  unfold nll
  have h := Real.log_le_sub_one_of_pos (div_pos hv hs)
  rw [Real.log_div hv.ne' hs.ne'] at h
  rw [div_self hs.ne']
  have : (s - v) ^ 2 / (s * v) = v / s - 1 + (s / v - 1) := by
    field_simp
    ring
  linarith

theorem log_quadratic {r : ℝ} (h0 : 0 < r) (h1 : r ≤ 1) : (1 - r) + (1 - r) ^ 2 / 2 ≤ -Real.log r := by
  have hs := Real.hasSum_pow_div_log_of_abs_lt_one (x := 1 - r) (by rw [abs_of_nonneg (by linarith)]; linarith)
  have := sum_le_hasSum (Finset.range 2) (fun n _ => by
    have : 0 ≤ (1 - r) := by linarith
    positivity) hs
  simp only [Finset.sum_range_succ, Finset.sum_range_zero, sub_sub_cancel] at this
  norm_num at this
  linarith

theorem nll_quadratic {s v w : ℝ} (hs : 0 < s) (hsv : s ≤ v) (hvw : v ≤ w) : (w - v) ^ 2 / (2 * w ^ 2) ≤ nll w s - nll v s := by
  have hv : 0 < v := hs.trans_le hsv
  have hw : 0 < w := hv.trans_le hvw
  have h := log_quadratic (div_pos hv hw) ((div_le_one hw).2 hvw)
  rw [Real.log_div hv.ne' hw.ne'] at h
  unfold nll
  have h1 : (1 - v / w) ^ 2 / 2 = (w - v) ^ 2 / (2 * w ^ 2) := by
    field_simp
  have h2 : s / v - s / w ≤ 1 - v / w := by
    have : s / v - s / w = (s / v) * (1 - v / w) := by
      field_simp
    rw [this]
    exact mul_le_of_le_one_left (by rw [sub_nonneg]; exact (div_le_one hw).2 hvw) ((div_le_one hv).2 hsv)
  linarith

/-- A lower bound for one summand of the gain. -/
theorem nll_lower {ν T P s : ℝ} (hν : 0 < ν) (hT : ν ≤ T) (hP : ν ≤ P) (hs : ν ≤ s) : -((s - P) ^ 2 / ν ^ 2) ≤ nll T s - nll P s := by
  have h1 := nll_min (hν.trans_le hs) (hν.trans_le hT)
  have h2 := nll_above_min (hν.trans_le hs) (hν.trans_le hP)
  have h3 : (s - P) ^ 2 / (s * P) ≤ (s - P) ^ 2 / ν ^ 2 := by
    refine div_le_div_of_nonneg_left (sq_nonneg _) (by positivity) ?_
    rw [pow_two]
    exact mul_le_mul hs hP hν.le (hν.le.trans hs)
  linarith

theorem pooledVar_three {n : Fin 3 → Nat} {L : ℕ} (hL : 0 < L) (hn : ∀ k, n k = L) (S : Fin 3 → Matrix (Fin p) (Fin p) ℝ) (j : Fin p) :
    pooledVar n S j = (S 0 j j + S 1 j j + S 2 j j) / 3 := by
  have h0 : (L : ℝ) ≠ 0 := by exact_mod_cast hL.ne'
  unfold pooledVar
  simp only [hn, Fin.sum_univ_three]
  field_simp
  ring

theorem codeWeight_three {n : Fin 3 → Nat} {L : ℕ} (hL : 0 < L) (hn : ∀ k, n k = L) :
    codeWeight n 0 = 1 / (27 * (L : ℝ) ^ 2) ∧ codeWeight n 1 = 1 / (9 * (L : ℝ)) ∧ codeWeight n 2 = 1 / 3 := by
  have h0 : (L : ℝ) ≠ 0 := by exact_mod_cast hL.ne'
  unfold codeWeight
  simp only [hn, Fin.sum_univ_three]
  refine ⟨?_, ?_, ?_⟩
  · simp
    field_simp
    ring
  · simp
    field_simp
    ring
  · simp
    field_simp
    ring

/-- The error from which the gain is positive. -/
noncomputable def largeError (p : Nat) (ν V K R : ℝ) : ℝ := 5 * K + 1 + 27 / 2 * V ^ 2 * ((R ^ 2 * V ^ 2 + 4 * p * K ^ 2) / ν ^ 2)

/-- If variable `j` has in the last of three environments the average of its variances in the other two, and the other variables have a constant
variance, then a large positive error of the training variance of `j` in the last environment makes the gain of a common variance positive. -/
theorem gain_pos (d t : Data p 3) {L L' : ℕ} (hL : 0 < L) (hL' : 0 < L') (hn : ∀ k, d.nObs k = L) (hn' : ∀ k, t.nObs k = L') {ν V K R a : ℝ} (hν : 0 < ν)
    (hK : 0 ≤ K) (ha : 0 < a) (hLa : 1 / (L' : ℝ) ≤ R ^ 2 * a ^ 2) (hd1 : ∀ k i, ν ≤ d.covs k i i ∧ d.covs k i i ≤ V)
    (ht1 : ∀ k i, ν ≤ t.covs k i i ∧ t.covs k i i ≤ V) (c : Fin 3 → Fin p → ℝ) (j : Fin p) (hc : c 0 j + c 1 j = 2 * c 2 j)
    (hci : ∀ i, i ≠ j → ∀ k, c k i = c 0 i) (ht2 : ∀ k i, |t.covs k i i - c k i| ≤ K * a)
    (hd2 : ∀ k i, ¬ (k = 2 ∧ i = j) → |d.covs k i i - c k i| ≤ K * a) (hd3 : largeError p ν V K R * a ≤ d.covs 2 j j - c 2 j)
    (I : Finset (Fin p)) (hI : j ∈ I) : 0 < ∑ i ∈ I, gain d t i := by
  obtain ⟨w0, w1, w2⟩ := codeWeight_three hL' hn'
  have hL1 : (1 : ℝ) ≤ L' := by exact_mod_cast hL'
  have hw01 : codeWeight t.nObs 0 + codeWeight t.nObs 1 ≤ 1 / (L' : ℝ) := by
    rw [w0, w1]
    have h1 : 1 / (27 * (L' : ℝ) ^ 2) ≤ 1 / (27 * (L' : ℝ)) := by
      refine one_div_le_one_div_of_le (by positivity) ?_
      nlinarith
    have h2 : 1 / (27 * (L' : ℝ)) + 1 / (9 * (L' : ℝ)) = 4 / 27 * (1 / (L' : ℝ)) := by
      field_simp
      norm_num
    have h3 : 0 < 1 / (L' : ℝ) := by positivity
    linarith
  have hw0 : 0 ≤ codeWeight t.nObs 0 := by rw [w0]; positivity
  have hw1 : 0 ≤ codeWeight t.nObs 1 := by rw [w1]; positivity
  have hVν : ν ≤ V := (hd1 0 j).1.trans (hd1 0 j).2
  have hV : 0 < V := hν.trans_le hVν
  have hpool : ∀ i, ν ≤ pooledVar d.nObs d.covs i ∧ pooledVar d.nObs d.covs i ≤ V := by
    intro i
    rw [pooledVar_three hL hn]
    have h0 := hd1 0 i
    have h1 := hd1 1 i
    have h2 := hd1 2 i
    constructor <;> linarith [h0.1, h0.2, h1.1, h1.2, h2.1, h2.2]
  have hlow : ∀ k i, -((t.covs k i i - pooledVar d.nObs d.covs i) ^ 2 / ν ^ 2) ≤
      nll (d.covs k i i) (t.covs k i i) - nll (pooledVar d.nObs d.covs i) (t.covs k i i) := fun k i => nll_lower hν (hd1 k i).1 (hpool i).1 (ht1 k i).1
  -- the other variables
  have hother : ∀ i, i ≠ j → -(4 * K ^ 2 * a ^ 2 / ν ^ 2) ≤ gain d t i := by
    intro i hij
    have hP : |pooledVar d.nObs d.covs i - c 0 i| ≤ K * a := by
      rw [pooledVar_three hL hn]
      have h0 := abs_le.1 (hd2 0 i (by simp [hij]))
      have h1 := abs_le.1 (hd2 1 i (by simp [hij]))
      have h2 := abs_le.1 (hd2 2 i (by simp [hij]))
      rw [hci i hij 1] at h1
      rw [hci i hij 2] at h2
      rw [abs_le]
      constructor <;> linarith [h0.1, h0.2, h1.1, h1.2, h2.1, h2.2]
    have hterm : ∀ k, -(4 * K ^ 2 * a ^ 2 / ν ^ 2) ≤ nll (d.covs k i i) (t.covs k i i) - nll (pooledVar d.nObs d.covs i) (t.covs k i i) := by
      intro k
      refine le_trans ?_ (hlow k i)
      refine neg_le_neg (div_le_div_of_nonneg_right ?_ (by positivity))
      have h1 := abs_le.1 (ht2 k i)
      have h2 := abs_le.1 hP
      rw [hci i hij k] at h1
      have h3 : |t.covs k i i - pooledVar d.nObs d.covs i| ≤ 2 * (K * a) := by
        rw [abs_le]
        constructor <;> linarith [h1.1, h1.2, h2.1, h2.2]
      have := pow_le_pow_left₀ (abs_nonneg _) h3 2
      rw [sq_abs] at this
      linarith
    unfold gain
    rw [Fin.sum_univ_three]
    have hq : 0 ≤ 4 * K ^ 2 * a ^ 2 / ν ^ 2 := by positivity
    have hsum : codeWeight t.nObs 0 + codeWeight t.nObs 1 + codeWeight t.nObs 2 ≤ 1 := by
      rw [w0, w1, w2]
      have h1 : 1 / (27 * (L' : ℝ) ^ 2) ≤ 1 / 27 := by
        refine one_div_le_one_div_of_le (by positivity) ?_
        nlinarith
      have h2 : 1 / (9 * (L' : ℝ)) ≤ 1 / 9 := by
        refine one_div_le_one_div_of_le (by positivity) ?_
        nlinarith
      linarith
    have m0 := mul_le_mul_of_nonneg_left (hterm 0) hw0
    have m1 := mul_le_mul_of_nonneg_left (hterm 1) hw1
    have m2 := mul_le_mul_of_nonneg_left (hterm 2) (show 0 ≤ codeWeight t.nObs 2 by rw [w2]; norm_num)
    nlinarith
  -- the variable `j`
  have hj : 2 / 27 * (largeError p ν V K R - K) ^ 2 * a ^ 2 / V ^ 2 - R ^ 2 * a ^ 2 * V ^ 2 / ν ^ 2 ≤ gain d t j := by
    set M := largeError p ν V K R with hM
    have hM5 : 5 * K ≤ M := by
      rw [hM]
      unfold largeError
      have : 0 ≤ 27 / 2 * V ^ 2 * ((R ^ 2 * V ^ 2 + 4 * p * K ^ 2) / ν ^ 2) := by positivity
      linarith
    have hterm : ∀ k, -(V ^ 2 / ν ^ 2) ≤ nll (d.covs k j j) (t.covs k j j) - nll (pooledVar d.nObs d.covs j) (t.covs k j j) := by
      intro k
      refine le_trans ?_ (hlow k j)
      refine neg_le_neg (div_le_div_of_nonneg_right ?_ (by positivity))
      have h3 : |t.covs k j j - pooledVar d.nObs d.covs j| ≤ V := by
        rw [abs_le]
        constructor <;> linarith [(ht1 k j).1, (ht1 k j).2, (hpool j).1, (hpool j).2]
      have := pow_le_pow_left₀ (abs_nonneg _) h3 2
      rwa [sq_abs] at this
    have h0 := abs_le.1 (hd2 0 j (by simp))
    have h1 := abs_le.1 (hd2 1 j (by simp))
    have hs := abs_le.1 (ht2 2 j)
    have hKa : 5 * (K * a) ≤ M * a := by nlinarith
    have hq := pooledVar_three hL hn d.covs j
    have hsP : t.covs 2 j j ≤ pooledVar d.nObs d.covs j := by
      rw [hq]
      linarith [h0.1, h1.1, hs.2]
    have hPT : 2 / 3 * ((M - K) * a) ≤ d.covs 2 j j - pooledVar d.nObs d.covs j := by
      rw [hq]
      linarith [h0.2, h1.2]
    have hMK : 0 ≤ (M - K) * a := mul_nonneg (by linarith) ha.le
    have hquad := nll_quadratic (hν.trans_le (ht1 2 j).1) hsP (show pooledVar d.nObs d.covs j ≤ d.covs 2 j j by linarith)
    have h2 : 2 / 9 * ((M - K) * a) ^ 2 / V ^ 2 ≤ nll (d.covs 2 j j) (t.covs 2 j j) - nll (pooledVar d.nObs d.covs j) (t.covs 2 j j) := by
      refine le_trans ?_ hquad
      have hT : 0 < d.covs 2 j j := hν.trans_le (hd1 2 j).1
      have e1 : 2 / 9 * ((M - K) * a) ^ 2 / V ^ 2 = (2 / 3 * ((M - K) * a)) ^ 2 / (2 * V ^ 2) := by
        field_simp
        ring
      rw [e1]
      refine div_le_div₀ (sq_nonneg _) (pow_le_pow_left₀ (by positivity) hPT 2) (by positivity) ?_
      have := pow_le_pow_left₀ hT.le (hd1 2 j).2 2
      linarith
    unfold gain
    rw [Fin.sum_univ_three, w2]
    have m0 := mul_le_mul_of_nonneg_left (hterm 0) hw0
    have m1 := mul_le_mul_of_nonneg_left (hterm 1) hw1
    have m3 : (codeWeight t.nObs 0 + codeWeight t.nObs 1) * (V ^ 2 / ν ^ 2) ≤ R ^ 2 * a ^ 2 * (V ^ 2 / ν ^ 2) :=
      mul_le_mul_of_nonneg_right (hw01.trans hLa) (by positivity)
    have e2 : 2 / 27 * (M - K) ^ 2 * a ^ 2 / V ^ 2 = 1 / 3 * (2 / 9 * ((M - K) * a) ^ 2 / V ^ 2) := by
      field_simp
      ring
    have e3 : R ^ 2 * a ^ 2 * V ^ 2 / ν ^ 2 = R ^ 2 * a ^ 2 * (V ^ 2 / ν ^ 2) := by ring
    rw [e2, e3]
    linarith
  -- together
  have hsplit : ∑ i ∈ I, gain d t i = gain d t j + ∑ i ∈ I.erase j, gain d t i := (Finset.add_sum_erase I _ hI).symm
  have hrest : -(p * (4 * K ^ 2 * a ^ 2 / ν ^ 2)) ≤ ∑ i ∈ I.erase j, gain d t i := by
    have h1 : ∑ i ∈ I.erase j, -(4 * K ^ 2 * a ^ 2 / ν ^ 2) ≤ ∑ i ∈ I.erase j, gain d t i :=
      Finset.sum_le_sum fun i hi => hother i (Finset.ne_of_mem_erase hi)
    refine le_trans ?_ h1
    rw [Finset.sum_const, nsmul_eq_mul, mul_neg]
    refine neg_le_neg (mul_le_mul_of_nonneg_right ?_ (by positivity))
    have := Finset.card_le_univ (I.erase j)
    rw [Fintype.card_fin] at this
    exact_mod_cast this
  rw [hsplit]
  have hkey : R ^ 2 * V ^ 2 / ν ^ 2 + p * (4 * K ^ 2 / ν ^ 2) < 2 / 27 * (largeError p ν V K R - K) ^ 2 / V ^ 2 := by
    set Y := (R ^ 2 * V ^ 2 + 4 * p * K ^ 2) / ν ^ 2 with hY
    have hY0 : 0 ≤ Y := by positivity
    have e1 : R ^ 2 * V ^ 2 / ν ^ 2 + p * (4 * K ^ 2 / ν ^ 2) = Y := by rw [hY]; ring
    rw [e1, lt_div_iff₀ (by positivity)]
    unfold largeError
    rw [← hY]
    have hz : 0 ≤ 27 / 2 * V ^ 2 * Y := by positivity
    nlinarith
  have hfin := mul_lt_mul_of_pos_right hkey (show 0 < a ^ 2 by positivity)
  have e1 : (R ^ 2 * V ^ 2 / ν ^ 2 + p * (4 * K ^ 2 / ν ^ 2)) * a ^ 2 = R ^ 2 * a ^ 2 * V ^ 2 / ν ^ 2 + p * (4 * K ^ 2 * a ^ 2 / ν ^ 2) := by ring
  have e2 : 2 / 27 * (largeError p ν V K R - K) ^ 2 / V ^ 2 * a ^ 2 = 2 / 27 * (largeError p ν V K R - K) ^ 2 * a ^ 2 / V ^ 2 := by ring
  rw [e1, e2] at hfin
  linarith

end Verif
