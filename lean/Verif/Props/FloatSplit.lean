import Verif.Model.FloatSplit
import Verif.Props.ListUtils

/-!
# C99: `split_data` in floating point
-/

namespace Verif

open Spec

/-- The numbers with a significand of 53 bits (doubles without the bounds on the exponent). -/
def Spec.IsDouble (x : ℚ) : Prop := ∃ m e : ℤ, |m| < 2 ^ 53 ∧ x = m * (2 : ℚ) ^ e

theorem log_bounds {x : ℚ} (hx : x ≠ 0) : (2 : ℚ) ^ (Int.log 2 |x|) ≤ |x| ∧ |x| < (2 : ℚ) ^ (Int.log 2 |x| + 1) := by
  have h := abs_pos.2 hx
  exact ⟨by exact_mod_cast Int.zpow_log_le_self (b := 2) (by norm_num) h, by exact_mod_cast Int.lt_zpow_succ_log_self (b := 2) (by norm_num) |x|⟩

theorem fl_zero : fl 0 = 0 := by simp [fl]

theorem pyRound_nearest (x : ℚ) (k : ℤ) : |x - pyRound x| ≤ |x - k| := by
  have h := pyRound_close x
  by_cases hk : k = pyRound x
  · rw [hk]
  · have h1 : (1 : ℚ) ≤ |(k : ℚ) - pyRound x| := by
      have : (1 : ℤ) ≤ |k - pyRound x| := Int.one_le_abs (sub_ne_zero.2 hk)
      exact_mod_cast this
    have h2 : |(k : ℚ) - pyRound x| ≤ |x - k| + |x - pyRound x| := by
      rw [abs_sub_comm x k]
      have := abs_add_le ((k : ℚ) - x) (x - pyRound x)
      simpa using this
    linarith

/-- The unit in the last place. -/
theorem fl_eq {x : ℚ} (hx : x ≠ 0) : fl x = (pyRound (x / (2 : ℚ) ^ (Int.log 2 |x| - 52)) : ℚ) * (2 : ℚ) ^ (Int.log 2 |x| - 52) := by
  unfold fl
  rw [if_neg hx]

theorem fl_err {x : ℚ} (hx : x ≠ 0) (k : ℤ) :
    |x - fl x| ≤ |x - k * (2 : ℚ) ^ (Int.log 2 |x| - 52)| := by
  rw [fl_eq hx]
  set u : ℚ := (2 : ℚ) ^ (Int.log 2 |x| - 52) with hu
  have hu0 : 0 < u := zpow_pos (by norm_num) _
  have h := pyRound_nearest (x / u) k
  have e1 : ∀ y : ℚ, |x - y * u| = |x / u - y| * u := by
    intro y
    rw [← abs_of_pos hu0, ← abs_mul, abs_of_pos hu0, sub_mul, div_mul_cancel₀ _ hu0.ne']
  rw [e1, e1]
  exact mul_le_mul_of_nonneg_right h hu0.le

/-- C99: `fl` is rounding to nearest: no double is nearer to `x` than `fl x`. -/
theorem C99_nearest (x y : ℚ) (hy : IsDouble y) : |x - fl x| ≤ |x - y| := by
  by_cases hx : x = 0
  · subst hx
    simp [fl_zero]
  obtain ⟨m, e, hm, rfl⟩ := hy
  obtain ⟨hlo, hhi⟩ := log_bounds hx
  set L := Int.log 2 |x| with hL
  by_cases he : L - 52 ≤ e
  · have hk : (m : ℚ) * 2 ^ e = ((m * 2 ^ (e - (L - 52)).toNat : ℤ) : ℚ) * (2 : ℚ) ^ (L - 52) := by
      push_cast
      rw [mul_assoc, ← zpow_natCast, ← zpow_add₀ (by norm_num)]
      congr 2
      omega
    rw [hk]
    exact fl_err hx _
  · have hsmall : |(m : ℚ) * 2 ^ e| ≤ (2 : ℚ) ^ L := by
      rw [abs_mul, abs_of_pos (show (0 : ℚ) < 2 ^ e from zpow_pos (by norm_num) _)]
      have h1 : |(m : ℚ)| ≤ 2 ^ (53 : ℤ) := by
        have : (|m| : ℚ) < 2 ^ 53 := by exact_mod_cast hm
        exact_mod_cast this.le
      calc |(m : ℚ)| * 2 ^ e ≤ 2 ^ (53 : ℤ) * 2 ^ e := mul_le_mul_of_nonneg_right h1 (zpow_pos (by norm_num) _).le
        _ = 2 ^ (53 + e) := by rw [← zpow_add₀ (by norm_num)]
        _ ≤ 2 ^ L := zpow_le_zpow_right₀ (by norm_num) (by omega)
    have hpow : (2 : ℚ) ^ L = ((2 ^ 52 : ℤ) : ℚ) * (2 : ℚ) ^ (L - 52) := by
      rw [zpow_sub₀ (by norm_num)]
      norm_num
      ring
    have h2 : |x| - (2 : ℚ) ^ L ≤ |x - m * 2 ^ e| := by
      have := abs_sub_abs_le_abs_sub x ((m : ℚ) * 2 ^ e)
      linarith
    refine le_trans ?_ h2
    rcases le_or_gt 0 x with h0 | h0
    · have := fl_err hx (2 ^ 52)
      rw [← hL, ← hpow] at this
      refine this.trans (le_of_eq ?_)
      rw [abs_of_nonneg h0] at hlo ⊢
      rw [abs_of_nonneg (by linarith)]
    · have := fl_err hx (-2 ^ 52)
      rw [← hL] at this
      refine this.trans (le_of_eq ?_)
      have hn : ((-2 ^ 52 : ℤ) : ℚ) * (2 : ℚ) ^ (L - 52) = -(2 : ℚ) ^ L := by
        rw [hpow]
        push_cast
        ring
      rw [hn]
      rw [abs_of_neg h0] at hlo ⊢
      rw [abs_of_nonpos (by linarith)]
      ring

/-- C99: the result is a double. -/
theorem C99_isDouble (x : ℚ) : IsDouble (fl x) := by
  by_cases hx : x = 0
  · exact ⟨0, 0, by norm_num, by simp [hx, fl_zero]⟩
  obtain ⟨hlo, hhi⟩ := log_bounds hx
  rw [fl_eq hx]
  set L := Int.log 2 |x| with hL
  set u : ℚ := (2 : ℚ) ^ (L - 52) with hu
  have hu0 : 0 < u := zpow_pos (by norm_num) _
  have hpow : (2 : ℚ) ^ (L + 1) = 2 ^ 53 * u := by
    rw [hu, ← zpow_natCast, ← zpow_add₀ (by norm_num)]
    congr 1
    push_cast
    ring
  have hlt : |x / u| < 2 ^ 53 := by
    rw [abs_div, abs_of_pos hu0, div_lt_iff₀ hu0, ← hpow]
    exact hhi
  have hle : |pyRound (x / u)| ≤ 2 ^ 53 := by
    have h := pyRound_close (x / u)
    have h2 : |(pyRound (x / u) : ℚ)| < 2 ^ 53 + 1 := by
      have := abs_sub_abs_le_abs_sub (pyRound (x / u) : ℚ) (x / u)
      rw [abs_sub_comm] at this
      linarith
    have h3 : |pyRound (x / u)| < 2 ^ 53 + 1 := by exact_mod_cast h2
    omega
  rcases hle.lt_or_eq with h | h
  · exact ⟨_, _, h, rfl⟩
  · rcases eq_or_eq_neg_of_abs_eq h with h | h
    · refine ⟨1, L + 1, by norm_num, ?_⟩
      rw [h, hpow]
      push_cast
      ring
    · refine ⟨-1, L + 1, by norm_num, ?_⟩
      rw [h, hpow]
      push_cast
      ring

/-- C99: doubles are not changed. -/
theorem C99_fixed {x : ℚ} (hx : IsDouble x) : fl x = x := by
  have := C99_nearest x x hx
  rw [sub_self, abs_zero] at this
  have := abs_eq_zero.1 (le_antisymm this (abs_nonneg _))
  linarith

/-- C99: if `x` lies half way between two neighbouring doubles the one with even significand is taken. -/
theorem C99_ties {x : ℚ} (hx : x ≠ 0) : ∃ u : ℚ, 2 ^ 52 * u ≤ |x| ∧ |x| < 2 ^ 53 * u ∧ ∃ m : ℤ, fl x = m * u ∧ |x - fl x| ≤ u / 2 ∧
    (|x - fl x| = u / 2 → Even m) := by
  obtain ⟨hlo, hhi⟩ := log_bounds hx
  rw [fl_eq hx]
  set L := Int.log 2 |x| with hL
  set u : ℚ := (2 : ℚ) ^ (L - 52) with hu
  have hu0 : 0 < u := zpow_pos (by norm_num) _
  have hp1 : (2 : ℚ) ^ (L + 1) = 2 ^ 53 * u := by
    rw [hu, ← zpow_natCast, ← zpow_add₀ (by norm_num)]
    congr 1
    push_cast
    ring
  have hp0 : (2 : ℚ) ^ L = 2 ^ 52 * u := by
    rw [hu, ← zpow_natCast, ← zpow_add₀ (by norm_num)]
    congr 1
    push_cast
    ring
  have e1 : |x - pyRound (x / u) * u| = |x / u - pyRound (x / u)| * u := by
    rw [← abs_of_pos hu0, ← abs_mul, abs_of_pos hu0, sub_mul, div_mul_cancel₀ _ hu0.ne']
  obtain ⟨r1, r2⟩ := (pyRound_iff (x / u) _).2 rfl
  refine ⟨u, hp0 ▸ hlo, hp1 ▸ hhi, _, rfl, ?_, fun h => r2 ?_⟩
  · rw [e1]
    nlinarith
  · rw [e1] at h
    have : (|x / u - pyRound (x / u)| - 1 / 2) * u = 0 := by linarith
    rcases mul_eq_zero.1 this with h | h
    · linarith
    · exact absurd h hu0.ne'

theorem isDouble_pow (e : ℤ) : IsDouble ((2 : ℚ) ^ e) := ⟨1, e, by norm_num, by simp⟩

/-- Rounding keeps the order with respect to doubles. -/
theorem fl_ge {x y : ℚ} (hy : IsDouble y) (h : y ≤ x) : y ≤ fl x := by
  by_contra hc
  push Not at hc
  have h1 := C99_nearest x y hy
  rw [abs_of_nonneg (by linarith), abs_of_nonneg (by linarith)] at h1
  linarith

theorem fl_le {x y : ℚ} (hy : IsDouble y) (h : x ≤ y) : fl x ≤ y := by
  by_contra hc
  push Not at hc
  have h1 := C99_nearest x y hy
  rw [abs_of_nonpos (by linarith), abs_of_nonpos (by linarith)] at h1
  linarith

/-- Rounding changes a non-negative number by at most the fraction `2^-53` of the smaller of the number and the result. -/
theorem fl_close {x : ℚ} (hx : 0 ≤ x) : |x - fl x| ≤ x / 2 ^ 53 ∧ |x - fl x| ≤ fl x / 2 ^ 53 ∧ 0 ≤ fl x := by
  rcases hx.eq_or_lt with rfl | hx
  · simp [fl_zero]
  obtain ⟨u, h1, h2, m, h3, h4, -⟩ := C99_ties hx.ne'
  rw [abs_of_pos hx] at h1 h2
  obtain ⟨hlo, hhi⟩ := log_bounds hx.ne'
  have hfl : 0 ≤ fl x := fl_ge ⟨0, 0, by norm_num, by simp⟩ hx.le
  have herr : |x - fl x| ≤ (2 : ℚ) ^ (Int.log 2 |x|) / 2 ^ 53 := by
    rw [fl_eq hx.ne']
    set u : ℚ := (2 : ℚ) ^ (Int.log 2 |x| - 52) with hu
    have hu0 : 0 < u := zpow_pos (by norm_num) _
    have e1 : |x - pyRound (x / u) * u| = |x / u - pyRound (x / u)| * u := by
      rw [← abs_of_pos hu0, ← abs_mul, abs_of_pos hu0, sub_mul, div_mul_cancel₀ _ hu0.ne']
    have hp0 : (2 : ℚ) ^ (Int.log 2 |x|) = 2 ^ 52 * u := by
      rw [hu, ← zpow_natCast, ← zpow_add₀ (by norm_num)]
      congr 1
      push_cast
      ring
    rw [e1, hp0]
    have := pyRound_close (x / u)
    nlinarith
  have hge : (2 : ℚ) ^ (Int.log 2 |x|) ≤ fl x := fl_ge (isDouble_pow _) (by rw [abs_of_pos hx] at hlo ⊢; exact hlo)
  rw [abs_of_pos hx] at hlo herr hge
  exact ⟨herr.trans (by gcongr), herr.trans (by gcongr), hfl⟩

/-! ## The check of the ratios -/

theorem fsum_append (l : List ℚ) (r : ℚ) : fsum (l ++ [r]) = fl (fsum l + r) := by simp [fsum]

/-- C99: the computed sum of non-negative ratios differs from the exact one by at most the fraction `2^-53` of the computed one per ratio. -/
theorem C99_sum (l : List ℚ) (hl : ∀ r ∈ l, 0 ≤ r) : |l.sum - fsum l| ≤ l.length * fsum l / 2 ^ 53 ∧ 0 ≤ fsum l ∧ IsDouble (fsum l) := by
  induction l using List.reverseRecOn with
  | nil => exact ⟨by simp [fsum], by simp [fsum], ⟨0, 0, by norm_num, by simp [fsum]⟩⟩
  | append_singleton l r ih =>
    obtain ⟨h1, h2, h3⟩ := ih (fun x hx => hl x (by simp [hx]))
    have hr : 0 ≤ r := hl r (by simp)
    rw [fsum_append]
    obtain ⟨-, c2, c3⟩ := fl_close (add_nonneg h2 hr)
    refine ⟨?_, c3, C99_isDouble _⟩
    have hmono : fsum l ≤ fl (fsum l + r) := fl_ge h3 (by linarith)
    have htri : |(l ++ [r]).sum - fl (fsum l + r)| ≤ |l.sum - fsum l| + |fsum l + r - fl (fsum l + r)| := by
      have := abs_add_le (l.sum - fsum l) (fsum l + r - fl (fsum l + r))
      refine le_trans (le_of_eq ?_) this
      congr 1
      rw [List.sum_append, List.sum_singleton]
      ring
    have hb : (l.length : ℚ) * fsum l / 2 ^ 53 ≤ l.length * fl (fsum l + r) / 2 ^ 53 := by gcongr
    rw [List.length_append, List.length_singleton]
    push_cast
    have e : ((l.length : ℚ) + 1) * fl (fsum l + r) / 2 ^ 53 = l.length * fl (fsum l + r) / 2 ^ 53 + fl (fsum l + r) / 2 ^ 53 := by ring
    rw [e]
    linarith

/-- C99: accepted ratios sum to one up to a few units in the last place. -/
theorem C99_accepted {α : Type} (rng : Nat → Rng) (data : List (List α)) (ratios : List ℚ) (hr : ∀ r ∈ ratios, 0 ≤ r)
    (folds : List (List (List α))) (h : splitDataF rng data ratios = .ok folds) : |ratios.sum - 1| ≤ ratios.length / 2 ^ 53 := by
  have h1 : fsum ratios = 1 := by
    by_contra hc
    unfold splitDataF at h
    rw [if_pos hc] at h
    simp at h
  have := (C99_sum ratios hr).1
  rw [h1, mul_one] at this
  exact this

/-- C99: but not all ratios with sum one are accepted: `folds=[0.7, 0.2, 0.1]` and `folds=[0.6, 0.3, 0.1]` raise `ValueError` for all data,
although the decimal numbers sum to one, whereas the first of them is accepted in reverse order. -/
theorem C99_decimals {α : Type} (rng : Nat → Rng) (data : List (List α)) :
    splitDataF rng data [fl (7 / 10), fl (2 / 10), fl (1 / 10)] = .error .valueError ∧
    splitDataF rng data [fl (6 / 10), fl (3 / 10), fl (1 / 10)] = .error .valueError ∧
    splitDataF rng data [fl (1 / 10), fl (2 / 10), fl (7 / 10)] ≠ .error .valueError := by
  have h1 : fsum [fl (7 / 10), fl (2 / 10), fl (1 / 10)] ≠ 1 := by decide +kernel
  have h2 : fsum [fl (6 / 10), fl (3 / 10), fl (1 / 10)] ≠ 1 := by decide +kernel
  have h3 : fsum [fl (1 / 10), fl (2 / 10), fl (7 / 10)] = 1 := by decide +kernel
  unfold splitDataF
  rw [if_pos h1, if_pos h2, if_neg (by rw [h3]; simp)]
  refine ⟨rfl, rfl, ?_⟩
  simp only []
  split_ifs <;> simp

/-! ## The sizes of the folds -/

theorem splitSampleF_eq {α : Type} (sample : List α) (nFolds : Nat) (rs : List (Nat × Rat)) :
    ∀ start : Int, 0 ≤ start → (∀ r ∈ rs, r.1 < nFolds ∧ 0 ≤ r.2) →
    splitSampleF sample nFolds rs start =
      pieces (sample.drop start.toNat) (rs.map (fun r => (pyRound (fl (fl sample.length * r.2))).toNat)) := by
  induction rs with
  | nil => intro s _ _; rfl
  | cons r rs ih =>
    obtain ⟨i, ratio⟩ := r
    intro start hstart hr
    have h1 := hr (i, ratio) (by simp)
    have hsz : 0 ≤ pyRound (fl (fl sample.length * ratio)) :=
      pyRound_nonneg (fl_close (mul_nonneg (fl_close (by positivity)).2.2 h1.2)).2.2
    unfold splitSampleF
    simp only [List.map_cons, pieces]
    rw [if_pos h1.1, pySlice_nonneg _ hstart hsz, ih _ (by omega) (fun r hr' => hr r (List.mem_cons_of_mem _ hr')),
      List.drop_drop, show (start + pyRound (fl (fl sample.length * ratio))).toNat =
        start.toNat + (pyRound (fl (fl sample.length * ratio))).toNat by omega]

theorem splitDataF_ok {α : Type} (rng : Nat → Rng) (data : List (List α)) (ratios : List Rat) (hs : fsum ratios = 1)
    (hr : ∀ r ∈ ratios, 0 ≤ r) : ∃ folds, splitDataF rng data ratios = .ok folds ∧ folds.length = ratios.length ∧
      (∀ f ∈ folds, f.length = data.length) ∧ ∀ e sample, data[e]? = some sample →
        foldsOf folds e = pieces ((rng e).shuffle sample)
          (ratios.map (fun (r : Rat) => (pyRound (fl (fl sample.length * r))).toNat)) := by
  have hne : 0 < ratios.length := by
    cases ratios with
    | nil => simp [fsum] at hs
    | cons a l => simp
  unfold splitDataF
  rw [if_neg (by simpa using hs)]
  simp only []
  rw [if_neg (by simp), if_neg (by simp [List.getD_eq_getElem?_getD, hne])]
  refine ⟨_, rfl, by simp, ?_, ?_⟩
  · intro f hf
    obtain ⟨i, _, rfl⟩ := List.mem_map.1 hf
    simp
  · intro e sample he
    have hlt : e < data.length := by
      by_contra hc
      rw [List.getElem?_eq_none (by omega)] at he
      simp at he
    have hget : data[e] = sample := by
      rw [List.getElem?_eq_getElem hlt] at he
      exact Option.some.inj he
    have hsp := splitSampleF_eq ((rng e).shuffle sample) ratios.length (ratios.zipIdx.map (fun r => (r.2, r.1))) 0 (le_refl _)
      (by
        intro r hr'
        obtain ⟨⟨x, i⟩, hx, rfl⟩ := List.mem_map.1 hr'
        obtain ⟨-, h1, h2⟩ := List.mem_zipIdx hx
        refine ⟨by simpa using h1, ?_⟩
        apply hr
        simp only at h2 ⊢
        rw [h2]
        exact List.getElem_mem _)
    have hmap : (ratios.zipIdx.map (fun r => (r.2, r.1))).map
        (fun r : Nat × Rat => (pyRound (fl (fl ((rng e).shuffle sample).length * r.2))).toNat) =
        ratios.map (fun r => (pyRound (fl (fl sample.length * r))).toNat) := by
      rw [((rng e).shuffle_perm sample).length_eq, List.map_map]
      have : ((fun r : Nat × Rat => (pyRound (fl (fl sample.length * r.2))).toNat) ∘ fun r : Rat × Nat => (r.2, r.1)) =
          (fun r => (pyRound (fl (fl sample.length * r))).toNat) ∘ Prod.fst := by funext r; rfl
      rw [this, ← List.map_map, List.zipIdx_map_fst]
    rw [hmap] at hsp
    simp only [Int.toNat_zero, List.drop_zero] at hsp
    rw [← hsp]
    have hl : (splitSampleF ((rng e).shuffle sample) ratios.length (ratios.zipIdx.map (fun r => (r.2, r.1))) 0).length =
        ratios.length := by
      rw [hsp, pieces_length]
      simp
    unfold foldsOf
    rw [List.map_map]
    apply List.ext_getElem
    · simp [hl]
    · intro i h1 h2
      simp [List.getD_eq_getElem?_getD, hlt, hget, List.getElem?_eq_getElem h2]


theorem isDouble_nat {n : Nat} (h : n < 2 ^ 53) : IsDouble n := ⟨n, 0, by rw [abs_of_nonneg (by positivity)]; exact_mod_cast h, by simp⟩

/-- C99: with accepted ratios and fewer than `2^53` observations, the folds of an environment are consecutive pieces of a permutation of its
observations, and each of them has a number of observations within one half (plus rounding) of its share, unless the observations are used
up before. -/
theorem C99_folds {α : Type} (rng : Nat → Rng) (data : List (List α)) (ratios : List ℚ) (hr : ∀ r ∈ ratios, 0 ≤ r)
    (folds : List (List (List α))) (h : splitDataF rng data ratios = .ok folds) (e : Nat) (sample : List α) (he : data[e]? = some sample)
    (hn : sample.length < 2 ^ 53) :
    (∃ perm : List α, perm.Perm sample ∧ (foldsOf folds e).flatten <+: perm) ∧
    ∀ i fold ratio, (foldsOf folds e)[i]? = some fold → ratios[i]? = some ratio → ∃ k : Nat,
      |(k : ℚ) - sample.length * ratio| ≤ 1 / 2 + sample.length * ratio / 2 ^ 53 ∧
      fold.length = min k (sample.length - (((foldsOf folds e).take i).map List.length).sum) := by
  have h1 : fsum ratios = 1 := by
    by_contra hc
    unfold splitDataF at h
    rw [if_pos hc] at h
    simp at h
  obtain ⟨folds', k1, k2, k3, k4⟩ := splitDataF_ok rng data ratios h1 hr
  obtain rfl : folds' = folds := by rw [k1] at h; injection h
  have hperm := (rng e).shuffle_perm sample
  rw [k4 e sample he]
  refine ⟨⟨_, hperm, by rw [pieces_flatten]; exact List.take_prefix _ _⟩, ?_⟩
  intro i fold ratio hf hi
  have hrat : 0 ≤ ratio := hr ratio (List.mem_of_getElem? hi)
  refine ⟨(pyRound (fl (fl sample.length * ratio))).toNat, ?_, ?_⟩
  · rw [C99_fixed (isDouble_nat hn)]
    obtain ⟨c1, -, c3⟩ := fl_close (x := (sample.length : ℚ) * ratio) (by positivity)
    have c4 := pyRound_close (fl ((sample.length : ℚ) * ratio))
    have c5 : (((pyRound (fl ((sample.length : ℚ) * ratio))).toNat : ℕ) : ℚ) = (pyRound (fl ((sample.length : ℚ) * ratio)) : ℚ) := by
      have := Int.toNat_of_nonneg (pyRound_nonneg c3)
      exact_mod_cast this
    rw [c5]
    have := abs_add_le ((pyRound (fl ((sample.length : ℚ) * ratio)) : ℚ) - fl ((sample.length : ℚ) * ratio)) (fl ((sample.length : ℚ) * ratio) - sample.length * ratio)
    rw [sub_add_sub_cancel, abs_sub_comm _ (fl _), abs_sub_comm (fl _) ((sample.length : ℚ) * ratio)] at this
    linarith
  · set ks := ratios.map (fun (r : Rat) => (pyRound (fl (fl sample.length * r))).toNat) with hks
    have hk : ks[i]? = some (pyRound (fl (fl sample.length * ratio))).toNat := by rw [hks, List.getElem?_map, hi]; rfl
    have hlen := pieces_getElem_length _ _ i fold _ hf hk
    rw [hlen, hperm.length_eq]
    have hsum : ∀ (l : List α) (ks : List Nat) (i : Nat), (((pieces l ks).take i).map List.length).sum = min (ks.take i).sum l.length := by
      intro l ks
      induction ks generalizing l with
      | nil => intro i; simp [pieces]
      | cons k ks ih =>
        intro i
        cases i with
        | zero => simp
        | succ i =>
          simp only [pieces, List.take_succ_cons, List.map_cons, List.sum_cons, ih, List.length_take, List.length_drop]
          omega
    rw [hsum, hperm.length_eq]
    congr 1
    omega

/-- C99: the bound of C33 on the number of observations that no fold contains holds in floating point too. -/
theorem C99_dropped_bound {α : Type} (rng : Nat → Rng) (data : List (List α)) (ratios : List ℚ) (hr : ∀ r ∈ ratios, 0 ≤ r)
    (folds : List (List (List α))) (h : splitDataF rng data ratios = .ok folds) (e : Nat) (sample : List α) (he : data[e]? = some sample)
    (hn : sample.length * (ratios.length + 1) < 2 ^ 52) :
    2 * (sample.length - (foldsOf folds e).flatten.length) ≤ ratios.length := by
  have h1 : fsum ratios = 1 := by
    by_contra hc
    unfold splitDataF at h
    rw [if_pos hc] at h
    simp at h
  have hacc := C99_accepted rng data ratios hr folds h
  obtain ⟨folds', k1, k2, k3, k4⟩ := splitDataF_ok rng data ratios h1 hr
  obtain rfl : folds' = folds := by rw [k1] at h; injection h
  have hperm := (rng e).shuffle_perm sample
  have hn53 : sample.length < 2 ^ 53 := by nlinarith
  rw [k4 e sample he, pieces_flatten, List.length_take, hperm.length_eq, C99_fixed (isDouble_nat hn53)]
  have key : ∀ rs : List Rat, (∀ r ∈ rs, 0 ≤ r) → (sample.length : ℚ) * rs.sum * (1 - 1 / 2 ^ 53) ≤
      ((rs.map (fun (r : Rat) => (pyRound (fl (sample.length * r))).toNat)).sum : ℚ) + rs.length * (1 / 2) := by
    intro rs
    induction rs with
    | nil => intro _; simp
    | cons r rs ih =>
      intro hr
      have hr0 := hr r (by simp)
      have ih' := ih (fun x hx => hr x (List.mem_cons_of_mem _ hx))
      obtain ⟨c1, -, c3⟩ := fl_close (x := (sample.length : ℚ) * r) (by positivity)
      have c4 := (abs_le.1 (pyRound_close (fl ((sample.length : ℚ) * r)))).2
      have c5 : (((pyRound (fl ((sample.length : ℚ) * r))).toNat : ℕ) : ℚ) = (pyRound (fl ((sample.length : ℚ) * r)) : ℚ) := by
        have := Int.toNat_of_nonneg (pyRound_nonneg c3)
        exact_mod_cast this
      have c6 := (abs_le.1 c1).2
      simp only [List.map_cons, List.sum_cons, List.length_cons]
      push_cast at ih' ⊢
      rw [c5]
      have e1 : (sample.length : ℚ) * (r + rs.sum) * (1 - 1 / 2 ^ 53) =
          (sample.length * r - sample.length * r / 2 ^ 53) + sample.length * rs.sum * (1 - 1 / 2 ^ 53) := by ring
      rw [e1]
      linarith
  have hk := key ratios hr
  have hsum := (abs_le.1 hacc).1
  set S := (ratios.map (fun (r : Rat) => (pyRound (fl (sample.length * r))).toNat)).sum with hS
  set n := sample.length with hnn
  set m := ratios.length with hmm
  have hnq : (n : ℚ) * (m + 1) < 2 ^ 52 := by exact_mod_cast hn
  have hn0 : (0 : ℚ) ≤ n := by positivity
  have hlow : (n : ℚ) - n * (m + 1) / 2 ^ 53 ≤ n * ratios.sum * (1 - 1 / 2 ^ 53) := by
    have h2 : (1 - (m : ℚ) / 2 ^ 53) ≤ ratios.sum := by linarith
    have h3 : (n : ℚ) * (1 - m / 2 ^ 53) * (1 - 1 / 2 ^ 53) ≤ n * ratios.sum * (1 - 1 / 2 ^ 53) := by
      apply mul_le_mul_of_nonneg_right _ (by norm_num)
      exact mul_le_mul_of_nonneg_left h2 hn0
    refine le_trans ?_ h3
    have h4 : (n : ℚ) * (1 - m / 2 ^ 53) * (1 - 1 / 2 ^ 53) = n - n * (m + 1) / 2 ^ 53 + n * (m / 2 ^ 53) * (1 / 2 ^ 53) := by ring
    rw [h4]
    have : 0 ≤ (n : ℚ) * (m / 2 ^ 53) * (1 / 2 ^ 53) := by positivity
    linarith
  have hfin : (2 : ℚ) * n < 2 * S + m + 1 := by
    have : (n : ℚ) * (m + 1) / 2 ^ 53 < 1 / 2 := by
      rw [div_lt_iff₀ (by norm_num)]
      linarith
    linarith
  have : 2 * n < 2 * S + m + 1 := by exact_mod_cast hfin
  omega

/-! ## Exact ratios -/

/-- C99: if the partial sums of the ratios and their products with the sample sizes are doubles, `split_data` is the function of the other
theorems. -/
theorem C99_exact {α : Type} (rng : Nat → Rng) (data : List (List α)) (ratios : List ℚ)
    (hsum : ∀ i ≤ ratios.length, IsDouble (ratios.take i).sum) (hn : ∀ s ∈ data, s.length < 2 ^ 53)
    (hmul : ∀ s ∈ data, ∀ r ∈ ratios, IsDouble (s.length * r)) : splitDataF rng data ratios = splitData rng data ratios := by
  have h1 : fsum ratios = ratios.sum := by
    have : ∀ i ≤ ratios.length, fsum (ratios.take i) = (ratios.take i).sum := by
      intro i
      induction i with
      | zero => intro _; simp [fsum]
      | succ i ih =>
        intro hi
        rw [List.take_succ_eq_append_getElem (by omega), fsum_append, ih (by omega), List.sum_append, List.sum_singleton]
        apply C99_fixed
        have := hsum (i + 1) hi
        rwa [List.take_succ_eq_append_getElem (by omega), List.sum_append, List.sum_singleton] at this
    have := this ratios.length (le_refl _)
    rwa [List.take_length] at this
  have h2 : ∀ (sample : List α), sample.length < 2 ^ 53 → ∀ (rs : List (Nat × ℚ)), (∀ r ∈ rs, IsDouble (sample.length * r.2)) → ∀ nF start,
      splitSampleF sample nF rs start = splitSample sample nF rs start := by
    intro sample hs rs
    induction rs with
    | nil => intro _ nF start; rfl
    | cons r rs ih =>
      intro hr nF start
      simp only [splitSampleF, splitSample, C99_fixed (isDouble_nat hs), C99_fixed (hr r (by simp)), ih (fun x hx => hr x (by simp [hx]))]
  have h3 : (data.zipIdx.map (fun s => splitSampleF ((rng s.2).shuffle s.1) ratios.length (ratios.zipIdx.map (fun r => (r.2, r.1))) 0)) =
      (data.zipIdx.map (fun s => splitSample ((rng s.2).shuffle s.1) ratios.length (ratios.zipIdx.map (fun r => (r.2, r.1))) 0)) := by
    refine List.map_congr_left fun s hs => ?_
    have hmem : s.1 ∈ data := by
      obtain ⟨-, -, h⟩ := List.mem_zipIdx (x := s.1) (i := s.2) hs
      rw [h]
      exact List.getElem_mem _
    have hlen : ((rng s.2).shuffle s.1).length = s.1.length := ((rng s.2).shuffle_perm s.1).length_eq
    apply h2
    · rw [hlen]; exact hn _ hmem
    · intro r hr
      obtain ⟨⟨x, i⟩, hx, rfl⟩ := List.mem_map.1 hr
      obtain ⟨-, -, h⟩ := List.mem_zipIdx hx
      rw [hlen]
      apply hmul _ hmem
      simp only at h ⊢
      rw [h]
      exact List.getElem_mem _
  unfold splitDataF splitData
  simp only [h1, h3]

/-- C99: in particular for ratios that are multiples of `2^-k`, such as the default `[0.5, 0.25, 0.25]`, and samples of fewer than `2^(53-k)`
observations. -/
theorem C99_dyadic {α : Type} (rng : Nat → Rng) (data : List (List α)) (k : Nat) (hk : k < 53) (ms : List Nat) (hms : ms.sum ≤ 2 ^ k)
    (hn : ∀ s ∈ data, s.length < 2 ^ (53 - k)) :
    splitDataF rng data (ms.map (fun m : Nat => (m : ℚ) / 2 ^ k)) = splitData rng data (ms.map (fun m : Nat => (m : ℚ) / 2 ^ k)) := by
  have hdiv : ∀ m : Nat, m < 2 ^ 53 → IsDouble ((m : ℚ) / 2 ^ k) := by
    intro m hm
    refine ⟨m, -(k : ℤ), by rw [abs_of_nonneg (by positivity)]; exact_mod_cast hm, ?_⟩
    rw [zpow_neg, zpow_natCast]
    push_cast
    ring
  have h2 : (2 : Nat) ^ k < 2 ^ 53 := Nat.pow_lt_pow_right (by norm_num) hk
  refine C99_exact rng data _ ?_ ?_ ?_
  · intro i _
    have : ((ms.map (fun m : Nat => (m : ℚ) / 2 ^ k)).take i).sum = (((ms.take i).sum : ℕ) : ℚ) / 2 ^ k := by
      rw [← List.map_take]
      generalize ms.take i = l
      induction l with
      | nil => simp
      | cons a l ih => simp only [List.map_cons, List.sum_cons, ih]; push_cast; ring
    rw [this]
    apply hdiv
    have : (ms.take i).sum ≤ ms.sum := (List.take_sublist i ms).sum_le_sum (fun _ _ => Nat.zero_le _)
    omega
  · intro s hs
    exact lt_of_lt_of_le (hn s hs) (Nat.pow_le_pow_right (by norm_num) (by omega))
  · intro s hs r hr
    obtain ⟨m, hm, rfl⟩ := List.mem_map.1 hr
    have hmle : m ≤ 2 ^ k := (List.single_le_sum (fun _ _ => Nat.zero_le _) m hm).trans hms
    rw [← mul_div_assoc, ← Nat.cast_mul]
    apply hdiv
    calc s.length * m ≤ s.length * 2 ^ k := Nat.mul_le_mul_left _ hmle
      _ < 2 ^ (53 - k) * 2 ^ k := Nat.mul_lt_mul_of_pos_right (hn s hs) (by positivity)
      _ = 2 ^ 53 := by rw [← pow_add]; congr 1; omega

-- the default folds
example (rng : Nat → Rng) (data : List (List Nat)) (hn : ∀ s ∈ data, s.length < 2 ^ 51) :
    splitDataF rng data [1 / 2, 1 / 4, 1 / 4] = splitData rng data [1 / 2, 1 / 4, 1 / 4] := by
  have := C99_dyadic rng data 2 (by norm_num) [2, 1, 1] (by norm_num) hn
  norm_num at this ⊢
  exact this

-- an accepted split of ten observations in floating point
example : splitDataF (fun _ => Rng.front) [List.range 10] [fl (8 / 10), fl (1 / 10), fl (1 / 10)] =
    .ok [[[0, 1, 2, 3, 4, 5, 6, 7]], [[8]], [[9]]] := by decide +kernel

-- 0.1 is not a tenth
example : fl (1 / 10) ≠ 1 / 10 ∧ fl (1 / 10) = 3602879701896397 / 36028797018963968 := by decide +kernel

end Verif
