import Verif.Model.FloatGraph
import Verif.Props.FloatSplit
import Verif.Proof.Cpdag
import Verif.Proof.Icpdag
import Verif.Props.Enum
import Mathlib.Tactic.FinCases

/-!
# C141: graphs given by floating-point matrices
-/

namespace Verif

open Spec

variable {p : Nat}

/-- The finite binary64 numbers, normal and subnormal. -/
def Spec.IsBinary64 (x : ℚ) : Prop := ∃ m e : ℤ, |m| < 2 ^ 53 ∧ -1074 ≤ e ∧ e ≤ 971 ∧ x = m * (2 : ℚ) ^ e

/-- Zero, a positive double or plus infinity. -/
def Spec.NonnegDbl (x : Dbl) : Prop := x = .pinf ∨ ∃ q : ℚ, x = .fin q ∧ 0 ≤ q ∧ IsBinary64 q

/-- The graph of a matrix of doubles, with entries 0 and 1: every entry that is not zero is an edge, NaN too. -/
def Spec.graphOf (A : FAdj p) : Adj p := fun i j => if A i j = .fin 0 then 0 else 1

theorem graphOf_zeroOne (A : FAdj p) : ZeroOne (graphOf A) := by
  intro i j; unfold graphOf; split <;> simp

theorem graphOf_nonneg (A : FAdj p) : Nonneg (graphOf A) := by
  intro i j; unfold graphOf; split <;> simp

theorem graphOf_ne {A : FAdj p} {i j : Fin p} : graphOf A i j ≠ 0 ↔ A i j ≠ .fin 0 := by
  unfold graphOf; split <;> simp_all

theorem graphOf_eq {A : FAdj p} {i j : Fin p} : graphOf A i j = 0 ↔ A i j = .fin 0 := by
  unfold graphOf; split <;> simp_all

/-! ### Rounding -/

theorem two_zpow_pos (e : ℤ) : (0 : ℚ) < (2 : ℚ) ^ e := zpow_pos (by norm_num) e

theorem Spec.IsBinary64.isDouble {x : ℚ} (h : IsBinary64 x) : IsDouble x := by
  obtain ⟨m, e, hm, -, -, rfl⟩ := h
  exact ⟨m, e, hm, rfl⟩

theorem Spec.IsBinary64.grid {x : ℚ} (h : IsBinary64 x) : ∃ k : ℤ, x = k * (2 : ℚ) ^ (-1074 : ℤ) := by
  obtain ⟨m, e, -, he, -, rfl⟩ := h
  obtain ⟨n, hn⟩ := Int.eq_ofNat_of_zero_le (show 0 ≤ e + 1074 by omega)
  refine ⟨m * 2 ^ n, ?_⟩
  have : e = n + (-1074 : ℤ) := by omega
  rw [this, zpow_add₀ (by norm_num)]
  push_cast
  rw [zpow_natCast]
  ring

theorem Spec.IsBinary64.lt {x : ℚ} (h : IsBinary64 x) : |x| < (2 : ℚ) ^ (1024 : ℤ) := by
  obtain ⟨m, e, hm, -, he, rfl⟩ := h
  rw [abs_mul, abs_of_pos (two_zpow_pos e)]
  have h1 : |(m : ℚ)| < 2 ^ 53 := by exact_mod_cast hm
  calc |(m : ℚ)| * (2 : ℚ) ^ e < 2 ^ 53 * (2 : ℚ) ^ e := mul_lt_mul_of_pos_right h1 (two_zpow_pos e)
    _ = (2 : ℚ) ^ (53 + e) := by rw [zpow_add₀ (by norm_num)]; norm_num
    _ ≤ (2 : ℚ) ^ (1024 : ℤ) := zpow_le_zpow_right₀ (by norm_num) (by omega)

theorem pyRound_int (k : ℤ) : pyRound (k : ℚ) = k := by
  have h := pyRound_nearest (k : ℚ) k
  simp only [sub_self, abs_zero] at h
  have := abs_eq_zero.1 (le_antisymm h (abs_nonneg _))
  have h2 : (k : ℚ) = (pyRound (k : ℚ) : ℚ) := by linarith
  exact_mod_cast h2.symm

/-- The exponent of the unit in the last place. -/
theorem round_ne {x : ℚ} (hx : x ≠ 0) : ∃ e r, e = max (Int.log 2 |x| - 52) (-1074) ∧ r = (pyRound (x / (2 : ℚ) ^ e) : ℚ) * (2 : ℚ) ^ e ∧
    Dbl.round x = if |r| < (2 : ℚ) ^ (1024 : ℤ) then .fin r else if 0 < r then .pinf else .ninf := by
  refine ⟨_, _, rfl, rfl, ?_⟩
  unfold Dbl.round
  rw [if_neg hx]

/-- The rounded value before the test for overflow is as near to the number as every double. -/
theorem round_nearest {x : ℚ} (hx : x ≠ 0) {e : ℤ} (he : e = max (Int.log 2 |x| - 52) (-1074)) {z : ℚ} (hz : IsBinary64 z) :
    |x - (pyRound (x / (2 : ℚ) ^ e) : ℚ) * (2 : ℚ) ^ e| ≤ |x - z| := by
  by_cases h : -1074 ≤ Int.log 2 |x| - 52
  · rw [max_eq_left h] at he
    have := C99_nearest x z hz.isDouble
    rwa [fl_eq hx, ← he] at this
  · rw [max_eq_right (by omega)] at he
    subst he
    obtain ⟨k, rfl⟩ := hz.grid
    have h1 := pyRound_nearest (x / (2 : ℚ) ^ (-1074 : ℤ)) k
    have hp := two_zpow_pos (-1074)
    set u := (2 : ℚ) ^ (-1074 : ℤ)
    have h2 : ∀ y : ℚ, |x - y * u| = |x / u - y| * u := by
      intro y
      rw [← abs_of_pos hp, ← abs_mul, abs_of_pos hp, sub_mul, div_mul_cancel₀ _ hp.ne']
    rw [h2, h2]
    gcongr

theorem quot_bounds {x : ℚ} (hx : x ≠ 0) {e : ℤ} (he : e = max (Int.log 2 |x| - 52) (-1074)) :
    |x / (2 : ℚ) ^ e| < 2 ^ 53 ∧ (-1074 < e → 2 ^ 52 ≤ |x / (2 : ℚ) ^ e|) := by
  obtain ⟨h1, h2⟩ := log_bounds hx
  have hp := two_zpow_pos e
  rw [abs_div, abs_of_pos hp]
  constructor
  · rw [div_lt_iff₀ hp]
    refine lt_of_lt_of_le h2 ?_
    have : (2 : ℚ) ^ 53 * (2 : ℚ) ^ e = (2 : ℚ) ^ (53 + e) := by rw [zpow_add₀ (by norm_num)]; norm_num
    rw [this]
    exact zpow_le_zpow_right₀ (by norm_num) (by rw [he]; have := le_max_left (Int.log 2 |x| - 52) (-1074); omega)
  · intro h
    have he' : e = Int.log 2 |x| - 52 := by
      rcases max_choice (Int.log 2 |x| - 52) (-1074) with hm | hm <;> omega
    rw [le_div_iff₀ hp]
    refine le_trans (le_of_eq ?_) h1
    have : (2 : ℚ) ^ 52 * (2 : ℚ) ^ e = (2 : ℚ) ^ (52 + e) := by rw [zpow_add₀ (by norm_num)]; norm_num
    rw [this, he']
    congr 1
    omega

theorem pyRound_abs_le {t : ℚ} {k : ℤ} (h : |t| ≤ k) : |pyRound t| ≤ k := by
  have h1 := pyRound_nearest t k
  have h2 := pyRound_nearest t (-k)
  push_cast at h2
  rw [abs_le] at h
  rw [abs_of_nonpos (by linarith : t - k ≤ 0), abs_le] at h1
  rw [abs_of_nonneg (by linarith : (0 : ℚ) ≤ t - -k), abs_le] at h2
  rw [abs_le]
  constructor
  · have : (-k : ℚ) ≤ (pyRound t : ℚ) := by linarith
    exact_mod_cast this
  · have : (pyRound t : ℚ) ≤ (k : ℚ) := by linarith
    exact_mod_cast this

theorem le_pyRound {t : ℚ} {k : ℤ} (h : (k : ℚ) ≤ t) : k ≤ pyRound t := by
  have h1 := pyRound_nearest t k
  rw [abs_of_nonneg (by linarith : (0 : ℚ) ≤ t - k), abs_le] at h1
  have : (k : ℚ) ≤ (pyRound t : ℚ) := by linarith
  exact_mod_cast this

theorem pyRound_le {t : ℚ} {k : ℤ} (h : t ≤ (k : ℚ)) : pyRound t ≤ k := by
  have h1 := pyRound_nearest t k
  rw [abs_of_nonpos (by linarith : t - k ≤ 0), abs_le] at h1
  have : (pyRound t : ℚ) ≤ (k : ℚ) := by linarith
  exact_mod_cast this

theorem le_pyRound_abs {t : ℚ} {k : ℤ} (h : (k : ℚ) ≤ |t|) : k ≤ |pyRound t| := by
  rcases le_total 0 t with ht | ht
  · rw [abs_of_nonneg ht] at h
    exact (le_pyRound h).trans (le_abs_self _)
  · rw [abs_of_nonpos ht] at h
    have := pyRound_le (t := t) (k := -k) (by push_cast; linarith)
    exact le_trans (by omega) (neg_le_abs _)

/-- A finite result of rounding is a double and no double is nearer; a number that is a double is not changed. -/
theorem C141_round (x : ℚ) : (∀ y, Dbl.round x = .fin y → IsBinary64 y ∧ ∀ z, IsBinary64 z → |x - y| ≤ |x - z|) ∧
    (IsBinary64 x → Dbl.round x = .fin x) := by
  have hz0 : IsBinary64 0 := ⟨0, 0, by norm_num, by norm_num, by norm_num, by norm_num⟩
  by_cases hx : x = 0
  · subst hx
    have h0 : Dbl.round 0 = .fin 0 := by simp [Dbl.round]
    rw [h0]
    refine ⟨fun y hy => ?_, fun _ => rfl⟩
    cases hy
    exact ⟨hz0, fun z _ => by simp⟩
  · obtain ⟨e, r, he, hr, h⟩ := round_ne hx
    obtain ⟨hq1, hq2⟩ := quot_bounds hx he
    set m := pyRound (x / (2 : ℚ) ^ e) with hm
    have hm1 : |m| ≤ 2 ^ 53 := pyRound_abs_le (k := 2 ^ 53) (by push_cast; exact hq1.le)
    have hm2 : -1074 < e → 2 ^ 52 ≤ |m| := fun h' => le_pyRound_abs (k := 2 ^ 52) (by push_cast; exact hq2 h')
    have hem : -1074 ≤ e := by rw [he]; exact le_max_right _ _
    have hn : ∀ z, IsBinary64 z → |x - r| ≤ |x - z| := fun z hz => by rw [hr]; exact round_nearest hx he hz
    constructor
    · intro y hy
      rw [h] at hy
      have hlt : |r| < (2 : ℚ) ^ (1024 : ℤ) := by
        by_contra hc
        rw [if_neg hc] at hy
        split at hy <;> cases hy
      rw [if_pos hlt] at hy
      cases hy
      refine ⟨?_, hn⟩
      have hbig : ∀ k : ℕ, (2 : ℤ) ^ k ≤ |m| → e + k < 1024 := by
        intro k hk
        have h1 : (2 : ℚ) ^ k ≤ |(m : ℚ)| := by exact_mod_cast hk
        have h2 : (2 : ℚ) ^ (e + k) ≤ |r| := by
          rw [hr, abs_mul, abs_of_pos (two_zpow_pos e), zpow_add₀ (by norm_num), zpow_natCast, mul_comm]
          exact mul_le_mul_of_nonneg_right h1 (two_zpow_pos e).le
        have h3 := lt_of_le_of_lt h2 hlt
        rwa [zpow_lt_zpow_iff_right₀ (by norm_num)] at h3
      have hle : e ≤ 971 := by
        rcases hem.lt_or_eq with h' | h'
        · have := hbig 52 (hm2 h')
          omega
        · omega
      rcases hm1.lt_or_eq with hlt' | heq
      · exact ⟨m, e, hlt', hem, hle, hr⟩
      · have he1 := hbig 53 heq.ge
        rcases (abs_eq (by norm_num)).1 heq with hmm | hmm
        · refine ⟨2 ^ 52, e + 1, by norm_num, by omega, by omega, ?_⟩
          rw [hr, hmm, zpow_add₀ (by norm_num)]
          push_cast
          ring
        · refine ⟨-2 ^ 52, e + 1, by norm_num, by omega, by omega, ?_⟩
          rw [hr, hmm, zpow_add₀ (by norm_num)]
          push_cast
          ring
    · intro hb
      have h1 := hn x hb
      rw [sub_self, abs_zero] at h1
      have h2 := abs_eq_zero.1 (le_antisymm h1 (abs_nonneg _))
      have h3 : r = x := by linarith
      rw [h, h3, if_pos hb.lt]

/-- Rounding a positive multiple of the smallest double does not give zero. -/
theorem round_pos {k : ℤ} (hk : 0 < k) : Dbl.round (k * (2 : ℚ) ^ (-1074 : ℤ)) = .pinf ∨
    ∃ y, Dbl.round (k * (2 : ℚ) ^ (-1074 : ℤ)) = .fin y ∧ 0 < y := by
  have hx : (k : ℚ) * (2 : ℚ) ^ (-1074 : ℤ) ≠ 0 := (mul_pos (by exact_mod_cast hk) (two_zpow_pos _)).ne'
  obtain ⟨e, r, he, hr, h⟩ := round_ne hx
  obtain ⟨-, hq2⟩ := quot_bounds hx he
  have hpos : (0 : ℚ) ≤ k * (2 : ℚ) ^ (-1074 : ℤ) / (2 : ℚ) ^ e := by
    have : (0 : ℚ) < k := by exact_mod_cast hk
    exact div_nonneg (mul_nonneg this.le (two_zpow_pos _).le) (two_zpow_pos _).le
  rw [abs_of_nonneg hpos] at hq2
  have ht : ((1 : ℤ) : ℚ) ≤ k * (2 : ℚ) ^ (-1074 : ℤ) / (2 : ℚ) ^ e := by
    have hem : -1074 ≤ e := by rw [he]; exact le_max_right _ _
    rcases hem.lt_or_eq with h' | h'
    · refine le_trans ?_ (hq2 h')
      norm_num
    · rw [← h', mul_div_assoc, div_self (two_zpow_pos _).ne', mul_one]
      exact_mod_cast hk
  have hm := le_pyRound ht
  have hr0 : 0 < r := by
    rw [hr]
    have : (1 : ℚ) ≤ (pyRound (k * (2 : ℚ) ^ (-1074 : ℤ) / (2 : ℚ) ^ e) : ℚ) := by exact_mod_cast hm
    exact mul_pos (by linarith) (two_zpow_pos e)
  rw [h]
  by_cases hlt : |r| < (2 : ℚ) ^ (1024 : ℤ)
  · exact .inr ⟨r, by rw [if_pos hlt], hr0⟩
  · exact .inl (by rw [if_neg hlt, if_pos hr0])

theorem round_neg {k : ℤ} (hk : k < 0) : Dbl.round (k * (2 : ℚ) ^ (-1074 : ℤ)) ≠ .fin 0 := by
  have hx : (k : ℚ) * (2 : ℚ) ^ (-1074 : ℤ) ≠ 0 := (mul_neg_of_neg_of_pos (by exact_mod_cast hk) (two_zpow_pos _)).ne
  obtain ⟨e, r, he, hr, h⟩ := round_ne hx
  obtain ⟨-, hq2⟩ := quot_bounds hx he
  have hneg : k * (2 : ℚ) ^ (-1074 : ℤ) / (2 : ℚ) ^ e ≤ 0 := by
    have : (k : ℚ) < 0 := by exact_mod_cast hk
    exact div_nonpos_of_nonpos_of_nonneg (mul_nonpos_of_nonpos_of_nonneg this.le (two_zpow_pos _).le) (two_zpow_pos _).le
  rw [abs_of_nonpos hneg] at hq2
  have ht : k * (2 : ℚ) ^ (-1074 : ℤ) / (2 : ℚ) ^ e ≤ ((-1 : ℤ) : ℚ) := by
    have hem : -1074 ≤ e := by rw [he]; exact le_max_right _ _
    rcases hem.lt_or_eq with h' | h'
    · have := hq2 h'
      push_cast
      linarith [show (1 : ℚ) ≤ 2 ^ 52 by norm_num]
    · rw [← h', mul_div_assoc, div_self (two_zpow_pos _).ne', mul_one]
      have : k ≤ -1 := by omega
      exact_mod_cast this
  have hm := pyRound_le ht
  have hr0 : r < 0 := by
    rw [hr]
    have : (pyRound (k * (2 : ℚ) ^ (-1074 : ℤ) / (2 : ℚ) ^ e) : ℚ) ≤ ((-1 : ℤ) : ℚ) := by exact_mod_cast hm
    push_cast at this
    exact mul_neg_of_neg_of_pos (by linarith) (two_zpow_pos e)
  rw [h]
  split
  · intro hc; cases hc; exact lt_irrefl _ hr0
  · split <;> simp

/-- The sum of two doubles is zero only if they cancel exactly. -/
theorem C141_cancel {x y : ℚ} (hx : IsBinary64 x) (hy : IsBinary64 y) : (Dbl.fin x).add (.fin y) = .fin 0 ↔ x + y = 0 := by
  show Dbl.round (x + y) = .fin 0 ↔ _
  obtain ⟨k, hk⟩ := hx.grid
  obtain ⟨l, hl⟩ := hy.grid
  have hs : x + y = ((k + l : ℤ) : ℚ) * (2 : ℚ) ^ (-1074 : ℤ) := by rw [hk, hl]; push_cast; ring
  constructor
  · intro h
    rw [hs] at h ⊢
    rcases lt_trichotomy (k + l) 0 with hlt | heq | hgt
    · exact absurd h (round_neg hlt)
    · rw [heq]; simp
    · rcases round_pos hgt with h' | ⟨y, h', hy⟩
      · rw [h'] at h; cases h
      · rw [h'] at h; cases h; exact absurd hy (lt_irrefl _)
  · intro h
    rw [h]
    simp [Dbl.round]

/-! ### Sums -/

/-- Non-negative or NaN. -/
def NonnegOrNan (x : Dbl) : Prop := x = .nan ∨ NonnegDbl x

theorem add_nonneg_dbl {x y : Dbl} (hx : NonnegOrNan x) (hy : NonnegOrNan y) : NonnegOrNan (x.add y) ∧
    (x.add y = .fin 0 ↔ x = .fin 0 ∧ y = .fin 0) ∧ (x.add y = .nan ↔ x = .nan ∨ y = .nan) := by
  rcases hx with rfl | rfl | ⟨a, rfl, ha, ha'⟩ <;> rcases hy with rfl | rfl | ⟨b, rfl, hb, hb'⟩
  · simp [Dbl.add, NonnegOrNan]
  · simp [Dbl.add, NonnegOrNan]
  · simp [Dbl.add, NonnegOrNan]
  · simp [Dbl.add, NonnegOrNan]
  · simp [Dbl.add, NonnegOrNan, NonnegDbl]
  · simp [Dbl.add, NonnegOrNan, NonnegDbl]
  · simp [Dbl.add, NonnegOrNan]
  · simp [Dbl.add, NonnegOrNan, NonnegDbl]
  · have hc := C141_cancel ha' hb'
    have h0 : NonnegDbl ((Dbl.fin a).add (.fin b)) := by
      show NonnegDbl (Dbl.round (a + b))
      obtain ⟨k, hk⟩ := ha'.grid
      obtain ⟨l, hl⟩ := hb'.grid
      have hs : a + b = ((k + l : ℤ) : ℚ) * (2 : ℚ) ^ (-1074 : ℤ) := by rw [hk, hl]; push_cast; ring
      rcases (add_nonneg ha hb).eq_or_lt with h | h
      · rw [← h]
        exact .inr ⟨0, by simp [Dbl.round], le_refl _, 0, 0, by norm_num, by norm_num, by norm_num, by norm_num⟩
      · have hkl : 0 < k + l := by
          rw [hs] at h
          have := (mul_pos_iff_of_pos_right (two_zpow_pos (-1074))).1 h
          exact_mod_cast this
        rcases round_pos hkl with h' | ⟨y, h', hy⟩
        · rw [hs]; exact .inl h'
        · rw [hs]
          exact .inr ⟨y, h', hy.le, ((C141_round _).1 y h').1⟩
    refine ⟨.inr h0, ?_, ?_⟩
    · rw [hc]
      simp only [Dbl.fin.injEq]
      constructor
      · intro h; constructor <;> linarith
      · rintro ⟨rfl, rfl⟩; norm_num
    · rcases h0 with h | ⟨q, h, -⟩ <;> rw [h] <;> simp

theorem SumOf.spec {l : List Dbl} {x : Dbl} (h : SumOf l x) (hl : ∀ y ∈ l, NonnegOrNan y) : NonnegOrNan x ∧
    (x = .fin 0 ↔ ∀ y ∈ l, y = .fin 0) ∧ (x = .nan ↔ .nan ∈ l) := by
  induction h with
  | nil =>
    refine ⟨.inr (.inr ⟨0, rfl, le_refl _, 0, 0, by norm_num, by norm_num, by norm_num, by norm_num⟩), by simp, by simp⟩
  | single x => exact ⟨hl x (by simp), by simp, by simp [eq_comm]⟩
  | @add l l₁ l₂ x y hp _ _ ih1 ih2 =>
    have hm : ∀ z, z ∈ l ↔ z ∈ l₁ ∨ z ∈ l₂ := fun z => by rw [hp.mem_iff, List.mem_append]
    obtain ⟨a1, a2, a3⟩ := ih1 (fun z hz => hl z ((hm z).2 (.inl hz)))
    obtain ⟨b1, b2, b3⟩ := ih2 (fun z hz => hl z ((hm z).2 (.inr hz)))
    obtain ⟨c1, c2, c3⟩ := add_nonneg_dbl a1 b1
    refine ⟨c1, ?_, ?_⟩
    · rw [c2, a2, b2]
      constructor
      · rintro ⟨h1, h2⟩ z hz
        rcases (hm z).1 hz with h | h
        · exact h1 z h
        · exact h2 z h
      · intro h
        exact ⟨fun z hz => h z ((hm z).2 (.inl hz)), fun z hz => h z ((hm z).2 (.inr hz))⟩
    · rw [c3, a3, b3, hm]

theorem gtZero_iff {x : Dbl} (h : NonnegOrNan x) : x.gtZero = true ↔ x ≠ .fin 0 ∧ x ≠ .nan := by
  rcases h with rfl | rfl | ⟨q, rfl, hq, -⟩
  · simp [Dbl.gtZero]
  · simp [Dbl.gtZero]
  · simp only [Dbl.gtZero, decide_eq_true_eq, ne_eq, Dbl.fin.injEq, reduceCtorEq, not_false_eq_true, and_true]
    exact ⟨fun h => h.ne', fun h => lt_of_le_of_ne hq (Ne.symm h)⟩

/-! ### The graph functions see the graph of the matrix -/

theorem isZero_iff {x : Dbl} : x.isZero = true ↔ x = .fin 0 := by simp [Dbl.isZero]

theorem isZero_graphOf (A : FAdj p) (i j : Fin p) : (A i j).isZero = decide (graphOf A i j = 0) := by
  simp only [Dbl.isZero]
  exact decide_eq_decide.2 graphOf_eq.symm

theorem fch_eq (i : Fin p) (A : FAdj p) : fch i A = ch i (graphOf A) := by
  ext j; simp [fch, ch, isZero_graphOf]

theorem fpa_eq (i : Fin p) (A : FAdj p) : fpa i A = pa i (graphOf A) := by
  ext j; simp [fpa, pa, isZero_graphOf]

theorem fneighbors_eq (i : Fin p) (A : FAdj p) : fneighbors i A = neighbors i (graphOf A) := by
  ext j; simp [fneighbors, neighbors, isZero_graphOf]

theorem fadj_eq (i : Fin p) (A : FAdj p) : fadj i A = adj i (graphOf A) := by
  ext j; simp [fadj, adj, isZero_graphOf, Bool.or_eq_true]

theorem graphOf_fonlyUndirected (A : FAdj p) : graphOf (fonlyUndirected A) = onlyUndirected (graphOf A) := by
  funext i j
  unfold fonlyUndirected onlyUndirected graphOf
  simp only [Dbl.isZero]
  by_cases h1 : A i j = .fin 0 <;> by_cases h2 : A j i = .fin 0 <;> simp [h1, h2]

theorem graphOf_fonlyDirected (A : FAdj p) : graphOf (fonlyDirected A) = onlyDirected (graphOf A) := by
  funext i j
  unfold fonlyDirected onlyDirected graphOf
  simp only [Dbl.isZero]
  by_cases h1 : A i j = .fin 0 <;> by_cases h2 : A j i = .fin 0 <;> simp [h1, h2]

theorem fvstructures_eq (it : SetIter p) (A : FAdj p) : fvstructures it A = vstructures it (graphOf A) := by
  unfold fvstructures vstructures
  have h : ∀ i c, (! (fonlyDirected A i c).isZero) = decide (onlyDirected (graphOf A) i c ≠ 0) := by
    intro i c
    rw [isZero_graphOf, graphOf_fonlyDirected]
    simp
  simp only [fpa_eq, isZero_graphOf, graphOf_fonlyDirected, Bool.and_eq_true, decide_eq_true_eq]
  congr!
  simp

/-- The entries of `A` at the edges of `M`. -/
def masked (A : FAdj p) (M : Adj p) : FAdj p := fun i j => if M i j ≠ 0 then A i j else .fin 0

theorem graphOf_masked {A : FAdj p} {M : Adj p} (h : ∀ i j, M i j = 0 ∨ M i j = 1 ∧ A i j ≠ .fin 0) : graphOf (masked A M) = M := by
  funext i j
  unfold graphOf masked
  rcases h i j with h | ⟨h, h'⟩ <;> simp [h]
  exact h'

theorem masked_self (A : FAdj p) : masked A (graphOf A) = A := by
  funext i j
  unfold masked
  split
  · rfl
  · rename_i h
    rw [graphOf_ne, not_not] at h
    exact h.symm

theorem fsetEntry_masked (A : FAdj p) (M : Adj p) (i j : Fin p) : fsetEntry (masked A M) i j (.fin 0) = masked A (setEntry M i j 0) := by
  funext a b
  unfold fsetEntry masked setEntry
  by_cases h : a = i ∧ b = j <;> simp [h]

/-- Edges of `M` are edges of `A`. -/
def Within01 (A : FAdj p) (M : Adj p) : Prop := ∀ i j, M i j = 0 ∨ M i j = 1 ∧ A i j ≠ .fin 0

theorem Within01.set {A : FAdj p} {M : Adj p} (h : Within01 A M) (i j : Fin p) : Within01 A (setEntry M i j 0) := by
  intro a b
  unfold setEntry
  split
  · exact .inl rfl
  · exact h a b

theorem ftopoInner_eq {A : FAdj p} (i : Fin p) (js : List (Fin p)) (M : Adj p) (sinks : List (Fin p)) (h : Within01 A M) :
    ftopoInner i js (masked A M) sinks = (masked A (topoInner i js M sinks).1, (topoInner i js M sinks).2) ∧
      Within01 A (topoInner i js M sinks).1 := by
  induction js generalizing M sinks with
  | nil => exact ⟨rfl, h⟩
  | cons j js ih =>
    simp only [ftopoInner, topoInner]
    rw [fsetEntry_masked, fpa_eq, graphOf_masked (h.set i j)]
    exact ih _ _ (h.set i j)

theorem ftopoLoop_eq (it : SetIter p) {A : FAdj p} (n : Nat) (M : Adj p) (sinks ord : List (Fin p)) (h : Within01 A M) :
    ftopoLoop it n (masked A M) sinks ord = (topoLoop it n M sinks ord).map (fun r => (masked A r.1, r.2)) := by
  induction n generalizing M sinks ord with
  | zero =>
    cases sinks with
    | nil => rw [ftopoLoop, topoLoop]; rfl
    | cons i s => rw [ftopoLoop, topoLoop]; rfl
  | succ n ih =>
    cases sinks with
    | nil => rw [ftopoLoop, topoLoop]; rfl
    | cons i s =>
      rw [ftopoLoop, topoLoop]
      rw [fch_eq, graphOf_masked h]
      obtain ⟨h1, h2⟩ := ftopoInner_eq i (it.toList (ch i M)) M s h
      rw [h1]
      exact ih _ _ _ h2

theorem graphOf_within (A : FAdj p) : Within01 A (graphOf A) := by
  intro i j
  unfold graphOf
  split
  · exact .inl rfl
  · rename_i h; exact .inr ⟨rfl, h⟩

theorem fsumAll_spec (S : Summer) {A : FAdj p} (hA : ∀ i j, NonnegOrNan (A i j)) :
    (fsumAll S A).gtZero = true ↔ (∃ i j, A i j ≠ .fin 0) ∧ ∀ i j, A i j ≠ .nan := by
  obtain ⟨h1, h2, h3⟩ := (S.isSum ((allPairs p).map fun e => A e.1 e.2)).spec (by
    intro y hy
    obtain ⟨e, -, rfl⟩ := List.mem_map.1 hy
    exact hA _ _)
  unfold fsumAll
  rw [gtZero_iff h1, ne_eq, h2, ne_eq, h3]
  constructor
  · rintro ⟨h, h'⟩
    constructor
    · by_contra hc
      refine h fun y hy => ?_
      obtain ⟨e, -, rfl⟩ := List.mem_map.1 hy
      by_contra hne
      exact hc ⟨e.1, e.2, hne⟩
    · intro i j hij
      exact h' (List.mem_map.2 ⟨(i, j), mem_allPairs _, hij⟩)
  · rintro ⟨⟨i, j, h⟩, h'⟩
    constructor
    · intro hall
      exact h (hall _ (List.mem_map.2 ⟨(i, j), mem_allPairs _, rfl⟩))
    · intro hm
      obtain ⟨e, -, he⟩ := List.mem_map.1 hm
      exact h' _ _ he

theorem fcolSum_spec (S : Summer) {A : FAdj p} (hA : ∀ i j, NonnegOrNan (A i j)) (j : Fin p) :
    (fcolSum S A j).isZero = true ↔ ∀ i, A i j = .fin 0 := by
  obtain ⟨-, h2, -⟩ := (S.isSum ((List.finRange p).map fun i => A i j)).spec (by
    intro y hy
    obtain ⟨e, -, rfl⟩ := List.mem_map.1 hy
    exact hA _ _)
  unfold fcolSum
  rw [isZero_iff, h2]
  simp

theorem start_eq (S : Summer) {A : FAdj p} (hA : ∀ i j, NonnegOrNan (A i j)) :
    (whereVec (fun j => (fcolSum S A j).isZero)) = whereVec (fun j => decide (colSum (graphOf A) j = 0)) := by
  congr 1
  funext j
  rw [Bool.eq_iff_iff, fcolSum_spec S hA, decide_eq_true_eq, colSum_eq_zero_iff (graphOf_nonneg A)]
  simp only [graphOf_eq]

theorem masked_nonneg {A : FAdj p} (hA : ∀ i j, NonnegOrNan (A i j)) (M : Adj p) (i j : Fin p) : NonnegOrNan (masked A M i j) := by
  unfold masked
  split
  · exact hA i j
  · exact .inr (.inr ⟨0, rfl, le_refl _, 0, 0, by norm_num, by norm_num, by norm_num, by norm_num⟩)

theorem fonlyUndirected_masked (A : FAdj p) : fonlyUndirected A = masked A (onlyUndirected (graphOf A)) := by
  funext i j
  unfold fonlyUndirected masked onlyUndirected graphOf
  simp only [Dbl.isZero]
  by_cases h1 : A i j = .fin 0 <;> by_cases h2 : A j i = .fin 0 <;> simp [h1, h2]

/-- C141: `only_directed` keeps the weights of the directed edges, NaN included, and nothing else; `only_undirected` those of the undirected
edges. -/
theorem C141_parts (A : FAdj p) (i j : Fin p) :
    (DirEdge (graphOf A) i j → fonlyDirected A i j = A i j) ∧ (¬ DirEdge (graphOf A) i j → fonlyDirected A i j = .fin 0) ∧
    (UndEdge (graphOf A) i j → fonlyUndirected A i j = A i j) ∧ (¬ UndEdge (graphOf A) i j → fonlyUndirected A i j = .fin 0) := by
  unfold fonlyDirected fonlyUndirected DirEdge UndEdge
  rw [isZero_graphOf, isZero_graphOf]
  simp only [Bool.and_eq_true, Bool.not_eq_true', decide_eq_false_iff_not, decide_eq_true_iff]
  exact ⟨fun h => if_pos h, fun h => if_neg h, fun h => if_pos h, fun h => if_neg h⟩

theorem topoLoop_within (it : SetIter p) {A : FAdj p} (n : Nat) (M : Adj p) (sinks ord : List (Fin p)) (h : Within01 A M) (r : Adj p × List (Fin p))
    (hr : topoLoop it n M sinks ord = .ok r) : Within01 A r.1 := by
  induction n generalizing M sinks ord with
  | zero =>
    cases sinks with
    | nil => rw [topoLoop] at hr; cases hr; exact h
    | cons i s => rw [topoLoop] at hr; cases hr
  | succ n ih =>
    cases sinks with
    | nil => rw [topoLoop] at hr; cases hr; exact h
    | cons i s =>
      rw [topoLoop] at hr
      exact ih _ _ _ (ftopoInner_eq i (it.toList (ch i M)) M s h).2 hr

/-- Numbers that are not negative: the ordering is the one of the graph, whatever the order of summation. -/
theorem ftopologicalOrdering_eq (S : Summer) (it : SetIter p) {A : FAdj p} (hA : ∀ i j, NonnegDbl (A i j)) :
    ftopologicalOrdering S it A = topologicalOrdering it (graphOf A) := by
  have hA' : ∀ i j, NonnegOrNan (A i j) := fun i j => .inr (hA i j)
  have hn : ∀ i j, A i j ≠ .nan := by
    intro i j h
    rcases hA i j with h' | ⟨q, h', -⟩ <;> rw [h'] at h <;> cases h
  have hnm : ∀ M i j, masked A M i j ≠ .nan := by
    intro M i j
    unfold masked
    split
    · exact hn i j
    · simp
  have hcond : ∀ M : Adj p, Within01 A M → ((fsumAll S (masked A M)).gtZero = true ↔ sumAll M > 0) := by
    intro M hM
    rw [fsumAll_spec S (masked_nonneg hA' M), sumAll_pos_iff (by intro i j; rcases hM i j with h | h <;> simp [h])]
    constructor
    · rintro ⟨⟨i, j, h⟩, -⟩
      refine ⟨i, j, fun h0 => h ?_⟩
      simp [masked, h0]
    · rintro ⟨i, j, h⟩
      refine ⟨⟨i, j, ?_⟩, hnm M⟩
      rcases hM i j with h' | ⟨h', h''⟩
      · exact absurd h' h
      · simp only [masked, h']; simpa using h''
  have hund : Within01 A (onlyUndirected (graphOf A)) := by
    intro i j
    unfold onlyUndirected
    split
    · rename_i h; exact .inr ⟨by rcases graphOf_zeroOne A i j with h' | h'; exact absurd h' h.1; exact h', graphOf_ne.1 h.1⟩
    · exact .inl rfl
  unfold ftopologicalOrdering topologicalOrdering
  rw [fonlyUndirected_masked]
  by_cases hu : sumAll (onlyUndirected (graphOf A)) > 0
  · rw [if_pos ((hcond _ hund).2 hu), if_pos hu]
  · rw [if_neg (fun h => hu ((hcond _ hund).1 h)), if_neg hu, start_eq S hA']
    have := ftopoLoop_eq it (p * p + p) (graphOf A) (whereVec (fun j => decide (colSum (graphOf A) j = 0))).reverse [] (graphOf_within A)
    rw [masked_self] at this
    rw [this]
    cases h : topoLoop it (p * p + p) (graphOf A) (whereVec (fun j => decide (colSum (graphOf A) j = 0))).reverse [] with
    | error e => rfl
    | ok r =>
      simp only [Except.map]
      have hr := topoLoop_within it _ _ _ _ (graphOf_within A) r h
      by_cases hs : sumAll r.1 > 0
      · rw [if_pos ((hcond _ hr).2 hs), if_pos hs]
      · rw [if_neg (fun h => hs ((hcond _ hr).1 h)), if_neg hs]

theorem fisDag_eq (S : Summer) (it : SetIter p) {A : FAdj p} (hA : ∀ i j, NonnegDbl (A i j)) : fisDag S it A = isDag it (graphOf A) := by
  unfold fisDag isDag
  rw [ftopologicalOrdering_eq S it hA]
  rfl

/-- For entries that are not negative, infinities included, `topological_ordering` returns an ordering of the graph or raises because there is a
cycle, and `is_dag` says which, whatever the order of summation. -/
theorem C141_is_dag (S : Summer) (it : SetIter p) (A : FAdj p) (hA : ∀ i j, NonnegDbl (A i j)) :
    (fisDag S it A = true ↔ Acyclic (graphOf A)) ∧
    ((∃ l, ftopologicalOrdering S it A = .ok l ∧ IsTopoOrder (graphOf A) l ∧ Acyclic (graphOf A)) ∨
      ftopologicalOrdering S it A = .error .valueError ∧ ¬ Acyclic (graphOf A)) := by
  refine ⟨by rw [fisDag_eq S it hA, isDag_iff it (graphOf_nonneg A)], ?_⟩
  rw [ftopologicalOrdering_eq S it hA]
  obtain ⟨h1, h2⟩ := topologicalOrdering_spec it (graphOf A) (graphOf_nonneg A)
  rcases topologicalOrdering_cases it (graphOf A) with ⟨l, hl⟩ | hl
  · exact .inl ⟨l, hl, h1 l hl, (h1 l hl).acyclic⟩
  · exact .inr ⟨hl, h2 hl⟩

/-- `skeleton` of any matrix of doubles: two entries are joined unless both are zero or they cancel. -/
theorem C141_skeleton (A : FAdj p) (hA : ∀ i j q, A i j = .fin q → IsBinary64 q) (i j : Fin p) :
    (fskeleton A i j = 0 ↔ ∃ q : ℚ, A i j = .fin q ∧ A j i = .fin (-q)) ∧ (fskeleton A i j = 0 ∨ fskeleton A i j = 1) := by
  unfold fskeleton
  have key : ((A i j).add (A j i)).isZero = true ↔ ∃ q : ℚ, A i j = .fin q ∧ A j i = .fin (-q) := by
    rw [isZero_iff]
    constructor
    · intro h
      cases hx : A i j with
      | fin x =>
        cases hy : A j i with
        | fin y =>
          rw [hx, hy] at h
          have := (C141_cancel (hA _ _ _ hx) (hA _ _ _ hy)).1 h
          exact ⟨x, rfl, by rw [show y = -x by linarith]⟩
        | pinf => rw [hx, hy] at h; simp [Dbl.add] at h
        | ninf => rw [hx, hy] at h; simp [Dbl.add] at h
        | nan => rw [hx, hy] at h; simp [Dbl.add] at h
      | pinf => cases hy : A j i <;> rw [hx, hy] at h <;> simp [Dbl.add] at h
      | ninf => cases hy : A j i <;> rw [hx, hy] at h <;> simp [Dbl.add] at h
      | nan => cases hy : A j i <;> rw [hx, hy] at h <;> simp [Dbl.add] at h
    · rintro ⟨q, hx, hy⟩
      rw [hx, hy]
      exact (C141_cancel (hA _ _ _ hx) (hA _ _ _ hy)).2 (by ring)
  rw [← key]
  cases ((A i j).add (A j i)).isZero <;> simp

theorem fskeleton_eq {A : FAdj p} (hA : ∀ i j, NonnegDbl (A i j)) : fskeleton A = skeleton (graphOf A) := by
  funext i j
  have h := (add_nonneg_dbl (.inr (hA i j)) (.inr (hA j i))).2.1
  unfold fskeleton skeleton
  by_cases h0 : A i j = .fin 0 ∧ A j i = .fin 0
  · rw [h.2 h0]
    simp [graphOf, h0.1, h0.2, Dbl.isZero]
  · rw [show ((A i j).add (A j i)).isZero = false by rw [← Bool.not_eq_true, isZero_iff, h]; exact h0]
    rw [Bool.not_false, if_pos rfl, if_pos]
    unfold graphOf
    by_cases h1 : A i j = .fin 0 <;> by_cases h2 : A j i = .fin 0 <;> simp [h1, h2]
    exact h0 ⟨h1, h2⟩

theorem fisConsistentExtension_eq (S : Summer) (it : SetIter p) {G : FAdj p} (hG : ∀ i j, NonnegDbl (G i j)) (P : Adj p) :
    fisConsistentExtension S it G P = isConsistentExtension it (graphOf G) P := by
  unfold fisConsistentExtension isConsistentExtension
  rw [fisDag_eq S it hG, fvstructures_eq, fskeleton_eq hG]
  simp only [isZero_graphOf, decide_eq_false_iff_not, ne_eq]

theorem forderEdges_eq (S : Summer) (it : SetIter p) {G : FAdj p} (hG : ∀ i j, NonnegDbl (G i j)) :
    forderEdges S it G = orderEdges it (graphOf G) := by
  unfold forderEdges orderEdges
  rw [fisDag_eq S it hG, ftopologicalOrdering_eq S it hG]
  simp only [isZero_graphOf]
  congr!
  simp

theorem fdagToCpdag_eq (S : Summer) (it : SetIter p) {G : FAdj p} (hG : ∀ i j, NonnegDbl (G i j)) :
    fdagToCpdag S it G = dagToCpdag it (graphOf G) := by
  unfold fdagToCpdag dagToCpdag
  rw [forderEdges_eq S it hG]
  rfl

theorem fdagToIcpdag_eq (S : Summer) (it : SetIter p) {G : FAdj p} (hG : ∀ i j, NonnegDbl (G i j)) (I : List (Fin p)) :
    fdagToIcpdag S it G I = dagToIcpdag it (graphOf G) I := by
  unfold fdagToIcpdag dagToIcpdag
  have ht : ftargetEdges it G I = targetEdges it (graphOf G) I := by
    unfold ftargetEdges targetEdges
    simp only [fch_eq, fpa_eq]
  rw [fdagToCpdag_eq S it hG, ht]
  simp only [fisConsistentExtension_eq S it hG]
  rfl

theorem fisChainGraph_spec {A : FAdj p} (h : fisChainGraph A = true) : graphOf A = chainGraph p := by
  unfold fisChainGraph at h
  rw [decide_eq_true_eq] at h
  funext i j
  unfold graphOf
  rw [h i j]
  unfold chainGraph
  split <;> simp_all

theorem isChainGraph_chainGraph : isChainGraph (chainGraph p) = true := by simp [isChainGraph]

theorem fmec_eq (S : Summer) (it : SetIter p) {A : FAdj p} (hA : ∀ i j, NonnegDbl (A i j)) (c : Bool) :
    fmec S it A c = mec it (graphOf A) (c && fisChainGraph A) := by
  unfold fmec mec
  rw [fisDag_eq S it hA, fdagToCpdag_eq S it hA]
  cases hc : fisChainGraph A
  · simp only [Bool.and_false, Bool.false_and]
    rfl
  · rw [fisChainGraph_spec hc, isChainGraph_chainGraph]
    simp only [Bool.and_true]
    rfl

theorem fimec_eq (S : Summer) (it : SetIter p) {A : FAdj p} (hA : ∀ i j, NonnegDbl (A i j)) (I : Finset Int) (c : Bool) :
    fimec S it A I c = imec it (graphOf A) I (c && fisChainGraph A) := by
  unfold fimec imec
  simp only [fisDag_eq S it hA, fdagToIcpdag_eq S it hA]
  cases hc : fisChainGraph A
  · simp only [Bool.and_false, Bool.false_and]
    rfl
  · have hg := fisChainGraph_spec hc
    have hi : ∀ T, fchainGraphIMEC A T = chainGraphIMEC (graphOf A) T := by
      intro T
      unfold fchainGraphIMEC chainGraphIMEC
      rw [hc, hg, isChainGraph_chainGraph]
      have hA' : ∀ k i, A k i = .fin (chainGraph p k i) := by
        unfold fisChainGraph at hc
        simpa using hc
      simp only [hA', Dbl.fin.injEq, Int.cast_inj]
      simp only [eq_comm]
    have hci : isChainGraph (graphOf A) = true := by rw [hg, isChainGraph_chainGraph]
    simp only [hci, Bool.and_true, hi]
    rfl

/-- For entries that are not negative, `dag_to_cpdag` and `dag_to_icpdag` return the essential graphs of the graph of the matrix. -/
theorem C141_essential (S : Summer) (it : SetIter p) (G : FAdj p) (hG : ∀ i j, NonnegDbl (G i j)) (hac : Acyclic (graphOf G)) :
    (∃ C, fdagToCpdag S it G = .ok C ∧ ∀ i j, (C i j = 1 ↔ ∃ H, Acyclic H ∧ MarkovEquiv (graphOf G) H ∧ Edge H i j) ∧ (C i j = 0 ∨ C i j = 1)) ∧
    ∀ I : List (Fin p), ∃ P, fdagToIcpdag S it G I = .ok P ∧
      ∀ i j, (P i j = 1 ↔ ∃ H, Acyclic H ∧ IEquiv I.toFinset (graphOf G) H ∧ Edge H i j) ∧ (P i j = 0 ∨ P i j = 1) := by
  constructor
  · obtain ⟨C, hC, h⟩ := C17_essential_graph it (graphOf G) (graphOf_nonneg G) hac
    refine ⟨C, by rw [fdagToCpdag_eq S it hG, hC], fun i j => ?_⟩
    refine ⟨(h i j).1, ?_⟩
    rw [(h i j).1, (h i j).2]
    exact (em _).symm
  · intro I
    obtain ⟨P, hP, h⟩ := C21_interventional_essential_graph it (graphOf G) (graphOf_nonneg G) hac I
    refine ⟨P, by rw [fdagToIcpdag_eq S it hG, hP], fun i j => ?_⟩
    refine ⟨(h i j).1, ?_⟩
    rw [(h i j).1, (h i j).2]
    exact (em _).symm

/-- For entries that are not negative, `mec` and `imec` enumerate the classes of the graph of the matrix, each member once. -/
theorem C141_classes (S : Summer) (it : SetIter p) (A : FAdj p) (hA : ∀ i j, NonnegDbl (A i j)) (hac : Acyclic (graphOf A)) (hp : 0 < p) (c : Bool) :
    (∃ l, fmec S it A c = .ok l ∧ l.Nodup ∧ ∀ H, H ∈ l ↔ ZeroOne H ∧ Acyclic H ∧ MarkovEquiv (graphOf A) H) ∧
    ∀ I : Finset (Fin p), ∃ l, fimec S it A (I.image fun i : Fin p => (i.val : Int)) c = .ok l ∧ l.Nodup ∧
      ∀ H, H ∈ l ↔ ZeroOne H ∧ Acyclic H ∧ IEquiv I (graphOf A) H := by
  refine ⟨?_, fun I => ?_⟩
  · rw [fmec_eq S it hA]
    exact C24_mec it (graphOf A) (graphOf_nonneg A) hac _ (.inl hp)
  · rw [fimec_eq S it hA]
    exact C26_imec it (graphOf A) (graphOf_nonneg A) hac I _ (.inl hp)

/-- For entries that are not negative, the functions raise `ValueError` if the graph of the matrix has a cycle. -/
theorem C141_raises (S : Summer) (it : SetIter p) (A : FAdj p) (hA : ∀ i j, NonnegDbl (A i j)) (hac : ¬ Acyclic (graphOf A)) (c : Bool)
    (I : Finset Int) (T : List (Fin p)) : fdagToCpdag S it A = .error .valueError ∧ fdagToIcpdag S it A T = .error .valueError ∧
      fmec S it A c = .error .valueError ∧ fimec S it A I c = .error .valueError := by
  have hd : fisDag S it A = false := by
    rw [← Bool.not_eq_true, (C141_is_dag S it A hA).1]; exact hac
  have h1 : fdagToCpdag S it A = .error .valueError := by simp [fdagToCpdag, forderEdges, hd]
  exact ⟨h1, by simp [fdagToIcpdag, h1], by simp [fmec, hd], by simp [fimec, hd]⟩

/-! ### NaN -/

theorem loop_result (S : Summer) (it : SetIter p) {A : FAdj p} (hA : ∀ i j, NonnegOrNan (A i j)) :
    ∃ r, topoLoop it (p * p + p) (graphOf A) (whereVec (fun j => decide (colSum (graphOf A) j = 0))).reverse [] = .ok r ∧
      ftopoLoop it (p * p + p) A (whereVec (fun j => (fcolSum S A j).isZero)).reverse [] = .ok (masked A r.1, r.2) ∧ Within01 A r.1 := by
  obtain ⟨r, hr⟩ := topoLoop_terminates it (p * p + p) (graphOf A) (whereVec (fun j => decide (colSum (graphOf A) j = 0))).reverse [] (by
    have := nnz_le (graphOf A)
    have h2 : (whereVec (fun j => decide (colSum (graphOf A) j = 0))).reverse.length ≤ p := by
      rw [List.length_reverse]
      unfold whereVec
      refine le_trans (List.length_filter_le _ _) ?_
      simp
    omega)
  refine ⟨r, hr, ?_, topoLoop_within it _ _ _ _ (graphOf_within A) r hr⟩
  have := ftopoLoop_eq it (p * p + p) (graphOf A) (whereVec (fun j => decide (colSum (graphOf A) j = 0))).reverse [] (graphOf_within A)
  rw [masked_self, hr] at this
  rw [start_eq S hA, this]
  rfl

/-- A matrix whose non-zero entries are all NaN passes for a DAG, whatever its graph. -/
theorem C141_only_nan (S : Summer) (it : SetIter p) (A : FAdj p) (hA : ∀ i j, A i j = .fin 0 ∨ A i j = .nan) : fisDag S it A = true := by
  have hz : NonnegDbl (.fin 0) := .inr ⟨0, rfl, le_refl _, 0, 0, by norm_num, by norm_num, by norm_num, by norm_num⟩
  have hA' : ∀ i j, NonnegOrNan (A i j) := by
    intro i j
    rcases hA i j with h | h
    · rw [h]; exact .inr hz
    · exact .inl h
  have hs : ∀ M, (fsumAll S (masked A M)).gtZero = false := by
    intro M
    rw [← Bool.not_eq_true, fsumAll_spec S (masked_nonneg hA' M)]
    rintro ⟨⟨i, j, h⟩, h'⟩
    have h'' := h' i j
    unfold masked at h h''
    split at h
    · rename_i hm
      rw [if_pos hm] at h''
      rcases hA i j with h0 | h0
      · exact h h0
      · exact h'' h0
    · exact h rfl
  obtain ⟨r, -, hr, -⟩ := loop_result S it hA'
  unfold fisDag ftopologicalOrdering
  rw [fonlyUndirected_masked, hs, if_neg (by simp), hr]
  simp only [hs, Bool.false_eq_true, if_false]

/-- Without undirected edges, a cyclic graph passes for a DAG exactly if one of the edges out of the cycles or behind them is NaN. -/
theorem C141_nan (S : Summer) (it : SetIter p) (A : FAdj p) (hA : ∀ i j, A i j = .nan ∨ NonnegDbl (A i j))
    (hund : ∀ i j, A i j ≠ .fin 0 → A j i = .fin 0) : fisDag S it A = true ↔ Acyclic (graphOf A) ∨
      ∃ a i j, Relation.TransGen (Edge (graphOf A)) a a ∧ Relation.ReflTransGen (Edge (graphOf A)) a i ∧ A i j = .nan := by
  have h2 : ∀ a b, graphOf A a b ≠ 0 → graphOf A b a = 0 := by
    intro a b h
    rw [graphOf_eq]
    exact hund a b (graphOf_ne.1 h)
  obtain ⟨r, hr0, hr, hrw⟩ := loop_result S it hA
  have hinv : KahnInv (graphOf A) r.1 [] r.2 := by
    refine topoLoop_inv it h2 _ _ _ _ ?_ _ _ hr0
    constructor
    · intro i j; simp
    · simp [nodup_whereVec]
    · intro j
      simp only [List.mem_reverse, mem_whereVec, decide_eq_true_eq, List.not_mem_nil, or_false]
      rw [colSum_eq_zero_iff (graphOf_nonneg A)]
      constructor
      · intro h i hi; exact hi (h i)
      · intro h i; by_contra hc; exact h i hc
    · intro l1 j l2 h; simp at h
  have hready : ∀ j, j ∈ r.2 ↔ ∀ i, graphOf A i j ≠ 0 → i ∈ r.2 := by
    intro j
    simpa using hinv.ready j
  have hu : (fsumAll S (fonlyUndirected A)).gtZero = false := by
    rw [← Bool.not_eq_true, fonlyUndirected_masked, fsumAll_spec S (masked_nonneg hA _)]
    rintro ⟨⟨i, j, h⟩, -⟩
    unfold masked at h
    split at h
    · rename_i hm
      rw [onlyUndirected_ne] at hm
      exact hm.2 (h2 _ _ hm.1)
    · exact h rfl
  have hdag : fisDag S it A = true ↔ ¬ (fsumAll S (masked A r.1)).gtZero = true := by
    unfold fisDag ftopologicalOrdering
    rw [hu, if_neg (by simp), hr]
    simp only
    cases (fsumAll S (masked A r.1)).gtZero <;> simp
  have hm : ∀ i j, masked A r.1 i j = if i ∈ r.2 then .fin 0 else A i j := by
    intro i j
    unfold masked
    rw [hinv.mat]
    by_cases hi : i ∈ r.2
    · simp [hi]
    · simp only [hi, if_false]
      split
      · rfl
      · rename_i h; rw [graphOf_ne, not_not] at h; exact h.symm
  -- what Kahn's algorithm leaves
  have hleft : ∀ i, i ∉ r.2 ↔ ∃ a, Relation.TransGen (Edge (graphOf A)) a a ∧ Relation.ReflTransGen (Edge (graphOf A)) a i := by
    intro i
    constructor
    · intro hi
      by_contra hc
      push Not at hc
      let R : Fin p → Fin p → Prop := fun a b => Relation.TransGen (Edge (graphOf A)) a b ∧ Relation.ReflTransGen (Edge (graphOf A)) b i
      have hirr : Std.Irrefl R := ⟨fun a ha => hc a ha.1 ha.2⟩
      have htr : IsTrans (Fin p) R := ⟨fun a b c hab hbc => ⟨hab.1.trans hbc.1, hbc.2⟩⟩
      obtain ⟨m, ⟨hm1, hm2⟩, hmin⟩ := (Finite.wellFounded_of_trans_of_irrefl R).has_min
        {k | k ∉ r.2 ∧ Relation.ReflTransGen (Edge (graphOf A)) k i} ⟨i, hi, .refl⟩
      rw [hready] at hm1
      push Not at hm1
      obtain ⟨k, hk, hk'⟩ := hm1
      exact hmin k ⟨hk', .head hk hm2⟩ ⟨.single hk, hm2⟩
    · rintro ⟨a, hcyc, hai⟩
      have ha : a ∉ r.2 := by
        intro ha
        have hanc : ∀ b c, Relation.TransGen (Edge (graphOf A)) b c → ∀ l1 l2, r.2 = l1 ++ c :: l2 → b ∈ l1 := by
          intro b c hbc
          induction hbc with
          | single h => intro l1 l2 hl; exact hinv.before l1 _ l2 hl _ h
          | @tail c d _ h ih =>
            intro l1 l2 hl
            obtain ⟨l3, l4, hl'⟩ := List.append_of_mem (hinv.before l1 d l2 hl c h)
            have := ih l3 (l4 ++ d :: l2) (by rw [hl, hl']; simp)
            rw [hl']
            simp [this]
        obtain ⟨l1, l2, hl⟩ := List.append_of_mem ha
        have h1 := hanc a a hcyc l1 l2 hl
        have hnd : r.2.Nodup := by simpa using hinv.nodup
        rw [hl, List.nodup_append] at hnd
        exact hnd.2.2 a h1 a (by simp) rfl
      induction hai with
      | refl => exact ha
      | @tail b c _ h ih => exact fun hc => ih ((hready c).1 hc b h)
  rw [hdag, fsumAll_spec S (masked_nonneg hA _)]
  constructor
  · intro h
    by_cases hac : Acyclic (graphOf A)
    · exact .inl hac
    · right
      have hac' : ∃ a, Relation.TransGen (Edge (graphOf A)) a a := by
        unfold Acyclic at hac
        push Not at hac
        exact hac
      obtain ⟨a, ha⟩ := hac'
      have haleft := (hleft a).2 ⟨a, ha, .refl⟩
      have hex : ∃ i j, masked A r.1 i j ≠ .fin 0 := by
        obtain ⟨b, hb, -⟩ := Relation.TransGen.head'_iff.1 ha
        refine ⟨a, b, ?_⟩
        rw [hm, if_neg haleft]
        exact graphOf_ne.1 hb
      have : ∃ i j, masked A r.1 i j = .nan := by
        by_contra hc
        push Not at hc
        exact h ⟨hex, hc⟩
      obtain ⟨i, j, hij⟩ := this
      rw [hm] at hij
      split at hij
      · cases hij
      · rename_i hi
        obtain ⟨a, h1, h2⟩ := (hleft i).1 hi
        exact ⟨a, i, j, h1, h2, hij⟩
  · rintro (hac | ⟨a, i, j, h1, h2, h3⟩) ⟨⟨b, c, hbc⟩, hn⟩
    · rw [hm] at hbc
      split at hbc
      · exact hbc rfl
      · rename_i hb
        obtain ⟨a, ha, -⟩ := (hleft b).1 hb
        exact hac a ha
    · apply hn i j
      rw [hm, if_neg ((hleft i).2 ⟨a, h1, h2⟩), h3]

/-! ### Rounding and negative entries -/

/-- Summation from left to right. -/
def leftSum : Summer where
  sum l := l.foldl Dbl.add (.fin 0)
  isSum l := by
    have h : ∀ (l pre : List Dbl) (x : Dbl), SumOf pre x → SumOf (pre ++ l) (l.foldl Dbl.add x) := by
      intro l
      induction l with
      | nil => intro pre x h; simpa using h
      | cons y l ih =>
        intro pre x h
        have := ih (pre ++ [y]) (x.add y) (.add (List.Perm.refl _) h (.single y))
        simpa using this
    simpa using h l [] _ .nil

/-- Summation from right to left. -/
def rightSum : Summer where
  sum l := l.foldr Dbl.add (.fin 0)
  isSum l := by
    induction l with
    | nil => exact .nil
    | cons x l ih => exact .add (l₁ := [x]) (List.Perm.refl _) (.single x) ih

/-- Three edges into the last node with the weights `2^53`, `1` and `-2^53`. -/
def roundA : FAdj 4 := fun i j => if j = 3 then ![.fin (2 ^ 53), .fin 1, .fin (-2 ^ 53), .fin 0] i else .fin 0

theorem eq_of_okList {r : Except Err (List (Fin p))} {l : List (Fin p)} (h : (match r with | .ok l' => decide (l' = l) | .error _ => false) = true) :
    r = .ok l := by
  cases r with
  | error e => simp at h
  | ok l' => simp at h; rw [h]

/-- With negative entries the result depends on the order of summation: weights that do not add up to zero, added from left to right, make a node
with parents a source, which is listed first and again at the end; added from right to left they give the right ordering. -/
theorem C141_rounding : Acyclic (graphOf roundA) ∧ (∀ i j q, roundA i j = .fin q → IsBinary64 q) ∧
    ftopologicalOrdering leftSum (SetIter.incr 4) roundA = .ok [3, 2, 1, 0, 3] ∧
    ftopologicalOrdering rightSum (SetIter.incr 4) roundA = .ok [2, 1, 0, 3] ∧ ¬ IsTopoOrder (graphOf roundA) [3, 2, 1, 0, 3] := by
  refine ⟨?_, ?_, eq_of_okList (by decide +kernel), eq_of_okList (by decide +kernel), ?_⟩
  · rw [← isDag_iff (SetIter.incr 4) (graphOf_nonneg _)]
    decide +kernel
  · intro i j q h
    have hq : q = 2 ^ 53 ∨ q = 1 ∨ q = -2 ^ 53 ∨ q = 0 := by
      unfold roundA at h
      split at h
      · fin_cases i <;> simp at h <;> simp [← h]
      · cases h; simp
    rcases hq with rfl | rfl | rfl | rfl
    · exact ⟨1, 53, by norm_num, by norm_num, by norm_num, by norm_num⟩
    · exact ⟨1, 0, by norm_num, by norm_num, by norm_num, by norm_num⟩
    · exact ⟨-1, 53, by norm_num, by norm_num, by norm_num, by norm_num⟩
    · exact ⟨0, 0, by norm_num, by norm_num, by norm_num, by norm_num⟩
  · intro h
    exact absurd h.1 (by decide)

-- non-vacuity: weights that overflow when they are added, in a complete DAG
def bigA : FAdj 3 := ![![.fin 0, .fin (2 ^ 1023), .fin (2 ^ 1023)], ![.fin 0, .fin 0, .fin (2 ^ 1023)], ![.fin 0, .fin 0, .fin 0]]

theorem bigA_nonneg (i j : Fin 3) : NonnegDbl (bigA i j) := by
  have h : IsBinary64 (2 ^ 1023) := ⟨2 ^ 52, 971, by norm_num, by norm_num, by norm_num, by
    rw [show (2 : ℚ) ^ 1023 = (2 : ℚ) ^ 52 * (2 : ℚ) ^ 971 by rw [← pow_add]]; push_cast; rfl⟩
  have h0 : IsBinary64 0 := ⟨0, 0, by norm_num, by norm_num, by norm_num, by norm_num⟩
  have hp : (0 : ℚ) ≤ 2 ^ 1023 := pow_nonneg (by norm_num) _
  have hc : ∀ i j, bigA i j = .fin 0 ∨ bigA i j = .fin (2 ^ 1023) := by decide +kernel
  rcases hc i j with hc | hc
  · exact .inr ⟨_, hc, le_refl _, h0⟩
  · exact .inr ⟨_, hc, hp, h⟩

example (S : Summer) (it : SetIter 3) : fisDag S it bigA = true :=
  (C141_is_dag S it bigA bigA_nonneg).1.2 ((isDag_iff (SetIter.incr 3) (graphOf_nonneg _)).1 (by decide +kernel))

example : fcolSum leftSum bigA 2 = .pinf := by decide +kernel

-- a cycle of three nodes with one NaN is accepted, with positive weights only it is not
def nanA (x : Dbl) : FAdj 3 := ![![.fin 0, .fin 1, .fin 0], ![.fin 0, .fin 0, .fin 1], ![x, .fin 0, .fin 0]]

example (S : Summer) (it : SetIter 3) : fisDag S it (nanA .nan) = true := by
  have h1 : IsBinary64 1 := ⟨1, 0, by norm_num, by norm_num, by norm_num, by norm_num⟩
  have h0 : IsBinary64 0 := ⟨0, 0, by norm_num, by norm_num, by norm_num, by norm_num⟩
  refine (C141_nan S it (nanA .nan) ?_ (by decide +kernel)).2 (.inr ⟨0, 2, 0, ?_, ?_, rfl⟩)
  · intro i j
    fin_cases i <;> fin_cases j <;>
      first | exact .inl rfl | exact .inr (.inr ⟨_, rfl, le_refl _, h0⟩) | exact .inr (.inr ⟨_, rfl, zero_le_one, h1⟩)
  · exact .tail (.tail (.single (b := 1) (by unfold Edge; decide +kernel)) (b := 1) (c := 2) (by unfold Edge; decide +kernel)) (by unfold Edge; decide +kernel)
  · exact .tail (.tail .refl (c := 1) (by unfold Edge; decide +kernel)) (by unfold Edge; decide +kernel)

example (S : Summer) (it : SetIter 3) : fisDag S it (nanA (.fin 1)) = false := by
  have h1 : IsBinary64 1 := ⟨1, 0, by norm_num, by norm_num, by norm_num, by norm_num⟩
  have h0 : IsBinary64 0 := ⟨0, 0, by norm_num, by norm_num, by norm_num, by norm_num⟩
  rw [← Bool.not_eq_true, (C141_is_dag S it (nanA (.fin 1)) ?_).1, ← isDag_iff (SetIter.incr 3) (graphOf_nonneg _)]
  · decide +kernel
  · intro i j
    fin_cases i <;> fin_cases j <;> first | exact .inr ⟨_, rfl, le_refl _, h0⟩ | exact .inr ⟨_, rfl, zero_le_one, h1⟩

end Verif
