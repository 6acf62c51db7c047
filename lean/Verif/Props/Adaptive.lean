import Verif.Proof.Adaptive
import Verif.Props.BSolvers

/-!
# C87: `_solve_for_B_adaptive` with one environment
-/

namespace Verif

open Spec Matrix Filter

variable {p l : Nat}

section Abstract

/-- The entries of the flattened matrix that the solvers may change. -/
def freeDiag (A : Adj p) : Matrix (Fin (p * p)) (Fin (p * p)) ℝ :=
  Matrix.diagonal (fun k => if oneElements k then 0 else if zeroElements A k then 0 else 1)

theorem freeDiag_mulVec (A : Adj p) (v : Fin (p * p) → ℝ) (k : Fin (p * p)) :
    (freeDiag A *ᵥ v) k = if oneElements k then 0 else if zeroElements A k then 0 else v k := by
  unfold freeDiag
  rw [Matrix.mulVec_diagonal]
  split_ifs <;> simp

theorem freeDiag_dot (A : Adj p) (v w : Fin (p * p) → ℝ) : (freeDiag A *ᵥ v) ⬝ᵥ w = v ⬝ᵥ (freeDiag A *ᵥ w) := by
  unfold dotProduct
  refine Finset.sum_congr rfl (fun k _ => ?_)
  rw [freeDiag_mulVec, freeDiag_mulVec]
  split_ifs <;> simp

theorem freeDiag_idem (A : Adj p) (v : Fin (p * p) → ℝ) : freeDiag A *ᵥ (freeDiag A *ᵥ v) = freeDiag A *ᵥ v := by
  funext k
  rw [freeDiag_mulVec, freeDiag_mulVec]
  split_ifs <;> simp

theorem maskVec_step {A : Adj p} {B : Fin (p * p) → ℝ} (hB : maskVec A B = B) (x : Fin (p * p) → ℝ) (lr : ℝ) :
    maskVec A (B - lr • x) = B - lr • (freeDiag A *ᵥ x) := by
  funext k
  have hk := congrFun hB k
  rw [Pi.sub_apply, Pi.smul_apply, freeDiag_mulVec]
  unfold maskVec at hk ⊢
  split_ifs at hk ⊢ <;> simp [← hk]

theorem maskVec_masked (A : Adj p) (v : Fin (p * p) → ℝ) : maskVec A (maskVec A v) = maskVec A v := by
  funext k
  unfold maskVec
  split_ifs <;> rfl

variable {it : SetIter p} {d : Data p 1} {m : LModel p l 1} {N : Matrix (Fin (p * p)) (Fin (p * p)) ℝ} {c : ℝ}

/-- The states of the loop that occur. -/
structure GoodState (A : Adj p) (N : Matrix (Fin (p * p)) (Fin (p * p)) ℝ) (c : ℝ) (s : AdaptState p) : Prop where
  masked : maskVec A s.B = s.B
  score : s.score = some (c + s.B ⬝ᵥ (N *ᵥ s.B))
  pos : 0 < s.lr

/-- One iteration for a quadratic score. -/
theorem adaptStep_quad (hp0 : p ≠ 0) (hsym : Nᵀ = N) (hlik : ∀ v, maskVec m.A v = v → likelihood it d m v = .ok (some (c + v ⬝ᵥ (N *ᵥ v))))
    {s : AdaptState p} (hs : GoodState m.A N c s) (g : Fin (p * p) → ℝ) (hg : g = freeDiag m.A *ᵥ (N *ᵥ s.B)) :
    (2 * (g ⬝ᵥ g) < s.lr * (g ⬝ᵥ (N *ᵥ g)) → adaptStep it d m N s = .ok (.inl { s with lr := s.lr / 2 })) ∧
    (s.lr * (g ⬝ᵥ (N *ᵥ g)) ≤ 2 * (g ⬝ᵥ g) → (∀ k, |s.lr * g k| < 1 / 10 ^ 5) → adaptStep it d m N s = .ok (.inr s.B)) ∧
    (s.lr * (g ⬝ᵥ (N *ᵥ g)) ≤ 2 * (g ⬝ᵥ g) → (¬ ∀ k, |s.lr * g k| < 1 / 10 ^ 5) → ∃ s', adaptStep it d m N s = .ok (.inl s') ∧
      GoodState m.A N c s' ∧ s'.lr = s.lr ∧ s'.B = s.B - s.lr • g) := by
  have hnext : maskVec m.A (s.B - s.lr • (N *ᵥ s.B)) = s.B - s.lr • g := by rw [maskVec_step hs.masked, hg]
  have hmask : maskVec m.A (s.B - s.lr • g) = s.B - s.lr • g := by rw [← hnext, maskVec_masked]
  have hexp : (s.B - s.lr • g) ⬝ᵥ (N *ᵥ (s.B - s.lr • g)) =
      s.B ⬝ᵥ (N *ᵥ s.B) + s.lr * (s.lr * (g ⬝ᵥ (N *ᵥ g)) - 2 * (g ⬝ᵥ g)) := by
    rw [quad_expand hsym s.B (s.B - s.lr • g), sub_sub_cancel_left]
    have h1 : g ⬝ᵥ (N *ᵥ s.B) = g ⬝ᵥ g := by
      have h2 : freeDiag m.A *ᵥ g = g := by rw [hg, freeDiag_idem]
      conv_lhs => rw [← h2, freeDiag_dot, ← hg]
    simp only [Matrix.mulVec_neg, neg_dotProduct, dotProduct_neg, Matrix.mulVec_smul, smul_dotProduct, dotProduct_smul, smul_eq_mul, h1]
    ring
  have hcmp : s.score.lt (some (c + (s.B - s.lr • g) ⬝ᵥ (N *ᵥ (s.B - s.lr • g)))) ↔ 2 * (g ⬝ᵥ g) < s.lr * (g ⬝ᵥ (N *ᵥ g)) := by
    rw [hs.score, hexp]
    show c + _ < c + _ ↔ _
    constructor
    · intro h
      by_contra hc
      have := mul_nonpos_of_nonneg_of_nonpos hs.pos.le (show s.lr * (g ⬝ᵥ (N *ᵥ g)) - 2 * (g ⬝ᵥ g) ≤ 0 by linarith)
      linarith
    · intro h
      have := mul_pos hs.pos (show 0 < s.lr * (g ⬝ᵥ (N *ᵥ g)) - 2 * (g ⬝ᵥ g) by linarith)
      linarith
  have hdist : ∀ k, s.B k - (s.B - s.lr • g) k = s.lr * g k := by
    intro k
    simp
  unfold adaptStep
  simp only [hnext, hlik _ hmask, hcmp, if_neg hp0, hdist]
  refine ⟨fun h => by rw [if_pos h], fun h h' => by rw [if_neg (not_lt.2 h), if_pos h'], fun h h' => ?_⟩
  rw [if_neg (not_lt.2 h), if_neg h']
  exact ⟨_, rfl, ⟨hmask, rfl, hs.pos⟩, rfl, rfl⟩

/-- The curvature of the score in the free entries. -/
def freeHess (A : Adj p) (N : Matrix (Fin (p * p)) (Fin (p * p)) ℝ) : Matrix (Fin (p * p)) (Fin (p * p)) ℝ := freeDiag A * N * freeDiag A

theorem freeHess_mulVec (A : Adj p) (N : Matrix (Fin (p * p)) (Fin (p * p)) ℝ) (v : Fin (p * p) → ℝ) :
    freeHess A N *ᵥ v = freeDiag A *ᵥ (N *ᵥ (freeDiag A *ᵥ v)) := by
  unfold freeHess
  rw [← Matrix.mulVec_mulVec, ← Matrix.mulVec_mulVec]

theorem freeHess_posSemidef (A : Adj p) (hN : N.PosSemidef) : (freeHess A N).PosSemidef := by
  have h1 := hN.mul_mul_conjTranspose_same (freeDiag A)
  have h2 : (freeDiag A)ᴴ = freeDiag A := by
    rw [Matrix.conjTranspose_eq_transpose_of_trivial]
    unfold freeDiag
    rw [Matrix.diagonal_transpose]
  rw [h2] at h1
  exact h1

theorem freeHess_ker (A : Adj p) (hN : N.PosSemidef) (hsym : Nᵀ = N) (B v : Fin (p * p) → ℝ) (hv : freeHess A N *ᵥ v = 0) :
    v ⬝ᵥ (freeDiag A *ᵥ (N *ᵥ B)) = 0 := by
  have h1 : star (freeDiag A *ᵥ v) ⬝ᵥ (N *ᵥ (freeDiag A *ᵥ v)) = 0 := by
    rw [star_trivial, freeDiag_dot, ← freeHess_mulVec, hv, dotProduct_zero]
  rw [hN.dotProduct_mulVec_zero_iff] at h1
  rw [← freeDiag_dot, Matrix.dotProduct_mulVec, ← Matrix.mulVec_transpose, hsym, h1, zero_dotProduct]

theorem grad_next {A : Adj p} {B g : Fin (p * p) → ℝ} (lr : ℝ) (hg : g = freeDiag A *ᵥ (N *ᵥ B)) :
    freeDiag A *ᵥ (N *ᵥ (B - lr • g)) = g - lr • (freeHess A N *ᵥ g) := by
  have h2 : freeDiag A *ᵥ g = g := by rw [hg, freeDiag_idem]
  rw [freeHess_mulVec, h2, Matrix.mulVec_sub, Matrix.mulVec_smul, Matrix.mulVec_sub, Matrix.mulVec_smul, ← hg]

theorem hess_quad {A : Adj p} {g x : Fin (p * p) → ℝ} (hg : g = freeDiag A *ᵥ x) : g ⬝ᵥ (freeHess A N *ᵥ g) = g ⬝ᵥ (N *ᵥ g) := by
  have h2 : freeDiag A *ᵥ g = g := by rw [hg, freeDiag_idem]
  rw [freeHess_mulVec, ← freeDiag_dot, h2]

/-- The loop stops for a learning rate without resonance if it stops whenever the learning rate is halved. -/
theorem adapt_stops_level (hp0 : p ≠ 0) (hN : N.PosSemidef) (hsym : Nᵀ = N)
    (hlik : ∀ v, maskVec m.A v = v → likelihood it d m v = .ok (some (c + v ⬝ᵥ (N *ᵥ v)))) {lr : ℝ} (hlr : 0 < lr)
    (hres : ∀ v, lr • (freeHess m.A N *ᵥ v) = (2 : ℝ) • v → v = 0)
    (hrej : ∀ s g, GoodState m.A N c s → s.lr = lr → g = freeDiag m.A *ᵥ (N *ᵥ s.B) → 2 * (g ⬝ᵥ g) < lr * (g ⬝ᵥ (N *ᵥ g)) →
      Stops (adaptStep it d m N) { s with lr := s.lr / 2 }) :
    ∀ s, GoodState m.A N c s → s.lr = lr → Stops (adaptStep it d m N) s := by
  by_contra hcon
  push Not at hcon
  obtain ⟨s₀, h1, h2, h3⟩ := hcon
  let T := { s : AdaptState p // GoodState m.A N c s ∧ s.lr = lr ∧ ¬ Stops (adaptStep it d m N) s }
  let G : T → Fin (p * p) → ℝ := fun s => freeDiag m.A *ᵥ (N *ᵥ s.1.B)
  have hnext : ∀ s : T, ∃ s' : T, s'.1.B = s.1.B - lr • G s ∧ lr * (G s ⬝ᵥ (N *ᵥ G s)) ≤ 2 * (G s ⬝ᵥ G s) ∧
      ¬ ∀ k, |lr * G s k| < 1 / 10 ^ 5 := by
    rintro ⟨s, a1, a2, a3⟩
    obtain ⟨q1, q2, q3⟩ := adaptStep_quad hp0 hsym hlik a1 _ rfl
    rw [a2] at q1 q2 q3
    rw [stops_iff] at a3
    have hacc : lr * (G ⟨s, a1, a2, by rw [stops_iff]; exact a3⟩ ⬝ᵥ (N *ᵥ G ⟨s, a1, a2, by rw [stops_iff]; exact a3⟩)) ≤
        2 * (G ⟨s, a1, a2, by rw [stops_iff]; exact a3⟩ ⬝ᵥ G ⟨s, a1, a2, by rw [stops_iff]; exact a3⟩) := by
      by_contra hc
      push Not at hc
      have q := q1 hc
      rw [q] at a3
      have := hrej s _ a1 a2 rfl hc
      rw [a2] at this
      exact a3 this
    have hex : ¬ ∀ k, |lr * G ⟨s, a1, a2, by rw [stops_iff]; exact a3⟩ k| < 1 / 10 ^ 5 := by
      intro hc
      have q := q2 hacc hc
      rw [q] at a3
      exact a3 trivial
    obtain ⟨s', b1, b2, b3, b4⟩ := q3 hacc hex
    rw [b1] at a3
    exact ⟨⟨s', b2, b3, a3⟩, b4, hacc, hex⟩
  choose nxt n1 n2 n3 using hnext
  let sq : ℕ → T := fun t => nxt^[t] ⟨s₀, h1, h2, h3⟩
  have hsq : ∀ t, sq (t + 1) = nxt (sq t) := fun t => Function.iterate_succ_apply' _ _ _
  have hlim := accepted_tendsto (freeHess_posSemidef m.A hN) hlr hres (fun t => G (sq t)) (fun v hv => freeHess_ker m.A hN hsym _ v hv)
    (fun t => by
      show freeDiag m.A *ᵥ (N *ᵥ (sq (t + 1)).1.B) = _
      rw [hsq, n1]
      exact grad_next lr rfl)
    (fun t => by
      rw [hess_quad (x := N *ᵥ (sq t).1.B) rfl]
      exact n2 (sq t))
  have hev : ∀ᶠ t in atTop, ∀ k, |lr * G (sq t) k| < 1 / 10 ^ 5 := by
    rw [Filter.eventually_all]
    intro k
    have := ((hlim k).const_mul lr).abs
    rw [mul_zero, abs_zero] at this
    exact this.eventually_lt_const (by norm_num)
  obtain ⟨t, ht⟩ := hev.exists
  exact n3 (sq t) ht

theorem quad_bound (N : Matrix (Fin (p * p)) (Fin (p * p)) ℝ) : ∃ L : ℝ, ∀ g, g ⬝ᵥ (N *ᵥ g) ≤ L * (g ⬝ᵥ g) := by
  refine ⟨∑ a, ∑ b, |N a b|, fun g => ?_⟩
  have h0 : ∀ a, g a * g a ≤ g ⬝ᵥ g := fun a => Finset.single_le_sum (f := fun a => g a * g a) (fun b _ => mul_self_nonneg _) (Finset.mem_univ a)
  unfold Matrix.mulVec
  conv_lhs => unfold dotProduct
  rw [Finset.sum_mul]
  refine Finset.sum_le_sum (fun a _ => ?_)
  unfold dotProduct
  rw [Finset.mul_sum, Finset.sum_mul]
  refine Finset.sum_le_sum (fun b _ => ?_)
  have h1 : |g a * g b| ≤ ∑ i, g i * g i := by
    rw [abs_mul]
    have := h0 a
    have := h0 b
    unfold dotProduct at *
    nlinarith [sq_nonneg (|g a| - |g b|), abs_mul_abs_self (g a), abs_mul_abs_self (g b)]
  calc g a * (N a b * g b) = N a b * (g a * g b) := by ring
    _ ≤ |N a b * (g a * g b)| := le_abs_self _
    _ = |N a b| * |g a * g b| := abs_mul _ _
    _ ≤ _ := mul_le_mul_of_nonneg_left h1 (abs_nonneg _)

theorem adapt_stops (hp0 : p ≠ 0) (hN : N.PosSemidef) (hsym : Nᵀ = N)
    (hlik : ∀ v, maskVec m.A v = v → likelihood it d m v = .ok (some (c + v ⬝ᵥ (N *ᵥ v))))
    (hres : ∀ (k : ℕ) v, freeHess m.A N *ᵥ v = (2 : ℝ) ^ (k + 1) • v → v = 0) (k : ℕ) :
    ∀ s, GoodState m.A N c s → s.lr = 1 / 2 ^ k → Stops (adaptStep it d m N) s := by
  have hres' : ∀ (k : ℕ) v, ((1 : ℝ) / 2 ^ k) • (freeHess m.A N *ᵥ v) = (2 : ℝ) • v → v = 0 := by
    intro k v hv
    refine hres k v ?_
    have := congrArg (fun x => ((2 : ℝ) ^ k) • x) hv
    simp only [smul_smul] at this
    rwa [mul_one_div_cancel (by positivity), one_smul, ← pow_succ] at this
  obtain ⟨L, hL⟩ := quad_bound N
  obtain ⟨K, hK⟩ := pow_unbounded_of_one_lt L (by norm_num : (1 : ℝ) < 2)
  have key : ∀ j k : ℕ, K ≤ k + j → ∀ s, GoodState m.A N c s → s.lr = 1 / 2 ^ k → Stops (adaptStep it d m N) s := by
    intro j
    induction j with
    | zero =>
      intro k hk
      refine adapt_stops_level hp0 hN hsym hlik (by positivity) (hres' k) (fun s g _ _ _ hlt => ?_)
      exfalso
      have h1 : L ≤ 2 ^ k := hK.le.trans (pow_le_pow_right₀ (by norm_num) hk)
      have h2 : 0 ≤ g ⬝ᵥ g := Finset.sum_nonneg (fun i _ => mul_self_nonneg _)
      have h3 : g ⬝ᵥ (N *ᵥ g) ≤ 2 ^ k * (g ⬝ᵥ g) := (hL g).trans (mul_le_mul_of_nonneg_right h1 h2)
      have h4 : (1 : ℝ) / 2 ^ k * (g ⬝ᵥ (N *ᵥ g)) ≤ g ⬝ᵥ g := by
        rw [one_div, inv_mul_le_iff₀ (by positivity)]
        exact h3
      linarith
    | succ j ih =>
      intro k hk
      refine adapt_stops_level hp0 hN hsym hlik (by positivity) (hres' k) (fun s g hs hlr _ _ => ?_)
      refine ih (k + 1) (by omega) _ ⟨hs.masked, hs.score, half_pos hs.pos⟩ ?_
      show s.lr / 2 = _
      rw [hlr, pow_succ]
      field_simp
  exact key K k (by omega)

/-- At a resonance there is a start from which the loop never ends. -/
theorem adapt_diverges (hp0 : p ≠ 0) (hN : N.PosSemidef) (hsym : Nᵀ = N)
    (hlik : ∀ v, maskVec m.A v = v → likelihood it d m v = .ok (some (c + v ⬝ᵥ (N *ᵥ v))))
    (k : ℕ) (v : Fin (p * p) → ℝ) (hv : freeHess m.A N *ᵥ v = (2 : ℝ) ^ (k + 1) • v) (hv0 : v ≠ 0) :
    ∃ B, maskVec m.A B = B ∧ runLoop (adaptStep it d m N) { B := B, score := some (c + B ⬝ᵥ (N *ᵥ B)), lr := 1 } = .error .diverge := by
  have hmu : (2 : ℝ) ^ (k + 1) ≠ 0 := by positivity
  obtain ⟨i, hi⟩ := Function.ne_iff.1 hv0
  rw [Pi.zero_apply] at hi
  let w : Fin (p * p) → ℝ := (1 / |v i|) • v
  have hw : freeHess m.A N *ᵥ w = (2 : ℝ) ^ (k + 1) • w := by
    show _ *ᵥ (_ • v) = _ • _ • v
    rw [Matrix.mulVec_smul, hv, smul_comm]
  have hwi : |w i| = 1 := by
    show |1 / |v i| * v i| = 1
    rw [abs_mul, abs_div, abs_one, abs_abs]
    field_simp
  have hwD : freeDiag m.A *ᵥ w = w := by
    have h1 : w = ((2 : ℝ) ^ (k + 1))⁻¹ • (freeHess m.A N *ᵥ w) := by rw [hw, smul_smul, inv_mul_cancel₀ hmu, one_smul]
    conv_lhs => rw [h1, freeHess_mulVec, Matrix.mulVec_smul, freeDiag_idem, ← freeHess_mulVec]
    exact h1.symm
  have hww : 0 < w ⬝ᵥ w := by
    refine lt_of_lt_of_le ?_ (Finset.single_le_sum (f := fun a => w a * w a) (fun b _ => mul_self_nonneg _) (Finset.mem_univ i))
    show 0 < w i * w i
    rw [← abs_mul_abs_self, hwi]
    norm_num
  obtain ⟨x, hx⟩ := exists_mulVec_eq (freeHess_posSemidef m.A hN) (freeDiag m.A *ᵥ (N *ᵥ maskVec m.A 0)) (fun v hv => freeHess_ker m.A hN hsym _ v hv)
  let Bs : Fin (p * p) → ℝ := maskVec m.A 0 - (1 : ℝ) • (freeDiag m.A *ᵥ x)
  have hBs : freeDiag m.A *ᵥ (N *ᵥ Bs) = 0 := by
    show freeDiag m.A *ᵥ (N *ᵥ (_ - (1 : ℝ) • _)) = 0
    rw [one_smul, Matrix.mulVec_sub, Matrix.mulVec_sub, ← freeHess_mulVec, hx, sub_self]
  have hBm : maskVec m.A Bs = Bs := by
    show maskVec m.A (_ - (1 : ℝ) • _) = _ - (1 : ℝ) • _
    rw [maskVec_step (maskVec_masked _ _), freeDiag_idem]
  have hmask : ∀ σ : ℝ, maskVec m.A (Bs - σ • w) = Bs - σ • w := by
    intro σ
    rw [maskVec_step hBm, hwD]
  have hgrad : ∀ σ : ℝ, freeDiag m.A *ᵥ (N *ᵥ (Bs - σ • w)) = -(σ * 2 ^ (k + 1)) • w := by
    intro σ
    have h1 : freeDiag m.A *ᵥ (N *ᵥ w) = (2 : ℝ) ^ (k + 1) • w := by rw [← hw, freeHess_mulVec, hwD]
    rw [Matrix.mulVec_sub, Matrix.mulVec_sub, hBs, Matrix.mulVec_smul, Matrix.mulVec_smul, h1, zero_sub, smul_smul, neg_smul]
  have hNw : w ⬝ᵥ (N *ᵥ w) = 2 ^ (k + 1) * (w ⬝ᵥ w) := by
    rw [← hess_quad (A := m.A) (x := w) hwD.symm, hw, dotProduct_smul, smul_eq_mul]
  refine ⟨Bs - (1 : ℝ) • w, hmask 1, ?_⟩
  refine runLoop_diverges (fun s => GoodState m.A N c s ∧ ∃ j ≤ k, s.lr = 1 / 2 ^ j ∧ ∃ σ : ℝ, σ ^ 2 = 1 ∧ s.B = Bs - σ • w) ?_
    ⟨⟨hmask 1, rfl, one_pos⟩, 0, Nat.zero_le _, by norm_num, 1, by norm_num, rfl⟩
  rintro ⟨B, sc, lr⟩ ⟨hs, j, hj, hlr, σ, hσ, hB⟩
  simp only at hlr hB
  subst hlr hB
  obtain ⟨q1, q2, q3⟩ := adaptStep_quad hp0 hsym hlik hs _ rfl
  simp only [hgrad] at q1 q2 q3
  have e1 : (-(σ * 2 ^ (k + 1)) • w) ⬝ᵥ (-(σ * 2 ^ (k + 1)) • w) = (2 ^ (k + 1)) ^ 2 * (w ⬝ᵥ w) := by
    rw [smul_dotProduct, dotProduct_smul, smul_eq_mul, smul_eq_mul]
    linear_combination ((2 : ℝ) ^ (k + 1)) ^ 2 * (w ⬝ᵥ w) * hσ
  have e2 : (-(σ * 2 ^ (k + 1)) • w) ⬝ᵥ (N *ᵥ (-(σ * 2 ^ (k + 1)) • w)) = 2 ^ (k + 1) * ((2 ^ (k + 1)) ^ 2 * (w ⬝ᵥ w)) := by
    rw [Matrix.mulVec_smul, smul_dotProduct, dotProduct_smul, smul_eq_mul, smul_eq_mul, hNw]
    linear_combination ((2 : ℝ) ^ (k + 1)) ^ 3 * (w ⬝ᵥ w) * hσ
  have hpos : 0 < ((2 : ℝ) ^ (k + 1)) ^ 2 * (w ⬝ᵥ w) := by positivity
  rw [e1, e2] at q1 q2 q3
  rcases Nat.lt_or_ge j k with hlt | hge
  · refine ⟨_, q1 ?_, ⟨hs.masked, hs.score, half_pos hs.pos⟩, j + 1, hlt, ?_, σ, hσ, rfl⟩
    · refine lt_of_lt_of_eq (mul_lt_mul_of_pos_right ?_ hpos) (mul_assoc _ _ _)
      have h1 : (2 : ℝ) ^ (j + 1) < 2 ^ (k + 1) := pow_lt_pow_right₀ (by norm_num) (by omega)
      rw [one_div, lt_inv_mul_iff₀ (by positivity), ← pow_succ]
      exact h1
    · show (1 : ℝ) / 2 ^ j / 2 = _
      rw [pow_succ]
      field_simp
  · have hjk : j = k := le_antisymm hj hge
    subst hjk
    have h2 : (1 : ℝ) / 2 ^ j * 2 ^ (j + 1) = 2 := by
      rw [pow_succ]
      field_simp
    obtain ⟨s', b1, b2, b3, b4⟩ := q3 (by rw [← mul_assoc, h2]) (by
      push Not
      refine ⟨i, ?_⟩
      have h3 : (1 : ℝ) / 2 ^ j * (-(σ * 2 ^ (j + 1)) • w) i = -(2 * (σ * w i)) := by
        rw [Pi.smul_apply, smul_eq_mul]
        linear_combination -(σ * w i) * h2
      have h4 : |σ| = 1 := by
        rw [← sq_eq_sq₀ (abs_nonneg _) (by norm_num), sq_abs, hσ, one_pow]
      rw [h3, abs_neg, abs_mul, abs_mul, h4, hwi]
      norm_num)
    refine ⟨s', b1, b2, j, le_refl _, b3, -σ, by rw [neg_sq, hσ], ?_⟩
    rw [b4, smul_smul ((1 : ℝ) / 2 ^ j)]
    have h5 : (1 : ℝ) / 2 ^ j * -(σ * 2 ^ (j + 1)) = -(2 * σ) := by linear_combination -σ * h2
    rw [h5]
    module

/-- What the loop has found when it ends. -/
theorem adapt_exit (hp0 : p ≠ 0) (hsym : Nᵀ = N) (hlik : ∀ v, maskVec m.A v = v → likelihood it d m v = .ok (some (c + v ⬝ᵥ (N *ᵥ v))))
    {L : ℝ} (hL : ∀ g, freeDiag m.A *ᵥ g = g → g ⬝ᵥ (N *ᵥ g) ≤ L * (g ⬝ᵥ g)) {s : AdaptState p} (hs : GoodState m.A N c s) (hlr : s.lr = 1)
    {B : Fin (p * p) → ℝ} (h : runLoop (adaptStep it d m N) s = .ok B) :
    maskVec m.A B = B ∧ ∀ k, |(freeDiag m.A *ᵥ (N *ᵥ B)) k| ≤ max 1 L / 10 ^ 5 := by
  refine runLoop_ok (fun s => GoodState m.A N c s ∧ (1 ≤ s.lr ∨ 1 < s.lr * L))
    (fun B => maskVec m.A B = B ∧ ∀ k, |(freeDiag m.A *ᵥ (N *ᵥ B)) k| ≤ max 1 L / 10 ^ 5) ?_ ?_ ⟨hs, Or.inl hlr.ge⟩ h
  · rintro s s' ⟨h1, h2⟩ hstep
    obtain ⟨q1, q2, q3⟩ := adaptStep_quad hp0 hsym hlik h1 _ rfl
    generalize hg : freeDiag m.A *ᵥ (N *ᵥ s.B) = g at q1 q2 q3
    by_cases hrej : 2 * (g ⬝ᵥ g) < s.lr * (g ⬝ᵥ (N *ᵥ g))
    · rw [q1 hrej] at hstep
      simp only [Except.ok.injEq, Sum.inl.injEq] at hstep
      rw [← hstep]
      refine ⟨⟨h1.masked, h1.score, half_pos h1.pos⟩, Or.inr ?_⟩
      have h3 : g ⬝ᵥ (N *ᵥ g) ≤ L * (g ⬝ᵥ g) := hL g (by rw [← hg, freeDiag_idem])
      have h4 : 2 * (g ⬝ᵥ g) < s.lr * (L * (g ⬝ᵥ g)) := hrej.trans_le (mul_le_mul_of_nonneg_left h3 h1.pos.le)
      have h5 : 0 ≤ g ⬝ᵥ g := Finset.sum_nonneg (fun i _ => mul_self_nonneg _)
      have h6 : 0 < g ⬝ᵥ g := by
        rcases h5.lt_or_eq with h | h
        · exact h
        · rw [← h] at h4
          simp at h4
      have h7 : 2 < s.lr * L := by
        by_contra hc
        push Not at hc
        nlinarith
      show 1 < s.lr / 2 * L
      linarith
    · push Not at hrej
      by_cases hex : ∀ k, |s.lr * g k| < 1 / 10 ^ 5
      · rw [q2 hrej hex] at hstep
        simp at hstep
      · obtain ⟨s₁, b1, b2, b3, b4⟩ := q3 hrej hex
        rw [b1] at hstep
        simp only [Except.ok.injEq, Sum.inl.injEq] at hstep
        rw [← hstep, b3]
        exact ⟨b2, h2⟩
  · rintro s r ⟨h1, h2⟩ hstep
    obtain ⟨q1, q2, q3⟩ := adaptStep_quad hp0 hsym hlik h1 _ rfl
    by_cases hrej : 2 * ((freeDiag m.A *ᵥ (N *ᵥ s.B)) ⬝ᵥ (freeDiag m.A *ᵥ (N *ᵥ s.B))) <
        s.lr * ((freeDiag m.A *ᵥ (N *ᵥ s.B)) ⬝ᵥ (N *ᵥ (freeDiag m.A *ᵥ (N *ᵥ s.B))))
    · rw [q1 hrej] at hstep
      simp at hstep
    · push Not at hrej
      by_cases hex : ∀ k, |s.lr * (freeDiag m.A *ᵥ (N *ᵥ s.B)) k| < 1 / 10 ^ 5
      · rw [q2 hrej hex] at hstep
        simp only [Except.ok.injEq, Sum.inr.injEq] at hstep
        rw [← hstep]
        refine ⟨h1.masked, fun k => ?_⟩
        have h3 := hex k
        rw [abs_mul, abs_of_pos h1.pos] at h3
        generalize |(freeDiag m.A *ᵥ (N *ᵥ s.B)) k| = y at h3 ⊢
        have h4 : 1 ≤ s.lr * max 1 L := by
          rcases h2 with h2 | h2
          · nlinarith [le_max_left 1 L]
          · exact h2.le.trans (mul_le_mul_of_nonneg_left (le_max_right _ _) h1.pos.le)
        by_contra hc
        push Not at hc
        have h5 : s.lr * (max 1 L / 10 ^ 5) < s.lr * y := mul_lt_mul_of_pos_left hc h1.pos
        have h6 : s.lr * (max 1 L / 10 ^ 5) = s.lr * max 1 L / 10 ^ 5 := by ring
        rw [h6] at h5
        have : (1 : ℝ) / 10 ^ 5 ≤ s.lr * max 1 L / 10 ^ 5 := by gcongr
        linarith
      · obtain ⟨s₁, b1, b2, b3, b4⟩ := q3 hrej hex
        rw [b1] at hstep
        simp at hstep

end Abstract

theorem freeDiag_pair (A : Adj p) (v : Fin (p * p) → ℝ) (i j : Fin p) : (freeDiag A *ᵥ v) (finProdFinEquiv (i, j)) =
    if i = j then 0 else if A i j = 0 then 0 else v (finProdFinEquiv (i, j)) := by
  rw [freeDiag_mulVec]
  unfold oneElements zeroElements flattenF
  rw [divNat_pair, modNat_pair]
  simp only [decide_eq_true_eq, eq_comm (a := j)]

theorem freeDiag_vecM {A : Adj p} (hac : Acyclic A) {X : Matrix (Fin p) (Fin p) ℝ} (hX : Respects A X) :
    freeDiag A *ᵥ vecM Xᵀ = vecM Xᵀ := by
  funext k
  rw [← pair_div_mod k, freeDiag_pair, vecM_pair, Matrix.transpose_apply]
  generalize k.divNat = i
  generalize k.modNat = j
  by_cases hij : i = j
  · subst hij
    rw [if_pos rfl, hX _ _ (hac.noLoops i)]
  · rw [if_neg hij]
    split_ifs with h
    · rw [hX _ _ h]
    · rfl

/-- A free vector as a matrix that respects the graph. -/
theorem exists_vecM {A : Adj p} {v : Fin (p * p) → ℝ} (hv : freeDiag A *ᵥ v = v) : ∃ X : Matrix (Fin p) (Fin p) ℝ, Respects A X ∧ vecM Xᵀ = v := by
  refine ⟨Matrix.of fun i j => v (finProdFinEquiv (i, j)), fun i j hij => ?_, ?_⟩
  · rw [Matrix.of_apply, ← hv, freeDiag_pair]
    split_ifs <;> rfl
  · funext k
    rw [← pair_div_mod k, vecM_pair, Matrix.transpose_apply, Matrix.of_apply]

theorem nMatrix_posSemidef {e : Nat} (num : NumLib p e) (d : Data p e) (Ms : Fin e → Matrix (Fin p) (Fin p) ℝ) : (nMatrix num d Ms).PosSemidef := by
  refine .of_dotProduct_mulVec_nonneg ?_ (fun x => ?_)
  · rw [Matrix.IsHermitian, Matrix.conjTranspose_eq_transpose_of_trivial, nMatrix_symm]
  · rw [star_trivial]
    exact nMatrix_nonneg num d Ms x

theorem nMatrix_one {num : NumLib p 1} (hs : GoodSqrt num.sqrtm) {d : Data p 1} (hd : (d.covs 0).PosSemidef) {m : LModel p l 1}
    (ho : ∀ k i, 0 < m.omegas k i) (hp : ∀ k i, 0 ≤ m.psis k i) (X : Matrix (Fin p) (Fin p) ℝ) :
    nMatrix num d (fun k => (m.noise k)⁻¹) *ᵥ vecM Xᵀ =
      vecM (d.covs 0 * X * (noiseCov m.gamma (m.psis 0) (m.omegas 0))⁻¹)ᵀ := by
  have hpd : ∀ k, (m.noise k).PosDef := fun k => noise_posDef m k (ho k) (hp k)
  have hM : ∀ k, ((m.noise k)⁻¹).PosSemidef := fun k => (hpd k).inv.posSemidef
  rw [nMatrix_mulVec hs (fun k => by rw [Subsingleton.elim k 0]; exact hd) hM, Fin.sum_univ_one]
  congr 1
  rw [Matrix.transpose_mul, Matrix.transpose_mul, posSemidef_symm hd, ← noise_eq, posSemidef_symm (hM 0), Matrix.mul_assoc]

theorem likelihood_one (it : SetIter p) {num : NumLib p 1} (hs : GoodSqrt num.sqrtm) {d : Data p 1} (hd : (d.covs 0).PosSemidef) {m : LModel p l 1}
    (hA : Nonneg m.A) (hac : Acyclic m.A) (ho : ∀ k i, 0 < m.omegas k i) (hp : ∀ k i, 0 ≤ m.psis k i) (hn : d.nObs 0 ≠ 0) :
    ∃ c, ∀ v, maskVec m.A v = v → likelihood it d m v = .ok (some (c + v ⬝ᵥ (nMatrix num d (fun k => (m.noise k)⁻¹) *ᵥ v))) := by
  have hM : ∀ k, ((m.noise k)⁻¹).PosSemidef := fun k => (noise_posDef m k (ho k) (hp k)).inv.posSemidef
  refine ⟨∑ k, (d.nObs k : ℝ) * Real.log (m.noise k).det / (∑ k, (d.nObs k : ℝ)) ^ (1 - k.val), fun v hv => ?_⟩
  have h1 := likelihood_traceLoss it d m hA hac ho hp (by rwa [Fin.sum_univ_one]) v (by rw [← hv]; exact unflattenB_maskVec _ _)
  rw [h1, nMatrix_quad hs (fun k => by rw [Subsingleton.elim k 0]; exact hd) hM]
  have h2 : (fun k : Fin 1 => (d.nObs k : ℝ) / (∑ k, (d.nObs k : ℝ)) ^ (1 - k.val)) = fun _ => 1 := by
    funext k
    rw [Subsingleton.elim k 0, Fin.sum_univ_one]
    have : (d.nObs 0 : ℝ) ≠ 0 := by exact_mod_cast hn
    simp [this]
  rw [h2]

/-- The weights `X` on the edges of `A` are a direction in which the sample covariance `S` and the inverse noise covariance `M` give the
score exactly the curvature `μ`. -/
def CurvatureDirection (A : Adj p) (S M : Matrix (Fin p) (Fin p) ℝ) (μ : ℝ) (X : Matrix (Fin p) (Fin p) ℝ) : Prop :=
  Respects A X ∧ X ≠ 0 ∧ ∀ i j, A i j ≠ 0 → (S * X * M) i j = μ * X i j

theorem freeHess_eigen {num : NumLib p 1} (hs : GoodSqrt num.sqrtm) {d : Data p 1} (hd : (d.covs 0).PosSemidef) {m : LModel p l 1}
    (hac : Acyclic m.A) (ho : ∀ k i, 0 < m.omegas k i) (hp : ∀ k i, 0 ≤ m.psis k i) {μ : ℝ} (hμ : μ ≠ 0) :
    (∃ X, CurvatureDirection m.A (d.covs 0) (noiseCov m.gamma (m.psis 0) (m.omegas 0))⁻¹ μ X) ↔
      ∃ v, freeHess m.A (nMatrix num d (fun k => (m.noise k)⁻¹)) *ᵥ v = μ • v ∧ v ≠ 0 := by
  have hiff : ∀ X, Respects m.A X → ((∀ i j, m.A i j ≠ 0 → (d.covs 0 * X * (noiseCov m.gamma (m.psis 0) (m.omegas 0))⁻¹) i j = μ * X i j) ↔
      freeHess m.A (nMatrix num d (fun k => (m.noise k)⁻¹)) *ᵥ vecM Xᵀ = μ • vecM Xᵀ) := by
    intro X hX
    rw [freeHess_mulVec, freeDiag_vecM hac hX, nMatrix_one hs hd ho hp]
    constructor
    · intro h
      funext k
      rw [← pair_div_mod k, freeDiag_pair, Pi.smul_apply, vecM_pair, vecM_pair, Matrix.transpose_apply, Matrix.transpose_apply, smul_eq_mul]
      generalize k.divNat = i
      generalize k.modNat = j
      by_cases hij : i = j
      · subst hij
        rw [if_pos rfl, hX _ _ (hac.noLoops i), mul_zero]
      · rw [if_neg hij]
        split_ifs with h0
        · rw [hX _ _ h0, mul_zero]
        · exact h i j h0
    · intro h i j hij
      have := congrFun h (finProdFinEquiv (i, j))
      have hne : i ≠ j := by
        rintro rfl
        exact hij (hac.noLoops i)
      rw [freeDiag_pair, if_neg hne, if_neg hij, Pi.smul_apply, vecM_pair, vecM_pair, Matrix.transpose_apply, Matrix.transpose_apply, smul_eq_mul] at this
      exact this
  constructor
  · rintro ⟨X, h1, h2, h3⟩
    refine ⟨vecM Xᵀ, (hiff X h1).1 h3, fun h0 => h2 ?_⟩
    ext i j
    have := congrFun h0 (finProdFinEquiv (i, j))
    rwa [vecM_pair] at this
  · rintro ⟨v, h1, h2⟩
    have hv : freeDiag m.A *ᵥ v = v := by
      have h3 : v = μ⁻¹ • (freeHess m.A (nMatrix num d (fun k => (m.noise k)⁻¹)) *ᵥ v) := by rw [h1, smul_smul, inv_mul_cancel₀ hμ, one_smul]
      conv_lhs => rw [h3, freeHess_mulVec, Matrix.mulVec_smul, freeDiag_idem, ← freeHess_mulVec]
      exact h3.symm
    obtain ⟨X, hX, rfl⟩ := exists_vecM hv
    refine ⟨X, hX, ?_, (hiff X hX).2 h1⟩
    rintro rfl
    exact h2 (by funext k; rfl)

/-- C87: with one environment, `_solve_for_B_adaptive` returns from every random start, in exact arithmetic, if and only if there is no
direction of weights on the edges of the graph in which the score has exactly one of the curvatures 2, 4, 8, ...: the learning rates are
1, 1/2, 1/4, ..., and only a step that mirrors the weights at the optimum leaves the score as it is without making progress. -/
theorem C87_returns_iff (it : SetIter p) (num : NumLib p 1) (hs : GoodSqrt num.sqrtm) (hfin : ∀ x, num.finite x = true) (d : Data p 1)
    (hd : (d.covs 0).PosSemidef) (hn : d.nObs 0 ≠ 0) (hp0 : p ≠ 0) (m : LModel p l 1) (hA : Nonneg m.A) (hac : Acyclic m.A)
    (ho : ∀ k i, 0 < m.omegas k i) (hp : ∀ k i, 0 ≤ m.psis k i) :
    (∀ Binit, ∃ B, solveForBAdaptive it num d Binit m = .ok B) ↔
      ¬ ∃ (k : ℕ) (X : Matrix (Fin p) (Fin p) ℝ),
        CurvatureDirection m.A (d.covs 0) (noiseCov m.gamma (m.psis 0) (m.omegas 0))⁻¹ (2 ^ (k + 1)) X := by
  obtain ⟨c, hlik⟩ := likelihood_one it hs hd hA hac ho hp hn
  have hN := nMatrix_posSemidef num d (fun k => (m.noise k)⁻¹)
  have hsym := nMatrix_symm num d (fun k => (m.noise k)⁻¹)
  constructor
  · rintro h ⟨k, hX⟩
    obtain ⟨v, h1, h2⟩ := (freeHess_eigen hs hd hac ho hp (by positivity)).1 hX
    obtain ⟨B, h3, h4⟩ := adapt_diverges hp0 hN hsym hlik k v h1 h2
    obtain ⟨B', h5⟩ := h B
    unfold solveForBAdaptive at h5
    rw [invNoise_ok_of_pos m ho hp] at h5
    simp only [h3, hlik B h3, h4] at h5
    cases h5
  · intro h Binit
    have hst := adapt_stops hp0 hN hsym hlik (fun k v hv => by
      by_contra hv0
      exact h ⟨k, (freeHess_eigen hs hd hac ho hp (by positivity)).2 ⟨v, hv, hv0⟩⟩) 0
      { B := maskVec m.A Binit, score := some (c + maskVec m.A Binit ⬝ᵥ (nMatrix num d (fun k => (m.noise k)⁻¹) *ᵥ maskVec m.A Binit)), lr := 1 }
      ⟨maskVec_masked _ _, rfl, one_pos⟩ (by norm_num)
    unfold solveForBAdaptive
    rw [invNoise_ok_of_pos m ho hp]
    simp only [hlik _ (maskVec_masked m.A Binit)]
    generalize hs₀ : ({ B := maskVec m.A Binit, score := _, lr := 1 } : AdaptState p) = s₀ at hst ⊢
    have hgood : GoodState m.A (nMatrix num d (fun k => (m.noise k)⁻¹)) c s₀ := by
      rw [← hs₀]
      exact ⟨maskVec_masked _ _, rfl, one_pos⟩
    cases hr : runLoop (adaptStep it d m (nMatrix num d (fun k => (m.noise k)⁻¹))) s₀ with
    | ok v => exact ⟨unflattenB v, by simp only [hfin]; rfl⟩
    | error err =>
      exfalso
      refine runLoop_error (fun s => GoodState m.A (nMatrix num d (fun k => (m.noise k)⁻¹)) c s) (fun _ => False) ?_ ?_
        hgood hst hr
      · intro s s' h1 hstep
        obtain ⟨q1, q2, q3⟩ := adaptStep_quad hp0 hsym hlik h1 _ rfl
        rcases lt_or_ge (2 * ((freeDiag m.A *ᵥ (nMatrix num d (fun k => (m.noise k)⁻¹) *ᵥ s.B)) ⬝ᵥ (freeDiag m.A *ᵥ (nMatrix num d (fun k => (m.noise k)⁻¹) *ᵥ s.B)))) _ with hc | hc
        · rw [q1 hc] at hstep
          simp only [Except.ok.injEq, Sum.inl.injEq] at hstep
          rw [← hstep]
          exact ⟨h1.masked, h1.score, half_pos h1.pos⟩
        · by_cases hex : ∀ k, |s.lr * (freeDiag m.A *ᵥ (nMatrix num d (fun k => (m.noise k)⁻¹) *ᵥ s.B)) k| < 1 / 10 ^ 5
          · rw [q2 hc hex] at hstep
            simp at hstep
          · obtain ⟨s₁, b1, b2, _⟩ := q3 hc hex
            rw [b1] at hstep
            simp only [Except.ok.injEq, Sum.inl.injEq] at hstep
            rw [← hstep]
            exact b2
      · intro s err' h1 hstep
        unfold adaptStep at hstep
        simp only [hlik _ (maskVec_masked m.A _), if_neg hp0] at hstep
        split_ifs at hstep

/-- C87: with one environment, the documented score (negative log-likelihood) of the weights that `_solve_for_B_adaptive` returns is
close to that of any other weights that respect the graph.  `L` bounds the curvature of the score in the weights of the graph. -/
theorem C87_near_optimal (it : SetIter p) (num : NumLib p 1) (hs : GoodSqrt num.sqrtm) (d : Data p 1)
    (hd : (d.covs 0).PosSemidef) (hn : d.nObs 0 ≠ 0) (m : LModel p l 1) (hA : Nonneg m.A) (hac : Acyclic m.A)
    (ho : ∀ k i, 0 < m.omegas k i) (hp : ∀ k i, 0 ≤ m.psis k i) (L : ℝ)
    (hL : ∀ X, Respects m.A X → trace ((noiseCov m.gamma (m.psis 0) (m.omegas 0))⁻¹ * (Xᵀ * d.covs 0 * X)) ≤ L * ∑ i, ∑ j, X i j ^ 2)
    (Binit : Fin (p * p) → ℝ) (B : Matrix (Fin p) (Fin p) ℝ) (h : solveForBAdaptive it num d Binit m = .ok B)
    (B' : Matrix (Fin p) (Fin p) ℝ) (hB' : Respects m.A B') (C C' : Fin 1 → Matrix (Fin p) (Fin p) ℝ)
    (hC : ∀ k, Entails B (noiseCov m.gamma (m.psis k) (m.omegas k)) (C k))
    (hC' : ∀ k, Entails B' (noiseCov m.gamma (m.psis k) (m.omegas k)) (C' k)) :
    Respects m.A B ∧
    weightedNLL d.nObs C d.covs ≤ weightedNLL d.nObs C' d.covs + 2 * max 1 L / 10 ^ 5 * ∑ i, ∑ j, |B' i j - B i j| := by
  have hresp := solveForBAdaptive_respects h
  refine ⟨hresp, ?_⟩
  by_cases hp0 : p = 0
  · subst hp0
    rw [Subsingleton.elim C C']
    simp
  obtain ⟨c, hlik⟩ := likelihood_one it hs hd hA hac ho hp hn
  have hd' : ∀ k, (d.covs k).PosSemidef := fun k => by rw [Subsingleton.elim k 0]; exact hd
  have hM : ∀ k, ((m.noise k)⁻¹).PosSemidef := fun k => (noise_posDef m k (ho k) (hp k)).inv.posSemidef
  have hsym := nMatrix_symm num d (fun k => (m.noise k)⁻¹)
  have hquad := nMatrix_quad hs hd' hM
  have hnonneg := nMatrix_nonneg num d (fun k => (m.noise k)⁻¹)
  have hcurv : ∀ g, freeDiag m.A *ᵥ g = g → g ⬝ᵥ (nMatrix num d (fun k => (m.noise k)⁻¹) *ᵥ g) ≤ L * (g ⬝ᵥ g) := by
    intro g hg
    obtain ⟨X, hX, rfl⟩ := exists_vecM hg
    rw [nMatrix_mulVec hs hd' hM, Fin.sum_univ_one, dot_vecM_trace, dot_vecM]
    have h1 := hL X hX
    have h2 : ∑ i, ∑ j, Xᵀ i j * Xᵀ i j = ∑ i, ∑ j, X i j ^ 2 := by
      rw [Finset.sum_comm]
      refine Finset.sum_congr rfl (fun i _ => Finset.sum_congr rfl (fun j _ => ?_))
      rw [Matrix.transpose_apply, sq]
    rw [h2, Matrix.transpose_transpose, noise_eq]
    simpa only [Matrix.mul_assoc] using h1
  unfold solveForBAdaptive at h
  rw [invNoise_ok_of_pos m ho hp] at h
  simp only [hlik _ (maskVec_masked m.A Binit)] at h
  generalize hNdef : nMatrix num d (fun k => (m.noise k)⁻¹) = N at *
  cases hr : runLoop (adaptStep it d m N) { B := maskVec m.A Binit, score := some (c + maskVec m.A Binit ⬝ᵥ (N *ᵥ maskVec m.A Binit)), lr := 1 } with
  | error err => rw [hr] at h; cases h
  | ok v =>
    rw [hr] at h
    simp only at h
    split_ifs at h
    cases h
    obtain ⟨h1, h2⟩ := adapt_exit hp0 hsym hlik hcurv ⟨maskVec_masked _ _, rfl, one_pos⟩ rfl hr
    have hw : maskVec m.A (vecM (1 - B'ᵀ)) = vecM (1 - B'ᵀ) := masked_vecM hac hB'
    rw [weightedNLL_traceLoss hac d.nObs _ d.covs hresp hC, weightedNLL_traceLoss hac d.nObs _ d.covs hB' hC']
    have hone : (fun k : Fin 1 => (d.nObs k : ℝ) / ∑ k, (d.nObs k : ℝ)) = fun _ => 1 := by
      funext k
      rw [Subsingleton.elim k 0, Fin.sum_univ_one]
      have : (d.nObs 0 : ℝ) ≠ 0 := by exact_mod_cast hn
      exact div_self this
    rw [hone]
    simp only [← noise_eq]
    rw [← hquad v]
    conv_rhs => rw [← unflattenB_vecM B', ← hquad]
    rw [unflattenB_vecM, quad_expand hsym v (vecM (1 - B'ᵀ))]
    have h3 := hnonneg (vecM (1 - B'ᵀ) - v)
    have hfree : freeDiag m.A *ᵥ (vecM (1 - B'ᵀ) - v) = vecM (1 - B'ᵀ) - v := by
      funext k
      have e1 := congrFun hw k
      have e2 := congrFun h1 k
      rw [freeDiag_mulVec]
      unfold maskVec at e1 e2
      rw [Pi.sub_apply]
      split_ifs at e1 e2 ⊢
      · rw [← e1, ← e2, sub_self]
      · rw [← e1, ← e2, sub_self]
      · rfl
    have h4 : -(max 1 L / 10 ^ 5 * ∑ i, ∑ j, |B' i j - unflattenB v i j|) ≤ (vecM (1 - B'ᵀ) - v) ⬝ᵥ (N *ᵥ v) := by
      rw [← hfree, freeDiag_dot]
      have h5 : ∑ i, ∑ j, |B' i j - unflattenB v i j| = ∑ k, |(vecM (1 - B'ᵀ) - v : Fin (p * p) → ℝ) k| := by
        rw [sum_pairs, Finset.sum_comm]
        refine Finset.sum_congr rfl (fun j _ => Finset.sum_congr rfl (fun i _ => ?_))
        rw [Pi.sub_apply, vecM_pair, unflattenB_apply, Matrix.sub_apply, Matrix.transpose_apply, Matrix.one_apply]
        rw [abs_sub_comm]
        congr 1
        simp only [eq_comm (a := j)]
        ring
      rw [h5, Finset.mul_sum, ← Finset.sum_neg_distrib]
      unfold dotProduct
      refine Finset.sum_le_sum (fun k _ => ?_)
      have h6 := mul_le_mul_of_nonneg_left (h2 k) (abs_nonneg ((vecM (1 - B'ᵀ) - v : Fin (p * p) → ℝ) k))
      rw [← abs_mul] at h6
      have h7 := neg_abs_le ((vecM (1 - B'ᵀ) - v : Fin (p * p) → ℝ) k * (freeDiag m.A *ᵥ (N *ᵥ v)) k)
      linarith
    have h8 : 2 * max 1 L / 10 ^ 5 * ∑ i, ∑ j, |B' i j - unflattenB v i j| = 2 * (max 1 L / 10 ^ 5 * ∑ i, ∑ j, |B' i j - unflattenB v i j|) := by ring
    rw [h8]
    linarith

namespace AdaptiveExample

open BSolversExample (graph nonneg acyclic respects_iff)

/-- The graph `0 → 1`, no latents, unit variances, one environment. -/
noncomputable def model : LModel 2 0 1 := ⟨graph, 0, 0, fun _ _ => 1, 0, 1⟩

theorem noise_one (k : Fin 1) : noiseCov model.gamma (model.psis k) (model.omegas k) = 1 := by
  ext i j
  simp [noiseCov, model, Matrix.one_apply]

/-- With uncorrelated variables of variance `s` the only curvature is `s`. -/
theorem curvature_iff (s μ : ℝ) : (∃ X, CurvatureDirection graph (s • (1 : Matrix (Fin 2) (Fin 2) ℝ)) (1 : Matrix (Fin 2) (Fin 2) ℝ)⁻¹ μ X) ↔ s = μ := by
  constructor
  · rintro ⟨X, h1, h2, h3⟩
    obtain ⟨b, rfl⟩ := (respects_iff _).1 h1
    have hb : b ≠ 0 := by
      rintro rfl
      apply h2
      ext i j
      fin_cases i <;> fin_cases j <;> rfl
    have h4 := h3 0 1 (by decide)
    simp at h4
    exact h4.resolve_right hb
  · rintro rfl
    refine ⟨!![0, 1; 0, 0], (respects_iff _).2 ⟨1, rfl⟩, fun h => ?_, fun i j _ => ?_⟩
    · have := congrFun (congrFun h 0) 1
      simp at this
    · fin_cases i <;> fin_cases j <;> simp

theorem smul_posSemidef {s : ℝ} (hs : 0 ≤ s) : (s • (1 : Matrix (Fin 2) (Fin 2) ℝ)).PosSemidef := Matrix.PosSemidef.one.smul hs

/-- A concrete case for `C87_returns_iff`: sample variances 3, which is not a power of 2, so that the solver always returns. -/
example (it : SetIter 2) (num : NumLib 2 1) (hs : GoodSqrt num.sqrtm) (hfin : ∀ x, num.finite x = true) (Binit : Fin (2 * 2) → ℝ) :
    ∃ B, solveForBAdaptive it num ⟨fun _ => (3 : ℝ) • 1, ![10]⟩ Binit model = .ok B := by
  refine (C87_returns_iff it num hs hfin ⟨fun _ => (3 : ℝ) • 1, ![10]⟩ (smul_posSemidef (by norm_num)) (by simp) (by norm_num) model nonneg acyclic
    (fun _ _ => one_pos) (fun _ i => i.elim0)).2 ?_ Binit
  rintro ⟨k, hX⟩
  rw [noise_one] at hX
  have h1 := (curvature_iff 3 _).1 hX
  have h2 : (3 : ℕ) = 2 ^ (k + 1) := by exact_mod_cast h1
  rw [pow_succ] at h2
  omega

/-- A concrete case for the other direction: sample variances 2; then there is a start from which the solver does not return. -/
example (it : SetIter 2) (num : NumLib 2 1) (hs : GoodSqrt num.sqrtm) (hfin : ∀ x, num.finite x = true) :
    ∃ Binit, ¬ ∃ B, solveForBAdaptive it num ⟨fun _ => (2 : ℝ) • 1, ![10]⟩ Binit model = .ok B := by
  by_contra hc
  push Not at hc
  refine (C87_returns_iff it num hs hfin ⟨fun _ => (2 : ℝ) • 1, ![10]⟩ (smul_posSemidef (by norm_num)) (by simp) (by norm_num) model nonneg acyclic
    (fun _ _ => one_pos) (fun _ i => i.elim0)).1 hc ⟨0, ?_⟩
  rw [noise_one]
  exact (curvature_iff 2 _).2 (by norm_num)

/-- A concrete case for `C87_near_optimal`: the same data with variances 3; the optimal weights are 0. -/
example (it : SetIter 2) (num : NumLib 2 1) (hs : GoodSqrt num.sqrtm) (Binit : Fin (2 * 2) → ℝ) (B : Matrix (Fin 2) (Fin 2) ℝ)
    (h : solveForBAdaptive it num ⟨fun _ => (3 : ℝ) • 1, ![10]⟩ Binit model = .ok B) (C C' : Fin 1 → Matrix (Fin 2) (Fin 2) ℝ)
    (hC : ∀ k, Entails B 1 (C k)) (hC' : ∀ k, Entails 0 1 (C' k)) :
    weightedNLL ![10] C (fun _ => (3 : ℝ) • 1) ≤ weightedNLL ![10] C' (fun _ => (3 : ℝ) • 1) + 6 / 10 ^ 5 * ∑ i, ∑ j, |B i j| := by
  have h1 := (C87_near_optimal it num hs ⟨fun _ => (3 : ℝ) • 1, ![10]⟩ (smul_posSemidef (by norm_num)) (by simp) model nonneg acyclic
    (fun _ _ => one_pos) (fun _ i => i.elim0) 3 (fun X _ => by
      rw [noise_one]
      simp [Matrix.trace, Matrix.mul_apply, Fin.sum_univ_two]
      apply le_of_eq
      ring) Binit B h 0 (fun _ _ _ => rfl) C C' (fun k => by rw [noise_one]; exact hC k) (fun k => by rw [noise_one]; exact hC' k)).2
  simp only [Matrix.zero_apply, zero_sub, abs_neg] at h1
  rw [max_eq_right (by norm_num : (1 : ℝ) ≤ 3)] at h1
  norm_num at h1 ⊢
  exact h1

end AdaptiveExample

end Verif
