import Verif.Props.Consistency

/-!
# C122: without latents the weights are consistent, for any number of environments and any targets
-/

namespace Verif

open Spec Matrix

variable {p e : Nat}

/-! ## Quadratic forms -/

/-- The quadratic form of a matrix. -/
def quad (S : Matrix (Fin p) (Fin p) ℝ) (x : Fin p → ℝ) : ℝ := ∑ i, ∑ k, x i * S i k * x k

/-- The coefficients of the residual of variable `j`. -/
def resVec (j : Fin p) (b : Fin p → ℝ) : Fin p → ℝ := fun i => (if i = j then 1 else 0) - b i

theorem residualVar_quad {S : Matrix (Fin p) (Fin p) ℝ} (hS : ∀ a b, S a b = S b a) (j : Fin p) (b : Fin p → ℝ) :
    residualVar S j b = quad S (resVec j b) := by
  unfold residualVar quad resVec
  have h1 : ∀ i k, ((if i = j then (1 : ℝ) else 0) - b i) * S i k * ((if k = j then 1 else 0) - b k) =
      (if i = j then if k = j then S i k else 0 else 0) - (if i = j then S i k * b k else 0) - (if k = j then b i * S i k else 0) + b i * S i k * b k := by
    intro i k
    split_ifs <;> ring
  simp only [h1, Finset.sum_add_distrib, Finset.sum_sub_distrib, Finset.sum_ite_eq', Finset.mem_univ, if_true]
  have h2 : ∀ f : Fin p → Fin p → ℝ, ∑ i, ∑ k, (if i = j then f i k else 0) = ∑ k, f j k := by
    intro f
    rw [Finset.sum_comm]
    simp
  rw [h2, h2]
  simp only [Finset.sum_ite_eq', Finset.mem_univ, if_true]
  have h3 : ∑ k, S j k * b k = ∑ k, b k * S k j := Finset.sum_congr rfl fun k _ => by rw [hS j k]; ring
  rw [h3]
  ring

theorem quad_diff {S C : Matrix (Fin p) (Fin p) ℝ} {δ : ℝ} (h : ∀ i k, |S i k - C i k| ≤ δ) (x : Fin p → ℝ) :
    |quad S x - quad C x| ≤ δ * p * ∑ i, x i ^ 2 := by
  unfold quad
  rw [← Finset.sum_sub_distrib]
  simp only [← Finset.sum_sub_distrib]
  have h1 : |∑ i, ∑ k, (x i * S i k * x k - x i * C i k * x k)| ≤ ∑ i, ∑ k, |x i| * δ * |x k| := by
    refine (Finset.abs_sum_le_sum_abs _ _).trans (Finset.sum_le_sum fun i _ => (Finset.abs_sum_le_sum_abs _ _).trans (Finset.sum_le_sum fun k _ => ?_))
    rw [show x i * S i k * x k - x i * C i k * x k = x i * (S i k - C i k) * x k by ring, abs_mul, abs_mul]
    exact mul_le_mul_of_nonneg_right (mul_le_mul_of_nonneg_left (h i k) (abs_nonneg _)) (abs_nonneg _)
  refine h1.trans ?_
  have hδ : p ≠ 0 → 0 ≤ δ := fun hp => (abs_nonneg _).trans (h ⟨0, by omega⟩ ⟨0, by omega⟩)
  have h2 : ∑ i, ∑ k, |x i| * δ * |x k| = δ * (∑ i, |x i|) ^ 2 := by
    rw [sq, Finset.sum_mul_sum, Finset.mul_sum]
    refine Finset.sum_congr rfl fun i _ => ?_
    rw [Finset.mul_sum]
    exact Finset.sum_congr rfl fun k _ => by ring
  rw [h2]
  rcases eq_or_ne p 0 with rfl | hp
  · simp
  have h3 := sq_sum_le_card_mul_sum_sq (s := (Finset.univ : Finset (Fin p))) (f := fun i => |x i|)
  simp only [sq_abs, Finset.card_univ, Fintype.card_fin] at h3
  rw [mul_assoc]
  exact mul_le_mul_of_nonneg_left h3 (hδ hp)

theorem quad_lower {C : Matrix (Fin p) (Fin p) ℝ} (hC : C.PosDef) : ∃ l > 0, ∀ x : Fin p → ℝ, l * ∑ i, x i ^ 2 ≤ quad C x := by
  obtain ⟨R, w, hw, h1, h2⟩ := simultaneous_diagonal hC (Matrix.PosSemidef.one (n := Fin p) (R := ℝ))
  have hq : ∀ (v : Fin p → ℝ) (x : Fin p → ℝ), quad (Rᵀ * diagonal v * R) x = ∑ a, v a * (∑ i, R a i * x i) ^ 2 := by
    intro v x
    unfold quad
    simp only [Matrix.mul_apply, Matrix.transpose_apply, Matrix.diagonal_apply, mul_ite, mul_zero, Finset.sum_ite_eq', Finset.mem_univ,
      if_true, Finset.mul_sum, Finset.sum_mul]
    have : ∀ i k : Fin p, ∑ a, x i * (R a i * v a * R a k) * x k = ∑ a, v a * ((R a i * x i) * (R a k * x k)) := fun i k =>
      Finset.sum_congr rfl fun a _ => by ring
    simp only [this]
    have e : ∀ i, ∑ k, ∑ a, v a * ((R a i * x i) * (R a k * x k)) = ∑ a, ∑ k, v a * ((R a i * x i) * (R a k * x k)) := fun i => Finset.sum_comm
    simp only [e]
    rw [Finset.sum_comm]
    refine Finset.sum_congr rfl fun a _ => ?_
    rw [sq, Finset.sum_mul_sum, Finset.mul_sum]
    refine Finset.sum_congr rfl fun i _ => ?_
    rw [Finset.mul_sum]
  have hK : ∃ K > 0, ∀ a, w a ≤ K := by
    refine ⟨∑ a, w a + 1, by have := Finset.sum_nonneg fun a (_ : a ∈ Finset.univ) => hw a; linarith, fun a => ?_⟩
    have := Finset.single_le_sum (fun b _ => hw b) (Finset.mem_univ a)
    linarith
  obtain ⟨K, hK0, hK⟩ := hK
  refine ⟨K⁻¹, inv_pos.2 hK0, fun x => ?_⟩
  have e1 : ∑ i, x i ^ 2 = ∑ a, w a * (∑ i, R a i * x i) ^ 2 := by
    rw [← hq, ← h2]
    unfold quad
    refine Finset.sum_congr rfl fun i _ => ?_
    simp only [Matrix.one_apply, mul_ite, mul_one, mul_zero, ite_mul, zero_mul, Finset.sum_ite_eq, Finset.mem_univ, if_true]
    ring
  have e2 : quad C x = ∑ a, (∑ i, R a i * x i) ^ 2 := by
    have := hq 1 x
    rw [show (diagonal (1 : Fin p → ℝ)) = 1 from Matrix.diagonal_one, Matrix.mul_one, ← h1] at this
    simpa using this
  rw [e1, e2, inv_mul_le_iff₀ hK0, Finset.mul_sum]
  exact Finset.sum_le_sum fun a _ => mul_le_mul_of_nonneg_right (hK a) (sq_nonneg _)

/-! ## One step of the convex solver -/

/-- The objective of the convex solver without latents: a sum over the variables and environments. -/
theorem traceLoss_diag (c : Fin e → ℝ) (w : Matrix (Fin e) (Fin p) ℝ) {S : Fin e → Matrix (Fin p) (Fin p) ℝ} (hS : ∀ k a b, S k a b = S k b a)
    (B : Matrix (Fin p) (Fin p) ℝ) :
    traceLoss c (fun k => Matrix.diagonal fun j => (w k j)⁻¹) S B = ∑ j, ∑ k, c k * (w k j)⁻¹ * residualVar (S k) j (fun i => B i j) := by
  unfold traceLoss
  rw [Finset.sum_comm]
  refine Finset.sum_congr rfl fun k _ => ?_
  rw [Matrix.trace, Finset.mul_sum]
  refine Finset.sum_congr rfl fun j _ => ?_
  rw [Matrix.diag_apply, Matrix.diagonal_mul, residual_diag B (S k) (hS k)]
  ring

/-- If the sum over the variables is smallest, then every summand is. -/
theorem column_optimal {A : Adj p} {f : Fin p → (Fin p → ℝ) → ℝ} {B : Matrix (Fin p) (Fin p) ℝ} (hB : Respects A B)
    (h : ∀ B', Respects A B' → ∑ j, f j (fun i => B i j) ≤ ∑ j, f j (fun i => B' i j)) (j : Fin p) (b : Fin p → ℝ) (hb : ∀ i, A i j = 0 → b i = 0) :
    f j (fun i => B i j) ≤ f j b := by
  have h1 := h (Matrix.of fun i a => if a = j then b i else B i a) (by
    intro i a hi
    rw [Matrix.of_apply]
    split_ifs with ha
    · subst ha; exact hb i hi
    · exact hB i a hi)
  rw [← Finset.add_sum_erase _ _ (Finset.mem_univ j), ← Finset.add_sum_erase _ (fun a => f a (fun i => (Matrix.of fun i a => if a = j then b i else B i a) i a))
    (Finset.mem_univ j)] at h1
  have h2 : ∑ a ∈ Finset.univ.erase j, f a (fun i => (Matrix.of fun i a => if a = j then b i else B i a) i a) = ∑ a ∈ Finset.univ.erase j, f a (fun i => B i a) := by
    refine Finset.sum_congr rfl fun a ha => ?_
    congr 1
    funext i
    rw [Matrix.of_apply, if_neg (Finset.ne_of_mem_erase ha)]
  rw [h2] at h1
  simp only [Matrix.of_apply, if_true] at h1
  linarith

/-- Coefficients with a small weighted sum of residual variances, on data that are almost those of a model, are almost those of the model, whatever the
weights of the environments are. -/
theorem pooled_close {A : Adj p} (hac : Acyclic A) {B : Matrix (Fin p) (Fin p) ℝ} (hB : Respects A B) {C : Fin e → Matrix (Fin p) (Fin p) ℝ} {w : Fin e → Fin p → ℝ}
    (hC : ∀ k, Entails B (Matrix.diagonal (w k)) (C k)) (hCs : ∀ k a b, C k a b = C k b a) {l : ℝ}
    (hlow : ∀ k (x : Fin p → ℝ), l * ∑ i, x i ^ 2 ≤ quad (C k) x) {δ : ℝ} (hδp : δ * p ≤ l / 4) {S : Fin e → Matrix (Fin p) (Fin p) ℝ}
    (hS : ∀ k a b, S k a b = S k b a) (hw : ∀ k i j, |S k i j - C k i j| ≤ δ) {c : Fin e → ℝ} (hc : ∀ k, 0 < c k) (he : 0 < e) (j : Fin p) {b : Fin p → ℝ}
    (hb : ∀ i, A i j = 0 → b i = 0)
    (hle : ∑ k, c k * residualVar (S k) j b ≤ ∑ k, c k * residualVar (S k) j (fun i => B i j)) :
    l * ∑ i, (b i - B i j) ^ 2 ≤ 6 * (δ * p) * ∑ i, (resVec j (fun i => B i j)) i ^ 2 := by
  set X := ∑ i, (resVec j (fun i => B i j)) i ^ 2 with hX
  set Y := ∑ i, (b i - B i j) ^ 2 with hY
  have hp : 0 < p := j.pos
  have hδ : 0 ≤ δ := (abs_nonneg _).trans (hw ⟨0, he⟩ j j)
  have hδp0 : 0 ≤ δ * p := by positivity
  have hX0 : 0 ≤ X := Finset.sum_nonneg fun i _ => sq_nonneg _
  have hY0 : 0 ≤ Y := Finset.sum_nonneg fun i _ => sq_nonneg _
  have hnew : ∑ i, (resVec j b) i ^ 2 ≤ 2 * X + 2 * Y := by
    rw [hX, hY, Finset.mul_sum, Finset.mul_sum, ← Finset.sum_add_distrib]
    refine Finset.sum_le_sum fun i _ => ?_
    unfold resVec
    nlinarith [sq_nonneg ((if i = j then (1 : ℝ) else 0) - B i j + (b i - B i j))]
  have hterm : ∀ k, residualVar (S k) j (fun i => B i j) + (l * Y - δ * p * (3 * X + 2 * Y)) ≤ residualVar (S k) j b := by
    intro k
    have h1 := residualVar_eq (hCs k) hB (C103_regression hac hB (hC k)) j b hb
    have h2 := hlow k (fun i => b i - B i j)
    have h3 := abs_le.1 (quad_diff (hw k) (resVec j b))
    have h4 := abs_le.1 (quad_diff (hw k) (resVec j fun i => B i j))
    rw [← residualVar_quad (hS k), ← residualVar_quad (hCs k)] at h3 h4
    have h5 : residualVar (C k) j b = residualVar (C k) j (fun i => B i j) + quad (C k) (fun i => b i - B i j) := h1
    have h6 := mul_le_mul_of_nonneg_left hnew hδp0
    nlinarith [h3.1, h4.2]
  have hsum : 0 < ∑ k, c k := Finset.sum_pos (fun k _ => hc k) ⟨⟨0, he⟩, Finset.mem_univ _⟩
  have h7 : (∑ k, c k) * (l * Y - δ * p * (3 * X + 2 * Y)) ≤ 0 := by
    have : ∑ k, c k * (residualVar (S k) j (fun i => B i j) + (l * Y - δ * p * (3 * X + 2 * Y))) ≤ ∑ k, c k * residualVar (S k) j b :=
      Finset.sum_le_sum fun k _ => mul_le_mul_of_nonneg_left (hterm k) (hc k).le
    simp only [mul_add (c _), Finset.sum_add_distrib, ← Finset.sum_mul] at this
    linarith
  have h8 : l * Y - δ * p * (3 * X + 2 * Y) ≤ 0 := by
    by_contra hcon
    push Not at hcon
    exact absurd (mul_pos hsum hcon) (not_lt.2 h7)
  nlinarith [mul_le_mul_of_nonneg_right hδp hY0]

/-- What one iteration of the optimisation does to the weights. -/
theorem step_optimal {it : SetIter p} {A : Adj p} (hac : Acyclic A) {num : NumLib p e} (hs : GoodSqrt num.sqrtm) {cfg : ScoreCfg} (hcvx : cfg.solver = .cvx)
    {d : Data p e} (hd : GoodData d) {u v : Nat → Fin (p * p) → ℝ} {I : Finset (Fin p)} (hopt : ∀ Ms, CvxOptimal num A Ms d 0) {i : Nat}
    {prev cur : LModel p 0 e} (hA : prev.A = A) (hpos : ∀ k j, 0 < prev.omegas k j)
    (h : altBody it (codeSolvers it num cfg d u v I) i prev = .ok cur) :
    cur.A = A ∧ Respects A cur.B ∧ (∀ k j, 0 < cur.omegas k j) ∧ ∀ j (b : Fin p → ℝ), (∀ i, A i j = 0 → b i = 0) →
      ∑ k, ((d.nObs k : ℝ) / ∑ k, (d.nObs k : ℝ)) * (prev.omegas k j)⁻¹ * residualVar (d.covs k) j (fun i => cur.B i j) ≤
        ∑ k, ((d.nObs k : ℝ) / ∑ k, (d.nObs k : ℝ)) * (prev.omegas k j)⁻¹ * residualVar (d.covs k) j b := by
  obtain ⟨-, hgr, -, hB, -, hr⟩ := altBody_ok h
  simp only [codeSolvers, hcvx] at hB hr
  have hS : ∀ k a b, d.covs k a b = d.covs k b a := fun k a b => (congrFun (congrFun (hd.posDef k).1 a) b).symm
  have hN : ∀ k, noiseCov prev.gamma (prev.psis k) (prev.omegas k) = Matrix.diagonal (prev.omegas k) := fun k => noiseCov_zero _ _ _
  have hinv : ∀ k, (Matrix.diagonal (prev.omegas k))⁻¹ = Matrix.diagonal (fun j => (prev.omegas k j)⁻¹) := by
    intro k
    refine Matrix.inv_eq_right_inv ?_
    rw [Matrix.diagonal_mul_diagonal, ← Matrix.diagonal_one]
    congr 1
    funext j
    exact mul_inv_cancel₀ (hpos k j).ne'
  obtain ⟨B, h1, h2, h3⟩ := hopt (fun k => (noiseCov prev.gamma (prev.psis k) (prev.omegas k))⁻¹)
  have hcur : cur.B = B := by
    unfold solveForBCvx at hB
    rw [invNoise_ok_of_pos { prev with IB := 1 - prev.Bᵀ } hpos (fun _ i => i.elim0)] at hB
    simp only [noise_eq] at hB
    rw [hA, h1] at hB
    simp only at hB
    split_ifs at hB
    simp only [Except.ok.injEq] at hB
    rw [← hB]
    ext i j
    rw [Matrix.of_apply]
    split_ifs with hij
    · exact (h2 i j hij).symm
    · rfl
  have hpd : ∀ k, ((noiseCov prev.gamma (prev.psis k) (prev.omegas k))⁻¹).PosSemidef := fun k => by
    rw [hN]
    exact (Matrix.PosDef.diagonal (hpos k)).inv.posSemidef
  refine ⟨hgr.trans hA, hcur ▸ h2, (solveForRest_inBounds hr).1, ?_⟩
  rw [hcur]
  refine fun j b hb => column_optimal (f := fun j b => ∑ k, ((d.nObs k : ℝ) / ∑ k, (d.nObs k : ℝ)) * (prev.omegas k j)⁻¹ * residualVar (d.covs k) j b) h2
    (fun B' hB' => ?_) j b hb
  have h4 := h3 B' hB'
  rw [cvxObjective_eq hs (fun k => (hd.posDef k).posSemidef) hpd, cvxObjective_eq hs (fun k => (hd.posDef k).posSemidef) hpd, add_zero] at h4
  simp only [hN, hinv] at h4
  rwa [traceLoss_diag _ prev.omegas hS, traceLoss_diag _ prev.omegas hS] at h4

/-! ## The fit -/

/-- Coefficients that minimise a positively weighted sum of residual variances are close to the weights, if the data are close to the
covariances of the model.  The bound does not depend on the weights of the sum. -/
theorem columns_close {A : Adj p} (hac : Acyclic A) {B : Matrix (Fin p) (Fin p) ℝ} (hB : Respects A B) {w : Fin e → Fin p → ℝ}
    (hw : ∀ k i, 0 < w k i) {C : Fin e → Matrix (Fin p) (Fin p) ℝ} (hC : ∀ k, Entails B (Matrix.diagonal (w k)) (C k)) {ε : ℝ} (hε : 0 < ε) :
    ∃ δ > 0, ∀ S : Fin e → Matrix (Fin p) (Fin p) ℝ, (∀ k a b, S k a b = S k b a) → Within δ C S → 0 < e → ∀ (j : Fin p) (c : Fin e → ℝ), (∀ k, 0 < c k) →
      ∀ b : Fin p → ℝ, (∀ i, A i j = 0 → b i = 0) →
      ∑ k, c k * residualVar (S k) j b ≤ ∑ k, c k * residualVar (S k) j (fun i => B i j) → ∀ i, |b i - B i j| < ε := by
  have hdet := det_one_sub_transpose hac hB
  have hCp : ∀ k, (C k).PosDef := fun k => entails_pd hdet (Matrix.PosDef.diagonal (hw k)) (hC k)
  have hCs : ∀ k a b, C k a b = C k b a := fun k a b => (congrFun (congrFun (hCp k).1 a) b).symm
  obtain ⟨l, hl, hlow⟩ := exists_uniform (ι := Fin e) (P := fun k l => ∀ x : Fin p → ℝ, l * ∑ i, x i ^ 2 ≤ quad (C k) x) (fun k => quad_lower (hCp k))
    (fun k l l' _ hle h x => (mul_le_mul_of_nonneg_right hle (Finset.sum_nonneg fun i _ => sq_nonneg _)).trans (h x))
  set X := ∑ j, ∑ i, (resVec j (fun i => B i j)) i ^ 2 with hX
  have hX0 : 0 ≤ X := Finset.sum_nonneg fun j _ => Finset.sum_nonneg fun i _ => sq_nonneg _
  have hden : 0 < 12 * (p + 1) * (X + 1) := by positivity
  refine ⟨min (l / (4 * (p + 1))) (l * ε ^ 2 / (12 * (p + 1) * (X + 1))), by positivity, ?_⟩
  intro S hS hwithin he j c hc b hb hle i
  set δ := min (l / (4 * (p + 1))) (l * ε ^ 2 / (12 * (p + 1) * (X + 1))) with hδ
  have hδ0 : 0 < δ := by positivity
  have h1 : δ * p ≤ l / 4 := by
    have : δ ≤ l / (4 * (p + 1)) := min_le_left _ _
    rw [le_div_iff₀ (by positivity)] at this
    nlinarith
  have h2 : δ * (12 * (p + 1) * (X + 1)) ≤ l * ε ^ 2 := by
    have : δ ≤ l * ε ^ 2 / (12 * (p + 1) * (X + 1)) := min_le_right _ _
    rwa [le_div_iff₀ hden] at this
  have h3 := pooled_close hac hB hC hCs hlow h1 hS (fun k i j => (hwithin k i j).le) hc he j hb hle
  have h4 : (b i - B i j) ^ 2 ≤ ∑ i, (b i - B i j) ^ 2 := Finset.single_le_sum (f := fun i => (b i - B i j) ^ 2) (fun i _ => sq_nonneg _) (Finset.mem_univ i)
  have h5 : ∑ i, (resVec j (fun i => B i j)) i ^ 2 ≤ X := Finset.single_le_sum (f := fun j => ∑ i, (resVec j (fun i => B i j)) i ^ 2)
    (fun j _ => Finset.sum_nonneg fun i _ => sq_nonneg _) (Finset.mem_univ j)
  have h6 : l * (b i - B i j) ^ 2 < l * ε ^ 2 := by
    have e1 := mul_le_mul_of_nonneg_left h4 hl.le
    have e2 : 6 * (δ * p) * ∑ i, (resVec j (fun i => B i j)) i ^ 2 ≤ 6 * (δ * p) * X := mul_le_mul_of_nonneg_left h5 (by positivity)
    have e3 : 6 * (δ * p) * X < δ * (12 * (p + 1) * (X + 1)) := by
      have : 6 * (δ * p) * X = δ * (6 * p * X) := by ring
      rw [this]
      refine mul_lt_mul_of_pos_left ?_ hδ0
      have hp0 : (0 : ℝ) ≤ p := Nat.cast_nonneg _
      nlinarith [mul_nonneg hp0 hX0]
    linarith
  exact abs_lt_of_sq_lt_sq (lt_of_mul_lt_mul_left h6 hl.le) hε.le

/-- C122: without latents and with the convex solver the weights that `score_dag` returns for a graph that can entail the covariances `C` are close to
those that do, on all data with sample covariances close to `C`, for any number of environments and any sample sizes, and whatever the set of targets and
the initial model are. -/
theorem C122_weights {A : Adj p} (hA : Nonneg A) (hac : Acyclic A) {B : Matrix (Fin p) (Fin p) ℝ} (hB : Respects A B) {w : Fin e → Fin p → ℝ}
    (hw : ∀ k i, 0 < w k i) {C : Fin e → Matrix (Fin p) (Fin p) ℝ} (hC : ∀ k, Entails B (Matrix.diagonal (w k)) (C k)) {ε : ℝ} (hε : 0 < ε) :
    ∃ δ > 0, ∀ (it : SetIter p) (svd : Matrix (Fin p) (Fin p) ℝ → Matrix (Fin p) (Fin p) ℝ × (Fin p → ℝ)) (num : NumLib p e) (cfg : ScoreCfg) (d : Data p e)
      (u v : Nat → Fin (p * p) → ℝ) (I : Finset (Fin p)) (init : Option (LModel p 0 e)) (m : LModel p 0 e) (s : Flt), GoodSqrt num.sqrtm → cfg.solver = .cvx →
      GoodData d → (∀ Ms, CvxOptimal num A Ms d 0) → Within δ C d.covs → (∀ m0, init = some m0 → ∀ k j, 0 < m0.omegas k j) →
      fitCode it svd num cfg d u v A I init = .ok (m, s) → ∀ i j, |m.B i j - B i j| < ε := by
  obtain ⟨δ, hδ, hcl⟩ := columns_close hac hB hw hC hε
  refine ⟨δ, hδ, ?_⟩
  intro it svd num cfg d u v I init m s hs hcvx hd hopt hwithin hinit h i j
  obtain ⟨-, m0, halt, hm0, hi⟩ := fitDag_ok h
  have hpos0 : ∀ k j, 0 < m0.omegas k j := by
    rcases hi with hi | ⟨-, hi⟩
    · exact hinit m0 hi
    · obtain ⟨m1, hm1, hg⟩ := initialModel_returns (it := it) (l := 0) hA hac svd d hd I (Nat.zero_le p) (psiMax := none) (by simp)
      rw [hi] at hm1
      cases hm1
      exact hg.omegas
  obtain ⟨n, prev, ⟨q1, q2⟩, hb, -⟩ := alternate_induct halt (fun m => m.A = A ∧ ∀ k j, 0 < m.omegas k j) ⟨hm0, hpos0⟩ (fun n m m' hm hb => by
    obtain ⟨a1, -, a2, -⟩ := step_optimal hac hs hcvx hd hopt hm.1 hm.2 hb
    exact ⟨a1, a2⟩)
  obtain ⟨-, r1, -, r2⟩ := step_optimal hac hs hcvx hd hopt q1 q2 hb
  have hS : ∀ k a b, d.covs k a b = d.covs k b a := fun k a b => (congrFun (congrFun (hd.posDef k).1 a) b).symm
  have hN : (0 : ℝ) < ∑ k, (d.nObs k : ℝ) := Finset.sum_pos (fun k _ => by exact_mod_cast hd.pos k) ⟨⟨0, hd.some⟩, Finset.mem_univ _⟩
  exact hcl d.covs hS hwithin hd.some j (fun k => ((d.nObs k : ℝ) / ∑ k, (d.nObs k : ℝ)) * (prev.omegas k j)⁻¹)
    (fun k => mul_pos (div_pos (by exact_mod_cast hd.pos k) hN) (inv_pos.2 (q2 k j))) (fun i => m.B i j) (fun i hij => r1 i j hij)
    (r2 j _ fun i hij => hB i j hij) i

end Verif
