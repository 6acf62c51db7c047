import Verif.Props.Weights

/-!
# The score of a graph with a superfluous edge
-/

namespace Verif

open Spec Matrix

variable {p : Nat}

/-- `v` are the coefficients of the residual of the regression of variable `c` on the variables in `P`, for the covariances `S`. -/
structure Spec.IsResidual (S : Matrix (Fin p) (Fin p) ℝ) (P : Fin p → Prop) (c : Fin p) (v : Fin p → ℝ) : Prop where
  supp : ∀ k, k ≠ c → ¬ P k → v k = 0
  self : v c = 1
  orth : ∀ k, P k → (S *ᵥ v) k = 0

/-- The covariance of two linear combinations. -/
def bil (S : Matrix (Fin p) (Fin p) ℝ) (x y : Fin p → ℝ) : ℝ := x ⬝ᵥ (S *ᵥ y)

theorem bil_comm {S : Matrix (Fin p) (Fin p) ℝ} (hS : ∀ a b, S a b = S b a) (x y : Fin p → ℝ) : bil S x y = bil S y x := by
  unfold bil dotProduct Matrix.mulVec dotProduct
  simp only [Finset.mul_sum]
  rw [Finset.sum_comm]
  exact Finset.sum_congr rfl fun a _ => Finset.sum_congr rfl fun b _ => by rw [hS b a]; ring

theorem bil_sub_right (S : Matrix (Fin p) (Fin p) ℝ) (x y z : Fin p → ℝ) : bil S x (y - z) = bil S x y - bil S x z := by
  unfold bil
  rw [Matrix.mulVec_sub, dotProduct_sub]

theorem bil_sub_left (S : Matrix (Fin p) (Fin p) ℝ) (x y z : Fin p → ℝ) : bil S (x - y) z = bil S x z - bil S y z := by
  unfold bil
  rw [sub_dotProduct]

theorem bil_smul_right (S : Matrix (Fin p) (Fin p) ℝ) (c : ℝ) (x y : Fin p → ℝ) : bil S x (c • y) = c * bil S x y := by
  unfold bil
  rw [Matrix.mulVec_smul, dotProduct_smul, smul_eq_mul]

theorem bil_smul_left (S : Matrix (Fin p) (Fin p) ℝ) (c : ℝ) (x y : Fin p → ℝ) : bil S (c • x) y = c * bil S x y := by
  unfold bil
  rw [smul_dotProduct, smul_eq_mul]

theorem quad_eq_bil (S : Matrix (Fin p) (Fin p) ℝ) (x : Fin p → ℝ) : quad S x = bil S x x := by
  unfold quad bil dotProduct Matrix.mulVec dotProduct
  refine Finset.sum_congr rfl fun a _ => ?_
  rw [Finset.mul_sum]
  exact Finset.sum_congr rfl fun b _ => by ring

/-- The product of a residual with a vector that vanishes on the regressors. -/
theorem dot_residual {S : Matrix (Fin p) (Fin p) ℝ} {P : Fin p → Prop} {c : Fin p} {v : Fin p → ℝ} (h : IsResidual S P c v) {u : Fin p → ℝ}
    (hu : ∀ k, P k → u k = 0) : v ⬝ᵥ u = u c := by
  unfold dotProduct
  rw [Finset.sum_eq_single c, h.self, one_mul]
  · intro k _ hk
    by_cases hP : P k
    · rw [hu k hP, mul_zero]
    · rw [h.supp k hk hP, zero_mul]
  · intro hc
    exact absurd (Finset.mem_univ _) hc

theorem residual_unique {S : Matrix (Fin p) (Fin p) ℝ} (hS : S.PosDef) {P : Fin p → Prop} {c : Fin p} {v v' : Fin p → ℝ} (h : IsResidual S P c v)
    (h' : IsResidual S P c v') : v = v' := by
  by_contra hne
  have h0 := hS.dotProduct_mulVec_pos (sub_ne_zero.2 hne)
  rw [star_trivial] at h0
  refine h0.ne' ?_
  unfold dotProduct
  refine Finset.sum_eq_zero fun k _ => ?_
  rcases eq_or_ne k c with rfl | hk
  · rw [Pi.sub_apply, h.self, h'.self, sub_self, zero_mul]
  · by_cases hP : P k
    · rw [Matrix.mulVec_sub, Pi.sub_apply (S *ᵥ v), h.orth k hP, h'.orth k hP, sub_self, mul_zero]
    · rw [Pi.sub_apply, h.supp k hk hP, h'.supp k hk hP, sub_self, zero_mul]

theorem residual_exists {S : Matrix (Fin p) (Fin p) ℝ} (hS : S.PosDef) (P : Fin p → Prop) {c : Fin p} (hc : ¬ P c) : ∃ v, IsResidual S P c v := by
  classical
  set A : Adj p := fun a b => if b = c ∧ P a then 1 else 0 with hA
  have hAc : ∀ a, A a c ≠ 0 ↔ P a := fun a => by simp [hA]
  have hsym : ∀ a b, S a b = S b a := fun a b => (congrFun (congrFun hS.1 a) b).symm
  have hu : IsUnit (parentMatrix A c S).det := isUnit_iff_ne_zero.2 (parentMatrix_det A c hS)
  have h1 : parentMatrix A c S *ᵥ (fun i => regWeights A S i c) = parentVector A c S := by
    unfold regWeights
    simp only [Matrix.of_apply]
    change parentMatrix A c S *ᵥ ((parentMatrix A c S)⁻¹ *ᵥ parentVector A c S) = _
    rw [Matrix.mulVec_mulVec, Matrix.mul_nonsing_inv _ hu, Matrix.one_mulVec]
  have hresp := regWeights_respects A hS
  have hz : ∀ k, ¬ P k → regWeights A S k c = 0 := fun k hk => hresp k c (by simpa [hA] using hk)
  refine ⟨resVec c fun i => regWeights A S i c, ?_, ?_, ?_⟩
  · intro k hk hP
    unfold resVec
    beta_reduce
    rw [if_neg hk, hz k hP, sub_zero]
  · unfold resVec
    beta_reduce
    rw [if_pos rfl, hz c hc, sub_zero]
  · intro k hP
    have h2 := congrFun h1 k
    rw [parentMatrix_row, if_pos ((hAc k).2 hP)] at h2
    unfold parentVector at h2
    rw [if_pos ((hAc k).2 hP)] at h2
    have h3 : ∑ l, S k l * regWeights A S l c = S c k := by
      rw [← h2]
      refine Finset.sum_congr rfl fun l _ => ?_
      by_cases hl : A l c ≠ 0
      · rw [if_pos hl]
      · rw [if_neg hl, hresp l c (not_not.1 hl), mul_zero]
    unfold Matrix.mulVec dotProduct resVec
    simp only [mul_sub, Finset.sum_sub_distrib, h3, mul_ite, mul_one, mul_zero, Finset.sum_ite_eq', Finset.mem_univ, if_true]
    rw [hsym k c, sub_self]

/-- Adding a regressor. -/
theorem residual_add {S : Matrix (Fin p) (Fin p) ℝ} (hS : S.PosDef) {P : Fin p → Prop} {i j : Fin p} (hij : i ≠ j) (hj : ¬ P j) {r s : Fin p → ℝ}
    (hr : IsResidual S P j r) (hs : IsResidual S P i s) : IsResidual S (fun k => P k ∨ k = i) j (r - (bil S r s / bil S s s) • s) := by
  have hsym : ∀ a b, S a b = S b a := fun a b => (congrFun (congrFun hS.1 a) b).symm
  have h1 : bil S s s = (S *ᵥ s) i := dot_residual hs hs.orth
  have h2 : bil S r s = (S *ᵥ r) i := by
    rw [bil_comm hsym]
    exact dot_residual hs hr.orth
  have hpos : 0 < bil S s s := by
    have hne : s ≠ 0 := fun hc => by
      have := hs.self
      rw [hc] at this
      simp at this
    simpa [bil] using hS.dotProduct_mulVec_pos hne
  refine ⟨?_, ?_, ?_⟩
  · intro k hk hP
    push Not at hP
    rw [Pi.sub_apply, Pi.smul_apply, hr.supp k hk hP.1, hs.supp k hP.2 hP.1, smul_zero, sub_zero]
  · rw [Pi.sub_apply, Pi.smul_apply, hr.self, hs.supp j hij.symm hj, smul_zero, sub_zero]
  · intro k hk
    rw [Matrix.mulVec_sub, Matrix.mulVec_smul, Pi.sub_apply, Pi.smul_apply]
    rcases hk with hP | rfl
    · rw [hr.orth k hP, hs.orth k hP, smul_zero, sub_zero]
    · rw [smul_eq_mul, ← h1, ← h2, div_mul_cancel₀ _ hpos.ne', sub_self]

/-- The regressions of a fitted model. -/
theorem regressions_residual {A : Adj p} (hac : Acyclic A) {S : Matrix (Fin p) (Fin p) ℝ} (hsym : ∀ a b, S a b = S b a) {m : LModel p 0 1} (h : Regressions A S m) (c : Fin p) :
    IsResidual S (fun k => A k c ≠ 0) c (resVec c fun k => m.B k c) := by
  obtain ⟨f, hf⟩ := hac.exists_rank
  have hcc : A c c = 0 := by
    by_contra hne
    exact lt_irrefl _ (hf c c hne)
  refine ⟨fun k hk hP => ?_, ?_, fun k hP => ?_⟩
  · unfold resVec
    beta_reduce
    rw [if_neg hk, h.respects k c (not_not.1 hP), sub_zero]
  · unfold resVec
    beta_reduce
    rw [if_pos rfl, h.respects c c hcc, sub_zero]
  · unfold Matrix.mulVec dotProduct resVec
    simp only [mul_sub, Finset.sum_sub_distrib, h.normal k c hP, mul_ite, mul_one, mul_zero, Finset.sum_ite_eq', Finset.mem_univ, if_true]
    rw [hsym k c, sub_self]

/-! ## Errors -/

theorem mulVec_error {S C : Matrix (Fin p) (Fin p) ℝ} {η : ℝ} (h : ∀ a b, |S a b - C a b| ≤ η) (x : Fin p → ℝ) (k : Fin p) (hk : (C *ᵥ x) k = 0) :
    |(S *ᵥ x) k| ≤ η * ∑ l, |x l| := by
  have h1 : (S *ᵥ x) k = ∑ l, (S k l - C k l) * x l := by
    rw [← sub_zero ((S *ᵥ x) k), ← hk]
    unfold Matrix.mulVec dotProduct
    rw [← Finset.sum_sub_distrib]
    exact Finset.sum_congr rfl fun l _ => by ring
  rw [h1, Finset.mul_sum]
  refine (Finset.abs_sum_le_sum_abs _ _).trans (Finset.sum_le_sum fun l _ => ?_)
  rw [abs_mul]
  exact mul_le_mul_of_nonneg_right (h k l) (abs_nonneg _)

theorem dot_error {x u : Fin p → ℝ} {P : Fin p → Prop} (hx : ∀ k, ¬ P k → x k = 0) {M : ℝ} (hu : ∀ k, P k → |u k| ≤ M) : |x ⬝ᵥ u| ≤ (∑ k, |x k|) * M := by
  unfold dotProduct
  rw [Finset.sum_mul]
  refine (Finset.abs_sum_le_sum_abs _ _).trans (Finset.sum_le_sum fun k _ => ?_)
  rw [abs_mul]
  by_cases hP : P k
  · exact mul_le_mul_of_nonneg_left (hu k hP) (abs_nonneg _)
  · rw [hx k hP, abs_zero, zero_mul, zero_mul]

theorem residual_diff_supp {S C : Matrix (Fin p) (Fin p) ℝ} {P : Fin p → Prop} {c : Fin p} {v v0 : Fin p → ℝ} (hv : IsResidual S P c v)
    (hv0 : IsResidual C P c v0) (k : Fin p) (hk : ¬ P k) : (v - v0) k = 0 := by
  rw [Pi.sub_apply]
  rcases eq_or_ne k c with rfl | hkc
  · rw [hv.self, hv0.self, sub_self]
  · rw [hv.supp k hkc hk, hv0.supp k hkc hk, sub_self]

/-- The error of the coefficients of a regression is at most proportional to the errors of the covariances. -/
theorem residual_close {S C : Matrix (Fin p) (Fin p) ℝ} {η l : ℝ} (hl : 0 < l) (hS : ∀ x, l * ∑ i, x i ^ 2 ≤ quad S x) (h : ∀ a b, |S a b - C a b| ≤ η)
    {P : Fin p → Prop} {c : Fin p} {v v0 : Fin p → ℝ} (hv : IsResidual S P c v) (hv0 : IsResidual C P c v0) :
    ∑ k, |(v - v0) k| ≤ p / l * (∑ k, |v0 k|) * η := by
  set D := ∑ k, |(v - v0) k| with hD
  set M := ∑ k, |v0 k| with hM
  have hD0 : 0 ≤ D := Finset.sum_nonneg fun _ _ => abs_nonneg _
  have hsupp := residual_diff_supp hv hv0
  have h1 : ∀ k, P k → |(S *ᵥ (v - v0)) k| ≤ η * M := by
    intro k hP
    rw [Matrix.mulVec_sub, Pi.sub_apply, hv.orth k hP, zero_sub, abs_neg]
    exact mulVec_error h v0 k (hv0.orth k hP)
  have h2 : quad S (v - v0) ≤ D * (η * M) := by
    rw [quad_eq_bil]
    exact (le_abs_self _).trans (dot_error hsupp h1)
  have h3 := hS (v - v0)
  have h4 := sq_sum_le_card_mul_sum_sq (s := (Finset.univ : Finset (Fin p))) (f := fun i => |(v - v0) i|)
  simp only [sq_abs, Finset.card_univ, Fintype.card_fin] at h4
  rw [← hD] at h4
  have hp0 : (0 : ℝ) ≤ p := Nat.cast_nonneg p
  have h5 : l * D ^ 2 ≤ p * (D * (η * M)) := by
    calc l * D ^ 2 ≤ l * (p * ∑ i, (v - v0) i ^ 2) := mul_le_mul_of_nonneg_left h4 hl.le
      _ = p * (l * ∑ i, (v - v0) i ^ 2) := by ring
      _ ≤ p * (D * (η * M)) := mul_le_mul_of_nonneg_left (h3.trans h2) hp0
  rcases hD0.eq_or_lt with h0 | hpos
  · rw [← h0]
    rcases eq_or_ne p 0 with rfl | hp
    · simp
    · have hη : 0 ≤ η := (abs_nonneg _).trans (h ⟨0, by omega⟩ ⟨0, by omega⟩)
      have hM0 : 0 ≤ M := Finset.sum_nonneg fun _ _ => abs_nonneg _
      positivity
  · have h6 : D * (l * D) ≤ D * (p * M * η) := by nlinarith
    have h7 := le_of_mul_le_mul_left h6 hpos
    rw [div_mul_eq_mul_div, div_mul_eq_mul_div, le_div_iff₀ hl]
    linarith

/-! ## The score -/

/-- The score of a regression with another regressor, if the covariance of the residuals in the test data is more than twice that in the training data. -/
theorem term_better {Srr Sss x Trr Tss y : ℝ} (hr : 0 < Srr) (hs : 0 < Sss) (hw : 0 < Srr - x / Sss * x) (hx : 0 < x) (hy : 2 * x ≤ y)
    (hTr : Trr ≤ 2 * Srr) (hTs : Tss ≤ 2 * Sss) :
    Real.log (Srr - x / Sss * x) + (Trr - 2 * (x / Sss) * y + (x / Sss) ^ 2 * Tss) / (Srr - x / Sss * x) < Real.log Srr + Trr / Srr := by
  set w := Srr - x / Sss * x with hwd
  have hq : 0 < x / Sss * x := by positivity
  have h1 : Real.log w - Real.log Srr ≤ w / Srr - 1 := by
    rw [← Real.log_div hw.ne' hr.ne']
    exact Real.log_le_sub_one_of_pos (div_pos hw hr)
  have h2 : (Trr - 2 * (x / Sss) * y + (x / Sss) ^ 2 * Tss) ≤ Trr - 2 * (x / Sss * x) := by
    have e1 : 2 * (x / Sss) * y ≥ 4 * (x / Sss * x) := by
      have := mul_le_mul_of_nonneg_left hy (show 0 ≤ x / Sss by positivity)
      nlinarith
    have e2 : (x / Sss) ^ 2 * Tss ≤ 2 * (x / Sss * x) := by
      have := mul_le_mul_of_nonneg_left hTs (show 0 ≤ (x / Sss) ^ 2 by positivity)
      have e3 : (x / Sss) ^ 2 * (2 * Sss) = 2 * (x / Sss * x) := by
        field_simp
      linarith
    linarith
  have h3 : (Trr - 2 * (x / Sss * x)) / w ≤ Trr / Srr := by
    rw [div_le_div_iff₀ hw hr, hwd]
    nlinarith
  have h4 := div_le_div_of_nonneg_right h2 hw.le
  have h5 : w / Srr - 1 < 0 := by
    rw [sub_neg, div_lt_one hr]
    linarith
  linarith

/-- The score of a model of regressions on test data with covariances `T`. -/
noncomputable def regScore (T : Matrix (Fin p) (Fin p) ℝ) (m : LModel p 0 1) : ℝ :=
  ∑ c, (Real.log (m.omegas 0 c) + residualVar T c (fun k => m.B k c) / m.omegas 0 c)

/-- `G` has the edges of `H` and the edge from `i` to `j`. -/
structure Spec.OneMore (H G : Adj p) (i j : Fin p) : Prop where
  absent : H i j = 0
  present : G i j ≠ 0
  same : ∀ a b, ¬ (a = i ∧ b = j) → (G a b ≠ 0 ↔ H a b ≠ 0)

theorem Spec.OneMore.sub {H G : Adj p} {i j : Fin p} (h : OneMore H G i j) (a b : Fin p) (hab : H a b ≠ 0) : G a b ≠ 0 :=
  (h.same a b (by rintro ⟨rfl, rfl⟩; exact hab h.absent)).2 hab

theorem Spec.OneMore.acyclic {H G : Adj p} {i j : Fin p} (h : OneMore H G i j) (hG : Acyclic G) : Acyclic H := by
  obtain ⟨f, hf⟩ := hG.exists_rank
  exact acyclic_of_rank f fun a b hab => hf a b (h.sub a b hab)

/-- The graph with the superfluous edge has the better score if the covariance of the residuals has errors in the same direction in the training and
the test data and the latter are more than twice as large. -/
theorem superfluous_better {C : Matrix (Fin p) (Fin p) ℝ} (hC : C.PosDef) {H G : Adj p} (hac : Acyclic G) {i j : Fin p} (hone : OneMore H G i j)
    {r s : Fin p → ℝ} (hr : IsResidual C (fun k => H k j ≠ 0) j r) (hs : IsResidual C (fun k => H k j ≠ 0) i s) :
    ∃ K ≥ 0, ∃ η₀ > 0, ∀ η ≤ η₀, ∀ S T : Matrix (Fin p) (Fin p) ℝ, S.PosDef → T.PosDef → (∀ a b, |S a b - C a b| ≤ η) →
      (∀ a b, |T a b - C a b| ≤ η) → K * η ^ 2 < bil S r s → 2 * bil S r s + 3 * (K * η ^ 2) ≤ bil T r s →
      ∀ mH mG, Regressions H S mH → Regressions G S mG → regScore T mG < regScore T mH := by
  obtain ⟨l, hl, hlow⟩ := quad_lower hC
  obtain ⟨f, hf⟩ := hac.exists_rank
  have hij : i ≠ j := by
    rintro rfl
    exact lt_irrefl _ (hf i i hone.present)
  have hacH := hone.acyclic hac
  have hjj : H j j = 0 := by
    by_contra hne
    exact lt_irrefl _ (hf j j (hone.sub j j hne))
  set Mr := ∑ k, |r k| with hMr
  set Ms := ∑ k, |s k| with hMs
  have hMr0 : 0 ≤ Mr := Finset.sum_nonneg fun _ _ => abs_nonneg _
  have hMs0 : 0 ≤ Ms := Finset.sum_nonneg fun _ _ => abs_nonneg _
  set l' := 2 / 3 * l with hl'
  have hl'0 : 0 < l' := by positivity
  set Λr := p / l' * Mr with hΛr
  set Λs := p / l' * Ms with hΛs
  have hΛr0 : 0 ≤ Λr := by positivity
  have hΛs0 : 0 ≤ Λs := by positivity
  set Cm := ∑ a, ∑ b, |C a b| with hCm
  have hCm0 : 0 ≤ Cm := Finset.sum_nonneg fun _ _ => Finset.sum_nonneg fun _ _ => abs_nonneg _
  have hCle : ∀ a b, |C a b| ≤ Cm := fun a b =>
    (Finset.single_le_sum (f := fun b => |C a b|) (fun _ _ => abs_nonneg _) (Finset.mem_univ b)).trans
      (Finset.single_le_sum (f := fun a => ∑ b, |C a b|) (fun _ _ => Finset.sum_nonneg fun _ _ => abs_nonneg _) (Finset.mem_univ a))
  refine ⟨Λs * Mr + Λr * Ms + Λr * Λs * (Cm + 1), by positivity, min 1 (l / (3 * (p + 1))), by positivity, ?_⟩
  intro η hη S T hS hT hSC hTC hx hy mH mG hH hG
  set K := Λs * Mr + Λr * Ms + Λr * Λs * (Cm + 1) with hK
  have hη0 : 0 ≤ η := (abs_nonneg _).trans (hSC i i)
  have hη1 : η ≤ 1 := hη.trans (min_le_left _ _)
  have hηp : η * p ≤ l / 3 := by
    have h1 := hη.trans (min_le_right _ _)
    rw [le_div_iff₀ (by positivity)] at h1
    nlinarith
  have hsymS : ∀ a b, S a b = S b a := fun a b => (congrFun (congrFun hS.1 a) b).symm
  have hsymT : ∀ a b, T a b = T b a := fun a b => (congrFun (congrFun hT.1 a) b).symm
  have hquad : ∀ M : Matrix (Fin p) (Fin p) ℝ, (∀ a b, |M a b - C a b| ≤ η) → ∀ x, |quad M x - quad C x| ≤ 1 / 3 * quad C x := by
    intro M hM x
    refine (quad_diff hM x).trans ?_
    have h1 := hlow x
    have h2 : 0 ≤ ∑ i, x i ^ 2 := Finset.sum_nonneg fun _ _ => sq_nonneg _
    nlinarith
  have hC0 : ∀ x, 0 ≤ quad C x := fun x => (mul_nonneg hl.le (Finset.sum_nonneg fun _ _ => sq_nonneg _)).trans (hlow x)
  have hSlow : ∀ x, l' * ∑ i, x i ^ 2 ≤ quad S x := by
    intro x
    have h1 := (abs_le.1 (hquad S hSC x)).1
    have h2 := hlow x
    rw [hl']
    nlinarith
  have hTS : ∀ x, bil T x x ≤ 2 * bil S x x := by
    intro x
    rw [← quad_eq_bil, ← quad_eq_bil]
    have h1 := (abs_le.1 (hquad S hSC x)).1
    have h2 := (abs_le.1 (hquad T hTC x)).2
    have h3 := hC0 x
    linarith
  -- the regressions of both models
  set r1 := resVec j fun k => mH.B k j with hr1
  have hr1S : IsResidual S (fun k => H k j ≠ 0) j r1 := regressions_residual hacH hsymS hH j
  obtain ⟨s1, hs1S⟩ := residual_exists hS (fun k => H k j ≠ 0) (c := i) (by simp [hone.absent])
  have hg : resVec j (fun k => mG.B k j) = r1 - (bil S r1 s1 / bil S s1 s1) • s1 := by
    refine residual_unique hS (P := fun k => H k j ≠ 0 ∨ k = i) (c := j) ?_ (residual_add hS hij (by simp [hjj]) hr1S hs1S)
    have h1 := regressions_residual hac hsymS hG j
    have h2 : (fun k => G k j ≠ 0) = fun k => H k j ≠ 0 ∨ k = i := by
      funext k
      rcases eq_or_ne k i with rfl | hk
      · simp [hone.present]
      · simp only [eq_iff_iff, hk, or_false]
        exact hone.same k j (by simp [hk])
    rwa [h2] at h1
  have hother : ∀ c, c ≠ j → resVec c (fun k => mG.B k c) = resVec c (fun k => mH.B k c) := by
    intro c hc
    refine residual_unique hS (P := fun k => H k c ≠ 0) (c := c) ?_ (regressions_residual hacH hsymS hH c)
    have h1 := regressions_residual hac hsymS hG c
    have h2 : (fun k => G k c ≠ 0) = fun k => H k c ≠ 0 := by
      funext k
      simp only [eq_iff_iff]
      exact hone.same k c (by simp [hc])
    rwa [h2] at h1
  -- the errors
  have er := residual_close hl'0 hSlow hSC hr1S hr
  have es := residual_close hl'0 hSlow hSC hs1S hs
  rw [← hMr, ← hΛr] at er
  rw [← hMs, ← hΛs] at es
  have hrsupp := residual_diff_supp hr1S hr
  have hssupp := residual_diff_supp hs1S hs
  have cross1 : ∀ M : Matrix (Fin p) (Fin p) ℝ, (∀ a b, |M a b - C a b| ≤ η) → (∀ a b, M a b = M b a) → |bil M r (s1 - s)| ≤ Λs * Mr * η ^ 2 := by
    intro M hM hsym
    rw [bil_comm hsym]
    have h1 := dot_error hssupp (u := M *ᵥ r) (M := η * Mr) fun k hP => mulVec_error hM r k (hr.orth k hP)
    refine h1.trans ?_
    calc (∑ k, |(s1 - s) k|) * (η * Mr) ≤ Λs * η * (η * Mr) := mul_le_mul_of_nonneg_right es (by positivity)
      _ = _ := by ring
  have cross2 : |bil T (r1 - r) s| ≤ Λr * Ms * η ^ 2 := by
    have h1 := dot_error hrsupp (u := T *ᵥ s) (M := η * Ms) fun k hP => mulVec_error hTC s k (hs.orth k hP)
    refine h1.trans ?_
    calc (∑ k, |(r1 - r) k|) * (η * Ms) ≤ Λr * η * (η * Ms) := mul_le_mul_of_nonneg_right er (by positivity)
      _ = _ := by ring
  have cross3 : |bil T (r1 - r) (s1 - s)| ≤ Λr * Λs * (Cm + 1) * η ^ 2 := by
    have hTle : ∀ a b, |T a b| ≤ Cm + 1 := by
      intro a b
      have h1 := hTC a b
      have h2 := hCle a b
      have h3 : |T a b| ≤ |T a b - C a b| + |C a b| := by
        simpa using abs_add_le (T a b - C a b) (C a b)
      linarith
    have h1 := dot_error hrsupp (u := T *ᵥ (s1 - s)) (M := Λs * η * (Cm + 1)) fun k _ => by
      unfold Matrix.mulVec dotProduct
      refine (Finset.abs_sum_le_sum_abs _ _).trans ?_
      calc ∑ b, |T k b * (s1 - s) b| ≤ ∑ b, |(s1 - s) b| * (Cm + 1) := Finset.sum_le_sum fun b _ => by
            rw [abs_mul, mul_comm]
            exact mul_le_mul_of_nonneg_left (hTle k b) (abs_nonneg _)
        _ = (∑ b, |(s1 - s) b|) * (Cm + 1) := (Finset.sum_mul _ _ _).symm
        _ ≤ Λs * η * (Cm + 1) := mul_le_mul_of_nonneg_right es (by positivity)
    refine h1.trans ?_
    calc (∑ k, |(r1 - r) k|) * (Λs * η * (Cm + 1)) ≤ Λr * η * (Λs * η * (Cm + 1)) := mul_le_mul_of_nonneg_right er (by positivity)
      _ = _ := by ring
  have hη2 : 0 ≤ η ^ 2 := sq_nonneg _
  have hxe : |bil S r1 s1 - bil S r s| ≤ K * η ^ 2 := by
    have h1 : bil S (r1 - r) s1 = 0 := by
      have := dot_error hrsupp (u := S *ᵥ s1) (M := 0) fun k hP => by rw [hs1S.orth k hP, abs_zero]
      rw [mul_zero] at this
      exact abs_eq_zero.1 (le_antisymm this (abs_nonneg _))
    rw [bil_sub_left] at h1
    have h2 := cross1 S hSC hsymS
    rw [bil_sub_right] at h2
    have h3 : bil S r1 s1 - bil S r s = bil S r s1 - bil S r s := by linarith
    rw [h3]
    refine h2.trans (mul_le_mul_of_nonneg_right ?_ hη2)
    rw [hK]
    have : 0 ≤ Λr * Ms + Λr * Λs * (Cm + 1) := by positivity
    linarith
  have hye : |bil T r1 s1 - bil T r s| ≤ K * η ^ 2 := by
    have h1 : bil T r1 s1 - bil T r s = bil T r (s1 - s) + bil T (r1 - r) s + bil T (r1 - r) (s1 - s) := by
      simp only [bil_sub_left, bil_sub_right]
      ring
    rw [h1]
    refine (abs_add_le _ _).trans ((add_le_add (abs_add_le _ _) le_rfl).trans ?_)
    have := cross1 T hTC hsymT
    rw [hK]
    nlinarith
  rw [abs_le] at hxe hye
  -- positivity
  have hpos : ∀ (M : Matrix (Fin p) (Fin p) ℝ), M.PosDef → ∀ {P : Fin p → Prop} {c : Fin p} {v : Fin p → ℝ}, v c = 1 → 0 < bil M v v := by
    intro M hM P c v hv
    have hne : v ≠ 0 := fun hc => by
      rw [hc] at hv
      simp at hv
    simpa [bil] using hM.dotProduct_mulVec_pos hne
  have hrr := hpos S hS (P := fun _ => True) hr1S.self
  have hss := hpos S hS (P := fun _ => True) hs1S.self
  have hexp : ∀ M : Matrix (Fin p) (Fin p) ℝ, (∀ a b, M a b = M b a) → ∀ γ : ℝ,
      bil M (r1 - γ • s1) (r1 - γ • s1) = bil M r1 r1 - 2 * γ * bil M r1 s1 + γ ^ 2 * bil M s1 s1 := by
    intro M hsym γ
    simp only [bil_sub_left, bil_sub_right, bil_smul_left, bil_smul_right]
    rw [bil_comm hsym s1 r1]
    ring
  set x := bil S r1 s1 with hxd
  have hwH : mH.omegas 0 j = bil S r1 r1 := by rw [hH.var, residualVar_quad hsymS, quad_eq_bil]
  have hwG : mG.omegas 0 j = bil S r1 r1 - x / bil S s1 s1 * x := by
    rw [hG.var, residualVar_quad hsymS, quad_eq_bil, hg, hexp S hsymS]
    field_simp
    ring
  have hwGpos : 0 < bil S r1 r1 - x / bil S s1 s1 * x := hwG ▸ hG.pos j
  have hterm := term_better hrr hss hwGpos (x := x) (y := bil T r1 s1) (Trr := bil T r1 r1) (Tss := bil T s1 s1) (by linarith [hxe.1])
    (by linarith [hxe.2, hye.1]) (hTS r1) (hTS s1)
  unfold regScore
  refine Finset.sum_lt_sum (fun c _ => ?_) ⟨j, Finset.mem_univ j, ?_⟩
  · rcases eq_or_ne c j with rfl | hc
    · refine le_of_lt ?_
      rw [hwG, hwH, residualVar_quad hsymT, residualVar_quad hsymT, quad_eq_bil, quad_eq_bil, hg, hexp T hsymT]
      exact hterm
    · refine le_of_eq ?_
      rw [hG.var, hH.var, residualVar_quad hsymT, residualVar_quad hsymT, residualVar_quad hsymS, residualVar_quad hsymS, hother c hc]
  · rw [hwG, hwH, residualVar_quad hsymT, residualVar_quad hsymT, quad_eq_bil, quad_eq_bil, hg, hexp T hsymT]
    exact hterm

end Verif
