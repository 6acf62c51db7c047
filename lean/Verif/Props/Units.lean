import Verif.Props.MainPrune
import Verif.Props.LModel
import Verif.Proof.Rank

/-!
# C96: units of measurement

Multiplying every variable by a positive constant changes the covariances as below.  The models and the comparison of scores follow such a
change (`C96_rescaled_model`, `C96_comparison`), the choices made by `_weakest_edge` (main.py:691-696) and by the order in which `_prune_I`
removes targets (main.py:663-686) do not.
-/

namespace Verif

open Spec Matrix

variable {p l e : Nat}

/-- The covariance of the variables after variable `i` has been multiplied by `c i`. -/
def Spec.rescale (c : Fin p → ℝ) (S : Matrix (Fin p) (Fin p) ℝ) : Matrix (Fin p) (Fin p) ℝ := fun i j => c i * S i j * c j

/-- The weight of `i → j` when the effect is expressed in the new units. -/
noncomputable def Spec.rescaleB (c : Fin p → ℝ) (B : Matrix (Fin p) (Fin p) ℝ) : Matrix (Fin p) (Fin p) ℝ := fun i j => B i j * c j / c i

theorem rescale_eq (c : Fin p → ℝ) (S : Matrix (Fin p) (Fin p) ℝ) : rescale c S = diagonal c * S * diagonal c := by
  ext i j
  simp [rescale, Matrix.diagonal_mul, Matrix.mul_diagonal]

theorem respects_rescaleB {A : Adj p} {B : Matrix (Fin p) (Fin p) ℝ} (h : Respects A B) (c : Fin p → ℝ) : Respects A (rescaleB c B) := by
  intro i j hij
  have := h i j hij
  simp [rescaleB, this]

theorem diag_mul_inv {c : Fin p → ℝ} (hc : ∀ i, c i ≠ 0) : diagonal c * diagonal (fun i => (c i)⁻¹) = 1 := by
  rw [Matrix.diagonal_mul_diagonal, ← Matrix.diagonal_one]
  congr 1
  ext i
  exact mul_inv_cancel₀ (hc i)

theorem diag_inv_mul {c : Fin p → ℝ} (hc : ∀ i, c i ≠ 0) : diagonal (fun i => (c i)⁻¹) * diagonal c = 1 := by
  rw [Matrix.diagonal_mul_diagonal, ← Matrix.diagonal_one]
  congr 1
  ext i
  exact inv_mul_cancel₀ (hc i)

theorem one_sub_rescaleB {c : Fin p → ℝ} (hc : ∀ i, c i ≠ 0) (B : Matrix (Fin p) (Fin p) ℝ) :
    1 - (rescaleB c B)ᵀ = diagonal c * (1 - Bᵀ) * diagonal (fun i => (c i)⁻¹) := by
  ext i j
  rw [Matrix.mul_diagonal, Matrix.diagonal_mul, Matrix.sub_apply, Matrix.sub_apply, Matrix.transpose_apply, Matrix.transpose_apply, rescaleB]
  rcases eq_or_ne i j with rfl | hij
  · rw [Matrix.one_apply_eq]
    have := hc i
    field_simp
  · rw [Matrix.one_apply_ne hij]
    have := hc j
    field_simp
    ring

/-- A change of units of what a system of equations entails. -/
theorem entails_rescale {c : Fin p → ℝ} (hc : ∀ i, c i ≠ 0) {B V C : Matrix (Fin p) (Fin p) ℝ} (h : Entails B V C) :
    Entails (rescaleB c B) (rescale c V) (rescale c C) := by
  unfold Entails at h ⊢
  rw [one_sub_rescaleB hc, rescale_eq, rescale_eq, ← h]
  simp only [Matrix.transpose_mul, Matrix.diagonal_transpose]
  have h1 := diag_inv_mul hc
  calc diagonal c * (1 - Bᵀ) * diagonal (fun i => (c i)⁻¹) * (diagonal c * C * diagonal c) *
        (diagonal (fun i => (c i)⁻¹) * ((1 - Bᵀ)ᵀ * diagonal c))
      = diagonal c * (1 - Bᵀ) * (diagonal (fun i => (c i)⁻¹) * diagonal c) * C * (diagonal c * diagonal (fun i => (c i)⁻¹)) *
        ((1 - Bᵀ)ᵀ * diagonal c) := by simp only [Matrix.mul_assoc]
    _ = _ := by rw [h1, diag_mul_inv hc]; simp only [Matrix.mul_assoc, Matrix.mul_one]

/-- C96: a model can be expressed in any units: weights, loadings and noise variances are converted, the variances of the latents stay, and
the covariances of the converted model are the converted covariances. -/
theorem C96_rescaled_model (it : SetIter p) (A : Adj p) (hA : Nonneg A) (B : Matrix (Fin p) (Fin p) ℝ) (gamma : Matrix (Fin l) (Fin p) ℝ)
    (omegas : Matrix (Fin e) (Fin p) ℝ) (psis : Matrix (Fin e) (Fin l) ℝ) (m : LModel p l e) (h : mkModel it A B gamma omegas psis = .ok m)
    (C : Fin e → Matrix (Fin p) (Fin p) ℝ) (hC : m.covariances = .ok C) (c : Fin p → ℝ) (hc : ∀ i, c i ≠ 0) :
    ∃ m' : LModel p l e, mkModel it A (fun i j => B i j * c j / c i) (fun x i => gamma x i * c i) (fun k i => omegas k i * c i ^ 2) psis =
        .ok m' ∧ m'.covariances = .ok (fun k => rescale c (C k)) := by
  obtain ⟨hac, hB, -⟩ := mkModel_ok hA h
  have hm' := mkModel_eq_ok (it := it) hA (fun x i => gamma x i * c i) (fun k i => omegas k i * c i ^ 2) psis hac (respects_rescaleB hB c)
  refine ⟨_, hm', ?_⟩
  obtain ⟨-, C0, hC0, hent⟩ := C35_covariances it A hA B gamma omegas psis m h
  obtain ⟨-, C1, hC1, hent'⟩ := C35_covariances it A hA _ _ _ _ _ hm'
  rw [hC] at hC0
  injection hC0 with hC0
  subst hC0
  refine hC1.trans ?_
  congr 1
  funext k
  refine ((hent' k).2 _ ?_).symm
  have h1 := entails_rescale hc (hent k).1
  have h2 : noiseCov (fun x i => gamma x i * c i) (psis k) (fun i => omegas k i * c i ^ 2) = rescale c (noiseCov gamma (psis k) (omegas k)) := by
    ext i j
    unfold noiseCov rescale
    rw [mul_add, add_mul, Finset.mul_sum, Finset.sum_mul]
    congr 1
    · exact Finset.sum_congr rfl fun x _ => by ring
    · split_ifs with hij
      · subst hij; ring
      · simp
  rw [h2]
  exact h1

/-- A change of units of a likelihood: a constant that depends on the units alone is added. -/
theorem gaussNLL_rescale {c : Fin p → ℝ} (hc : ∀ i, c i ≠ 0) {C S : Matrix (Fin p) (Fin p) ℝ} (hC : C.det ≠ 0) :
    gaussNLL (rescale c C) (rescale c S) = gaussNLL C S + ∑ i, Real.log (c i ^ 2) := by
  unfold gaussNLL
  have hd : (diagonal c).det ≠ 0 := by
    rw [Matrix.det_diagonal]
    exact Finset.prod_ne_zero_iff.2 fun i _ => hc i
  have hlog : Real.log (rescale c C).det = Real.log C.det + ∑ i, Real.log (c i ^ 2) := by
    rw [rescale_eq, Matrix.det_mul, Matrix.det_mul, Real.log_mul (mul_ne_zero hd hC) hd, Real.log_mul hd hC, Matrix.det_diagonal,
      Real.log_prod (fun i _ => hc i)]
    have : ∀ i, Real.log (c i ^ 2) = 2 * Real.log (c i) := fun i => by rw [Real.log_pow]; norm_num
    simp only [this, ← Finset.mul_sum]
    ring
  have hinv : (rescale c C)⁻¹ = diagonal (fun i => (c i)⁻¹) * C⁻¹ * diagonal (fun i => (c i)⁻¹) := by
    refine Matrix.inv_eq_left_inv ?_
    rw [rescale_eq]
    calc diagonal (fun i => (c i)⁻¹) * C⁻¹ * diagonal (fun i => (c i)⁻¹) * (diagonal c * C * diagonal c)
        = diagonal (fun i => (c i)⁻¹) * (C⁻¹ * ((diagonal (fun i => (c i)⁻¹) * diagonal c) * C)) * diagonal c := by
          simp only [Matrix.mul_assoc]
      _ = 1 := by
          rw [diag_inv_mul hc, Matrix.one_mul, Matrix.nonsing_inv_mul _ (isUnit_iff_ne_zero.2 hC), Matrix.mul_one, diag_inv_mul hc]
  have htr : ((rescale c C)⁻¹ * rescale c S).trace = (C⁻¹ * S).trace := by
    rw [hinv, rescale_eq]
    calc (diagonal (fun i => (c i)⁻¹) * C⁻¹ * diagonal (fun i => (c i)⁻¹) * (diagonal c * S * diagonal c)).trace
        = (diagonal (fun i => (c i)⁻¹) * (C⁻¹ * ((diagonal (fun i => (c i)⁻¹) * diagonal c) * S)) * diagonal c).trace := by
          simp only [Matrix.mul_assoc]
      _ = (C⁻¹ * S).trace := by
          rw [diag_inv_mul hc, Matrix.one_mul, Matrix.trace_mul_comm, ← Matrix.mul_assoc, diag_mul_inv hc, Matrix.one_mul]
  rw [hlog, htr]
  ring

/-- C96: the computed score of a converted model on converted data is the score in the old units plus a number that depends on the sample
sizes and the units alone. -/
theorem C96_score (it : SetIter p) (A : Adj p) (hA : Nonneg A) (B : Matrix (Fin p) (Fin p) ℝ) (gamma : Matrix (Fin l) (Fin p) ℝ)
    (omegas : Matrix (Fin e) (Fin p) ℝ) (psis : Matrix (Fin e) (Fin l) ℝ) (m m' : LModel p l e)
    (h : mkModel it A B gamma omegas psis = .ok m) (ho : ∀ k i, 0 < omegas k i) (hp : ∀ k i, 0 ≤ psis k i) (c : Fin p → ℝ)
    (hc : ∀ i, c i ≠ 0)
    (h' : mkModel it A (fun i j => B i j * c j / c i) (fun x i => gamma x i * c i) (fun k i => omegas k i * c i ^ 2) psis = .ok m')
    (n : Fin e → Nat) (hn : ∑ k, n k ≠ 0) (S : Fin e → Matrix (Fin p) (Fin p) ℝ) :
    ∃ s, m.score (List.ofFn S) (List.ofFn n) = .ok (some s) ∧
      m'.score (List.ofFn fun k => rescale c (S k)) (List.ofFn n) =
        .ok (some (s + (∑ k : Fin e, (n k : ℝ) / (∑ k, (n k : ℝ)) ^ (e - k.val)) * ∑ i, Real.log (c i ^ 2))) := by
  obtain ⟨-, ⟨C, hC, hpd⟩, -⟩ := C36_posDef it A hA B gamma omegas psis m h ho hp
  obtain ⟨m1, h1, hC1⟩ := C96_rescaled_model it A hA B gamma omegas psis m h C hC c hc
  rw [h'] at h1
  cases h1
  refine ⟨_, C37_actual_score it A hA B gamma omegas psis m h ho hp n hn S C hC, ?_⟩
  rw [C37_actual_score it A hA _ _ _ psis m' h' (fun k i => mul_pos (ho k i) (by have := hc i; positivity)) hp n hn _ _ hC1, Finset.sum_mul,
    ← Finset.sum_add_distrib]
  congr 2
  refine Finset.sum_congr rfl fun k _ => ?_
  rw [gaussNLL_rescale hc (hpd k).1.det_pos.ne']
  ring

/-- C96: which of two models has the better score does not depend on the units (the models may have different graphs and numbers of
latents). -/
theorem C96_comparison {l₁ l₂ : Nat} (it : SetIter p) (A₁ A₂ : Adj p) (hA₁ : Nonneg A₁) (hA₂ : Nonneg A₂) (B₁ B₂ : Matrix (Fin p) (Fin p) ℝ)
    (gamma₁ : Matrix (Fin l₁) (Fin p) ℝ) (gamma₂ : Matrix (Fin l₂) (Fin p) ℝ) (omegas₁ omegas₂ : Matrix (Fin e) (Fin p) ℝ)
    (psis₁ : Matrix (Fin e) (Fin l₁) ℝ) (psis₂ : Matrix (Fin e) (Fin l₂) ℝ) (m₁ m₁' : LModel p l₁ e) (m₂ m₂' : LModel p l₂ e)
    (ho₁ : ∀ k i, 0 < omegas₁ k i) (ho₂ : ∀ k i, 0 < omegas₂ k i) (hp₁ : ∀ k i, 0 ≤ psis₁ k i) (hp₂ : ∀ k i, 0 ≤ psis₂ k i)
    (h₁ : mkModel it A₁ B₁ gamma₁ omegas₁ psis₁ = .ok m₁) (h₂ : mkModel it A₂ B₂ gamma₂ omegas₂ psis₂ = .ok m₂)
    (c : Fin p → ℝ) (hc : ∀ i, c i ≠ 0)
    (h₁' : mkModel it A₁ (fun i j => B₁ i j * c j / c i) (fun x i => gamma₁ x i * c i) (fun k i => omegas₁ k i * c i ^ 2) psis₁ = .ok m₁')
    (h₂' : mkModel it A₂ (fun i j => B₂ i j * c j / c i) (fun x i => gamma₂ x i * c i) (fun k i => omegas₂ k i * c i ^ 2) psis₂ = .ok m₂')
    (n : Fin e → Nat) (hn : ∑ k, n k ≠ 0) (S : Fin e → Matrix (Fin p) (Fin p) ℝ) (s₁ s₂ s₁' s₂' : ℝ)
    (hs₁ : m₁.score (List.ofFn S) (List.ofFn n) = .ok (some s₁)) (hs₂ : m₂.score (List.ofFn S) (List.ofFn n) = .ok (some s₂))
    (hs₁' : m₁'.score (List.ofFn fun k => rescale c (S k)) (List.ofFn n) = .ok (some s₁'))
    (hs₂' : m₂'.score (List.ofFn fun k => rescale c (S k)) (List.ofFn n) = .ok (some s₂')) : s₁' - s₂' = s₁ - s₂ := by
  obtain ⟨t₁, k1, k2⟩ := C96_score it A₁ hA₁ B₁ gamma₁ omegas₁ psis₁ m₁ m₁' h₁ ho₁ hp₁ c hc h₁' n hn S
  obtain ⟨t₂, k3, k4⟩ := C96_score it A₂ hA₂ B₂ gamma₂ omegas₂ psis₂ m₂ m₂' h₂ ho₂ hp₂ c hc h₂' n hn S
  rw [hs₁] at k1
  rw [hs₂] at k3
  rw [hs₁'] at k2
  rw [hs₂'] at k4
  simp only [Except.ok.injEq, Option.some.injEq] at k1 k2 k3 k4
  rw [k2, k4, k1, k3]
  ring

-- non-vacuity: `exModel` with the first variable in units ten times as small
example : ∃ m', mkModel (SetIter.incr 2) ![![0, 1], ![0, 0]] (fun i j => (!![0, 3; 0, 0] : Matrix (Fin 2) (Fin 2) ℝ) i j * (![10, 1] : Fin 2 → ℝ) j /
    (![10, 1] : Fin 2 → ℝ) i) (fun x i => (!![1, 1] : Matrix (Fin 1) (Fin 2) ℝ) x i * (![10, 1] : Fin 2 → ℝ) i)
    (fun k i => (!![1, 2; 1, 1] : Matrix (Fin 2) (Fin 2) ℝ) k i * (![10, 1] : Fin 2 → ℝ) i ^ 2) !![1; 2] = .ok m' :=
  ⟨_, mkModel_eq_ok (by unfold Nonneg; decide) _ _ _ exModel_acyclic (respects_rescaleB exModel_respects _)⟩

/-! ## The order of pruning is decided by the units -/

/-- Exponents that make the edge `(a, b)` of a graph ordered by `t` weaker than all other ones. -/
def unitExp (t : Fin p → Nat) (a b i : Fin p) : ℤ :=
  (if t b ≤ t i then -1 + ((t i : ℤ) - t b) else 0) + (if t i ≤ t a then 1 - ((t a : ℤ) - t i) else 0)

theorem unitExp_edge {t : Fin p → Nat} {a b : Fin p} (hab : t a < t b) : unitExp t a b b - unitExp t a b a = -2 := by
  unfold unitExp
  rw [if_pos le_rfl, if_neg (by omega), if_neg (by omega), if_pos le_rfl]
  omega

theorem unitExp_other {t : Fin p → Nat} (ht : Function.Injective t) {a b i j : Fin p} (hij : t i < t j) (hne : (i, j) ≠ (a, b)) :
    -1 ≤ unitExp t a b j - unitExp t a b i := by
  have h : t i ≠ t a ∨ t j ≠ t b := by
    by_contra hcon
    push Not at hcon
    exact hne (by rw [ht hcon.1, ht hcon.2])
  unfold unitExp
  split_ifs <;> omega

/-- C96, violated: which edge counts as the weakest is decided by the units.  For every weighted DAG and every edge of it with a non-zero
weight there are positive units in which `_weakest_edge` returns this edge. -/
theorem C96_weakest_any (A : Adj p) (hac : Acyclic A) (B : Matrix (Fin p) (Fin p) ℝ) (hB : Respects A B) (a b : Fin p) (hab : B a b ≠ 0) :
    ∃ c : Fin p → ℝ, (∀ i, 0 < c i) ∧ weakestEdge (fun i j => B i j * c j / c i) = .ok (a, b) := by
  obtain ⟨t, ht, hlt⟩ := hac.exists_inj_rank
  have hedge : ∀ i j, B i j ≠ 0 → t i < t j := fun i j h => hlt i j (by
    by_contra hc
    exact h (hB i j (by unfold Edge at hc; push Not at hc; exact hc)))
  have hlim : ∀ i j, B i j ≠ 0 → ∀ᶠ s : ℝ in Filter.atTop, |B a b| * Real.exp (-s) < |B i j| := by
    intro i j h
    have h1 : Filter.Tendsto (fun s : ℝ => |B a b| * Real.exp (-s)) Filter.atTop (nhds (|B a b| * 0)) :=
      Real.tendsto_exp_neg_atTop_nhds_zero.const_mul _
    rw [mul_zero] at h1
    exact h1.eventually (gt_mem_nhds (abs_pos.2 h))
  have hall : ∀ᶠ s : ℝ in Filter.atTop, ∀ i j, B i j ≠ 0 → |B a b| * Real.exp (-s) < |B i j| := by
    rw [Filter.eventually_all]
    intro i
    rw [Filter.eventually_all]
    intro j
    by_cases h : B i j = 0
    · exact Filter.Eventually.of_forall fun s hc => absurd h hc
    · filter_upwards [hlim i j h] with s hs _
      exact hs
  obtain ⟨s, hs, hs0⟩ := (hall.and (Filter.eventually_ge_atTop 0)).exists
  set c : Fin p → ℝ := fun i => Real.exp (s * unitExp t a b i) with hc
  have habs : ∀ i j, |B i j * c j / c i| = |B i j| * Real.exp (s * ((unitExp t a b j - unitExp t a b i : ℤ) : ℝ)) := by
    intro i j
    rw [mul_div_assoc, abs_mul, hc]
    simp only
    rw [← Real.exp_sub, abs_of_pos (Real.exp_pos _), Int.cast_sub, mul_sub]
  have hnz : ∀ i j, B i j * c j / c i ≠ 0 ↔ B i j ≠ 0 := by
    intro i j
    have h1 : c j ≠ 0 := (Real.exp_pos _).ne'
    have h2 : c i ≠ 0 := (Real.exp_pos _).ne'
    simp [h1, h2]
  refine ⟨c, fun i => Real.exp_pos _, ?_⟩
  have hne : (fun i j => B i j * c j / c i : Matrix (Fin p) (Fin p) ℝ) ≠ 0 := by
    intro h0
    exact (hnz a b).2 hab (congrFun (congrFun h0 a) b)
  obtain ⟨a', b', h1, h2, h3⟩ := weakestEdge_spec hne
  rw [h1]
  by_contra hcon
  have hne' : (a', b') ≠ (a, b) := fun h => hcon (by rw [h])
  have hB' := (hnz a' b').1 h2
  have h4 := h3 a b ((hnz a b).2 hab)
  rw [habs, habs, unitExp_edge (hedge a b hab)] at h4
  have h5 := unitExp_other ht (hedge a' b' hB') hne'
  have h5' : (-1 : ℝ) ≤ ((unitExp t a b b' - unitExp t a b a' : ℤ) : ℝ) := by exact_mod_cast h5
  have h6 : Real.exp (-s) ≤ Real.exp (s * ((unitExp t a b b' - unitExp t a b a' : ℤ) : ℝ)) := Real.exp_le_exp.2 (by nlinarith)
  have h7 : Real.exp (s * ((-2 : ℤ) : ℝ)) = Real.exp (-s) * Real.exp (-s) := by
    rw [← Real.exp_add]
    congr 1
    push_cast
    ring
  rw [h7] at h4
  have h8 := hs a' b' hB'
  have h9 : |B a' b'| * Real.exp (-s) ≤ |B a' b'| * Real.exp (s * ((unitExp t a b b' - unitExp t a b a' : ℤ) : ℝ)) :=
    mul_le_mul_of_nonneg_left h6 (abs_nonneg _)
  have h10 : |B a b| * (Real.exp (-s) * Real.exp (-s)) < |B a' b'| * Real.exp (-s) := by
    rw [← mul_assoc]
    exact mul_lt_mul_of_pos_right h8 (Real.exp_pos _)
  linarith

/-- C96, violated: hence the units decide which edge is deleted first.  For every model of a DAG and every edge with a non-zero weight there
are units in which the loop of `_prune_graphs` goes on with the graph without this edge. -/
theorem C96_prune_any (it : SetIter p) (m : LModel p l e) (hac : Acyclic m.A) (hB : Respects m.A m.B) (a b : Fin p)
    (hab : m.B a b ≠ 0) :
    ∃ c : Fin p → ℝ, (∀ i, 0 < c i) ∧ ∀ (fit : Fitter p e) (s : PruneState p e), 0 < sumAll s.dag →
      s.model.B = (fun i j => m.B i j * c j / c i) →
      ∀ r, pruneStep it fit s = .ok r → ∃ s', r = .inl s' ∧ s'.dag = setEntry s.dag a b 0 := by
  obtain ⟨c, hc, hw⟩ := C96_weakest_any m.A hac m.B hB a b hab
  refine ⟨c, hc, fun fit s hpos hs r hr => ?_⟩
  unfold pruneStep at hr
  rw [if_pos hpos, hs, hw] at hr
  simp only at hr
  split at hr
  · simp at hr
  · simp only [Except.ok.injEq] at hr
    exact ⟨_, hr.symm, rfl⟩

theorem popVar_smul (x : Fin e → ℝ) (c : ℝ) : popVar (fun k => x k * c) = c ^ 2 * popVar x := by
  unfold popVar
  have h1 : ∑ k, (x k * c) ^ 2 = c ^ 2 * ∑ k, x k ^ 2 := by
    rw [Finset.mul_sum]
    exact Finset.sum_congr rfl fun k _ => by ring
  rw [h1, ← Finset.sum_mul]
  ring

/-- Units in which the variances of the noise variances have given positive values. -/
theorem exists_units (omegas : Matrix (Fin e) (Fin p) ℝ) (hv : ∀ j, 0 < popVar (fun k => omegas k j)) (v : Fin p → ℝ) (hpos : ∀ j, 0 < v j) :
    ∃ c : Fin p → ℝ, (∀ i, 0 < c i) ∧ ∀ j, popVar (fun k => omegas k j * c j ^ 2) = v j := by
  refine ⟨fun j => Real.sqrt (Real.sqrt (v j / popVar (fun k => omegas k j))), fun j => ?_, fun j => ?_⟩
  · exact Real.sqrt_pos.2 (Real.sqrt_pos.2 (div_pos (hpos j) (hv j)))
  · rw [popVar_smul, Real.sq_sqrt (Real.sqrt_nonneg _), Real.sq_sqrt (div_pos (hpos j) (hv j)).le, div_mul_cancel₀ _ (hv j).ne']

/-- C96, violated: the order in which `_prune_I` removes targets is decided by the units.  If all noise variances vary across environments,
then for every order of the variables there are positive units in which this order is the only possible outcome of the `argsort`. -/
theorem C96_target_order_any (omegas : Matrix (Fin e) (Fin p) ℝ) (hv : ∀ j, 0 < popVar (fun k => omegas k j)) (order : List (Fin p))
    (hord : order.Perm (List.finRange p)) :
    ∃ c : Fin p → ℝ, (∀ i, 0 < c i) ∧ ∀ l, IsArgsort (varEnv (fun k j => omegas k j * c j ^ 2)) l → l = order := by
  obtain ⟨c, hc, hval⟩ := exists_units omegas hv (fun j => (order.idxOf j : ℝ) + 1) (fun j => by positivity)
  refine ⟨c, hc, fun l hl => ?_⟩
  have hnd : order.Nodup := hord.nodup_iff.2 (List.nodup_finRange p)
  have hle : ∀ a b, varEnv (fun k j => omegas k j * c j ^ 2) a ≤ varEnv (fun k j => omegas k j * c j ^ 2) b ↔
      order.idxOf a ≤ order.idxOf b := by
    intro a b
    have hvar : ∀ j, varEnv (fun k j => omegas k j * c j ^ 2) j = (order.idxOf j : ℝ) + 1 := fun j => (varEnv_eq _ j).trans (hval j)
    rw [hvar, hvar]
    simp
  have h1 : l.Pairwise (fun a b => order.idxOf a ≤ order.idxOf b) := hl.2.imp fun {a b} h => (hle a b).1 h
  have h2 : order.Pairwise (fun a b => order.idxOf a ≤ order.idxOf b) := by
    rw [List.pairwise_iff_getElem]
    intro i j hi hj hij
    rw [hnd.idxOf_getElem, hnd.idxOf_getElem]
    exact hij.le
  refine List.Perm.eq_of_pairwise (le := fun a b => order.idxOf a ≤ order.idxOf b) ?_ h1 h2 (hl.1.trans hord.symm)
  intro a b ha hb hab hba
  have hmem : ∀ x, x ∈ order := fun x => hord.mem_iff.2 (List.mem_finRange x)
  exact (List.idxOf_inj (hmem a)).1 (le_antisymm hab hba)

/-- C96, violated: with a threshold `0 < t < 1` every non-empty set of variables is selected as the targets in suitable units. -/
theorem C96_threshold_any (omegas : Matrix (Fin e) (Fin p) ℝ) (hv : ∀ j, 0 < popVar (fun k => omegas k j)) (t : ℝ) (ht : 0 < t) (ht1 : t < 1)
    (T : Finset (Fin p)) (hT : T.Nonempty) :
    ∃ c : Fin p → ℝ, (∀ i, 0 < c i) ∧ ∀ j, j ∈ T ↔
      (⨆ i, varEnv (fun k j => omegas k j * c j ^ 2) i) * t < varEnv (fun k j => omegas k j * c j ^ 2) j := by
  classical
  obtain ⟨c, hc, hval⟩ := exists_units omegas hv (fun j => if j ∈ T then 1 else t) (fun j => by split_ifs <;> linarith)
  refine ⟨c, hc, fun j => ?_⟩
  have hvar : ∀ j, varEnv (fun k j => omegas k j * c j ^ 2) j = if j ∈ T then 1 else t := fun j => (varEnv_eq _ j).trans (hval j)
  have hsup : (⨆ i, varEnv (fun k j => omegas k j * c j ^ 2) i) = 1 := by
    obtain ⟨j0, hj0⟩ := hT
    have : Nonempty (Fin p) := ⟨j0⟩
    refine le_antisymm (ciSup_le fun i => ?_) ?_
    · rw [hvar]
      split_ifs <;> linarith
    · refine le_trans (by rw [hvar, if_pos hj0]) (le_ciSup (Set.finite_range _).bddAbove j0)
  rw [hsup, hvar, one_mul]
  split_ifs with h <;> simp [h, ht1]

-- non-vacuity
example : ∀ j : Fin 2, 0 < popVar (fun k => (!![1, 2; 2, 5] : Matrix (Fin 2) (Fin 2) ℝ) k j) := by
  intro j
  fin_cases j <;> simp [popVar, Fin.sum_univ_two] <;> norm_num
example : exModel.B 0 1 ≠ 0 := by simp [exModel]

end Verif
