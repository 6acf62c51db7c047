import Mathlib.Analysis.Calculus.Deriv.Mul
import Mathlib.Analysis.Calculus.Deriv.Inv
import Mathlib.Analysis.Calculus.Deriv.Pow
import Mathlib.Analysis.SpecialFunctions.Log.Deriv
import Mathlib.LinearAlgebra.Matrix.NonsingularInverse
import Mathlib.LinearAlgebra.Matrix.Trace

/-!
# Derivatives of determinants, inverses and traces of matrix-valued functions
-/

namespace Verif

open Matrix

variable {n : Nat}

/-- `F` has the derivative `F'` at `t`, entry by entry. -/
def MatDeriv {m n : Nat} (F : ℝ → Matrix (Fin m) (Fin n) ℝ) (F' : Matrix (Fin m) (Fin n) ℝ) (t : ℝ) : Prop :=
  ∀ i j, HasDerivAt (fun s => F s i j) (F' i j) t

theorem MatDeriv.const {m n : Nat} (M : Matrix (Fin m) (Fin n) ℝ) (t : ℝ) : MatDeriv (fun _ => M) 0 t :=
  fun _ _ => hasDerivAt_const _ _

theorem MatDeriv.mul {a b c : Nat} {F : ℝ → Matrix (Fin a) (Fin b) ℝ} {G : ℝ → Matrix (Fin b) (Fin c) ℝ} {F' G' t}
    (hF : MatDeriv F F' t) (hG : MatDeriv G G' t) : MatDeriv (fun s => F s * G s) (F' * G t + F t * G') t := by
  intro i j
  have h := HasDerivAt.fun_sum (u := Finset.univ) (fun k _ => (hF i k).fun_mul (hG k j))
  rw [Matrix.add_apply, Matrix.mul_apply, Matrix.mul_apply, ← Finset.sum_add_distrib]
  simp only [Matrix.mul_apply]
  exact h

theorem MatDeriv.trace {F : ℝ → Matrix (Fin n) (Fin n) ℝ} {F' t} (hF : MatDeriv F F' t) :
    HasDerivAt (fun s => Matrix.trace (F s)) (Matrix.trace F') t :=
  HasDerivAt.fun_sum (u := Finset.univ) (fun k _ => hF k k)

theorem det_updateCol_eq (M : Matrix (Fin n) (Fin n) ℝ) (b : Fin n → ℝ) (i : Fin n) :
    (M.updateCol i b).det = ∑ σ : Equiv.Perm (Fin n), (Equiv.Perm.sign σ : ℤ) • ((∏ j ∈ Finset.univ.erase i, M (σ j) j) * b (σ i)) := by
  rw [Matrix.det_apply]
  refine Finset.sum_congr rfl (fun σ _ => ?_)
  rw [← Finset.prod_erase_mul _ _ (Finset.mem_univ i)]
  have h1 : ∏ j ∈ Finset.univ.erase i, M.updateCol i b (σ j) j = ∏ j ∈ Finset.univ.erase i, M (σ j) j :=
    Finset.prod_congr rfl (fun j hj => Matrix.updateCol_ne (Finset.ne_of_mem_erase hj))
  rw [h1, Matrix.updateCol_self]
  rfl

/-- Jacobi's formula. -/
theorem MatDeriv.det {F : ℝ → Matrix (Fin n) (Fin n) ℝ} {F' t} (hF : MatDeriv F F' t) :
    HasDerivAt (fun s => (F s).det) (Matrix.trace ((F t).adjugate * F')) t := by
  have h : HasDerivAt (fun s => ∑ σ : Equiv.Perm (Fin n), (Equiv.Perm.sign σ : ℤ) • ∏ j, F s (σ j) j)
      (∑ σ : Equiv.Perm (Fin n), (Equiv.Perm.sign σ : ℤ) • ∑ i, (∏ j ∈ Finset.univ.erase i, F t (σ j) j) • F' (σ i) i) t := by
    refine HasDerivAt.fun_sum (fun σ _ => ?_)
    have h1 := HasDerivAt.fun_finsetProd (u := Finset.univ) (fun (j : Fin n) _ => hF (σ j) j)
    simpa only [zsmul_eq_mul] using h1.const_mul _
  have e1 : (fun s => (F s).det) = fun s => ∑ σ : Equiv.Perm (Fin n), (Equiv.Perm.sign σ : ℤ) • ∏ j, F s (σ j) j := by
    ext s
    rw [Matrix.det_apply]
    rfl
  have e2 : Matrix.trace ((F t).adjugate * F') =
      ∑ σ : Equiv.Perm (Fin n), (Equiv.Perm.sign σ : ℤ) • ∑ i, (∏ j ∈ Finset.univ.erase i, F t (σ j) j) • F' (σ i) i := by
    have h2 : ∀ i, ((F t).adjugate * F') i i = ((F t).updateCol i (fun k => F' k i)).det := by
      intro i
      rw [← Matrix.cramer_apply, Matrix.cramer_eq_adjugate_mulVec]
      rfl
    unfold Matrix.trace
    simp only [Matrix.diag_apply, h2, det_updateCol_eq]
    rw [Finset.sum_comm]
    refine Finset.sum_congr rfl (fun σ _ => ?_)
    rw [Finset.smul_sum]
    rfl
  rw [e1, e2]
  exact h

theorem MatDeriv.updateCol {F : ℝ → Matrix (Fin n) (Fin n) ℝ} {F' t} (hF : MatDeriv F F' t) (i : Fin n) (b : Fin n → ℝ) :
    MatDeriv (fun s => (F s).updateCol i b) (F'.updateCol i 0) t := by
  intro r c
  by_cases h : c = i
  · subst h
    simp only [Matrix.updateCol_self]
    exact hasDerivAt_const _ _
  · simp only [Matrix.updateCol_ne h]
    exact hF r c

/-- The derivative of the inverse. -/
theorem MatDeriv.inv {F : ℝ → Matrix (Fin n) (Fin n) ℝ} {F' t} (hF : MatDeriv F F' t) (hdet : (F t).det ≠ 0) :
    MatDeriv (fun s => (F s)⁻¹) (-((F t)⁻¹ * F' * (F t)⁻¹)) t := by
  -- the entries of the inverse are differentiable
  have hd : ∀ i j, ∃ g, HasDerivAt (fun s => (F s)⁻¹ i j) g t := by
    intro i j
    have e1 : (fun s => (F s)⁻¹ i j) = fun s => ((F s).det)⁻¹ * ((F s).updateCol i (Pi.single j 1)).det := by
      ext s
      rw [Matrix.inv_def, Matrix.smul_apply, smul_eq_mul, Ring.inverse_eq_inv', ← Matrix.cramer_apply,
        Matrix.cramer_eq_adjugate_mulVec]
      simp
    rw [e1]
    exact ⟨_, (hF.det.inv hdet).mul (hF.updateCol i _).det⟩
  choose G hG using hd
  have hG' : MatDeriv (fun s => (F s)⁻¹) (Matrix.of G) t := hG
  have hu : IsUnit (F t).det := isUnit_iff_ne_zero.2 hdet
  have h1 := hF.mul hG'
  have e3 : F' * (F t)⁻¹ + F t * Matrix.of G = 0 := by
    ext i j
    have h2 := h1 i j
    have h3 : HasDerivAt (fun s => (F s * (F s)⁻¹) i j) 0 t := by
      refine (hasDerivAt_const t ((1 : Matrix (Fin n) (Fin n) ℝ) i j)).congr_of_eventuallyEq ?_
      filter_upwards [hF.det.continuousAt.eventually_ne hdet] with s hs
      rw [Matrix.mul_nonsing_inv _ (isUnit_iff_ne_zero.2 hs)]
    exact h2.unique h3
  have e4 : Matrix.of G = -((F t)⁻¹ * F' * (F t)⁻¹) := by
    have h2 : F t * Matrix.of G = -(F' * (F t)⁻¹) := eq_neg_of_add_eq_zero_right e3
    calc Matrix.of G = (F t)⁻¹ * (F t * Matrix.of G) := by
          rw [← Matrix.mul_assoc, Matrix.nonsing_inv_mul _ hu, Matrix.one_mul]
      _ = _ := by rw [h2, Matrix.mul_neg, Matrix.mul_assoc]
  rw [← e4]
  exact hG'

/-- The derivative of `log det F + tr (F⁻¹ N)`. -/
theorem MatDeriv.nll {F : ℝ → Matrix (Fin n) (Fin n) ℝ} {F' t} (hF : MatDeriv F F' t) (hdet : (F t).det ≠ 0)
    (N : Matrix (Fin n) (Fin n) ℝ) :
    HasDerivAt (fun s => Real.log (F s).det + Matrix.trace ((F s)⁻¹ * N))
      (Matrix.trace ((F t)⁻¹ * F') - Matrix.trace ((F t)⁻¹ * N * (F t)⁻¹ * F')) t := by
  have h1 := hF.det.log hdet
  have h2 := ((hF.inv hdet).mul (MatDeriv.const N t)).trace
  have e1 : Matrix.trace ((F t)⁻¹ * F') - Matrix.trace ((F t)⁻¹ * N * (F t)⁻¹ * F') =
      Matrix.trace ((F t).adjugate * F') / (F t).det + Matrix.trace (-((F t)⁻¹ * F' * (F t)⁻¹) * N + (F t)⁻¹ * 0) := by
    rw [Matrix.mul_zero, add_zero, Matrix.neg_mul, Matrix.trace_neg, sub_eq_add_neg]
    congr 1
    · rw [Matrix.inv_def, Ring.inverse_eq_inv', Matrix.smul_mul, Matrix.trace_smul, smul_eq_mul, div_eq_inv_mul]
    · congr 1
      rw [Matrix.mul_assoc ((F t)⁻¹ * F'), Matrix.trace_mul_comm ((F t)⁻¹ * F'), ← Matrix.mul_assoc, Matrix.mul_assoc (_ * N)]
  rw [e1]
  exact h1.fun_add h2

end Verif
