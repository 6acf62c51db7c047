import Verif.Model.Verbose
import Verif.Props.Gen
import Verif.Props.LModel

/-!
# C133: what `sample_parameters` prints
-/

namespace Verif

open Matrix Spec

variable {p l e : Nat}

/-- The factor by which a matrix stretches vectors most. -/
def Spec.MostStretch {n : Nat} (X : Matrix (Fin n) (Fin n) ℝ) (r : ℝ) : Prop :=
  (∀ x : Fin n → ℝ, (X *ᵥ x) ⬝ᵥ (X *ᵥ x) ≤ r ^ 2 * (x ⬝ᵥ x)) ∧ 0 ≤ r ∧ ∃ x : Fin n → ℝ, x ⬝ᵥ x = 1 ∧ (X *ᵥ x) ⬝ᵥ (X *ᵥ x) = r ^ 2

theorem mostStretch_unique {n : Nat} {X : Matrix (Fin n) (Fin n) ℝ} {r s : ℝ} (hr : MostStretch X r) (hs : MostStretch X s) : r = s := by
  obtain ⟨r1, r2, x, x1, x2⟩ := hr
  obtain ⟨s1, s2, y, y1, y2⟩ := hs
  have h1 := r1 y
  have h2 := s1 x
  rw [y1, y2, mul_one] at h1
  rw [x1, x2, mul_one] at h2
  exact le_antisymm (abs_le_of_sq_le_sq' h2 s2).2 (abs_le_of_sq_le_sq' h1 r2).2

theorem stretch_eq {n : Nat} (X : Matrix (Fin n) (Fin n) ℝ) (x : Fin n → ℝ) : (X *ᵥ x) ⬝ᵥ (X *ᵥ x) = x ⬝ᵥ ((Xᴴ * X) *ᵥ x) := by
  rw [← mulVec_mulVec, conjTranspose_eq_transpose_of_trivial, mulVec_transpose, dotProduct_comm x, ← dotProduct_mulVec]

theorem spectralNorm_stretch {n : Nat} (hn : 0 < n) (X : Matrix (Fin n) (Fin n) ℝ) : MostStretch X (spectralNorm X) := by
  have hH := Matrix.isHermitian_conjTranspose_mul_self X
  have hps := Matrix.posSemidef_conjTranspose_mul_self X
  have : Nonempty (Fin n) := ⟨⟨0, hn⟩⟩
  have hbdd : BddAbove (Set.range fun i => Real.sqrt (hH.eigenvalues i)) := Set.finite_range _ |>.bddAbove
  obtain ⟨j, hj⟩ := Finite.exists_max fun i => Real.sqrt (hH.eigenvalues i)
  have hval : spectralNorm X = Real.sqrt (hH.eigenvalues j) := le_antisymm (ciSup_le hj) (le_ciSup hbdd j)
  have hnn : ∀ i, 0 ≤ hH.eigenvalues i := fun i => hps.eigenvalues_nonneg i
  have hsq : spectralNorm X ^ 2 = hH.eigenvalues j := by rw [hval, Real.sq_sqrt (hnn j)]
  have hle : ∀ i, hH.eigenvalues i ≤ hH.eigenvalues j := fun i => (Real.sqrt_le_sqrt_iff (hnn j)).1 (hj i)
  obtain ⟨U, hU, hX⟩ : ∃ U : Matrix (Fin n) (Fin n) ℝ, U * Uᵀ = 1 ∧ Xᴴ * X = U * diagonal hH.eigenvalues * Uᵀ := by
    refine ⟨hH.eigenvectorUnitary, ?_, ?_⟩
    · have := (Unitary.mem_iff.1 hH.eigenvectorUnitary.2).2
      simpa [star_eq_conjTranspose] using this
    · have := hH.spectral_theorem
      rw [Unitary.conjStarAlgAut_apply] at this
      simpa [star_eq_conjTranspose, Function.comp_def] using this
  have hU' : Uᵀ * U = 1 := mul_eq_one_comm.1 hU
  have hq : ∀ x, (X *ᵥ x) ⬝ᵥ (X *ᵥ x) = ∑ i, hH.eigenvalues i * (Uᵀ *ᵥ x) i ^ 2 := by
    intro x
    rw [stretch_eq]
    generalize hH.eigenvalues = ev at hX
    rw [hX, ← mulVec_mulVec, ← mulVec_mulVec, dotProduct_mulVec, ← mulVec_transpose]
    simp only [dotProduct, mulVec_diagonal]
    exact Finset.sum_congr rfl fun i _ => by ring
  have hx : ∀ x : Fin n → ℝ, x ⬝ᵥ x = ∑ i, (Uᵀ *ᵥ x) i ^ 2 := by
    intro x
    have : (Uᵀ *ᵥ x) ⬝ᵥ (Uᵀ *ᵥ x) = x ⬝ᵥ x := by
      rw [dotProduct_mulVec, vecMul_transpose, mulVec_mulVec, hU, one_mulVec]
    rw [← this]
    exact Finset.sum_congr rfl fun i _ => by ring
  refine ⟨fun x => ?_, hval ▸ Real.sqrt_nonneg _, U *ᵥ Pi.single j 1, ?_, ?_⟩
  · rw [hq, hx, hsq, Finset.mul_sum]
    exact Finset.sum_le_sum fun i _ => mul_le_mul_of_nonneg_right (hle i) (sq_nonneg _)
  · rw [hx, mulVec_mulVec, hU', one_mulVec]
    simp [Pi.single_apply]
  · rw [hq, mulVec_mulVec, hU', one_mulVec, hsq]
    simp [Pi.single_apply]

/-- The norm of a diagonal matrix with entries that are not negative is the largest entry. -/
theorem spectralNorm_diagonal {n : Nat} (hn : 0 < n) (d : Fin n → ℝ) (hd : ∀ i, 0 ≤ d i) : IsGreatest (Set.range d) (spectralNorm (diagonal d)) := by
  have : Nonempty (Fin n) := ⟨⟨0, hn⟩⟩
  obtain ⟨j, hj⟩ := Finite.exists_max d
  have h : MostStretch (diagonal d) (d j) := by
    refine ⟨fun x => ?_, hd j, Pi.single j 1, by simp, by simp [mulVec_diagonal, Pi.single_apply, dotProduct, pow_two]⟩
    simp only [dotProduct, mulVec_diagonal, Finset.mul_sum]
    refine Finset.sum_le_sum fun i _ => ?_
    have : d i * d i ≤ d j ^ 2 := by nlinarith [hd i, hd j, hj i]
    nlinarith [mul_le_mul_of_nonneg_right this (mul_self_nonneg (x i))]
  rw [mostStretch_unique (spectralNorm_stretch hn _) h]
  exact ⟨⟨j, rfl⟩, by rintro _ ⟨i, rfl⟩; exact hj i⟩

/-- C133: with `verbose` the same model is returned, or the same error raised.  The first number printed is the largest factor by which the covariance
contribution of the latents of the first environment stretches a vector.  The second, meant for the noise variances, is the largest variance of the noise
of the FIRST VARIABLE over all environments, and the matrix printed last has these variances on its diagonal. -/
theorem C133_printed (it : SetIter p) (A : Adj p) (I : Finset Int) (sparse obs : Bool) (dr : Draws p l e) (hp : 0 < p) (he : 0 < e) :
    (∀ err, sampleParameters it A I sparse obs dr = .error err ↔ sampleParametersVerbose it A I sparse obs dr = .error err) ∧
    ∀ m, sampleParameters it A I sparse obs dr = .ok m ↔ ∃ out, sampleParametersVerbose it A I sparse obs dr = .ok (m, out) ∧
      (∀ i j, out.latent i j = ∑ k, m.psis ⟨0, he⟩ k * m.gamma k i * m.gamma k j) ∧ MostStretch out.latent out.latentNorm ∧
      (∀ h k, out.omega h k = if h = k then m.omegas k ⟨0, hp⟩ else 0) ∧
      ((∀ k, 0 ≤ m.omegas k ⟨0, hp⟩) → IsGreatest (Set.range fun k => m.omegas k ⟨0, hp⟩) out.omegaNorm) := by
  unfold sampleParametersVerbose
  cases hm : sampleParameters it A I sparse obs dr with
  | error err0 => simp
  | ok m0 =>
    simp only [he, hp, dif_pos, reduceCtorEq, not_false_eq_true, implies_true, Except.ok.injEq, true_and, Prod.mk.injEq]
    intro m
    constructor
    · rintro rfl
      refine ⟨_, ⟨rfl, rfl⟩, fun i j => ?_, spectralNorm_stretch hp _, fun h k => ?_, fun hk => spectralNorm_diagonal he _ hk⟩
      · show (m0.gammaᵀ * diagonal (m0.psis ⟨0, he⟩) * m0.gamma) i j = _
        rw [mul_apply]
        simp only [mul_diagonal, transpose_apply]
        exact Finset.sum_congr rfl fun k _ => by ring
      · simp only [diagonal_apply]
        split_ifs with hh
        · rw [hh]
        · rfl
    · rintro ⟨out, ⟨h, -⟩, -⟩
      exact h

/-- C133: the second number does not depend on the variances of the other variables. -/
theorem C133_first_variable (it it' : SetIter p) (A A' : Adj p) (I I' : Finset Int) (sparse sparse' obs obs' : Bool) (dr dr' : Draws p l e) (hp : 0 < p) {m m' : LModel p l e}
    {out out' : GenOutput p e} (h : sampleParametersVerbose it A I sparse obs dr = .ok (m, out)) (h' : sampleParametersVerbose it' A' I' sparse' obs' dr' = .ok (m', out'))
    (heq : ∀ k, m.omegas k ⟨0, hp⟩ = m'.omegas k ⟨0, hp⟩) : out.omegaNorm = out'.omegaNorm := by
  have key : ∀ (it : SetIter p) (A : Adj p) (I : Finset Int) (sparse obs : Bool) (dr : Draws p l e) (m : LModel p l e) (out : GenOutput p e),
      sampleParametersVerbose it A I sparse obs dr = .ok (m, out) → out.omegaNorm = spectralNorm (diagonal fun k => m.omegas k ⟨0, hp⟩) := by
    intro it A I sparse obs dr m out h
    unfold sampleParametersVerbose at h
    split at h
    · cases h
    · split at h
      · simp only [dif_pos, Except.ok.injEq, Prod.mk.injEq] at h
        obtain ⟨rfl, rfl⟩ := h
        rfl
      · cases h
  rw [key _ _ _ _ _ _ _ _ h, key _ _ _ _ _ _ _ _ h']
  simp only [heq]

/-- Without environments the output raises. -/
theorem C133_no_environment (it : SetIter p) (A : Adj p) (I : Finset Int) (sparse obs : Bool) (dr : Draws p l 0) {m : LModel p l 0}
    (h : sampleParameters it A I sparse obs dr = .ok m) : sampleParametersVerbose it A I sparse obs dr = .error .indexError := by
  unfold sampleParametersVerbose
  rw [h]
  simp

namespace VerboseEx

/-- Two variables without edges, one latent, two environments, variances `1, 2` of the first variable and `5` of the second: the number printed for the
variances is `2`, while the largest noise variance of either environment is `5`. -/
example : ∃ m out, sampleParametersVerbose (SetIter.incr 2) ![![0, 0], ![0, 0]] (({0, 1} : Finset (Fin 2)).image (fun i : Fin 2 => (i.val : Int))) false false
      (⟨fun _ _ => 0, fun _ => [], fun _ _ => 1, fun _ => 1, fun _ _ => 1, ![![1, 5], ![2, 5]], fun _ => 1, fun _ _ _ => 1, fun _ _ => 1⟩ : Draws 2 1 2) = .ok (m, out) ∧
    out.omegaNorm = 2 ∧ (∀ k, IsGreatest (Set.range (m.omegas k)) 5) := by
  have hok := sampleParameters_ok (SetIter.incr 2) (A := ![![0, 0], ![0, 0]]) (by unfold Nonneg; decide) (I := ({0, 1} : Finset (Fin 2)).image (fun i : Fin 2 => (i.val : Int)))
    false false (⟨fun _ _ => 0, fun _ => [], fun _ _ => 1, fun _ => 1, fun _ _ => 1, ![![1, 5], ![2, 5]], fun _ => 1, fun _ _ _ => 1, fun _ _ => 1⟩ : Draws 2 1 2)
    ((isDag_iff (SetIter.incr 2) (by unfold Nonneg; decide)).1 (by decide)) (by
      intro z hz
      simp at hz
      rcases hz with rfl | rfl <;> norm_num)
  obtain ⟨out, h1, -, -, -, h5⟩ := ((C133_printed (SetIter.incr 2) _ _ _ _ _ (by norm_num) (by norm_num)).2 _).1 hok
  have hom : ∀ k j, genOmegas (SetIter.incr 2) (targetsOf 2 (({0, 1} : Finset (Fin 2)).image (fun i : Fin 2 => (i.val : Int)))) false
      (⟨fun _ _ => 0, fun _ => [], fun _ _ => 1, fun _ => 1, fun _ _ => 1, ![![1, 5], ![2, 5]], fun _ => 1, fun _ _ _ => 1, fun _ _ => 1⟩ : Draws 2 1 2) k j =
      (![![1, 5], ![2, 5]] : Fin 2 → Fin 2 → ℝ) k j := by
    intro k j
    have : targetsOf 2 (({0, 1} : Finset (Fin 2)).image (fun i : Fin 2 => (i.val : Int))) = Finset.univ := by decide
    rw [genOmegas, this]
    simp
  refine ⟨_, out, h1, ?_, fun k => ?_⟩
  · have := h5 (fun k => by simp only [hom]; fin_cases k <;> simp)
    simp only [hom] at this
    refine this.unique ⟨⟨1, by simp⟩, ?_⟩
    rintro _ ⟨k, rfl⟩
    fin_cases k <;> norm_num
  · dsimp only
    rw [funext (hom k)]
    fin_cases k
    · exact ⟨⟨1, by simp⟩, by rintro _ ⟨j, rfl⟩; fin_cases j <;> norm_num⟩
    · exact ⟨⟨1, by simp⟩, by rintro _ ⟨j, rfl⟩; fin_cases j <;> norm_num⟩

end VerboseEx

end Verif
