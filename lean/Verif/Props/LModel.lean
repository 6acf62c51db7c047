import Verif.Proof.LModel
import Verif.Props.Graph
import Mathlib.Data.Fin.VecNotation
import Mathlib.Tactic.FieldSimp
import Mathlib.Tactic.NormNum

/-!
# C34–C39: the class `Model`
-/

namespace Verif
open Spec Matrix

variable {p l e : Nat}

/-! ## C34: the constructor -/

/-- The conditions the documentation puts on the parameters of a model. -/
structure Spec.ValidParams (A : Adj p) (B gamma omegas psis : NdArr) (l e : Nat) : Prop where
  B_shape : B.shape = [p, p]
  acyclic : Acyclic A
  sparsity : ∀ i j : Fin p, ¬ Edge A i j → B.val [i.val, j.val] = 0
  gamma_shape : gamma.shape = [l, p]
  omegas_shape : omegas.shape = [e, p]
  psis_shape : psis.shape = [e, l]

theorem shape_two {s : List Nat} (h : s.length = 2) : s = [s.getD 0 0, s.getD 1 0] := by
  match s, h with
  | [a, b], _ => rfl

theorem ite_error_eq_ok {α : Type} {c : Prop} [Decidable c] {err : Err} {x : Except Err α} {r : α} :
    (if c then .error err else x) = .ok r ↔ ¬ c ∧ x = .ok r := by
  by_cases h : c <;> simp [h]

theorem ite_error_eq_error {α : Type} {c : Prop} [Decidable c] {err : Err} {x : Except Err α} :
    (if c then .error err else x) = .error err ↔ c ∨ x = .error err := by
  by_cases h : c <;> simp [h]

/-- C34: the constructor succeeds exactly for valid parameters and otherwise raises `ValueError`. -/
theorem C34_init (it : SetIter p) (A : Adj p) (hA : Nonneg A) (B gamma omegas psis : NdArr) :
    ((∃ l e, ValidParams A B gamma omegas psis l e) ↔ ∃ r, initModel it A B gamma omegas psis = .ok r) ∧
    ((¬ ∃ l e, ValidParams A B gamma omegas psis l e) ↔ initModel it A B gamma omegas psis = .error .valueError) := by
  classical
  have key : (∃ l e, ValidParams A B gamma omegas psis l e) → ∃ r, initModel it A B gamma omegas psis = .ok r := by
    rintro ⟨l, e, h⟩
    unfold initModel
    rw [if_neg (by simpa using h.B_shape), if_neg (by simpa using (isDag_iff it hA).2 h.acyclic), if_neg
      (by rintro ⟨i, j, h1, h2⟩; exact h2 (h.sparsity i j (by simpa [Edge] using h1)))]
    rw [h.gamma_shape, h.omegas_shape, h.psis_shape]
    simp
  have key' : (¬ ∃ l e, ValidParams A B gamma omegas psis l e) →
      initModel it A B gamma omegas psis = .error .valueError := by
    intro hn
    unfold initModel
    by_contra hc
    iterate 10 rw [ite_error_eq_error, not_or] at hc
    obtain ⟨h1, h2, h3, h4, h5, h6, h7, h8, h9, h10, -⟩ := hc
    apply hn
    have g := shape_two (not_not.1 h4)
    have o := shape_two (not_not.1 h5)
    have s := shape_two (not_not.1 h6)
    refine ⟨gamma.shape.getD 0 0, omegas.shape.getD 0 0, not_not.1 h1, ?_, ?_, ?_, ?_, ?_⟩
    · exact (isDag_iff it hA).1 (by simpa using h2)
    · intro i j hij
      by_contra hc
      exact h3 ⟨i, j, by simpa [Edge] using hij, hc⟩
    · rw [not_not] at h7
      rw [h7] at g
      exact g
    · rw [not_not] at h8
      rw [h8] at o
      exact o
    · rw [not_not] at h9 h10
      rw [← h9, ← h10] at s
      exact s
  constructor
  · refine ⟨key, ?_⟩
    rintro ⟨r, hr⟩
    by_contra hn
    rw [key' hn] at hr
    simp at hr
  · refine ⟨key', ?_⟩
    intro hr hex
    obtain ⟨r, hr'⟩ := key hex
    rw [hr'] at hr
    simp at hr

/-- C34: the stored attributes are the arguments; `l`, `e` are their dimensions and `I_B = I - Bᵀ`. -/
theorem C34_stored (it : SetIter p) (A : Adj p) (B gamma omegas psis : NdArr) (l e : Nat) (m : LModel p l e)
    (h : initModel it A B gamma omegas psis = .ok ⟨l, e, m⟩) :
    m.A = A ∧ (∀ i j, m.B i j = B.val [i.val, j.val]) ∧ (∀ i j, m.gamma i j = gamma.val [i.val, j.val]) ∧
    (∀ i j, m.omegas i j = omegas.val [i.val, j.val]) ∧ (∀ i j, m.psis i j = psis.val [i.val, j.val]) ∧
    m.IB = 1 - m.Bᵀ ∧ l = gamma.shape.getD 0 0 ∧ e = omegas.shape.getD 0 0 := by
  unfold initModel at h
  iterate 10 rw [ite_error_eq_ok] at h
  obtain ⟨-, -, -, -, -, -, -, -, -, -, h⟩ := h
  rw [Except.ok.injEq, Sigma.mk.injEq] at h
  obtain ⟨rfl, h⟩ := h
  simp only [heq_eq_eq, Sigma.mk.injEq] at h
  obtain ⟨rfl, h⟩ := h
  simp only [heq_eq_eq] at h
  subst h
  exact ⟨rfl, fun _ _ => rfl, fun _ _ => rfl, fun _ _ => rfl, fun _ _ => rfl, rfl, rfl, rfl⟩

/-- The array holding a matrix. -/
noncomputable def toArr {a b : Nat} (M : Matrix (Fin a) (Fin b) ℝ) : NdArr where
  shape := [a, b]
  val ix := if h : ix.getD 0 0 < a ∧ ix.getD 1 0 < b then M ⟨ix.getD 0 0, h.1⟩ ⟨ix.getD 1 0, h.2⟩ else 0

theorem toArr_val {a b : Nat} (M : Matrix (Fin a) (Fin b) ℝ) (i : Fin a) (j : Fin b) :
    (toArr M).val [i.val, j.val] = M i j := by
  unfold toArr
  simp

/-- C34: for arrays of matching dimensions the constructor is `mkModel`, the form used in the rest of the model. -/
theorem C34_typed (it : SetIter p) (A : Adj p) (B : Matrix (Fin p) (Fin p) ℝ) (gamma : Matrix (Fin l) (Fin p) ℝ)
    (omegas : Matrix (Fin e) (Fin p) ℝ) (psis : Matrix (Fin e) (Fin l) ℝ) :
    initModel it A (toArr B) (toArr gamma) (toArr omegas) (toArr psis) =
      (mkModel it A B gamma omegas psis).map (fun m => ⟨l, e, m⟩) := by
  unfold initModel mkModel
  rw [if_neg (by simp [toArr])]
  by_cases h2 : (! isDag it A) = true
  · rw [if_pos h2, if_pos h2]
    rfl
  · rw [if_neg h2, if_neg h2]
    by_cases h3 : ∃ i j, A i j = 0 ∧ B i j ≠ 0
    · rw [if_pos h3, if_pos (by simpa only [toArr_val] using h3)]
      rfl
    · rw [if_neg h3, if_neg (by simpa only [toArr_val] using h3), if_neg (by simp [toArr]), if_neg (by simp [toArr]), if_neg (by simp [toArr]),
        if_neg (by simp [toArr]), if_neg (by simp [toArr]), if_neg (by simp [toArr]), if_neg (by simp [toArr])]
      have h4 : ∀ {a b : Nat} (M : Matrix (Fin a) (Fin b) ℝ), (fun (i : Fin a) (j : Fin b) => (toArr M).val [i.val, j.val]) = M := by
        intro a b M
        funext i j
        exact toArr_val M i j
      simp only [Except.map]
      congr 1
      have hB : (fun (i : Fin p) (j : Fin p) => (toArr B).val [i.val, j.val]) = B := h4 B
      have hg : (fun (i : Fin l) (j : Fin p) => (toArr gamma).val [i.val, j.val]) = gamma := h4 gamma
      have ho : (fun (i : Fin e) (j : Fin p) => (toArr omegas).val [i.val, j.val]) = omegas := h4 omegas
      have hp : (fun (i : Fin e) (j : Fin l) => (toArr psis).val [i.val, j.val]) = psis := h4 psis
      exact congrArg (fun m : LModel p l e => (⟨l, e, m⟩ : Σ l e, LModel p l e))
        (LModel.ext rfl hB hg ho hp (congrArg (fun M : Matrix (Fin p) (Fin p) ℝ => 1 - Mᵀ) hB))

/-- What a successful constructor call guarantees. -/
theorem mkModel_ok {it : SetIter p} {A : Adj p} (hA : Nonneg A) {B : Matrix (Fin p) (Fin p) ℝ}
    {gamma : Matrix (Fin l) (Fin p) ℝ} {omegas : Matrix (Fin e) (Fin p) ℝ} {psis : Matrix (Fin e) (Fin l) ℝ}
    {m : LModel p l e} (h : mkModel it A B gamma omegas psis = .ok m) :
    Acyclic A ∧ Respects A B ∧ m = ⟨A, B, gamma, omegas, psis, 1 - Bᵀ⟩ := by
  unfold mkModel at h
  split_ifs at h with h1 h2
  push Not at h2
  refine ⟨(isDag_iff it hA).1 (by simpa using h1), h2, ?_⟩
  injection h with h
  exact h.symm

theorem mkModel_eq_ok {it : SetIter p} {A : Adj p} (hA : Nonneg A) {B : Matrix (Fin p) (Fin p) ℝ}
    (gamma : Matrix (Fin l) (Fin p) ℝ) (omegas : Matrix (Fin e) (Fin p) ℝ) (psis : Matrix (Fin e) (Fin l) ℝ)
    (hac : Acyclic A) (hB : Respects A B) :
    mkModel it A B gamma omegas psis = .ok ⟨A, B, gamma, omegas, psis, 1 - Bᵀ⟩ := by
  unfold mkModel
  rw [if_neg (by simpa using (isDag_iff it hA).2 hac), if_neg]
  push Not
  exact hB

/-- Example of a valid model: `0 → 1`, one latent, two environments. -/
noncomputable def exModel : LModel 2 1 2 :=
  ⟨![![0, 1], ![0, 0]], !![0, 3; 0, 0], !![1, 1], !![1, 2; 1, 1], !![1; 2], 1 - !![0, 3; 0, 0]ᵀ⟩

theorem exModel_acyclic : Acyclic (![![0, 1], ![0, 0]] : Adj 2) := by
  refine acyclic_of_rank (fun i => i.val) ?_
  unfold Edge
  decide

theorem exModel_respects : Respects (![![0, 1], ![0, 0]] : Adj 2) !![0, 3; 0, 0] := by
  intro i j h
  fin_cases i <;> fin_cases j <;> simp_all

example : mkModel (SetIter.incr 2) ![![0, 1], ![0, 0]] !![0, 3; 0, 0] !![1, 1] !![1, 2; 1, 1] !![1; 2] = .ok exModel :=
  mkModel_eq_ok (by unfold Nonneg; decide) _ _ _ exModel_acyclic exModel_respects

/-! ## C35, C36: covariances -/

/-- C35: for every model `I - Bᵀ` has determinant one and `covariances()` succeeds; environment `k` gets the only matrix `C`
with `(I - Bᵀ) C (I - Bᵀ)ᵀ` equal to the covariance of the noise terms. -/
theorem C35_covariances (it : SetIter p) (A : Adj p) (hA : Nonneg A) (B : Matrix (Fin p) (Fin p) ℝ)
    (gamma : Matrix (Fin l) (Fin p) ℝ) (omegas : Matrix (Fin e) (Fin p) ℝ) (psis : Matrix (Fin e) (Fin l) ℝ)
    (m : LModel p l e) (h : mkModel it A B gamma omegas psis = .ok m) :
    (1 - Bᵀ).det = 1 ∧ ∃ C, m.covariances = .ok C ∧
      ∀ k, Entails B (noiseCov gamma (psis k) (omegas k)) (C k) ∧
        ∀ C', Entails B (noiseCov gamma (psis k) (omegas k)) C' → C' = C k := by
  obtain ⟨hac, hB, rfl⟩ := mkModel_ok hA h
  have hdet := det_one_sub_transpose hac hB
  refine ⟨hdet, _, covariances_ok _ hdet, fun k => ?_⟩
  have hu : IsUnit (1 - Bᵀ).det := by rw [hdet]; exact isUnit_one
  have hut : IsUnit (1 - Bᵀ)ᵀ.det := by rwa [Matrix.det_transpose]
  rw [noise_eq]
  unfold Entails
  dsimp only
  rw [Matrix.transpose_nonsing_inv]
  constructor
  · simp only [Matrix.mul_assoc]
    rw [Matrix.mul_nonsing_inv_cancel_left _ _ hu, Matrix.nonsing_inv_mul _ hut, Matrix.mul_one]
  · intro C' hC'
    rw [← hC']
    simp only [Matrix.mul_assoc]
    rw [Matrix.nonsing_inv_mul_cancel_left _ _ hu, Matrix.mul_nonsing_inv _ hut, Matrix.mul_one]

/-- C36: with positive noise variances and non-negative latent variances every noise-term covariance and every entailed
covariance is symmetric positive definite, and `inv_noise_term_covariances()` returns the inverses. -/
theorem C36_posDef (it : SetIter p) (A : Adj p) (hA : Nonneg A) (B : Matrix (Fin p) (Fin p) ℝ)
    (gamma : Matrix (Fin l) (Fin p) ℝ) (omegas : Matrix (Fin e) (Fin p) ℝ) (psis : Matrix (Fin e) (Fin l) ℝ)
    (m : LModel p l e) (h : mkModel it A B gamma omegas psis = .ok m) (ho : ∀ k i, 0 < omegas k i)
    (hp : ∀ k i, 0 ≤ psis k i) :
    (∀ k, (m.noise k).PosDef ∧ m.noise k = noiseCov gamma (psis k) (omegas k)) ∧
    (∃ C, m.covariances = .ok C ∧ ∀ k, (C k).PosDef ∧ (C k)ᵀ = C k) ∧
    ∃ Ms, m.invNoise = .ok Ms ∧ ∀ k, Ms k * m.noise k = 1 ∧ m.noise k * Ms k = 1 ∧ (Ms k).PosDef := by
  obtain ⟨hac, hB, rfl⟩ := mkModel_ok hA h
  have hdet := det_one_sub_transpose hac hB
  have hn : ∀ k, ((⟨A, B, gamma, omegas, psis, 1 - Bᵀ⟩ : LModel p l e).noise k).PosDef :=
    fun k => noise_posDef _ k (ho k) (hp k)
  refine ⟨fun k => ⟨hn k, noise_eq _ k⟩, ⟨_, covariances_ok _ hdet, fun k => ?_⟩, ⟨_, invNoise_ok_of_pos _ ho hp, fun k => ?_⟩⟩
  · have hu : IsUnit (1 - Bᵀ)⁻¹ := by
      rw [Matrix.isUnit_nonsing_inv_iff, Matrix.isUnit_iff_isUnit_det, hdet]
      exact isUnit_one
    have h1 := ((hn k).mul_mul_conjTranspose_same (B := (1 - Bᵀ)⁻¹) (Matrix.vecMul_injective_of_isUnit hu))
    rw [Matrix.conjTranspose_eq_transpose_of_trivial] at h1
    refine ⟨h1, ?_⟩
    have := h1.1
    rwa [Matrix.IsHermitian, Matrix.conjTranspose_eq_transpose_of_trivial] at this
  · have hu := isUnit_iff_ne_zero.2 (hn k).det_pos.ne'
    exact ⟨Matrix.nonsing_inv_mul _ hu, Matrix.mul_nonsing_inv _ hu, (hn k).inv⟩

/-- C36, boundary: without positivity `inv_noise_term_covariances()` raises `LinAlgError` exactly if some noise-term
covariance is singular. -/
theorem C36_singular (m : LModel p l e) : m.invNoise = .error .linAlgError ↔ ∃ k, (m.noise k).det = 0 := by
  unfold LModel.invNoise
  by_cases h : ∃ k, (m.noise k).det = 0
  · rw [if_pos h]
    simp [h]
  · rw [if_neg h]
    simp [h]

example : (exModel.noise 1).PosDef := by
  apply noise_posDef
  · intro i
    fin_cases i <;> simp [exModel]
  · intro i
    fin_cases i
    simp [exModel]

/-! ## C37, C38: the score -/

theorem scoreLoop_closed (IB : Matrix (Fin p) (Fin p) ℝ) (Ms : Fin e → Matrix (Fin p) (Fin p) ℝ) (nObs : List Nat)
    (hN : nObs.sum ≠ 0) (n : Nat → Nat) (hn : ∀ j < e, nObs[j]? = some (n j)) (T : Nat → ℝ)
    (covs : List (Matrix (Fin p) (Fin p) ℝ)) : ∀ (i : Nat) (s : ℝ), i + covs.length ≤ e →
    (∀ j σ, covs[j]? = some σ → ∀ h : i + j < e, scoreTerm IB (Ms ⟨i + j, h⟩) σ = some (T (i + j))) →
    scoreLoop IB Ms nObs i covs (some s) = .ok (some (s / (nObs.sum : ℝ) ^ covs.length +
      ∑ j ∈ Finset.range covs.length, n (i + j) * T (i + j) / (nObs.sum : ℝ) ^ (covs.length - j))) := by
  have hN' : (nObs.sum : ℝ) ≠ 0 := Nat.cast_ne_zero.2 hN
  induction covs with
  | nil =>
    intro i s _ _
    simp [scoreLoop]
  | cons σ rest ih =>
    intro i s hi hT
    simp only [List.length_cons] at hi
    have h0 := hT 0 σ (by simp) (by omega)
    simp only [Nat.add_zero] at h0
    unfold scoreLoop
    rw [hn i (by omega)]
    simp only []
    rw [dif_pos (by omega : i < e), h0]
    have hstep : Flt.divNat (Flt.add (some s) (Flt.smul (n i) (some (T i)))) nObs.sum =
        some ((s + n i * T i) / (nObs.sum : ℝ)) := by
      simp [Flt.divNat, Flt.add, Flt.smul, hN]
    rw [hstep, ih (i + 1) _ (by omega) (by
      intro j σ' hj h
      have := hT (j + 1) σ' (by simpa using hj) (by omega)
      simpa [Nat.add_assoc, Nat.add_comm 1 j] using this)]
    congr 2
    rw [List.length_cons, Finset.sum_range_succ']
    simp only [Nat.add_zero, Nat.sub_zero, Nat.add_sub_add_right]
    have : ∀ j, i + 1 + j = i + (j + 1) := fun j => by omega
    simp only [this]
    have hp : (nObs.sum : ℝ) ^ (rest.length + 1) = nObs.sum * (nObs.sum : ℝ) ^ rest.length := by ring
    rw [hp, add_div, add_div, div_div, div_div]
    ring

/-- The score described in the documentation: average of the negative log-likelihoods weighted by sample size. -/
noncomputable def Spec.weightedNLL (n : Fin e → Nat) (C S : Fin e → Matrix (Fin p) (Fin p) ℝ) : ℝ :=
  (∑ k, (n k : ℝ) * gaussNLL (C k) (S k)) / ∑ k, (n k : ℝ)

/-- C37, what the code computes: environment `k` of `e` gets the weight `n_k / N^(e-k)` (with `N` the total sample size),
because the running sum is divided by `N` in every iteration. -/
theorem C37_actual_score (it : SetIter p) (A : Adj p) (hA : Nonneg A) (B : Matrix (Fin p) (Fin p) ℝ)
    (gamma : Matrix (Fin l) (Fin p) ℝ) (omegas : Matrix (Fin e) (Fin p) ℝ) (psis : Matrix (Fin e) (Fin l) ℝ)
    (m : LModel p l e) (h : mkModel it A B gamma omegas psis = .ok m) (ho : ∀ k i, 0 < omegas k i)
    (hp : ∀ k i, 0 ≤ psis k i) (n : Fin e → Nat) (hn : ∑ k, n k ≠ 0) (S C : Fin e → Matrix (Fin p) (Fin p) ℝ)
    (hC : m.covariances = .ok C) :
    m.score (List.ofFn S) (List.ofFn n) =
      .ok (some (∑ k, (n k : ℝ) * gaussNLL (C k) (S k) / (∑ k, (n k : ℝ)) ^ (e - k.val))) := by
  obtain ⟨hac, hB, rfl⟩ := mkModel_ok hA h
  have hdet := det_one_sub_transpose hac hB
  rw [covariances_ok _ hdet] at hC
  injection hC with hC
  unfold LModel.score
  rw [invNoise_ok_of_pos _ ho hp]
  simp only []
  have hsum : (List.ofFn n).sum = ∑ k, n k := List.sum_ofFn
  have hsum' : (((List.ofFn n).sum : Nat) : ℝ) = ∑ k, (n k : ℝ) := by rw [hsum]; push_cast; rfl
  rw [scoreLoop_closed (1 - Bᵀ) _ (List.ofFn n) (by rwa [hsum]) (fun j => if hj : j < e then n ⟨j, hj⟩ else 0)
    (by intro j hj; simp [hj])
    (fun j => if hj : j < e then gaussNLL (C ⟨j, hj⟩) (S ⟨j, hj⟩) else 0) (List.ofFn S) 0 0 (by simp) ?_]
  · simp only [zero_div, zero_add, List.length_ofFn, hsum']
    congr 2
    rw [Finset.sum_range]
    refine Finset.sum_congr rfl (fun k _ => ?_)
    simp
  · intro j σ hj hlt
    have hje : j < e := by omega
    have hσ : σ = S ⟨j, hje⟩ := by simpa [hje] using hj.symm
    subst hσ
    simp only [Nat.zero_add, hje, dif_pos]
    rw [scoreTerm_inv (noise_posDef _ _ (ho _) (hp _)), term_eq_gaussNLL hdet, ← hC]

/-- C37, C38: for one environment the score is the documented one. -/
theorem C37_single_environment (it : SetIter p) (A : Adj p) (hA : Nonneg A) (B : Matrix (Fin p) (Fin p) ℝ)
    (gamma : Matrix (Fin l) (Fin p) ℝ) (omegas : Matrix (Fin 1) (Fin p) ℝ) (psis : Matrix (Fin 1) (Fin l) ℝ)
    (m : LModel p l 1) (h : mkModel it A B gamma omegas psis = .ok m) (ho : ∀ k i, 0 < omegas k i)
    (hp : ∀ k i, 0 ≤ psis k i) (n : Fin 1 → Nat) (hn : n 0 ≠ 0) (S C : Fin 1 → Matrix (Fin p) (Fin p) ℝ)
    (hC : m.covariances = .ok C) :
    m.score (List.ofFn S) (List.ofFn n) = .ok (some (weightedNLL n C S)) := by
  rw [C37_actual_score it A hA B gamma omegas psis m h ho hp n (by simpa using hn) S C hC]
  congr 2
  simp [weightedNLL]

/-- C37, violation: for two environments the score agrees with the documented one only if the first environment contributes
nothing or there is a single observation in total. -/
theorem C37_two_environments_iff (it : SetIter p) (A : Adj p) (hA : Nonneg A) (B : Matrix (Fin p) (Fin p) ℝ)
    (gamma : Matrix (Fin l) (Fin p) ℝ) (omegas : Matrix (Fin 2) (Fin p) ℝ) (psis : Matrix (Fin 2) (Fin l) ℝ)
    (m : LModel p l 2) (h : mkModel it A B gamma omegas psis = .ok m) (ho : ∀ k i, 0 < omegas k i)
    (hp : ∀ k i, 0 ≤ psis k i) (n : Fin 2 → Nat) (hn : n 0 + n 1 ≠ 0) (S C : Fin 2 → Matrix (Fin p) (Fin p) ℝ)
    (hC : m.covariances = .ok C) :
    m.score (List.ofFn S) (List.ofFn n) = .ok (some (weightedNLL n C S)) ↔
      n 0 = 0 ∨ gaussNLL (C 0) (S 0) = 0 ∨ n 0 + n 1 = 1 := by
  rw [C37_actual_score it A hA B gamma omegas psis m h ho hp n (by simpa using hn) S C hC]
  simp only [Except.ok.injEq, Option.some.injEq, Fin.sum_univ_two, weightedNLL]
  have hN : ((n 0 : ℝ) + n 1) ≠ 0 := by exact_mod_cast hn
  generalize gaussNLL (C 0) (S 0) = a
  generalize gaussNLL (C 1) (S 1) = b
  have hone : n 0 + n 1 = 1 ↔ ((n 0 : ℝ) + n 1) = 1 := by
    constructor
    · intro h; exact_mod_cast h
    · intro h; exact_mod_cast h
  rw [hone, ← Nat.cast_eq_zero (R := ℝ)]
  generalize (n 0 : ℝ) = x at hN
  generalize (n 1 : ℝ) = y at hN
  simp only [Fin.val_zero, Fin.val_one, Nat.sub_zero, Nat.add_one_sub_one, pow_one]
  have : x * a / (x + y) ^ 2 + y * b / (x + y) = (x * a + y * b) / (x + y) ↔ x * a * (x + y - 1) = 0 := by
    constructor
    · intro h
      field_simp at h
      linear_combination -h
    · intro h
      field_simp
      linear_combination -h
  rw [this, mul_eq_zero, mul_eq_zero, sub_eq_zero, or_assoc]

/-- The model of the counterexample: one variable with variance one in both environments. -/
noncomputable def unitModel : LModel 1 0 2 :=
  ⟨fun _ _ => 0, 0, Matrix.of ![], Matrix.of fun _ _ => 1, Matrix.of fun _ => Fin.elim0, 1 - 0ᵀ⟩

theorem unitModel_mk (it : SetIter 1) : mkModel it (fun _ _ => 0) 0 (Matrix.of ![]) (Matrix.of fun _ _ => 1) (Matrix.of fun _ => Fin.elim0) =
    .ok unitModel := by
  exact mkModel_eq_ok (fun _ _ => le_refl _) _ _ _ (acyclic_of_rank (fun _ => 0) (by simp [Edge])) (fun _ _ _ => rfl)

theorem unitModel_score (it : SetIter 1) (s t : ℝ) (a b : Nat) (hab : a + b ≠ 0) :
    unitModel.score (List.ofFn ![!![s], !![t]]) (List.ofFn ![a, b]) =
      .ok (some (a * s / ((a : ℝ) + b) ^ 2 + b * t / ((a : ℝ) + b))) := by
  have hcov : unitModel.covariances = .ok (fun _ => 1) := by
    rw [covariances_ok _ (by simp [unitModel])]
    congr 1
    funext k
    have : unitModel.noise k = 1 := by
      rw [noise_eq]
      ext i j
      fin_cases i
      fin_cases j
      simp [noiseCov, unitModel]
    rw [this]
    simp [unitModel]
  rw [C37_actual_score it _ (fun _ _ => le_refl _) 0 _ _ _ unitModel (unitModel_mk it) (fun _ _ => one_pos)
    (fun _ i => i.elim0) ![a, b] (by simpa [Fin.sum_univ_two] using hab) _ _ hcov]
  simp [Fin.sum_univ_two, gaussNLL, Matrix.trace]

/-- C37, violation: the score depends on the order of the environments — exchanging the data of two environments in which
the model has equal parameters changes it. -/
theorem C37_order_dependent : ∃ (m : LModel 1 0 2) (S S' : Matrix (Fin 1) (Fin 1) ℝ),
    m.omegas 0 = m.omegas 1 ∧ m.psis 0 = m.psis 1 ∧
    m.score (List.ofFn ![S, S']) (List.ofFn ![1, 1]) ≠ m.score (List.ofFn ![S', S]) (List.ofFn ![1, 1]) := by
  refine ⟨unitModel, !![1], !![2], rfl, rfl, ?_⟩
  rw [unitModel_score (SetIter.incr 1) _ _ _ _ (by norm_num), unitModel_score (SetIter.incr 1) _ _ _ _ (by norm_num)]
  simp only [ne_eq, Except.ok.injEq, Option.some.injEq]
  norm_num

/-- C38: the single-environment score is bounded below by its value at the sample covariance, and the bound is attained
exactly if the model entails the sample covariance. -/
theorem C38_minimum (it : SetIter p) (A : Adj p) (hA : Nonneg A) (B : Matrix (Fin p) (Fin p) ℝ)
    (gamma : Matrix (Fin l) (Fin p) ℝ) (omegas : Matrix (Fin 1) (Fin p) ℝ) (psis : Matrix (Fin 1) (Fin l) ℝ)
    (m : LModel p l 1) (h : mkModel it A B gamma omegas psis = .ok m) (ho : ∀ k i, 0 < omegas k i)
    (hp : ∀ k i, 0 ≤ psis k i) (n : Nat) (hn : n ≠ 0) (S : Matrix (Fin p) (Fin p) ℝ) (hS : S.PosDef) :
    ∃ C s, m.covariances = .ok C ∧ m.score [S] [n] = .ok (some s) ∧ s = Real.log (C 0).det + ((C 0)⁻¹ * S).trace ∧
      Real.log S.det + p ≤ s ∧ (s = Real.log S.det + p ↔ C 0 = S) := by
  obtain ⟨-, ⟨C, hC, hCp⟩, -⟩ := C36_posDef it A hA B gamma omegas psis m h ho hp
  have hs := C37_single_environment it A hA B gamma omegas psis m h ho hp ![n] (by simpa using hn) ![S] C hC
  have hw : weightedNLL ![n] C ![S] = gaussNLL (C 0) S := by
    have : (n : ℝ) ≠ 0 := Nat.cast_ne_zero.2 hn
    simp [weightedNLL, this]
  rw [hw] at hs
  refine ⟨C, _, hC, by simpa [gaussNLL] using hs, rfl, (gaussNLL_ge (hCp 0).1 hS).1, ?_⟩
  constructor
  · exact (gaussNLL_ge (hCp 0).1 hS).2
  · intro hcs
    have := gaussNLL_self hS
    unfold gaussNLL at this
    rw [hcs, this]

/-! ## C39: `sample` -/

/-- Numbers of observations that can be requested: positive integers, at least two if covariances are computed. -/
def Spec.GoodNum (computeCovs : Bool) : PyNum → Prop
  | .int n => 0 < n ∧ (computeCovs = true → 2 ≤ n)
  | .other => False

/-- The number of rows requested by a list entry. -/
def Spec.rows : PyNum → Nat
  | .int n => n.toNat
  | .other => 0

theorem checkNObs_ok (b : Bool) (l : List PyNum) (h : ∀ x ∈ l, GoodNum b x) : checkNObs b l = .ok (l.map rows) := by
  induction l with
  | nil => rfl
  | cons x l ih =>
    have hx := h x (by simp)
    cases x with
    | other => exact absurd hx (by simp [GoodNum])
    | int n =>
      have hx : 0 < n ∧ (b = true → 2 ≤ n) := hx
      unfold checkNObs
      rw [if_neg (by omega), if_neg (by rintro ⟨h1, h2⟩; have := hx.2 h2; omega), ih (fun y hy => h y (List.mem_cons_of_mem _ hy))]
      rfl

theorem checkNObs_bad (b : Bool) (pre : List PyNum) (x : PyNum) (post : List PyNum) (h : ∀ y ∈ pre, GoodNum b y)
    (hx : ¬ GoodNum b x) : checkNObs b (pre ++ x :: post) =
      .error (match x with | .other => .typeError | .int _ => .valueError) := by
  induction pre with
  | nil =>
    cases x with
    | other => rfl
    | int n =>
      simp only [List.nil_append]
      unfold checkNObs
      by_cases h1 : n ≤ 0
      · rw [if_pos h1]
      · rw [if_neg h1, if_pos]
        simp only [GoodNum] at hx
        cases b <;> simp_all
        omega
  | cons y pre ih =>
    have hy := h y (by simp)
    cases y with
    | other => exact absurd hy (by simp [GoodNum])
    | int n =>
      have hy : 0 < n ∧ (b = true → 2 ≤ n) := hy
      rw [List.cons_append]
      unfold checkNObs
      rw [if_neg (by omega), if_neg (by rintro ⟨h1, h2⟩; have := hy.2 h2; omega), ih (fun z hz => h z (List.mem_cons_of_mem _ hz))]

/-- The requests `sample` accepts, with the number of rows for each environment. -/
def Spec.Accepts (e : Nat) (computeCovs : Bool) : PyNObs → List Nat → Prop
  | .single n, ns => GoodNum computeCovs (.int n) ∧ ns = List.replicate e n.toNat
  | .list l, ns => l.length = e ∧ (∀ x ∈ l, GoodNum computeCovs x) ∧ ns = l.map rows
  | .other, _ => False

theorem sampleSizes_ok_iff (e : Nat) (b : Bool) (r : PyNObs) (ns : List Nat) :
    sampleSizes e b r = .ok ns ↔ Accepts e b r ns := by
  cases r with
  | other => simp [sampleSizes, Accepts]
  | single n =>
    unfold sampleSizes Accepts GoodNum
    simp only []
    split_ifs with h1 h2
    · constructor
      · intro h; simp at h
      · rintro ⟨⟨h3, h4⟩, -⟩
        have := h4 h1.1
        omega
    · rw [Except.ok.injEq]
      constructor
      · rintro rfl
        refine ⟨⟨h2, fun hb => ?_⟩, rfl⟩
        by_contra hc
        exact h1 ⟨hb, by omega⟩
      · rintro ⟨-, rfl⟩
        rfl
    · constructor
      · intro h; simp at h
      · rintro ⟨⟨h3, -⟩, -⟩
        omega
  | list l =>
    unfold sampleSizes Accepts
    simp only []
    by_cases hl : l.length ≠ e
    · rw [if_pos hl]
      simp [hl]
    · rw [if_neg hl]
      push Not at hl
      by_cases hg : ∀ x ∈ l, GoodNum b x
      · rw [checkNObs_ok b l hg, Except.ok.injEq]
        constructor
        · rintro rfl; exact ⟨hl, hg, rfl⟩
        · rintro ⟨-, -, rfl⟩; rfl
      · constructor
        · intro h
          exfalso
          have : ∃ pre x post, l = pre ++ x :: post ∧ (∀ y ∈ pre, GoodNum b y) ∧ ¬ GoodNum b x := by
            clear h hl
            induction l with
            | nil => simp at hg
            | cons y l ih =>
              by_cases hy : GoodNum b y
              · have : ¬ ∀ x ∈ l, GoodNum b x := fun hc => hg (by
                  intro x hx
                  rcases List.mem_cons.1 hx with rfl | hx
                  · exact hy
                  · exact hc x hx)
                obtain ⟨pre, x, post, rfl, h1, h2⟩ := ih this
                refine ⟨y :: pre, x, post, rfl, ?_, h2⟩
                intro z hz
                rcases List.mem_cons.1 hz with rfl | hz
                · exact hy
                · exact h1 z hz
              · exact ⟨[], y, l, rfl, by simp, hy⟩
          obtain ⟨pre, x, post, rfl, h1, h2⟩ := this
          rw [checkNObs_bad b pre x post h1 h2] at h
          simp at h
        · rintro ⟨-, h, -⟩
          exact absurd h hg

/-- C39: for a model with invertible `I - Bᵀ` (every constructed one, C35) `sample` returns exactly for the accepted requests;
then there is one sample per environment with the requested number of rows, and with `compute_covs` the sample covariances
and the requested numbers. -/
theorem C39_sample (normal : Nat → Matrix (Fin p) (Fin p) ℝ → Nat → List (Fin p → ℝ))
    (hnormal : ∀ k C n, (normal k C n).length = n) (cov : List (Fin p → ℝ) → Matrix (Fin p) (Fin p) ℝ)
    (it : SetIter p) (A : Adj p) (hA : Nonneg A) (B : Matrix (Fin p) (Fin p) ℝ)
    (gamma : Matrix (Fin l) (Fin p) ℝ) (omegas : Matrix (Fin e) (Fin p) ℝ) (psis : Matrix (Fin e) (Fin l) ℝ)
    (m : LModel p l e) (h : mkModel it A B gamma omegas psis = .ok m) (r : PyNObs) (b : Bool) :
    ((∃ res, m.sample normal cov r b = .ok res) ↔ ∃ ns, Accepts e b r ns) ∧
    ∀ X extra, m.sample normal cov r b = .ok (X, extra) → ∃ ns, Accepts e b r ns ∧ ns.length = e ∧
      X.map List.length = ns ∧ extra = if b then some (X.map cov, ns) else none := by
  obtain ⟨hac, hB, rfl⟩ := mkModel_ok hA h
  have hcov := covariances_ok (⟨A, B, gamma, omegas, psis, 1 - Bᵀ⟩ : LModel p l e) (det_one_sub_transpose hac hB)
  unfold LModel.sample
  rw [hcov]
  constructor
  · constructor
    · rintro ⟨res, hr⟩
      cases hs : sampleSizes e b r with
      | error err => rw [hs] at hr; simp at hr
      | ok ns => exact ⟨ns, (sampleSizes_ok_iff e b r ns).1 hs⟩
    · rintro ⟨ns, hns⟩
      rw [(sampleSizes_ok_iff e b r ns).2 hns]
      exact ⟨_, rfl⟩
  · intro X extra hr
    cases hs : sampleSizes e b r with
    | error err => rw [hs] at hr; simp at hr
    | ok ns =>
      rw [hs] at hr
      simp only [Except.ok.injEq, Prod.mk.injEq] at hr
      have hacc := (sampleSizes_ok_iff e b r ns).1 hs
      have hlen : ns.length = e := by
        cases r with
        | other => exact absurd hacc (by simp [Accepts])
        | single n => rw [hacc.2]; simp
        | list l => rw [hacc.2.2]; simpa using hacc.1
      refine ⟨ns, hacc, hlen, ?_, ?_⟩
      · rw [← hr.1, List.map_map]
        apply List.ext_getElem
        · simp [hlen]
        · intro k h1 h2
          simp [hnormal, List.getD_eq_getElem?_getD, List.getElem?_eq_getElem h2]
      · rw [← hr.2, ← hr.1]

/-- C39: `TypeError` is raised for a request that is neither an integer nor a list, and for a list of the right length whose
first unacceptable entry is not an integer; every other unacceptable request is a `ValueError`. -/
theorem C39_raises (e : Nat) (b : Bool) (r : PyNObs) :
    (sampleSizes e b r = .error .typeError ↔ r = .other ∨ ∃ pre post, r = .list (pre ++ .other :: post) ∧
      (pre ++ .other :: post).length = e ∧ ∀ y ∈ pre, GoodNum b y) ∧
    ((∀ ns, ¬ Accepts e b r ns) → sampleSizes e b r = .error .typeError ∨ sampleSizes e b r = .error .valueError) := by
  have hfirst : ∀ l : List PyNum, (¬ ∀ x ∈ l, GoodNum b x) →
      ∃ pre x post, l = pre ++ x :: post ∧ (∀ y ∈ pre, GoodNum b y) ∧ ¬ GoodNum b x := by
    intro l
    induction l with
    | nil => intro hg; simp at hg
    | cons y l ih =>
      intro hg
      by_cases hy : GoodNum b y
      · have : ¬ ∀ x ∈ l, GoodNum b x := fun hc => hg (by
          intro x hx
          rcases List.mem_cons.1 hx with rfl | hx
          · exact hy
          · exact hc x hx)
        obtain ⟨pre, x, post, rfl, h1, h2⟩ := ih this
        refine ⟨y :: pre, x, post, rfl, ?_, h2⟩
        intro z hz
        rcases List.mem_cons.1 hz with rfl | hz
        · exact hy
        · exact h1 z hz
      · exact ⟨[], y, l, rfl, by simp, hy⟩
  have hother : ¬ GoodNum b .other := by simp [GoodNum]
  constructor
  · constructor
    · intro h
      cases r with
      | other => exact Or.inl rfl
      | single n =>
        exfalso
        unfold sampleSizes at h
        simp only [] at h
        split_ifs at h <;> simp at h
      | list l =>
        right
        unfold sampleSizes at h
        simp only [] at h
        split_ifs at h with hl
        · simp at h
        push Not at hl
        by_cases hg : ∀ x ∈ l, GoodNum b x
        · rw [checkNObs_ok b l hg] at h
          simp at h
        · obtain ⟨pre, x, post, rfl, h1, h2⟩ := hfirst l hg
          rw [checkNObs_bad b pre x post h1 h2] at h
          cases x with
          | int n => simp at h
          | other => exact ⟨pre, post, rfl, hl, h1⟩
    · rintro (rfl | ⟨pre, post, rfl, hl, h1⟩)
      · rfl
      · unfold sampleSizes
        simp only []
        rw [if_neg (by simpa using hl), checkNObs_bad b pre .other post h1 hother]
  · intro hn
    cases r with
    | other => exact Or.inl rfl
    | single n =>
      right
      cases hs : sampleSizes e b (.single n) with
      | ok ns => exact absurd ((sampleSizes_ok_iff e b _ ns).1 hs) (hn ns)
      | error err =>
        unfold sampleSizes at hs
        simp only [] at hs
        split_ifs at hs <;> simp at hs <;> rw [hs]
    | list l =>
      unfold sampleSizes
      simp only []
      split_ifs with hl
      · exact Or.inr rfl
      push Not at hl
      by_cases hg : ∀ x ∈ l, GoodNum b x
      · exact absurd ⟨hl, hg, rfl⟩ (hn (l.map rows))
      · obtain ⟨pre, x, post, rfl, h1, h2⟩ := hfirst l hg
        rw [checkNObs_bad b pre x post h1 h2]
        cases x with
        | int n => exact Or.inr rfl
        | other => exact Or.inl rfl

example : sampleSizes 2 true (.list [.int 3, .int 4]) = .ok [3, 4] ∧ sampleSizes 2 true (.single 1) = .error .valueError ∧
    sampleSizes 2 false (.list [.other, .int 0]) = .error .typeError := by decide

end Verif
