import Verif.Props.Nested
import Verif.Props.Changes
import Mathlib.Algebra.Order.Chebyshev

/-!
# C101, boundary: how many latents make all graphs indistinguishable

With one environment `p - 1` latents and with two environments `p` latents are enough for every DAG, even the one without edges, to entail
every choice of positive definite covariances, without any target; with fewer latents this is false.
-/

namespace Verif

open Spec Matrix

variable {p l e : Nat}

theorem spectral_real {X : Matrix (Fin p) (Fin p) ℝ} (hX : X.IsHermitian) :
    ∃ U : Matrix (Fin p) (Fin p) ℝ, U * Uᵀ = 1 ∧ X = U * diagonal hX.eigenvalues * Uᵀ := by
  refine ⟨(hX.eigenvectorUnitary : Matrix (Fin p) (Fin p) ℝ), ?_, ?_⟩
  · have := Unitary.mul_star_self_of_mem hX.eigenvectorUnitary.2
    rwa [Matrix.star_eq_conjTranspose, Matrix.conjTranspose_eq_transpose_of_trivial] at this
  · have := hX.spectral_theorem
    simpa [Unitary.conjStarAlgAut_apply, Matrix.star_eq_conjTranspose, Function.comp_def] using this

/-- Two covariance matrices can be written with the same latent effects and different variances of the latents. -/
theorem simultaneous_diagonal {S T : Matrix (Fin p) (Fin p) ℝ} (hS : S.PosDef) (hT : T.PosSemidef) :
    ∃ (R : Matrix (Fin p) (Fin p) ℝ) (w : Fin p → ℝ), (∀ a, 0 ≤ w a) ∧ S = Rᵀ * R ∧ T = Rᵀ * diagonal w * R := by
  obtain ⟨L, hL⟩ : ∃ L : Matrix (Fin p) (Fin p) ℝ, S = Lᵀ * L := by
    open scoped MatrixOrder in
    obtain ⟨Q, hQ⟩ := CStarAlgebra.nonneg_iff_eq_star_mul_self.mp hS.posSemidef.nonneg
    rw [Matrix.star_eq_conjTranspose, Matrix.conjTranspose_eq_transpose_of_trivial] at hQ
    exact ⟨Q, hQ⟩
  have hdet : IsUnit L.det := by
    have h := hS.det_pos
    rw [hL, det_mul, det_transpose] at h
    rw [isUnit_iff_ne_zero]
    intro h0
    simp [h0] at h
  have hX : ((L⁻¹)ᴴ * T * L⁻¹).PosSemidef := hT.conjTranspose_mul_mul_same _
  obtain ⟨U, hUU, hsp⟩ := spectral_real hX.1
  refine ⟨Uᵀ * L, hX.1.eigenvalues, hX.eigenvalues_nonneg, ?_, ?_⟩
  · rw [transpose_mul, transpose_transpose, Matrix.mul_assoc, ← Matrix.mul_assoc U, hUU, Matrix.one_mul, hL]
  · have h1 : T = Lᵀ * ((L⁻¹)ᴴ * T * L⁻¹) * L := by
      rw [Matrix.conjTranspose_eq_transpose_of_trivial, Matrix.mul_assoc, Matrix.mul_assoc, Matrix.nonsing_inv_mul _ hdet, Matrix.mul_one,
        ← Matrix.mul_assoc, ← transpose_mul, Matrix.nonsing_inv_mul _ hdet, transpose_one, Matrix.one_mul]
    conv_lhs => rw [h1, hsp]
    rw [transpose_mul, transpose_transpose]
    simp only [Matrix.mul_assoc]

/-- A model without weights and with constant noise variances that entails given covariances. -/
theorem no_weights (it : SetIter p) (A : Adj p) (hA : Nonneg A) (hac : Acyclic A) (C : Fin e → Matrix (Fin p) (Fin p) ℝ)
    (gamma : Matrix (Fin l) (Fin p) ℝ) (psis : Matrix (Fin e) (Fin l) ℝ) (w : Fin p → ℝ) (hw : ∀ i, 0 < w i)
    (h : ∀ k, C k = noiseCov gamma (psis k) w) :
    ∃ m : LModel p l e, Admissible it ∅ A psis m ∧ m.B = 0 ∧ m.covariances = .ok C := by
  have hB : Respects A (0 : Matrix (Fin p) (Fin p) ℝ) := fun _ _ _ => rfl
  have hmk := mkModel_eq_ok (it := it) hA gamma (Matrix.of fun _ i => w i : Matrix (Fin e) (Fin p) ℝ) psis hac hB
  refine ⟨_, ⟨0, gamma, _, hmk, fun _ i => hw i, fun _ _ _ _ => rfl⟩, rfl, ?_⟩
  obtain ⟨-, C', hC', hent⟩ := C35_covariances it A hA 0 gamma _ psis _ hmk
  rw [hC']
  congr 1
  funext k
  refine ((hent k).2 _ ?_).symm
  unfold Entails
  simp only [Matrix.transpose_zero, sub_zero, Matrix.transpose_one, Matrix.one_mul, Matrix.mul_one]
  exact h k

/-- C101, boundary: with two environments as many latents as variables are too many: every DAG, even the one without edges, entails every
two positive definite covariances, without weights and without targets.  In general `p` latents for every two environments are enough. -/
theorem C101_pairs (it : SetIter p) (A : Adj p) (hA : Nonneg A) (hac : Acyclic A) (C : Fin e → Matrix (Fin p) (Fin p) ℝ)
    (hC : ∀ k, (C k).PosDef) :
    ∃ (psis : Matrix (Fin e) (Fin ((e + 1) / 2 * p)) ℝ) (m : LModel p ((e + 1) / 2 * p) e), (∀ k i, 0 ≤ psis k i) ∧
      Admissible it ∅ A psis m ∧ m.B = 0 ∧ m.covariances = .ok C := by
  choose ε hε hsub using fun k => posDef_sub (hC k)
  obtain ⟨δ, hδ, hle⟩ : ∃ δ : ℝ, 0 < δ ∧ ∀ k, δ < ε k := by
    rcases isEmpty_or_nonempty (Fin e) with hn | hn
    · exact ⟨1, one_pos, fun i => (hn.false i).elim⟩
    · obtain ⟨i, -, hi⟩ := Finset.exists_min_image (Finset.univ : Finset (Fin e)) ε ⟨hn.some, Finset.mem_univ _⟩
      exact ⟨ε i / 2, half_pos (hε i), fun j => lt_of_lt_of_le (half_lt_self (hε i)) (hi j (Finset.mem_univ _))⟩
  have hpd : ∀ k, (C k - δ • (1 : Matrix (Fin p) (Fin p) ℝ)).PosDef := by
    intro k
    have h1 := hsub k (ε k) le_rfl
    have h2 : ((ε k - δ) • (1 : Matrix (Fin p) (Fin p) ℝ)).PosDef := Matrix.PosDef.one.smul (sub_pos.2 (hle k))
    have h3 := Matrix.PosDef.posSemidef_add h1 h2
    convert h3 using 1
    rw [sub_smul]
    abel
  -- the two matrices of a pair, the second one being arbitrary if there is no second environment
  have hpair : ∀ g : Fin ((e + 1) / 2), ∃ (R : Matrix (Fin p) (Fin p) ℝ) (w : Fin p → ℝ), (∀ a, 0 ≤ w a) ∧
      (∀ k : Fin e, k.val = 2 * g.val → C k - δ • (1 : Matrix (Fin p) (Fin p) ℝ) = Rᵀ * R) ∧
      ∀ k : Fin e, k.val = 2 * g.val + 1 → C k - δ • (1 : Matrix (Fin p) (Fin p) ℝ) = Rᵀ * diagonal w * R := by
    intro g
    have hg : 2 * g.val < e := by have := g.2; omega
    by_cases hg1 : 2 * g.val + 1 < e
    · obtain ⟨R, w, h1, h2, h3⟩ := simultaneous_diagonal (hpd ⟨_, hg⟩) (hpd ⟨_, hg1⟩).posSemidef
      refine ⟨R, w, h1, fun k hk => ?_, fun k hk => ?_⟩
      · rw [← h2]; congr 2; exact Fin.ext hk
      · rw [← h3]; congr 2; exact Fin.ext hk
    · obtain ⟨R, w, h1, h2, -⟩ := simultaneous_diagonal (hpd ⟨_, hg⟩) (hpd ⟨_, hg⟩).posSemidef
      refine ⟨R, w, h1, fun k hk => ?_, fun k hk => ?_⟩
      · rw [← h2]; congr 2; exact Fin.ext hk
      · exact absurd k.2 (by omega)
  choose R w hw hR0 hR1 using hpair
  set gamma : Matrix (Fin ((e + 1) / 2 * p)) (Fin p) ℝ :=
    Matrix.of fun b i => R (finProdFinEquiv.symm b).1 (finProdFinEquiv.symm b).2 i with hg
  set psis : Matrix (Fin e) (Fin ((e + 1) / 2 * p)) ℝ := Matrix.of fun k b =>
    if k.val = 2 * (finProdFinEquiv.symm b).1.val then 1
    else if k.val = 2 * (finProdFinEquiv.symm b).1.val + 1 then w (finProdFinEquiv.symm b).1 (finProdFinEquiv.symm b).2 else 0 with hps
  obtain ⟨m, h1, h2, h3⟩ := no_weights it A hA hac C gamma psis (fun _ => δ) (fun _ => hδ) (by
    intro k
    ext i j
    unfold noiseCov
    rw [← finProdFinEquiv.sum_comp, Fintype.sum_prod_type]
    simp only [hg, hps, Matrix.of_apply, Equiv.symm_apply_apply]
    have hk : k.val / 2 < (e + 1) / 2 := by have := k.2; omega
    rw [Finset.sum_eq_single ⟨k.val / 2, hk⟩]
    · rcases Nat.mod_two_eq_zero_or_one k.val with h0 | h0
      · have hk0 : k.val = 2 * (k.val / 2) := by omega
        have := congrFun (congrFun (hR0 ⟨k.val / 2, hk⟩ k hk0) i) j
        rw [Matrix.sub_apply, Matrix.mul_apply, sub_eq_iff_eq_add] at this
        rw [this]
        congr 1
        · refine Finset.sum_congr rfl fun a _ => ?_
          rw [if_pos hk0]
          simp [Matrix.transpose_apply]
        · simp [Matrix.one_apply]
      · have hk1 : k.val = 2 * (k.val / 2) + 1 := by omega
        have := congrFun (congrFun (hR1 ⟨k.val / 2, hk⟩ k hk1) i) j
        rw [Matrix.sub_apply, Matrix.mul_apply, sub_eq_iff_eq_add] at this
        rw [this]
        congr 1
        · refine Finset.sum_congr rfl fun a _ => ?_
          rw [if_neg (by simp only; omega), if_pos hk1, Matrix.mul_diagonal, Matrix.transpose_apply]
        · simp [Matrix.one_apply]
    · intro g _ hne
      refine Finset.sum_eq_zero fun a _ => ?_
      have hne' : k.val / 2 ≠ g.val := fun h => hne (Fin.ext h.symm)
      rw [if_neg (by omega), if_neg (by omega)]
      ring
    · intro h
      exact absurd (Finset.mem_univ _) h)
  refine ⟨psis, m, fun k b => ?_, h1, h2, h3⟩
  simp only [hps, Matrix.of_apply]
  split_ifs
  · norm_num
  · exact hw _ _
  · norm_num

/-- C101, boundary: with one environment one latent less than there are variables is too many: every DAG, even the one without edges,
entails every positive definite covariance, without weights. -/
theorem C101_one_environment_latents {q : Nat} (it : SetIter (q + 1)) (A : Adj (q + 1)) (hA : Nonneg A) (hac : Acyclic A)
    (C : Fin 1 → Matrix (Fin (q + 1)) (Fin (q + 1)) ℝ) (hC : ∀ k, (C k).PosDef) :
    ∃ (psis : Matrix (Fin 1) (Fin q) ℝ) (m : LModel (q + 1) q 1), (∀ k i, 0 ≤ psis k i) ∧
      Admissible it ∅ A psis m ∧ m.B = 0 ∧ m.covariances = .ok C := by
  have hX := hC 0
  obtain ⟨j, -, hj⟩ := Finset.exists_min_image (Finset.univ : Finset (Fin (q + 1))) hX.1.eigenvalues ⟨0, Finset.mem_univ _⟩
  set ev := hX.1.eigenvalues with hev
  obtain ⟨U, hUU, hsp⟩ := spectral_real hX.1
  rw [← hev] at hsp
  obtain ⟨m, h1, h2, h3⟩ := no_weights it A hA hac C (Matrix.of fun b i => U i (j.succAbove b))
    (Matrix.of fun _ b => ev (j.succAbove b) - ev j) (fun _ => ev j) (fun _ => hX.eigenvalues_pos j) (by
    intro k
    obtain rfl : k = 0 := Subsingleton.elim _ _
    ext a b
    have e1 : C 0 a b = ∑ x, U a x * ev x * U b x := by
      rw [hsp, Matrix.mul_apply]
      refine Finset.sum_congr rfl fun x _ => ?_
      rw [Matrix.mul_diagonal, Matrix.transpose_apply]
    have e2 : (if a = b then (1 : ℝ) else 0) = ∑ x, U a x * U b x := by
      have := congrFun (congrFun hUU a) b
      rw [Matrix.mul_apply, Matrix.one_apply] at this
      rw [← this]
      rfl
    unfold noiseCov
    have e3 : (if a = b then ev j else 0) = ev j * ∑ x, U a x * U b x := by rw [← e2]; split_ifs <;> simp
    simp only [Matrix.of_apply]
    rw [e1, e3, Fin.sum_univ_succAbove _ j, Fin.sum_univ_succAbove (fun x => U a x * U b x) j, mul_add, Finset.mul_sum]
    have e4 : ∑ x, U a (j.succAbove x) * ev (j.succAbove x) * U b (j.succAbove x) =
        (∑ x, U a (j.succAbove x) * (ev (j.succAbove x) - ev j) * U b (j.succAbove x)) +
          ∑ x, ev j * (U a (j.succAbove x) * U b (j.succAbove x)) := by
      rw [← Finset.sum_add_distrib]
      exact Finset.sum_congr rfl fun x _ => by ring
    rw [e4]
    ring)
  exact ⟨_, m, fun k b => sub_nonneg.2 (hj _ (Finset.mem_univ _)), h1, h2, h3⟩

/-- A model that entails the sample covariances has the smallest score. -/
theorem entailing_score {it : SetIter p} {A : Adj p} (hA : Nonneg A) {psis : Matrix (Fin e) (Fin l) ℝ} (hp : ∀ k i, 0 ≤ psis k i)
    {I : Finset (Fin p)} {m : LModel p l e} (hm : Admissible it I A psis m) {S : Fin e → Matrix (Fin p) (Fin p) ℝ} (hc : m.covariances = .ok S)
    (hS : ∀ k, (S k).PosDef) {n : Fin e → Nat} (hn : ∀ k, 0 < n k) (he : 0 < e) :
    ∃ s : ℝ, m.score (List.ofFn S) (List.ofFn n) = .ok (some s) ∧
      ∀ (l' : Nat) (m' : LModel p l' e) (s' : ℝ), Proper it m' → m'.score (List.ofFn S) (List.ofFn n) = .ok (some s') → s ≤ s' := by
  have hm : Proper it m := by
    obtain ⟨B, gamma, omegas, k1, k2, -⟩ := hm
    exact ⟨A, B, gamma, omegas, psis, hA, k1, k2, hp⟩
  obtain ⟨s, k1, -, k3⟩ := proper_score hm n hn he S hS
  refine ⟨s, k1, fun l' m' s' hm' hs' => ?_⟩
  obtain ⟨s'', k4, k5, -⟩ := proper_score hm' n hn he S hS
  rw [hs'] at k4
  cases k4
  rw [k3.2 hc]
  exact k5

/-- C101, boundary: hence with this many latents the graph without edges, like every other DAG, attains the smallest score that any valid
model over any graph with any number of latents can have on the data: the score says nothing about the graph. -/
theorem C101_pairs_score (it : SetIter p) (A : Adj p) (hA : Nonneg A) (hac : Acyclic A) (S : Fin e → Matrix (Fin p) (Fin p) ℝ)
    (hS : ∀ k, (S k).PosDef) (n : Fin e → Nat) (hn : ∀ k, 0 < n k) (he : 0 < e) :
    ∃ (psis : Matrix (Fin e) (Fin ((e + 1) / 2 * p)) ℝ) (m : LModel p ((e + 1) / 2 * p) e) (s : ℝ), (∀ k i, 0 ≤ psis k i) ∧
      Admissible it ∅ A psis m ∧ m.B = 0 ∧ m.score (List.ofFn S) (List.ofFn n) = .ok (some s) ∧
      ∀ (l' : Nat) (m' : LModel p l' e) (s' : ℝ), Proper it m' → m'.score (List.ofFn S) (List.ofFn n) = .ok (some s') → s ≤ s' := by
  obtain ⟨psis, m, h0, h1, h2, h3⟩ := C101_pairs it A hA hac S hS
  obtain ⟨s, k1, k2⟩ := entailing_score hA h0 h1 h3 hS hn he
  exact ⟨psis, m, s, h0, h1, h2, k1, k2⟩

/-- C101, boundary: the same with one environment and one latent less than there are variables, which is a candidate of the default
`nums_latent=None` whenever the scree cutoff is `p - 1`. -/
theorem C101_one_environment_score {q : Nat} (it : SetIter (q + 1)) (A : Adj (q + 1)) (hA : Nonneg A) (hac : Acyclic A)
    (S : Fin 1 → Matrix (Fin (q + 1)) (Fin (q + 1)) ℝ) (hS : ∀ k, (S k).PosDef) (n : Fin 1 → Nat) (hn : ∀ k, 0 < n k) :
    ∃ (psis : Matrix (Fin 1) (Fin q) ℝ) (m : LModel (q + 1) q 1) (s : ℝ), (∀ k i, 0 ≤ psis k i) ∧
      Admissible it ∅ A psis m ∧ m.B = 0 ∧ m.score (List.ofFn S) (List.ofFn n) = .ok (some s) ∧
      ∀ (l' : Nat) (m' : LModel (q + 1) l' 1) (s' : ℝ), Proper it m' → m'.score (List.ofFn S) (List.ofFn n) = .ok (some s') → s ≤ s' := by
  obtain ⟨psis, m, h0, h1, h2, h3⟩ := C101_one_environment_latents it A hA hac S hS
  obtain ⟨s, k1, k2⟩ := entailing_score hA h0 h1 h3 hS hn one_pos
  exact ⟨psis, m, s, h0, h1, h2, k1, k2⟩

/-- C101: fewer latents are not enough.  With two environments there are positive definite covariances that no model over any DAG entails
if it has fewer targets and latents, taken together, than variables. -/
theorem C101_pairs_sharp (it : SetIter p) (A : Adj p) (hA : Nonneg A) (I : Finset (Fin p)) (psis : Matrix (Fin 2) (Fin l) ℝ) (m : LModel p l 2)
    (h : Admissible it I A psis m) (hlt : I.card + l < p) : m.covariances ≠ .ok ![1, (2 : ℝ) • 1] := by
  intro hm
  obtain ⟨B, gamma, omegas, h1, -, h3⟩ := h
  have hr := C102_rank_le it A hA B gamma omegas psis m h1 _ hm 1 0
  have e1 : (![1, (2 : ℝ) • 1] : Fin 2 → Matrix (Fin p) (Fin p) ℝ) 1 - (![1, (2 : ℝ) • 1] : Fin 2 → Matrix (Fin p) (Fin p) ℝ) 0 = 1 := by
    simp [two_smul]
  rw [e1, Matrix.rank_one, Fintype.card_fin] at hr
  have c1 : (Finset.univ.filter fun i => omegas 1 i ≠ omegas 0 i).card ≤ I.card := by
    refine Finset.card_le_card fun i hi => ?_
    by_contra hc
    exact (Finset.mem_filter.1 hi).2 (h3 1 0 i hc)
  have c2 : (Finset.univ.filter fun b => psis 1 b ≠ psis 0 b).card ≤ l := by
    refine (Finset.card_le_univ _).trans ?_
    simp
  omega

/-- The identity minus a small multiple of the matrix of ones is positive definite. -/
theorem negative_posDef : (1 - (1 / ((p : ℝ) + 1)) • Matrix.of fun _ _ => (1 : ℝ) : Matrix (Fin p) (Fin p) ℝ).PosDef := by
  refine Matrix.PosDef.of_dotProduct_mulVec_pos ?_ fun x hx => ?_
  · ext i j
    simp [Matrix.one_apply, eq_comm]
  · have e1 : star x ⬝ᵥ ((1 - (1 / ((p : ℝ) + 1)) • Matrix.of fun _ _ => (1 : ℝ) : Matrix (Fin p) (Fin p) ℝ) *ᵥ x) =
        ∑ i, x i ^ 2 - (∑ i, x i) ^ 2 / ((p : ℝ) + 1) := by
      have e2 : (Matrix.of fun _ _ => (1 : ℝ) : Matrix (Fin p) (Fin p) ℝ) *ᵥ x = fun _ => ∑ i, x i := by
        ext i
        simp [Matrix.mulVec, dotProduct]
      rw [Matrix.sub_mulVec, Matrix.one_mulVec, Matrix.smul_mulVec, e2, dotProduct_sub, dotProduct_smul]
      have e3 : star x ⬝ᵥ x = ∑ i, x i ^ 2 := by simp [dotProduct, pow_two]
      have e4 : (star x ⬝ᵥ fun _ => ∑ i, x i) = (∑ i, x i) ^ 2 := by
        simp [dotProduct, pow_two, ← Finset.sum_mul]
      rw [e3, e4, smul_eq_mul]
      ring
    rw [e1]
    have h1 : (∑ i, x i) ^ 2 ≤ p * ∑ i, x i ^ 2 := by
      have := sq_sum_le_card_mul_sum_sq (s := (Finset.univ : Finset (Fin p))) (f := x)
      simpa using this
    have h2 : 0 < ∑ i, x i ^ 2 := by
      obtain ⟨i, hi⟩ : ∃ i, x i ≠ 0 := by
        by_contra hc
        push Not at hc
        exact hx (funext hc)
      exact Finset.sum_pos' (fun _ _ => sq_nonneg _) ⟨i, Finset.mem_univ _, by positivity⟩
    rw [sub_pos, div_lt_iff₀ (by positivity)]
    nlinarith

theorem chain_posDef : (!![1, 1, 1; 1, 2, 2; 1, 2, 3] : Matrix (Fin 3) (Fin 3) ℝ).PosDef := by
  have : (!![1, 1, 1; 1, 2, 2; 1, 2, 3] : Matrix (Fin 3) (Fin 3) ℝ) = (!![1, 1, 1; 0, 1, 1; 0, 0, 1] : Matrix (Fin 3) (Fin 3) ℝ)ᴴ * !![1, 1, 1; 0, 1, 1; 0, 0, 1] := by
    rw [Matrix.conjTranspose_eq_transpose_of_trivial]
    ext i j
    fin_cases i <;> fin_cases j <;> simp [Matrix.mul_apply, Fin.sum_univ_three, Matrix.transpose_apply] <;> norm_num
  rw [this]
  refine Matrix.PosDef.conjTranspose_mul_self _ (Matrix.mulVec_injective_of_isUnit ?_)
  rw [Matrix.isUnit_iff_isUnit_det]
  simp [Matrix.det_fin_three]

/-- C101: fewer latents are not enough.  With one environment there is a positive definite covariance that no model over the graph without
edges entails if it has at least two latents less than there are variables. -/
theorem C101_one_environment_sharp (it : SetIter p) (psis : Matrix (Fin 1) (Fin l) ℝ) (hp : ∀ k i, 0 ≤ psis k i) (m : LModel p l 1)
    (I : Finset (Fin p)) (h : Admissible it I 0 psis m) (hlt : l + 1 < p) :
    m.covariances ≠ .ok (fun _ => 1 - (1 / ((p : ℝ) + 1)) • Matrix.of fun _ _ => (1 : ℝ)) := by
  intro hm
  obtain ⟨B, gamma, omegas, h1, -, -⟩ := h
  obtain ⟨-, C, hC, hent⟩ := C35_covariances it 0 (fun _ _ => le_rfl) B gamma omegas psis m h1
  rw [hm] at hC
  cases hC
  have hB : B = 0 := by
    obtain ⟨-, hres, -⟩ := mkModel_fields h1
    ext i j
    exact hres i j rfl
  have h2 := (hent 0).1
  rw [hB] at h2
  unfold Entails at h2
  simp only [Matrix.transpose_zero, sub_zero, Matrix.transpose_one, Matrix.one_mul, Matrix.mul_one] at h2
  set c : ℝ := 1 / ((p : ℝ) + 1) with hc
  have hcpos : 0 < c := by positivity
  have hent' : ∀ i j, (if i = j then 1 else 0) - c = (∑ k, gamma k i * psis 0 k * gamma k j) + if i = j then omegas 0 i else 0 := by
    intro i j
    have := congrFun (congrFun h2 i) j
    simpa [noiseCov, Matrix.one_apply] using this
  have hdiag : Matrix.diagonal (fun i => 1 - omegas 0 i) = gammaᵀ * (Matrix.diagonal (psis 0) * gamma) + vecMulVec (fun _ => c) (fun _ => 1) := by
    ext i j
    rw [Matrix.add_apply, Matrix.mul_apply, vecMulVec_apply, Matrix.diagonal_apply]
    have h3 : ∑ k, gammaᵀ i k * (Matrix.diagonal (psis 0) * gamma) k j = ∑ k, gamma k i * psis 0 k * gamma k j := by
      refine Finset.sum_congr rfl fun k _ => ?_
      rw [Matrix.diagonal_mul, Matrix.transpose_apply]
      ring
    rw [h3]
    have := hent' i j
    split_ifs at this ⊢ <;> linarith
  have hne : ∀ i, 1 - omegas 0 i ≠ 0 := by
    intro i
    have := hent' i i
    simp only [if_true] at this
    have h0 : 0 ≤ ∑ k, gamma k i * psis 0 k * gamma k i := Finset.sum_nonneg fun k _ => by nlinarith [hp 0 k, mul_self_nonneg (gamma k i)]
    intro h
    linarith
  have hr : (Matrix.diagonal (fun i => 1 - omegas 0 i)).rank = p := by
    rw [Matrix.rank_of_isUnit, Fintype.card_fin]
    rw [Matrix.isUnit_iff_isUnit_det, Matrix.det_diagonal, isUnit_iff_ne_zero]
    exact Finset.prod_ne_zero_iff.2 fun i _ => hne i
  rw [hdiag] at hr
  have h3 := matrix_rank_add_le (gammaᵀ * (Matrix.diagonal (psis 0) * gamma)) (vecMulVec (fun _ : Fin p => c) (fun _ : Fin p => (1 : ℝ)))
  have h4 := Matrix.rank_vecMulVec_le (fun _ : Fin p => c) (fun _ : Fin p => (1 : ℝ))
  have h5 : (gammaᵀ * (Matrix.diagonal (psis 0) * gamma)).rank ≤ l :=
    (Matrix.rank_mul_le_left _ _).trans ((Matrix.rank_le_width _))
  omega

/-! ## Concrete cases -/

/-- The graph without edges over three variables entails the covariances of `0 → 1 → 2`, with two latents if there is one environment. -/
example (it : SetIter 3) : ∃ (psis : Matrix (Fin 1) (Fin 2) ℝ) (m : LModel 3 2 1), (∀ k i, 0 ≤ psis k i) ∧ Admissible it ∅ 0 psis m ∧ m.B = 0 ∧
    m.covariances = .ok (fun _ => !![1, 1, 1; 1, 2, 2; 1, 2, 3]) :=
  C101_one_environment_latents it 0 (fun _ _ => le_rfl) ((isDag_iff (SetIter.incr 3) (fun _ _ => le_rfl)).1 (by decide)) _ fun _ => chain_posDef

/-- ... and with three latents if there are two environments in which all noise variances differ. -/
example (it : SetIter 3) (n : Fin 2 → Nat) (hn : ∀ k, 0 < n k) :
    ∃ (psis : Matrix (Fin 2) (Fin 3) ℝ) (m : LModel 3 3 2) (s : ℝ), (∀ k i, 0 ≤ psis k i) ∧ Admissible it ∅ 0 psis m ∧ m.B = 0 ∧
      m.score (List.ofFn ![!![1, 1, 1; 1, 2, 2; 1, 2, 3], 1]) (List.ofFn n) = .ok (some s) ∧
      ∀ (l' : Nat) (m' : LModel 3 l' 2) (s' : ℝ), Proper it m' →
        m'.score (List.ofFn ![!![1, 1, 1; 1, 2, 2; 1, 2, 3], 1]) (List.ofFn n) = .ok (some s') → s ≤ s' :=
  C101_pairs_score it 0 (fun _ _ => le_rfl) ((isDag_iff (SetIter.incr 3) (fun _ _ => le_rfl)).1 (by decide)) _
    (by intro k; fin_cases k; exacts [chain_posDef, Matrix.PosDef.one]) n hn two_pos

end Verif
