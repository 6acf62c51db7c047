import Verif.Props.ApartReturn

/-!
# C112: boundaries and examples
-/

namespace Verif

open Spec Matrix

variable {p l l' e : Nat}

/-- C112, boundary: the variances of the latents must not change.  With latents whose variances change, the covariances of every model are also
entailed by a model without weights over any graph and with noise variances that do not change. -/
theorem C112_latents_change (it : SetIter p) (A H : Adj p) (hA : Nonneg A) (hH : Nonneg H) (hac : Acyclic H) (B : Matrix (Fin p) (Fin p) ℝ)
    (gamma : Matrix (Fin l) (Fin p) ℝ) (omegas : Matrix (Fin e) (Fin p) ℝ) (psis : Matrix (Fin e) (Fin l) ℝ) (m : LModel p l e)
    (h : mkModel it A B gamma omegas psis = .ok m) (ho : ∀ k i, 0 < omegas k i) (hp : ∀ k i, 0 ≤ psis k i) :
    ∃ (psis' : Matrix (Fin e) (Fin ((e + 1) / 2 * p)) ℝ) (m' : LModel p ((e + 1) / 2 * p) e) (C : Fin e → Matrix (Fin p) (Fin p) ℝ),
      (∀ k i, 0 ≤ psis' k i) ∧ Admissible it ∅ H psis' m' ∧ m'.B = 0 ∧ m.covariances = .ok C ∧ m'.covariances = .ok C := by
  obtain ⟨-, ⟨C, hC, hpd⟩, -⟩ := C36_posDef it A hA B gamma omegas psis m h ho hp
  obtain ⟨psis', m', h1, h2, h3, h4⟩ := C101_pairs it H hH hac C (fun k => (hpd k).1)
  exact ⟨psis', m', C, h1, h2, h3, hC, h4⟩

theorem two_nonneg : Nonneg (![![0, 1], ![0, 0]] : Adj 2) ∧ Nonneg (![![0, 0], ![1, 0]] : Adj 2) := by
  unfold Nonneg
  decide

theorem two_acyclic : Acyclic (![![0, 1], ![0, 0]] : Adj 2) ∧ Acyclic (![![0, 0], ![1, 0]] : Adj 2) :=
  ⟨(isDag_iff (SetIter.incr 2) two_nonneg.1).1 (by decide), (isDag_iff (SetIter.incr 2) two_nonneg.2).1 (by decide)⟩

theorem two_respects (b : ℝ) : Respects (![![0, 1], ![0, 0]] : Adj 2) (!![0, b; 0, 0] : Matrix (Fin 2) (Fin 2) ℝ) ∧
    Respects (![![0, 0], ![1, 0]] : Adj 2) (!![0, 0; b, 0] : Matrix (Fin 2) (Fin 2) ℝ) := by
  constructor <;> intro i j h <;> fin_cases i <;> fin_cases j <;> simp at h ⊢

/-- The covariances of a model are those that satisfy its equations. -/
theorem covariances_of_entails {it : SetIter p} {A : Adj p} (hA : Nonneg A) {B : Matrix (Fin p) (Fin p) ℝ} {gamma : Matrix (Fin l) (Fin p) ℝ}
    {omegas : Matrix (Fin e) (Fin p) ℝ} {psis : Matrix (Fin e) (Fin l) ℝ} {m : LModel p l e} (h : mkModel it A B gamma omegas psis = .ok m)
    {C : Fin e → Matrix (Fin p) (Fin p) ℝ} (hC : ∀ k, Entails B (noiseCov gamma (psis k) (omegas k)) (C k)) : m.covariances = .ok C := by
  obtain ⟨-, C', hC', hent'⟩ := C35_covariances it A hA B gamma omegas psis m h
  rw [hC']
  congr 1
  funext k
  exact ((hent' k).2 _ (hC k)).symm

/-- C112, boundary: changes that are proportional identify nothing.  Without latents and with three environments in which all noise variances
are multiplied by the same factor, `0 → 1` and `1 → 0` entail the same covariances. -/
theorem C112_proportional (it : SetIter 2) : ∃ (m m' : LModel 2 0 3) (C : Fin 3 → Matrix (Fin 2) (Fin 2) ℝ),
    mkModel it ![![0, 1], ![0, 0]] !![0, 1; 0, 0] 0 !![1, 1; 2, 2; 3, 3] 0 = .ok m ∧
    mkModel it ![![0, 0], ![1, 0]] !![0, 0; 1 / 2, 0] 0 !![1 / 2, 2; 1, 4; 3 / 2, 6] 0 = .ok m' ∧
    (∀ i, Varies m.omegas i) ∧ (∀ i, Varies m'.omegas i) ∧ m.covariances = .ok C ∧ m'.covariances = .ok C := by
  have h1 := mkModel_eq_ok (it := it) (l := 0) two_nonneg.1 0 (!![1, 1; 2, 2; 3, 3] : Matrix (Fin 3) (Fin 2) ℝ) 0 two_acyclic.1 (two_respects 1).1
  have h2 := mkModel_eq_ok (it := it) (l := 0) two_nonneg.2 0 (!![1 / 2, 2; 1, 4; 3 / 2, 6] : Matrix (Fin 3) (Fin 2) ℝ) 0 two_acyclic.2
    (two_respects (1 / 2)).2
  refine ⟨_, _, ![!![1, 1; 1, 2], !![2, 2; 2, 4], !![3, 3; 3, 6]], h1, h2, fun i => ⟨0, 1, ?_⟩, fun i => ⟨0, 1, ?_⟩,
    covariances_of_entails two_nonneg.1 h1 fun k => ?_, covariances_of_entails two_nonneg.2 h2 fun k => ?_⟩
  · fin_cases i <;> norm_num
  · fin_cases i <;> norm_num
  · unfold Entails
    fin_cases k <;> ext i j <;> fin_cases i <;> fin_cases j <;> simp [Matrix.mul_apply, Fin.sum_univ_two, noiseCov] <;> norm_num
  · unfold Entails
    fin_cases k <;> ext i j <;> fin_cases i <;> fin_cases j <;> simp [Matrix.mul_apply, Fin.sum_univ_two, noiseCov] <;> norm_num

/-- C112, boundary: the second model must not change other variables.  In `0 → 1` the noise of `0` changes; with a latent, `1 → 0` with a change
of the noise of `1` entails the same covariances, and `0` has no effect on `1`. -/
theorem C112_targets_needed (it : SetIter 2) : ∃ (m : LModel 2 0 2) (m' : LModel 2 1 2) (C : Fin 2 → Matrix (Fin 2) (Fin 2) ℝ),
    mkModel it ![![0, 1], ![0, 0]] !![0, 1; 0, 0] 0 !![1, 1; 2, 1] 0 = .ok m ∧
    mkModel it ![![0, 0], ![1, 0]] !![0, 0; 1, 0] !![2, -3] !![1 / 3, 1 / 2; 1 / 3, 3 / 2] !![1 / 6; 1 / 6] = .ok m' ∧
    ChangeApart m.omegas ∧ ChangeApart m'.omegas ∧ (∀ i, Varies m.omegas i ↔ i = 0) ∧ (∀ i, Varies m'.omegas i ↔ i = 1) ∧
    TotalEffects m.B 0 ![1, 1] ∧ TotalEffects m'.B 0 ![1, 0] ∧ m.covariances = .ok C ∧ m'.covariances = .ok C := by
  have h1 := mkModel_eq_ok (it := it) (l := 0) two_nonneg.1 0 (!![1, 1; 2, 1] : Matrix (Fin 2) (Fin 2) ℝ) 0 two_acyclic.1 (two_respects 1).1
  have h2 := mkModel_eq_ok (it := it) two_nonneg.2 (!![2, -3] : Matrix (Fin 1) (Fin 2) ℝ) (!![1 / 3, 1 / 2; 1 / 3, 3 / 2] : Matrix (Fin 2) (Fin 2) ℝ)
    (!![1 / 6; 1 / 6] : Matrix (Fin 2) (Fin 1) ℝ) two_acyclic.2 (two_respects 1).2
  have v1 : ∀ i, Varies (!![1, 1; 2, 1] : Matrix (Fin 2) (Fin 2) ℝ) i ↔ i = 0 := by
    intro i
    constructor
    · rintro ⟨k, k', h⟩
      fin_cases i <;> fin_cases k <;> fin_cases k' <;> simp at h ⊢
    · rintro rfl
      exact ⟨0, 1, by norm_num⟩
  have v2 : ∀ i, Varies (!![1 / 3, 1 / 2; 1 / 3, 3 / 2] : Matrix (Fin 2) (Fin 2) ℝ) i ↔ i = 1 := by
    intro i
    constructor
    · rintro ⟨k, k', h⟩
      fin_cases i <;> fin_cases k <;> fin_cases k' <;> simp at h ⊢
    · rintro rfl
      exact ⟨0, 1, by norm_num⟩
  refine ⟨_, _, ![!![1, 1; 1, 2], !![2, 2; 2, 3]], h1, h2, fun i j hi hj _ => ((v1 i).1 hi).trans ((v1 j).1 hj).symm,
    fun i j hi hj _ => ((v2 i).1 hi).trans ((v2 j).1 hj).symm, v1, v2, ?_, ?_,
    covariances_of_entails two_nonneg.1 h1 fun k => ?_, covariances_of_entails two_nonneg.2 h2 fun k => ?_⟩
  · intro a
    fin_cases a <;> norm_num [Fin.sum_univ_two]
  · intro a
    fin_cases a <;> norm_num [Fin.sum_univ_two]
  · unfold Entails
    fin_cases k <;> ext i j <;> fin_cases i <;> fin_cases j <;> simp [Matrix.mul_apply, Fin.sum_univ_two, noiseCov] <;> norm_num
  · unfold Entails
    fin_cases k <;> ext i j <;> fin_cases i <;> fin_cases j <;> simp [Matrix.mul_apply, Fin.sum_univ_two, noiseCov] <;> norm_num

/-- Three environments in which the variances change apart: first the noise of `0` grows, then that of `1`. -/
theorem apart_example {a b c d x y : ℝ} (hx : x ≠ 0) (hy : y ≠ 0) (ha : a = b + x) (hc : c = d + y) :
    ChangeApart (!![b, d; a, d; b, c] : Matrix (Fin 3) (Fin 2) ℝ) ∧ ∀ i, Varies (!![b, d; a, d; b, c] : Matrix (Fin 3) (Fin 2) ℝ) i := by
  subst ha hc
  refine ⟨fun i j _ _ ⟨s, t, hst, h⟩ => ?_, fun i => ?_⟩
  · have h1 := h 1 0
    have h2 := h 2 0
    fin_cases i <;> fin_cases j
    · rfl
    · exfalso
      simp [hx, hy] at h1 h2
      rcases hst with hst | hst
      · exact hst h1
      · exact hst h2
    · exfalso
      simp [hx, hy] at h1 h2
      rcases hst with hst | hst
      · exact hst h2
      · exact hst h1
    · rfl
  · fin_cases i
    · exact ⟨0, 1, by simpa using hx⟩
    · exact ⟨0, 2, by simpa using hy⟩

/-! ## An example with data and the code's own fits -/

/-- Four observations of `X₀ = a N₀`, `X₁ = X₀ + b N₁`. -/
def pairBlock (a b : ℝ) : Sample 2 := [![a, a], ![-a, -a], ![0, b], ![0, -b]]

theorem pairBlock_cov (a b : ℝ) : npCov (pairBlock a b) = !![2 / 3 * a ^ 2, 2 / 3 * a ^ 2; 2 / 3 * a ^ 2, 2 / 3 * (a ^ 2 + b ^ 2)] := by
  ext i j
  fin_cases i <;> fin_cases j <;> simp [npCov, pairBlock, colMean] <;> ring

/-- Three copies of the observations. -/
def thrice (s : Sample 2) : Sample 2 := s ++ s ++ s

theorem pairBlock_split : splitData (fun _ => Rng.front) (List.ofFn ![thrice (pairBlock 1 1), thrice (pairBlock 2 1), thrice (pairBlock 1 2)])
    [1 / 3, 1 / 3, 1 / 3] = .ok [[pairBlock 1 1, pairBlock 2 1, pairBlock 1 2], [pairBlock 1 1, pairBlock 2 1, pairBlock 1 2],
      [pairBlock 1 1, pairBlock 2 1, pairBlock 1 2]] := by
  have r1 : pyRound (4 : Rat) = 4 := pyRound_int 4
  have b0 : sliceBound 12 0 = 0 := by decide
  have b1 : sliceBound 12 4 = 4 := by decide
  have b2 : sliceBound 12 8 = 8 := by decide
  have b3 : sliceBound 12 12 = 12 := by decide
  have hr : List.range 3 = [0, 1, 2] := by decide
  unfold splitData
  rw [if_neg (by norm_num)]
  simp [splitSample, pySlice, List.zipIdx, Rng.front, pairBlock, thrice]
  norm_num [r1, b0, b1, b2, b3, hr]

/-- Three environments: first the noise of `0` grows, then that of `1`.  The candidates are the two graphs over two variables.  The code finds
`0 → 1`, the weight and the targets. -/
theorem C112_example (svd : Matrix (Fin 2) (Fin 2) ℝ → Matrix (Fin 2) (Fin 2) ℝ × (Fin 2 → ℝ)) (u v : Nat → Nat → Nat → Fin (2 * 2) → ℝ) :
    ∃ num : NumLib 2 3, ∃ m : LModel 2 0 3,
      equivalenceClass ⟨SetIter.incr 2, fun _ _ => Rng.front, npCov, insArgsort, fun _ => [], fun _ => fun i j => if i = j then 0 else 1,
        codeFit (SetIter.incr 2) svd num ⟨.cvx, none, false, ⟨1000, 1 / 1000, 1 / 100000, 5⟩, 1 / 100000, 1⟩ u v⟩
        [![![0, 0], ![1, 0]], ![![0, 1], ![0, 0]]] ![thrice (pairBlock 1 1), thrice (pairBlock 2 1), thrice (pairBlock 1 2)] true false
        (some [0, 1, 2]) [1 / 3, 1 / 3, 1 / 3] 42 = .ok (![![0, 1], ![0, 0]], {0, 1}, ⟨0, m⟩) ∧ m.B = !![0, 1; 0, 0] := by
  obtain ⟨num, hs, hopt⟩ := cvxOptimal_zero_exists (p := 2) (e := 3)
  obtain ⟨E, hE⟩ : ∃ E : FitEnv 2 3, E = ⟨SetIter.incr 2, fun _ _ => Rng.front, npCov, insArgsort, fun _ => [],
    fun _ => fun i j => if i = j then 0 else 1,
    codeFit (SetIter.incr 2) svd num ⟨.cvx, none, false, ⟨1000, 1 / 1000, 1 / 100000, 5⟩, 1 / 100000, 1⟩ u v⟩ := ⟨_, rfl⟩
  have hEit : E.it = SetIter.incr 2 := by rw [hE]
  have hErng : E.rng 42 = fun _ => Rng.front := by rw [hE]
  have hEcov : E.cov = npCov := by rw [hE]
  have hEfit : E.fit = codeFit E.it svd num ⟨.cvx, none, false, ⟨1000, 1 / 1000, 1 / 100000, 5⟩, 1 / 100000, 1⟩ u v := by rw [hE]
  have hEarg : E.argsort = insArgsort := by rw [hE]
  have happ := apart_example (a := 8 / 3) (b := 2 / 3) (c := 8 / 3) (d := 2 / 3) (x := 2) (y := 2) (by norm_num) (by norm_num) (by norm_num) (by norm_num)
  have hmk := mkModel_eq_ok (it := E.it) (l := 0) two_nonneg.1 0 (!![2 / 3, 2 / 3; 8 / 3, 2 / 3; 2 / 3, 8 / 3] : Matrix (Fin 3) (Fin 2) ℝ) 0
    two_acyclic.1 (two_respects 1).1
  have hcov := covariances_of_entails (C := fun k => npCov (![pairBlock 1 1, pairBlock 2 1, pairBlock 1 2] k)) two_nonneg.1 hmk (by
    intro k
    unfold Entails
    fin_cases k <;> ext i j <;> fin_cases i <;> fin_cases j <;>
      simp [Matrix.mul_apply, Fin.sum_univ_two, pairBlock_cov, noiseCov] <;> norm_num)
  have hsplit : splitData (E.rng 42) (List.ofFn ![thrice (pairBlock 1 1), thrice (pairBlock 2 1), thrice (pairBlock 1 2)]) [1 / 3, 1 / 3, 1 / 3] =
      .ok [[pairBlock 1 1, pairBlock 2 1, pairBlock 1 2], [pairBlock 1 1, pairBlock 2 1, pairBlock 1 2],
        [pairBlock 1 1, pairBlock 2 1, pairBlock 1 2]] := by
    rw [hErng]
    exact pairBlock_split
  obtain ⟨P, m, h1, h2, h3, h4, i, h5, h6⟩ := C112_no_latents E svd num hs _ u v hEfit (by norm_num) (by norm_num) rfl (by norm_num) (by simp)
    (by norm_num) (by norm_num) (by norm_num) (by rw [hEarg]; exact insArgsort_spec) [![![0, 0], ![1, 0]], ![![0, 1], ![0, 0]]]
    (by
      intro G hG
      simp only [List.mem_cons, List.not_mem_nil, or_false] at hG
      rcases hG with rfl | rfl
      exacts [⟨two_nonneg.2, two_acyclic.2⟩, ⟨two_nonneg.1, two_acyclic.1⟩])
    ![thrice (pairBlock 1 1), thrice (pairBlock 2 1), thrice (pairBlock 1 2)] [0, 1, 2] (by simp) (by simp) [1 / 3, 1 / 3, 1 / 3] 42 _ _ _
    hsplit (by simp [pairBlock]) (fun k => npCov (![pairBlock 1 1, pairBlock 2 1, pairBlock 1 2] k))
    (by
      intro f hf k
      have : f = [pairBlock 1 1, pairBlock 2 1, pairBlock 1 2] := by simpa using hf
      subst this
      rw [hEcov]
      fin_cases k <;> simp [pairBlock])
    (fun A Ms => hopt A Ms _) _ two_nonneg.1 _ _ _ hmk
    (by
      intro k i
      fin_cases k <;> fin_cases i <;> norm_num) happ.1 happ.2 hcov ![![0, 1], ![0, 0]] (by simp)
    (by
      intro i j h
      fin_cases i <;> fin_cases j <;> simp [Edge] at h ⊢)
  have hA : m.A = ![![0, 1], ![0, 0]] := by
    have hi : i = 1 := by
      have hi2 : i < 2 := by
        have := (List.getElem?_eq_some_iff.1 h5).1
        simpa using this
      have hi0 : i ≠ 0 := by
        rintro rfl
        simp only [List.getElem?_cons_zero, Option.some.injEq] at h5
        have h7 := h4 0 1 (by simp)
        rw [h3, ← h5] at h7
        simp at h7
      omega
    subst hi
    simpa using h5.symm
  refine ⟨num, m, ?_, h2⟩
  rw [← hE, h1]
  have hP : P = ![![0, 1], ![0, 0]] := by
    funext a b
    rw [h3, hA]
    fin_cases a <;> fin_cases b <;> rfl
  rw [hP]
  rfl

/-! ## An example with data and a latent -/

open Classical in
/-- An exact fitting procedure with fixed latent variances. -/
noncomputable def fixedFit (it : SetIter p) (d : Data p e) (l : Nat) : Fitter p e := fun _ A I =>
  if h : CanEntailIn FixedPsis it l I A d.covs then
    if Nonneg A ∧ Acyclic A then .ok (⟨l, h.choose_spec.choose⟩, some 0) else .error .valueError
  else if hA : Nonneg A ∧ Acyclic A then .ok (⟨l, (exists_proper (e := e) it hA.1 hA.2 I l).choose⟩, some 0) else .error .valueError

theorem fixedFit_ok {it : SetIter p} {d : Data p e} {l n : Nat} {A : Adj p} {I : Finset (Fin p)} {m : AnyModel p e} {s : Flt}
    (h : fixedFit it d l n A I = .ok (m, s)) : Nonneg A ∧ Acyclic A ∧ ∃ (m' : LModel p l e) (psis : Matrix (Fin e) (Fin l) ℝ),
      m = ⟨l, m'⟩ ∧ (∀ k i, 0 ≤ psis k i) ∧ FixedPsis l psis ∧ Admissible it I A psis m' ∧
        (CanEntailIn FixedPsis it l I A d.covs → m'.covariances = .ok d.covs) := by
  unfold fixedFit at h
  split_ifs at h with h1 h2 h2
  · cases h
    exact ⟨h2.1, h2.2, _, _, rfl, h1.choose_spec.choose_spec.1, h1.choose_spec.choose_spec.2.1, h1.choose_spec.choose_spec.2.2.1,
      fun _ => h1.choose_spec.choose_spec.2.2.2⟩
  · cases h
    exact ⟨h2.1, h2.2, _, _, rfl, fun _ _ => zero_le_one, fun _ _ => rfl, (exists_proper (e := e) it h2.1 h2.2 I l).choose_spec,
      fun hc => absurd hc h1⟩

theorem fixedFit_returns (it : SetIter p) (d : Data p e) (l n : Nat) {A : Adj p} (hA : Nonneg A) (hac : Acyclic A) (I : Finset (Fin p)) :
    ∃ m s, fixedFit it d l n A I = .ok (m, s) := by
  unfold fixedFit
  split_ifs with h1 h2 h2
  · exact ⟨_, _, rfl⟩
  · exact absurd ⟨hA, hac⟩ h2
  · exact ⟨_, _, rfl⟩
  · exact absurd ⟨hA, hac⟩ h2

theorem fixedFit_good (it : SetIter p) (d : Data p e) (l : Nat) : GoodFit (fixedFit it d l) := by
  intro n A I m s h
  obtain ⟨h1, h2, m', psis, rfl, -, -, ⟨B, gamma, omegas, h4, -⟩, -⟩ := fixedFit_ok h
  obtain ⟨-, h5, rfl⟩ := mkModel_ok h1 h4
  exact ⟨rfl, fun _ => h2, h5⟩

theorem fixedFit_proper {it : SetIter p} {d : Data p e} {l n : Nat} {A : Adj p} {I : Finset (Fin p)} {m : AnyModel p e} {s : Flt}
    (h : fixedFit it d l n A I = .ok (m, s)) : Proper it m.2 := by
  obtain ⟨h1, h2, m', psis, rfl, h3, -, ⟨B, gamma, omegas, h4, h5, -⟩, h6⟩ := fixedFit_ok h
  exact ⟨A, B, gamma, omegas, psis, h1, h4, h5, h3⟩

theorem fixedFit_fits (it : SetIter p) (d : Data p e) (l : Nat) : FitsIn FixedPsis (fixedFit it d l) := by
  intro n A I m s h
  obtain ⟨h1, h2, m', psis, rfl, h3, h3', ⟨B, gamma, omegas, h4, h5, -⟩, h6⟩ := fixedFit_ok h
  obtain ⟨-, -, rfl⟩ := mkModel_ok h1 h4
  exact h3'

theorem fixedFit_exact (it : SetIter p) (d : Data p e) (l : Nat) : ExactFitIn FixedPsis it l d.covs (fixedFit it d l) := by
  refine ⟨fun n A I m s _ h => ⟨(fixedFit_proper h).upToB, fun m' hm' => ?_⟩, fun n A I m s _ h hc => ⟨fixedFit_proper h, ?_⟩⟩
  · unfold AnyModel.copy at hm'
    rw [proper_copy (fixedFit_proper h)] at hm'
    cases hm'
    exact (fixedFit_proper h).upToB
  · obtain ⟨h1, h2, m', psis, rfl, h3, -, -, h6⟩ := fixedFit_ok h
    exact h6 hc

/-- Six observations of `X₀ = L + a N₀`, `X₁ = 2 X₀ + L + b N₁`, with a latent `L`. -/
def latBlock (a b : ℝ) : Sample 2 := [![1, 3], ![-1, -3], ![a, 2 * a], ![-a, -(2 * a)], ![0, b], ![0, -b]]

theorem latBlock_cov (a b : ℝ) : npCov (latBlock a b) =
    !![2 / 5 * (1 + a ^ 2), 2 / 5 * (3 + 2 * a ^ 2); 2 / 5 * (3 + 2 * a ^ 2), 2 / 5 * (9 + 4 * a ^ 2 + b ^ 2)] := by
  ext i j
  fin_cases i <;> fin_cases j <;> simp [npCov, latBlock, colMean] <;> ring

theorem latBlock_split : splitData (fun _ => Rng.front) (List.ofFn ![thrice (latBlock 1 1), thrice (latBlock 2 1), thrice (latBlock 1 2)])
    [1 / 3, 1 / 3, 1 / 3] = .ok [[latBlock 1 1, latBlock 2 1, latBlock 1 2], [latBlock 1 1, latBlock 2 1, latBlock 1 2],
      [latBlock 1 1, latBlock 2 1, latBlock 1 2]] := by
  have r1 : pyRound (6 : Rat) = 6 := pyRound_int 6
  have b0 : sliceBound 18 0 = 0 := by decide
  have b1 : sliceBound 18 6 = 6 := by decide
  have b2 : sliceBound 18 12 = 12 := by decide
  have b3 : sliceBound 18 18 = 18 := by decide
  have hr : List.range 3 = [0, 1, 2] := by decide
  unfold splitData
  rw [if_neg (by norm_num)]
  simp [splitSample, pySlice, List.zipIdx, Rng.front, latBlock, thrice]
  norm_num [r1, b0, b1, b2, b3, hr]

/-- With a latent and exact fits that keep the variances of latents fixed: of the graph without edges, `1 → 0` and `0 → 1` the last one is
returned, with its weight, although with a latent all of them could entail the covariance of each environment. -/
theorem C112_latent_example : ∃ m : AnyModel 2 3,
    equivalenceClass ⟨SetIter.incr 2, fun _ _ => Rng.front, npCov, insArgsort, fun _ => [], fun _ => fun i j => if i = j then 0 else 1,
      fun d h => fixedFit (SetIter.incr 2) d h⟩
      [![![0, 0], ![0, 0]], ![![0, 0], ![1, 0]], ![![0, 1], ![0, 0]]] ![thrice (latBlock 1 1), thrice (latBlock 2 1), thrice (latBlock 1 2)] true false
      (some [0, 1]) [1 / 3, 1 / 3, 1 / 3] 42 = .ok (![![0, 1], ![0, 0]], Finset.univ, m) ∧ m.B = !![0, 2; 0, 0] := by
  obtain ⟨E, hE⟩ : ∃ E : FitEnv 2 3, E = ⟨SetIter.incr 2, fun _ _ => Rng.front, npCov, insArgsort, fun _ => [],
    fun _ => fun i j => if i = j then 0 else 1, fun d h => fixedFit (SetIter.incr 2) d h⟩ := ⟨_, rfl⟩
  have hErng : E.rng 42 = fun _ => Rng.front := by rw [hE]
  have hEcov : E.cov = npCov := by rw [hE]
  have hEfit : E.fit = fun d h => fixedFit E.it d h := by rw [hE]
  have hEarg : ∀ f, IsArgsort f (E.argsort f) := by rw [hE]; exact insArgsort_spec
  have hzero : Nonneg (![![0, 0], ![0, 0]] : Adj 2) := by unfold Nonneg; decide
  have hG : ∀ G ∈ [(![![0, 0], ![0, 0]] : Adj 2), ![![0, 0], ![1, 0]], ![![0, 1], ![0, 0]]], Nonneg G ∧ Acyclic G := by
    intro G hG
    simp only [List.mem_cons, List.not_mem_nil, or_false] at hG
    rcases hG with rfl | rfl | rfl
    exacts [⟨hzero, (isDag_iff (SetIter.incr 2) hzero).1 (by decide)⟩, ⟨two_nonneg.2, two_acyclic.2⟩, ⟨two_nonneg.1, two_acyclic.1⟩]
  have happ := apart_example (a := 8 / 5) (b := 2 / 5) (c := 8 / 5) (d := 2 / 5) (x := 6 / 5) (y := 6 / 5) (by norm_num) (by norm_num) (by norm_num)
    (by norm_num)
  have hmk := mkModel_eq_ok (it := E.it) two_nonneg.1 (!![1, 1] : Matrix (Fin 1) (Fin 2) ℝ)
    (!![2 / 5, 2 / 5; 8 / 5, 2 / 5; 2 / 5, 8 / 5] : Matrix (Fin 3) (Fin 2) ℝ) (fun _ _ => 2 / 5) two_acyclic.1 (two_respects 2).1
  have ho : ∀ k i, 0 < (!![2 / 5, 2 / 5; 8 / 5, 2 / 5; 2 / 5, 8 / 5] : Matrix (Fin 3) (Fin 2) ℝ) k i := by
    intro k i
    fin_cases k <;> fin_cases i <;> norm_num
  have hcov := covariances_of_entails (C := fun k => npCov (![latBlock 1 1, latBlock 2 1, latBlock 1 2] k)) two_nonneg.1 hmk (by
    intro k
    unfold Entails
    fin_cases k <;> ext i j <;> fin_cases i <;> fin_cases j <;>
      simp [Matrix.mul_apply, Fin.sum_univ_two, latBlock_cov, noiseCov] <;> norm_num)
  have hsplit : splitData (E.rng 42) (List.ofFn ![thrice (latBlock 1 1), thrice (latBlock 2 1), thrice (latBlock 1 2)]) [1 / 3, 1 / 3, 1 / 3] =
      .ok [[latBlock 1 1, latBlock 2 1, latBlock 1 2], [latBlock 1 1, latBlock 2 1, latBlock 1 2],
        [latBlock 1 1, latBlock 2 1, latBlock 1 2]] := by
    rw [hErng]
    exact latBlock_split
  have hpop : ∀ f ∈ [[latBlock 1 1, latBlock 2 1, latBlock 1 2], [latBlock 1 1, latBlock 2 1, latBlock 1 2],
      [latBlock 1 1, latBlock 2 1, latBlock 1 2]], ∀ k : Fin 3,
      E.cov (f.getD k []) = npCov (![latBlock 1 1, latBlock 2 1, latBlock 1 2] k) ∧ f.getD k [] ≠ [] := by
    intro f hf k
    have : f = [latBlock 1 1, latBlock 2 1, latBlock 1 2] := by simpa using hf
    subst this
    rw [hEcov]
    fin_cases k <;> simp [latBlock]
  have hpd : ∀ k, (npCov (![latBlock 1 1, latBlock 2 1, latBlock 1 2] k)).PosDef := by
    obtain ⟨-, ⟨C', hC', hpd⟩, -⟩ := C36_posDef E.it _ two_nonneg.1 _ _ _ _ _ hmk ho (fun _ _ => by norm_num)
    rw [hcov] at hC'
    cases hC'
    exact fun k => (hpd k).1
  have hgood : ∀ f ∈ [[latBlock 1 1, latBlock 2 1, latBlock 1 2], [latBlock 1 1, latBlock 2 1, latBlock 1 2],
      [latBlock 1 1, latBlock 2 1, latBlock 1 2]], GoodData (foldData E.cov f 3) := fun f hf =>
    ⟨fun k => by
      have := hpd k
      rw [← (hpop f hf k).1] at this
      exact this, fun k => List.length_pos_of_ne_nil (hpop f hf k).2, by norm_num⟩
  have hgf : ∀ d h, GoodFit (E.fit d h) := fun d h => by rw [hEfit]; exact fixedFit_good _ d h
  have hlat : ∀ d h n A I m s, E.fit d h n A I = .ok (m, s) → m.1 = h := by
    intro d h n A I m s hm
    rw [hEfit] at hm
    obtain ⟨-, -, m', -, rfl, -⟩ := fixedFit_ok hm
    rfl
  obtain ⟨⟨P, I, m⟩, hr⟩ := C72_returns E _ (by simp) (fun G h => (hG G h).1) _ true false [0, 1] (by simp) _ 42 _ _ _ hsplit
    (scoreCtor_ok (fun s hs => by
      simp only [List.mem_cons, List.not_mem_nil, or_false] at hs
      rcases hs with rfl | rfl | rfl <;> simp [latBlock])) hgf hlat hEarg (by
    intro n _ G hGm k H I hH hs
    obtain ⟨m, s, hm⟩ := fixedFit_returns E.it (foldData E.cov [latBlock 1 1, latBlock 2 1, latBlock 1 2] 3) n k hH
      (subgraph_acyclic hs (hG G hGm).2) I
    have hx : Proper E.it m.2 := fixedFit_proper hm
    have hc : m.copy E.it = .ok m := by
      unfold AnyModel.copy
      rw [show m.2.copy E.it = .ok m.2 from proper_copy hx]
    refine ⟨m, s, m, by rw [hEfit]; exact hm, hc, fun t ht => ?_⟩
    have : ∃ r, m.scoreOn t = .ok r := by
      have hg : GoodData t := by
        simp only [List.mem_cons, List.not_mem_nil, or_false] at ht
        rcases ht with rfl | rfl <;> exact hgood _ (by simp)
      obtain ⟨x, hx, -⟩ := proper_score hx t.nObs hg.pos hg.some t.covs hg.posDef
      exact ⟨_, hx⟩
    exact ⟨this, this⟩) (fun hc => by simp at hc)
  have hcovs : (foldData E.cov [latBlock 1 1, latBlock 2 1, latBlock 1 2] 3).covs = fun k => npCov (![latBlock 1 1, latBlock 2 1, latBlock 1 2] k) :=
    funext fun k => (hpop _ (by simp) k).1
  obtain ⟨k1, -, rfl, k3, k4, k5⟩ := C112_population E _ hG _ true false [0, 1] _ 42 hgf hlat hEarg (by norm_num) _ two_nonneg.1 _ _ _ _ _ hmk ho
    (fun _ _ => by norm_num) (fun _ _ => rfl) happ.1 happ.2 _ hcov _ _ _ hsplit hpop
    (fun h _ => by rw [hEfit]; exact (fixedFit_exact _ _ _).1) (fun h _ => by rw [hEfit]; exact fixedFit_fits _ _ _)
    (fun h _ _ => by rw [hEfit, ← hcovs]; exact fixedFit_exact _ _ _) (by simp) ![![0, 1], ![0, 0]] (by simp)
    (by
      intro i j h
      fin_cases i <;> fin_cases j <;> simp [Edge] at h ⊢) P I m hr
  have hA : m.A = ![![0, 1], ![0, 0]] := by
    obtain ⟨i, i1, -⟩ := k5 rfl
    have h7 := k4 0 1 (by simp)
    rw [k3] at h7
    have hmem := List.mem_of_getElem? i1
    simp only [List.mem_cons, List.not_mem_nil, or_false] at hmem
    rcases hmem with hm | hm | hm
    · rw [hm] at h7
      simp at h7
    · rw [hm] at h7
      simp at h7
    · exact hm
  refine ⟨m, ?_, k1⟩
  rw [← hE, hr]
  have hP : P = ![![0, 1], ![0, 0]] := by
    funext a b
    rw [k3, hA]
    fin_cases a <;> fin_cases b <;> rfl
  rw [hP]

end Verif
