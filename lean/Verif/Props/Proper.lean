import Verif.Props.ClassScore
import Verif.Props.MainFit

/-!
# C88: the score identifies the covariances
-/

namespace Verif

open Spec Matrix

variable {p e l l' : Nat}

/-- A model that the constructor of `Model` has built, with the parameters of a distribution: positive noise variances, nonnegative
variances of the latents. -/
def Spec.Proper (it : SetIter p) (m : LModel p l e) : Prop :=
  ∃ (A : Adj p) (B : Matrix (Fin p) (Fin p) ℝ) (gamma : Matrix (Fin l) (Fin p) ℝ) (omegas : Matrix (Fin e) (Fin p) ℝ)
    (psis : Matrix (Fin e) (Fin l) ℝ), Nonneg A ∧ mkModel it A B gamma omegas psis = .ok m ∧ (∀ k i, 0 < omegas k i) ∧ ∀ k i, 0 ≤ psis k i

/-- The smallest computed score on given covariances. -/
theorem proper_score {it : SetIter p} {m : LModel p l e} (hm : Proper it m) (n : Fin e → Nat) (hn : ∀ k, 0 < n k) (he : 0 < e)
    (S : Fin e → Matrix (Fin p) (Fin p) ℝ) (hS : ∀ k, (S k).PosDef) :
    ∃ s, m.score (List.ofFn S) (List.ofFn n) = .ok (some s) ∧
      ∑ k, (n k : ℝ) * (Real.log (S k).det + p) / (∑ k, (n k : ℝ)) ^ (e - k.val) ≤ s ∧
      (s = ∑ k, (n k : ℝ) * (Real.log (S k).det + p) / (∑ k, (n k : ℝ)) ^ (e - k.val) ↔ m.covariances = .ok S) := by
  obtain ⟨A, B, gamma, omegas, psis, hA, hmk, ho, hp⟩ := hm
  obtain ⟨-, ⟨C, hC, hCp⟩, -⟩ := C36_posDef it A hA B gamma omegas psis m hmk ho hp
  have hN : ∑ k, n k ≠ 0 := (Finset.sum_pos (fun k _ => hn k) ⟨⟨0, he⟩, Finset.mem_univ _⟩).ne'
  have hN' : (0 : ℝ) < ∑ k, (n k : ℝ) := Finset.sum_pos (fun k _ => by exact_mod_cast hn k) ⟨⟨0, he⟩, Finset.mem_univ _⟩
  have hle : ∀ k ∈ Finset.univ, (n k : ℝ) * (Real.log (S k).det + p) / (∑ k, (n k : ℝ)) ^ (e - k.val) ≤
      (n k : ℝ) * gaussNLL (C k) (S k) / (∑ k, (n k : ℝ)) ^ (e - k.val) := fun k _ =>
    div_le_div_of_nonneg_right (mul_le_mul_of_nonneg_left (gaussNLL_ge (hCp k).1 (hS k)).1 (Nat.cast_nonneg _)) (pow_pos hN' _).le
  refine ⟨_, C37_actual_score it A hA B gamma omegas psis m hmk ho hp n hN S C hC, Finset.sum_le_sum hle, fun h => ?_, fun h => ?_⟩
  · rw [hC]
    congr 1
    funext k
    have h1 := (Finset.sum_eq_sum_iff_of_le hle).1 h.symm k (Finset.mem_univ _)
    have hk : (n k : ℝ) ≠ 0 := by exact_mod_cast (hn k).ne'
    rw [div_left_inj' (pow_pos hN' _).ne', mul_right_inj' hk] at h1
    exact (gaussNLL_ge (hCp k).1 (hS k)).2 h1.symm
  · rw [hC] at h
    injection h with h
    subst h
    refine Finset.sum_congr rfl (fun k _ => ?_)
    rw [gaussNLL_self (hS k)]

/-- C88: although the environments are weighted wrongly (C37), on the covariances `C` that a model `m₀` entails the computed score of
`m₀` is not larger than that of any other model `m` (over any graph, with any number of latents), and the scores are equal exactly if
`m` entails the same covariances in all environments. -/
theorem C88_truth_minimises (it : SetIter p) (m₀ : LModel p l e) (h₀ : Proper it m₀) (m : LModel p l' e) (h : Proper it m)
    (n : Fin e → Nat) (hn : ∀ k, 0 < n k) (he : 0 < e) (C : Fin e → Matrix (Fin p) (Fin p) ℝ) (hC : m₀.covariances = .ok C) :
    ∃ s₀ s, m₀.score (List.ofFn C) (List.ofFn n) = .ok (some s₀) ∧ m.score (List.ofFn C) (List.ofFn n) = .ok (some s) ∧
      s₀ ≤ s ∧ (s = s₀ ↔ m.covariances = .ok C) := by
  have hpd : ∀ k, (C k).PosDef := by
    obtain ⟨A, B, gamma, omegas, psis, hA, hmk, ho, hp⟩ := h₀
    obtain ⟨-, ⟨C', hC', hCp⟩, -⟩ := C36_posDef it A hA B gamma omegas psis m₀ hmk ho hp
    rw [hC] at hC'
    cases hC'
    exact fun k => (hCp k).1
  obtain ⟨s₀, a1, a2, a3⟩ := proper_score h₀ n hn he C hpd
  obtain ⟨s, b1, b2, b3⟩ := proper_score h n hn he C hpd
  have := a3.2 hC
  subst this
  exact ⟨_, s, a1, b1, b2, b3⟩

/-- C88, with C85: every DAG `H` that is equivalent to the graph of `m₀` given targets outside which the variances of `m₀` are constant
has a model, with constant variances outside the targets, that reaches the smallest score. -/
theorem C88_class_minimises (it : SetIter p) (G H : Adj p) (hG : Nonneg G) (hH : Nonneg H) (hacH : Acyclic H) (I : Finset (Fin p))
    (hE : IEquiv I G H) (psis : Matrix (Fin e) (Fin l) ℝ) (hp : ∀ k i, 0 ≤ psis k i) (m₀ : LModel p l e) (h₀ : Admissible it I G psis m₀)
    (n : Fin e → Nat) (hn : ∀ k, 0 < n k) (he : 0 < e) (C : Fin e → Matrix (Fin p) (Fin p) ℝ) (hC : m₀.covariances = .ok C) :
    ∃ m s, Admissible it I H psis m ∧ m.score (List.ofFn C) (List.ofFn n) = .ok (some s) ∧
      ∀ (l' : Nat) (m' : LModel p l' e), Proper it m' → ∃ s', m'.score (List.ofFn C) (List.ofFn n) = .ok (some s') ∧ s ≤ s' := by
  obtain ⟨B, gamma, omegas, h1, h2, h3⟩ := h₀
  have hprop : Proper it m₀ := ⟨G, B, gamma, omegas, psis, hG, h1, h2, hp⟩
  have hN : ∑ k, n k ≠ 0 := (Finset.sum_pos (fun k _ => hn k) ⟨⟨0, he⟩, Finset.mem_univ _⟩).ne'
  obtain ⟨s₀, s, a1, -⟩ := C88_truth_minimises it m₀ hprop m₀ hprop n hn he C hC
  obtain ⟨m, k1, k2⟩ := score_transfer it G H hG hH hacH I hE psis hp n hN C _ ⟨m₀, ⟨B, gamma, omegas, h1, h2, h3⟩, a1⟩
  refine ⟨m, s₀, k1, k2, fun l' m' hm' => ?_⟩
  obtain ⟨t₀, t, b1, b2, b3, -⟩ := C88_truth_minimises it m₀ hprop m' hm' n hn he C hC
  rw [a1] at b1
  cases b1
  exact ⟨t, b2, b3⟩

/-- C88, the selections in `_fit`: if the models are scored on test data whose covariances `C` are exactly those of a distribution that
one of them describes, then the one selected also describes this distribution. -/
theorem C88_selection {β : Type} (it : SetIter p) (d : Data p e) (hd : GoodData d) (model : β → AnyModel p e) (xs : List β)
    (hx : ∀ x ∈ xs, Proper it (model x).2) (htrue : ∃ x ∈ xs, (model x).2.covariances = .ok d.covs) :
    ∃ scores s y, testScores d model xs = .ok scores ∧ bestScoring scores = .ok (s, y) ∧ y ∈ xs ∧ (model y).2.covariances = .ok d.covs := by
  have hsc : ∀ x ∈ xs, ∃ s, (model x).scoreOn d = .ok (some s) ∧
      ∑ k, (d.nObs k : ℝ) * (Real.log (d.covs k).det + p) / (∑ k, (d.nObs k : ℝ)) ^ (e - k.val) ≤ s ∧
      (s = ∑ k, (d.nObs k : ℝ) * (Real.log (d.covs k).det + p) / (∑ k, (d.nObs k : ℝ)) ^ (e - k.val) ↔ (model x).2.covariances = .ok d.covs) :=
    fun x hxm => proper_score (hx x hxm) d.nObs hd.pos hd.some d.covs hd.posDef
  obtain ⟨scores, h1⟩ := testScores_returns (d := d) (model := model) xs (fun x hxm => by
    obtain ⟨s, hs, -⟩ := hsc x hxm
    exact ⟨_, hs⟩)
  obtain ⟨h2, h3⟩ := testScores_spec xs h1
  have hin : ∀ t ∈ scores, t.2 ∈ xs := fun t ht => by
    rw [← h2]
    exact List.mem_map_of_mem ht
  obtain ⟨x, hxm, hxc⟩ := htrue
  obtain ⟨tx, htx, rfl⟩ : ∃ t ∈ scores, t.2 = x := by
    rw [← h2] at hxm
    obtain ⟨t, ht, he⟩ := List.mem_map.1 hxm
    exact ⟨t, ht, he⟩
  obtain ⟨i, a, b, c1, c2, c3, -⟩ := C54_first_minimum scores (List.ne_nil_of_mem htx) (fun t ht hc => by
    obtain ⟨s, hs, -⟩ := hsc _ (hin t ht)
    rw [h3 t ht, hc] at hs
    cases hs)
  have hmem : (some a, b) ∈ scores := List.mem_of_getElem? c2
  refine ⟨scores, some a, b, h1, c1, hin _ hmem, ?_⟩
  obtain ⟨s, hs, hlow, hiff⟩ := hsc _ (hin _ hmem)
  have hs' : s = a := by
    have := h3 _ hmem
    rw [hs] at this
    simpa using this
  subst hs'
  obtain ⟨sx, hsx, -, hiffx⟩ := hsc _ (hin _ htx)
  have h4 := h3 _ htx
  rw [hsx] at h4
  have h5 : (some sx, tx.2) ∈ scores := by
    simp only [Except.ok.injEq] at h4
    rw [h4]
    exact htx
  have h6 := c3 sx tx.2 h5
  have h7 := hiffx.2 hxc
  rw [h7] at h6
  exact hiff.1 (le_antisymm h6 hlow)

section Example

/-- Concrete case: the model with weight 3 against the empty graph. -/
noncomputable def emptyModel : LModel 2 1 2 := ⟨0, 0, !![1, 1], !![1, 2; 1, 1], !![1; 2], 1 - (0 : Matrix (Fin 2) (Fin 2) ℝ)ᵀ⟩

theorem exModel_proper (it : SetIter 2) : Proper it exModel := by
  refine ⟨_, _, _, _, _, by unfold Nonneg; decide, mkModel_eq_ok (by unfold Nonneg; decide) _ _ _ exModel_acyclic exModel_respects, ?_, ?_⟩
  · intro k i
    fin_cases k <;> fin_cases i <;> norm_num
  · intro k i
    fin_cases k <;> fin_cases i <;> norm_num

theorem emptyModel_proper (it : SetIter 2) : Proper it emptyModel := by
  refine ⟨0, 0, !![1, 1], !![1, 2; 1, 1], !![1; 2], fun _ _ => le_refl _, mkModel_eq_ok (fun _ _ => le_refl _) _ _ _ ?_ (fun _ _ _ => rfl), ?_, ?_⟩
  · exact (isDag_iff it (fun _ _ => le_refl _)).1 ((isDag_iff it (fun _ _ => le_refl _)).2
      ((isDag_iff (SetIter.incr 2) (A := 0) (fun _ _ => le_refl _)).1 (by decide)))
  · intro k i
    fin_cases k <;> fin_cases i <;> norm_num
  · intro k i
    fin_cases k <;> fin_cases i <;> norm_num

theorem emptyModel_other (C : Fin 2 → Matrix (Fin 2) (Fin 2) ℝ) (hC : exModel.covariances = .ok C) : emptyModel.covariances ≠ .ok C := by
  intro h5
  have hd : (1 - exModel.Bᵀ).det = 1 := det_one_sub_transpose exModel_acyclic exModel_respects
  rw [covariances_ok exModel hd] at hC
  rw [← hC, covariances_ok emptyModel (by simp [emptyModel])] at h5
  have h6 := congrArg (fun M => (1 - exModel.Bᵀ) * M * (1 - exModel.Bᵀ)ᵀ) (congrFun (Except.ok.inj h5) 0)
  have hu : IsUnit (1 - exModel.Bᵀ).det := by rw [hd]; exact isUnit_one
  have h7 : (1 - exModel.Bᵀ) * ((1 - exModel.Bᵀ)⁻¹ * exModel.noise 0 * ((1 - exModel.Bᵀ)⁻¹)ᵀ) * (1 - exModel.Bᵀ)ᵀ = exModel.noise 0 := by
    rw [Matrix.mul_assoc, Matrix.mul_assoc, ← Matrix.transpose_mul, Matrix.mul_nonsing_inv _ hu, Matrix.transpose_one, Matrix.mul_one,
      ← Matrix.mul_assoc, Matrix.mul_nonsing_inv _ hu, Matrix.one_mul]
  simp only [h7] at h6
  have h8 := congrFun (congrFun h6 0) 1
  simp [emptyModel, exModel, noise_eq, noiseCov, Matrix.mul_apply, Fin.sum_univ_two] at h8

theorem exData_good (it : SetIter 2) (C : Fin 2 → Matrix (Fin 2) (Fin 2) ℝ) (hC : exModel.covariances = .ok C) :
    GoodData (⟨C, ![10, 20]⟩ : Data 2 2) := by
  refine ⟨fun k => ?_, fun k => by fin_cases k <;> simp, by norm_num⟩
  obtain ⟨A, B, gamma, omegas, psis, hA, hmk, ho, hp⟩ := exModel_proper it
  obtain ⟨-, ⟨C', hC', hCp⟩, -⟩ := C36_posDef it A hA B gamma omegas psis exModel hmk ho hp
  rw [hC] at hC'
  cases hC'
  exact (hCp k).1

example (it : SetIter 2) (C : Fin 2 → Matrix (Fin 2) (Fin 2) ℝ) (hC : exModel.covariances = .ok C) :
    ∃ s₀ s, exModel.score (List.ofFn C) (List.ofFn ![10, 20]) = .ok (some s₀) ∧
      emptyModel.score (List.ofFn C) (List.ofFn ![10, 20]) = .ok (some s) ∧ s₀ < s := by
  obtain ⟨s₀, s, h1, h2, h3, h4⟩ := C88_truth_minimises it exModel (exModel_proper it) emptyModel (emptyModel_proper it) ![10, 20]
    (by intro k; fin_cases k <;> simp) (by norm_num) C hC
  exact ⟨s₀, s, h1, h2, lt_of_le_of_ne h3 (fun hc => emptyModel_other C hC (h4.1 hc.symm))⟩

/-- Concrete case: the selection rejects the empty graph although it comes first. -/
example (it : SetIter 2) (C : Fin 2 → Matrix (Fin 2) (Fin 2) ℝ) (hC : exModel.covariances = .ok C) :
    ∃ scores s, testScores ⟨C, ![10, 20]⟩ id [(⟨1, emptyModel⟩ : AnyModel 2 2), ⟨1, exModel⟩] = .ok scores ∧
      bestScoring scores = .ok (s, ⟨1, exModel⟩) := by
  obtain ⟨scores, s, y, h1, h2, h3, h4⟩ := C88_selection it ⟨C, ![10, 20]⟩ (exData_good it C hC) id [(⟨1, emptyModel⟩ : AnyModel 2 2), ⟨1, exModel⟩]
    (by
      intro x hx
      simp only [List.mem_cons, List.not_mem_nil, or_false] at hx
      rcases hx with rfl | rfl
      exacts [emptyModel_proper it, exModel_proper it])
    ⟨⟨1, exModel⟩, by simp, hC⟩
  simp only [List.mem_cons, List.not_mem_nil, or_false] at h3
  rcases h3 with rfl | rfl
  · exact absurd h4 (emptyModel_other C hC)
  · exact ⟨scores, s, h1, h2⟩

/-- The same parameters in an object that still holds the matrix `I - Bᵀ` of earlier weights (here 0), as freshly fitted models do
(C52). -/
noncomputable def staleModel : LModel 2 1 2 := { exModel with IB := emptyModel.IB }

/-- C88, boundary: the selection theorem needs that the models hold the matrix of their own weights.  With an outdated one a model with
exactly the true parameters loses against the empty graph. -/
theorem C88_stale_boundary (it : SetIter 2) (C : Fin 2 → Matrix (Fin 2) (Fin 2) ℝ) (hC : exModel.covariances = .ok C) :
    staleModel.covariances = .ok C ∧ emptyModel.covariances ≠ .ok C ∧
    ∃ scores s, testScores ⟨C, ![10, 20]⟩ id [(⟨1, emptyModel⟩ : AnyModel 2 2), ⟨1, staleModel⟩] = .ok scores ∧
      bestScoring scores = .ok (s, ⟨1, emptyModel⟩) := by
  refine ⟨hC, emptyModel_other C hC, ?_⟩
  obtain ⟨s, h1, -⟩ := proper_score (emptyModel_proper it) ![10, 20] (by intro k; fin_cases k <;> simp) (by norm_num) C (exData_good it C hC).posDef
  have h2 : staleModel.score (List.ofFn C) (List.ofFn ![10, 20]) = .ok (some s) := h1
  refine ⟨[(some s, ⟨1, emptyModel⟩), (some s, ⟨1, staleModel⟩)], some s, ?_, ?_⟩
  · simp only [testScores, AnyModel.scoreOn, id, h1, h2]
  · obtain ⟨i, a, b, c1, c2, -, c4⟩ := C54_first_minimum [(some s, (⟨1, emptyModel⟩ : AnyModel 2 2)), (some s, ⟨1, staleModel⟩)] (by simp) (by simp)
    rcases i with _ | _ | i
    · simp only [List.getElem?_cons_zero, Option.some.injEq, Prod.mk.injEq] at c2
      rw [c1, ← c2.1, ← c2.2]
    · have := c4 0 (by norm_num) s ⟨1, emptyModel⟩ rfl
      simp at c2
      exact absurd this (by rw [c2.1]; exact lt_irrefl _)
    · simp at c2

/-- Concrete case of `C88_class_minimises`: the graph with the arrow reversed, and a model of `0 → 1` whose variances are constant. -/
example (it : SetIter 2) : ∃ (m₀ : LModel 2 1 2) (C : Fin 2 → Matrix (Fin 2) (Fin 2) ℝ) (m : LModel 2 1 2) (s : ℝ), m₀.B 0 1 = 2 ∧
    m₀.covariances = .ok C ∧ Admissible it ∅ ![![0, 0], ![1, 0]] !![1; 3] m ∧ m.score (List.ofFn C) (List.ofFn ![10, 20]) = .ok (some s) ∧
    ∃ s', emptyModel.score (List.ofFn C) (List.ofFn ![10, 20]) = .ok (some s') ∧ s ≤ s' := by
  have hG : Nonneg (![![0, 1], ![0, 0]] : Adj 2) := by unfold Nonneg; decide
  have hH : Nonneg (![![0, 0], ![1, 0]] : Adj 2) := by unfold Nonneg; decide
  have hacH : Acyclic (![![0, 0], ![1, 0]] : Adj 2) := (isDag_iff (SetIter.incr 2) hH).1 (by decide)
  have hB : Respects (![![0, 1], ![0, 0]] : Adj 2) (!![0, 2; 0, 0] : Matrix (Fin 2) (Fin 2) ℝ) := by
    intro i j h
    fin_cases i <;> fin_cases j <;> simp at h ⊢
  have hE : IEquiv ∅ (![![0, 1], ![0, 0]] : Adj 2) ![![0, 0], ![1, 0]] := by
    refine ⟨⟨fun i j => ?_, fun i c j => ?_⟩, by simp [SameParentsAt]⟩
    · unfold Adjacent
      fin_cases i <;> fin_cases j <;> simp
    · unfold VStructure DirEdge Adjacent
      fin_cases i <;> fin_cases c <;> fin_cases j <;> simp
  have hmk := mkModel_eq_ok (it := it) hG (!![1, -1] : Matrix (Fin 1) (Fin 2) ℝ) (!![1, 2; 1, 2] : Matrix (Fin 2) (Fin 2) ℝ) !![1; 3]
    exModel_acyclic hB
  have ho : ∀ k i, 0 < (!![1, 2; 1, 2] : Matrix (Fin 2) (Fin 2) ℝ) k i := by intro k i; fin_cases k <;> fin_cases i <;> norm_num
  have hp : ∀ k i, 0 ≤ (!![1; 3] : Matrix (Fin 2) (Fin 1) ℝ) k i := by intro k i; fin_cases k <;> fin_cases i <;> norm_num
  obtain ⟨-, ⟨C, hC, -⟩, -⟩ := C36_posDef it _ hG _ _ _ _ _ hmk ho hp
  obtain ⟨m, s, h1, h2, h3⟩ := C88_class_minimises it _ _ hG hH hacH ∅ hE _ hp _ ⟨_, _, _, hmk, ho, by
    intro k k' i _
    fin_cases k <;> fin_cases k' <;> fin_cases i <;> norm_num⟩ ![10, 20] (by intro k; fin_cases k <;> simp) (by norm_num) C hC
  exact ⟨_, C, m, s, by simp, hC, h1, h2, h3 1 emptyModel (emptyModel_proper it)⟩

end Example

end Verif
