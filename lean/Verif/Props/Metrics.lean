import Verif.Model.Metrics
import Verif.Props.Graph
import Verif.Props.Score
import Mathlib.Order.Bounds.Basic
import Mathlib.LinearAlgebra.Matrix.ToLin

/-!
# C74, C75: the deviation metrics of a model
-/

namespace Verif

open Spec Matrix

variable {p l e : Nat}

theorem foldl_max_spec {α : Type} [LinearOrder α] (xs : List α) : ∀ x : α,
    (xs.foldl max x = x ∨ xs.foldl max x ∈ xs) ∧ x ≤ xs.foldl max x ∧ ∀ y ∈ xs, y ≤ xs.foldl max x := by
  induction xs with
  | nil => intro x; simp
  | cons a xs ih =>
    intro x
    obtain ⟨h1, h2, h3⟩ := ih (max x a)
    simp only [List.foldl_cons]
    refine ⟨?_, le_trans (le_max_left x a) h2, ?_⟩
    · rcases h1 with h1 | h1
      · rcases max_choice x a with h | h
        · left; rw [h1, h]
        · right; rw [h1, h]; simp
      · right; exact List.mem_cons_of_mem _ h1
    · intro y hy
      rcases List.mem_cons.1 hy with rfl | hy
      · exact le_trans (le_max_right x y) h2
      · exact h3 y hy

theorem pyMax_ofFn {α : Type} [LinearOrder α] {n : Nat} (f : Fin n → α) :
    (n = 0 ∧ pyMax (List.ofFn f) = .error .valueError) ∨
      (n ≠ 0 ∧ ∃ x, pyMax (List.ofFn f) = .ok x ∧ IsGreatest (Set.range f) x) := by
  cases n with
  | zero => left; simp [pyMax]
  | succ n =>
    right
    refine ⟨by omega, ?_⟩
    obtain ⟨h1, h2, h3⟩ := foldl_max_spec (List.ofFn (fun i : Fin n => f i.succ)) (f 0)
    refine ⟨(List.ofFn (fun i : Fin n => f i.succ)).foldl max (f 0), by rw [List.ofFn_succ]; rfl, ?_, ?_⟩
    · rcases h1 with h1 | h1
      · exact ⟨0, h1.symm⟩
      · obtain ⟨i, hi⟩ := (List.mem_ofFn' _ _).1 h1
        exact ⟨i.succ, hi⟩
    · rintro _ ⟨i, rfl⟩
      refine Fin.cases h2 (fun i => ?_) i
      exact h3 _ ((List.mem_ofFn' _ _).2 ⟨i, rfl⟩)

/-! ## C74 -/

/-- Mean over the environments. -/
noncomputable def Spec.meanOf (f : Fin e → ℝ) : ℝ := (∑ k, f k) / e

theorem colVar_eq (he : e ≠ 0) (om : Matrix (Fin e) (Fin p) ℝ) (j : Fin p) :
    colVar om j = meanOf (fun k => om k j ^ 2) - meanOf (fun k => om k j) ^ 2 := by
  have he' : (e : ℝ) ≠ 0 := Nat.cast_ne_zero.2 he
  unfold colVar meanOf
  simp only [sub_sq, Finset.sum_add_distrib, Finset.sum_sub_distrib, Finset.sum_const, Finset.card_univ, Fintype.card_fin, nsmul_eq_mul]
  rw [← Finset.sum_mul, ← Finset.mul_sum]
  field_simp
  ring

theorem colVar_nonneg (om : Matrix (Fin e) (Fin p) ℝ) (j : Fin p) : 0 ≤ colVar om j :=
  div_nonneg (Finset.sum_nonneg (fun _ _ => sq_nonneg _)) (Nat.cast_nonneg _)

/-- C74: `intervention_strength()` raises `ValueError` iff there are variables and no environments. -/
theorem C74_raises (m : LModel p l e) (err : Err) :
    m.interventionStrength = .error err ↔ err = .valueError ∧ e = 0 ∧ p ≠ 0 := by
  unfold LModel.interventionStrength
  split_ifs with h
  · simp [h, eq_comm]
  · simp [h]

/-- C74: entry `j` is the population variance (the mean of the squares minus the square of the mean) of the noise variances of
variable `j` across environments, divided by the largest of them (for a largest one that is zero see `C74_division`). -/
theorem C74_value (m : LModel p l e) (he : e ≠ 0) : ∃ s, m.interventionStrength = .ok s ∧ ∀ j, ∃ M,
    IsGreatest (Set.range (fun k => m.omegas k j)) M ∧
      s j = (meanOf (fun k => m.omegas k j ^ 2) - meanOf (fun k => m.omegas k j) ^ 2) / M := by
  refine ⟨_, by unfold LModel.interventionStrength; rw [if_neg (by simp [he])], fun j => ?_⟩
  rcases pyMax_ofFn (fun k => m.omegas k j) with ⟨h, -⟩ | ⟨-, M, h1, h2⟩
  · exact absurd h he
  · refine ⟨M, h2, ?_⟩
    simp only [h1]
    rw [colVar_eq he]

theorem strength_cases (m : LModel p l e) (he : e ≠ 0) (s : Fin p → ℝ) (h : m.interventionStrength = .ok s) (j : Fin p) :
    ∃ M, IsGreatest (Set.range (fun k => m.omegas k j)) M ∧ s j = colVar m.omegas j / M := by
  obtain ⟨s', h1, h2⟩ := C74_value m he
  rw [h1] at h
  cases h
  obtain ⟨M, hM, hs⟩ := h2 j
  exact ⟨M, hM, by rw [hs, colVar_eq he]⟩

/-- C74: with positive noise variances the strength is zero exactly for the variables whose variance is the same in all environments. -/
theorem C74_zero_iff (m : LModel p l e) (ho : ∀ k j, 0 < m.omegas k j) (he : e ≠ 0) (s : Fin p → ℝ)
    (h : m.interventionStrength = .ok s) (j : Fin p) : s j = 0 ↔ ∀ k k', m.omegas k j = m.omegas k' j := by
  obtain ⟨M, ⟨⟨k0, hk0⟩, -⟩, hs⟩ := strength_cases m he s h j
  have hM : 0 < M := hk0 ▸ ho k0 j
  have he' : (e : ℝ) ≠ 0 := Nat.cast_ne_zero.2 he
  rw [hs, div_eq_zero_iff, or_iff_left hM.ne']
  unfold colVar
  rw [div_eq_zero_iff, or_iff_left he', Finset.sum_eq_zero_iff_of_nonneg (fun _ _ => sq_nonneg _)]
  constructor
  · intro hz k k'
    have h1 := pow_eq_zero_iff (two_ne_zero) |>.1 (hz k (Finset.mem_univ _))
    have h2 := pow_eq_zero_iff (two_ne_zero) |>.1 (hz k' (Finset.mem_univ _))
    linarith
  · intro hc k _
    have : ∑ k', m.omegas k' j = e * m.omegas k j := by
      rw [Finset.sum_congr rfl (fun k' _ => hc k' k)]
      simp
    rw [this, mul_div_cancel_left₀ _ he', sub_self]
    simp

/-- C74: with positive noise variances the strength is at least zero and less than a quarter of the largest variance. -/
theorem C74_bounds (m : LModel p l e) (ho : ∀ k j, 0 < m.omegas k j) (he : e ≠ 0) (s : Fin p → ℝ)
    (h : m.interventionStrength = .ok s) (j : Fin p) (M : ℝ) (hM : IsGreatest (Set.range (fun k => m.omegas k j)) M) :
    0 ≤ s j ∧ s j < M / 4 := by
  obtain ⟨M', hM', hs⟩ := strength_cases m he s h j
  obtain rfl := hM.unique hM'
  obtain ⟨⟨k0, hk0⟩, hub⟩ := hM
  have hpos : 0 < M := hk0 ▸ ho k0 j
  have hep : (0 : ℝ) < e := Nat.cast_pos.2 (Nat.pos_of_ne_zero he)
  refine ⟨hs ▸ div_nonneg (colVar_nonneg _ _) hpos.le, ?_⟩
  rw [hs, div_lt_iff₀ hpos, colVar_eq he]
  have hle : ∀ k, m.omegas k j ≤ M := fun k => hub ⟨k, rfl⟩
  have h1 : meanOf (fun k => m.omegas k j ^ 2) ≤ M * meanOf (fun k => m.omegas k j) := by
    unfold meanOf
    rw [← mul_div_assoc, Finset.mul_sum]
    refine div_le_div_of_nonneg_right (Finset.sum_le_sum (fun k _ => ?_)) hep.le
    nlinarith [hle k, ho k j]
  by_cases hc : meanOf (fun k => m.omegas k j) = M / 2
  · -- then some value is strictly between zero and the maximum
    have hlt : meanOf (fun k => m.omegas k j ^ 2) < M * meanOf (fun k => m.omegas k j) := by
      have hex : ∃ k, m.omegas k j < M := by
        by_contra hno
        push Not at hno
        have : ∀ k, m.omegas k j = M := fun k => le_antisymm (hle k) (hno k)
        unfold meanOf at hc
        rw [Finset.sum_congr rfl (fun k _ => this k)] at hc
        simp only [Finset.sum_const, Finset.card_univ, Fintype.card_fin, nsmul_eq_mul] at hc
        rw [mul_div_cancel_left₀ _ hep.ne'] at hc
        linarith
      obtain ⟨k1, hk1⟩ := hex
      unfold meanOf
      rw [← mul_div_assoc, Finset.mul_sum]
      refine div_lt_div_of_pos_right (Finset.sum_lt_sum (fun k _ => ?_) ⟨k1, Finset.mem_univ _, ?_⟩) hep
      · nlinarith [hle k, ho k j]
      · nlinarith [ho k1 j]
    rw [hc] at hlt ⊢
    nlinarith
  · have : 0 < (meanOf (fun k => m.omegas k j) - M / 2) ^ 2 := by
      have := sub_ne_zero.2 hc
      positivity
    nlinarith

/-- C74: the metric is not free of the unit of measurement: multiplying all noise variances by `c > 0` multiplies it by `c`. -/
theorem C74_scale (m : LModel p l e) (ho : ∀ k j, 0 < m.omegas k j) (he : e ≠ 0) (c : ℝ) (hc : 0 < c) (s s' : Fin p → ℝ)
    (h : m.interventionStrength = .ok s)
    (h' : ({ m with omegas := c • m.omegas } : LModel p l e).interventionStrength = .ok s') (j : Fin p) : s' j = c * s j := by
  obtain ⟨M, hM, hs⟩ := strength_cases m he s h j
  obtain ⟨M', hM', hs'⟩ := strength_cases _ he s' h' j
  have hMp : 0 < M := by obtain ⟨⟨k0, hk0⟩, -⟩ := hM; exact hk0 ▸ ho k0 j
  have hMM : M' = c * M := by
    refine hM'.unique ⟨?_, ?_⟩
    · obtain ⟨⟨k0, hk0⟩, -⟩ := hM
      exact ⟨k0, by rw [← hk0]; rfl⟩
    · rintro _ ⟨k, rfl⟩
      exact mul_le_mul_of_nonneg_left (hM.2 ⟨k, rfl⟩) hc.le
  have hv : colVar (c • m.omegas) j = c ^ 2 * colVar m.omegas j := by
    rw [colVar_eq he, colVar_eq he]
    unfold meanOf
    simp only [Matrix.smul_apply, smul_eq_mul, mul_pow, ← Finset.mul_sum]
    ring
  rw [hs', hs, hMM]
  change colVar (c • m.omegas) j / (c * M) = _
  rw [hv]
  field_simp

/-- C74, C46: in every model returned by `score_dag` (without `init_model`) the strength is zero for the variables that are not targets. -/
theorem C74_fitted_non_targets {it : SetIter p} {svd : Matrix (Fin p) (Fin p) ℝ → Matrix (Fin p) (Fin p) ℝ × (Fin p → ℝ)}
    {num : NumLib p e} {cfg : ScoreCfg} {d : Data p e} {u v : Nat → Fin (p * p) → ℝ} {A : Adj p} {I : Finset (Fin p)}
    (m : LModel p l e) (sc : Flt) (h : fitCode it svd num cfg d u v A I none = .ok (m, sc)) (he : e ≠ 0) :
    ∃ s, m.interventionStrength = .ok s ∧ ∀ j ∉ I, s j = 0 := by
  obtain ⟨s, hs, -⟩ := C74_value m he
  exact ⟨s, hs, fun j hj => (C74_zero_iff m (C47_within_bounds none m sc h).1 he s hs j).2
    (fun k k' => C46_non_targets_constant m sc h j hj k k')⟩

/-- An example for C74: variances 1 and 3 in two environments give the strength 1/3. -/
example : ∃ s, (⟨0, 0, 0, !![1; 3], 0, 1⟩ : LModel 1 0 2).interventionStrength = .ok s ∧ s 0 = 1 / 3 := by
  obtain ⟨s, h1, h2⟩ := C74_value (⟨0, 0, 0, !![1; 3], 0, 1⟩ : LModel 1 0 2) (by decide)
  obtain ⟨M, hM, hs⟩ := h2 0
  have : M = 3 := hM.unique ⟨⟨1, by simp⟩, by
    rintro _ ⟨k, rfl⟩
    fin_cases k <;> simp⟩
  refine ⟨s, h1, ?_⟩
  rw [hs, this]
  simp [meanOf, Fin.sum_univ_two]
  norm_num

theorem colVar_zero_iff (he : e ≠ 0) (om : Matrix (Fin e) (Fin p) ℝ) (j : Fin p) : colVar om j = 0 ↔ ∀ k k', om k j = om k' j := by
  have he' : (e : ℝ) ≠ 0 := Nat.cast_ne_zero.2 he
  unfold colVar
  rw [div_eq_zero_iff, or_iff_left he', Finset.sum_eq_zero_iff_of_nonneg (fun _ _ => sq_nonneg _)]
  constructor
  · intro hz k k'
    have h1 := pow_eq_zero_iff (two_ne_zero) |>.1 (hz k (Finset.mem_univ _))
    have h2 := pow_eq_zero_iff (two_ne_zero) |>.1 (hz k' (Finset.mem_univ _))
    linarith
  · intro hc k _
    have : ∑ k', om k' j = e * om k j := by
      rw [Finset.sum_congr rfl (fun k' _ => hc k' k)]
      simp
    rw [this, mul_div_cancel_left₀ _ he', sub_self]
    simp

/-- C74: with the division of floats, entry `j` is NaN exactly if all noise variances of variable `j` are zero, infinite exactly if the largest
is zero and another is negative, and otherwise the number that `C74_value` describes.  The constructor accepts such variances. -/
theorem C74_division (m : LModel p l e) (he : e ≠ 0) : ∃ s r, m.interventionStrengthF = .ok s ∧ m.interventionStrength = .ok r ∧ ∀ j,
    (s j = .nan ↔ ∀ k, m.omegas k j = 0) ∧
    (s j = .pinf ↔ IsGreatest (Set.range (fun k => m.omegas k j)) 0 ∧ ∃ k, m.omegas k j < 0) ∧ s j ≠ .ninf ∧
    (s j = .fin (r j) ↔ ¬ IsGreatest (Set.range (fun k => m.omegas k j)) 0) := by
  have hne : ¬ (e = 0 ∧ p ≠ 0) := by simp [he]
  refine ⟨_, _, by rw [LModel.interventionStrengthF, if_neg hne], by rw [LModel.interventionStrength, if_neg hne], fun j => ?_⟩
  rcases pyMax_ofFn (fun k => m.omegas k j) with ⟨h, -⟩ | ⟨-, M, h1, h2⟩
  · exact absurd h he
  simp only [h1]
  have hgr : IsGreatest (Set.range (fun k => m.omegas k j)) 0 ↔ M = 0 := ⟨fun h => h2.unique h, fun h => h ▸ h2⟩
  have hle : ∀ k, m.omegas k j ≤ M := fun k => h2.2 ⟨k, rfl⟩
  obtain ⟨k0, hk0⟩ := h2.1
  simp only at hk0
  have hall : (∀ k, m.omegas k j = 0) ↔ M = 0 ∧ colVar m.omegas j = 0 := by
    rw [colVar_zero_iff he]
    constructor
    · intro h
      exact ⟨by rw [← hk0, h], fun k k' => by rw [h, h]⟩
    · rintro ⟨hM, hc⟩ k
      rw [hc k k0, hk0, hM]
  rw [hall, hgr]
  have hv := colVar_nonneg m.omegas j
  have hneg : M = 0 → ((∃ k, m.omegas k j < 0) ↔ colVar m.omegas j ≠ 0) := by
    intro hM
    rw [Ne, ← not_iff_not, not_not, colVar_zero_iff he]
    push Not
    constructor
    · intro h k k'
      have a1 := h k
      have a2 := h k'
      have a3 := hle k
      have a4 := hle k'
      rw [hM] at a3 a4
      linarith
    · intro h k
      rw [h k k0, hk0, hM]
  unfold floatDiv
  by_cases hM : M = 0
  · rw [if_neg (by simpa using hM)]
    by_cases hz : colVar m.omegas j = 0
    · rw [if_pos hz]
      simp [hM, hz, hneg hM]
    · rw [if_neg hz, if_pos (lt_of_le_of_ne hv (Ne.symm hz))]
      simp [hM, hz, hneg hM]
  · rw [if_pos hM]
    simp [hM]

/-- C74: without negative noise variances the strength is a number or NaN, and NaN only for the variables without any noise. -/
theorem C74_no_noise (m : LModel p l e) (he : e ≠ 0) (ho : ∀ k j, 0 ≤ m.omegas k j) (s : Fin p → FloatVal) (h : m.interventionStrengthF = .ok s)
    (j : Fin p) : (s j = .nan ∧ ∀ k, m.omegas k j = 0) ∨ (∃ x, s j = .fin x ∧ 0 ≤ x) ∧ ∃ k, 0 < m.omegas k j := by
  obtain ⟨s', r, h1, h2, h3⟩ := C74_division m he
  rw [h1] at h
  cases h
  obtain ⟨a1, a2, a3, a4⟩ := h3 j
  by_cases hz : ∀ k, m.omegas k j = 0
  · exact Or.inl ⟨a1.2 hz, hz⟩
  · right
    push Not at hz
    obtain ⟨k, hk⟩ := hz
    have hk' : 0 < m.omegas k j := lt_of_le_of_ne (ho k j) (Ne.symm hk)
    refine ⟨⟨r j, a4.2 fun hg => absurd (hg.2 ⟨k, rfl⟩) (not_le.2 hk'), ?_⟩, k, hk'⟩
    obtain ⟨M, hM, hs⟩ := strength_cases m he r h2 j
    rw [hs]
    exact div_nonneg (colVar_nonneg _ _) (le_trans (ho k j) (hM.2 ⟨k, rfl⟩))

/-- An example: variances 0, 0 and 0, -1 in two environments. -/
example : ∃ s, (⟨0, 0, 0, !![0, 0; 0, -1], 0, 1⟩ : LModel 2 0 2).interventionStrengthF = .ok s ∧ s 0 = .nan ∧ s 1 = .pinf := by
  obtain ⟨s, r, h1, -, h3⟩ := C74_division (⟨0, 0, 0, !![0, 0; 0, -1], 0, 1⟩ : LModel 2 0 2) (by decide)
  refine ⟨s, h1, (h3 0).1.2 fun k => ?_, (h3 1).2.1.2 ⟨⟨⟨0, by simp⟩, ?_⟩, 1, by simp⟩⟩
  · fin_cases k <;> simp
  · rintro _ ⟨k, rfl⟩
    fin_cases k <;> simp

/-! ## C75 -/

/-- What is assumed of the factor `U` of a reduced singular value decomposition of `X`: orthonormal columns whose span contains the
columns of `X`. -/
def Spec.IsReducedU (X : Matrix (Fin p) (Fin l) ℝ) (U : Matrix (Fin p) (Fin (min p l)) ℝ) : Prop :=
  Uᵀ * U = 1 ∧ ∃ Y, X = U * Y

/-- The number of nodes joined to `i` in the moral graph: those adjacent to it or with a common child. -/
noncomputable def Spec.moralDegree (A : Adj p) (i : Fin p) : Nat :=
  open Classical in (Finset.univ.filter (fun j => j ≠ i ∧ (Adjacent A j i ∨ ∃ c, Edge A j c ∧ Edge A i c))).card

theorem degrees_moral (it : SetIter p) {A : Adj p} (hA : Nonneg A) (hac : Acyclic A) (i : Fin p) :
    degrees (moralGraph it A) i = moralDegree A i := by
  classical
  have hdiag : moralGraph it A i i = 0 := by
    unfold moralGraph
    rw [if_neg]
    · unfold skeleton
      rw [if_neg]
      have : A i i = 0 := by
        by_contra hc
        exact hac i (Relation.TransGen.single hc)
      simp [this]
    · rintro ⟨c, hc | hc⟩ <;> exact absurd ((C05_vstructures_exact it A _ _ _).1 hc).1 (lt_irrefl _)
  rw [C11_degrees _ (fun a b => by
    by_cases hab : a = b
    · subst hab
      unfold moralGraph skeleton
      split_ifs <;> simp
    · rcases (C11_moral_graph it A hA hac a b hab).2 with h | h <;> simp [h])]
  unfold moralDegree
  norm_cast
  congr 1
  ext j
  simp only [Finset.mem_filter, Finset.mem_univ, true_and]
  unfold Adjacent Edge
  constructor
  · intro h
    have hji : j ≠ i := by
      rintro rfl
      rcases h with h | h <;> exact h hdiag
    have h1 : moralGraph it A j i ≠ 0 := by
      rcases h with h | h
      · exact h
      · rwa [C11_moral_graph_symm]
    obtain ⟨h2, h3⟩ := C11_moral_graph it A hA hac j i hji
    exact ⟨hji, h2.1 (h3.resolve_left h1)⟩
  · rintro ⟨hji, h⟩
    left
    rw [(C11_moral_graph it A hA hac j i hji).1.2 h]
    simp

theorem incoherence_cases (svdU : Matrix (Fin p) (Fin l) ℝ → Matrix (Fin p) (Fin (min p l)) ℝ) (m : LModel p l e) (hp : p ≠ 0)
    (ks : List (Fin e)) : ∃ xs, incoherenceLoop svdU m ks = .ok xs ∧ List.Forall₂ (fun k x =>
      IsGreatest (Set.range (fun i => (svdU (m.latentEffects k) * (svdU (m.latentEffects k))ᵀ) i i)) x) ks xs := by
  induction ks with
  | nil => exact ⟨[], rfl, .nil⟩
  | cons k ks ih =>
    obtain ⟨xs, h1, h2⟩ := ih
    rcases pyMax_ofFn (fun i => (svdU (m.latentEffects k) * (svdU (m.latentEffects k))ᵀ) i i) with ⟨h, -⟩ | ⟨-, x, h3, h4⟩
    · exact absurd h hp
    · refine ⟨x :: xs, ?_, .cons h4 h2⟩
      have h5 : m.incoherence svdU k = .ok x := h3
      simp only [incoherenceLoop, h5, h1]

/-- C75: `scaled_latent_incoherence()` raises `ValueError` iff there are no variables or no environments, and nothing else
(here and below for variances that are not zero: with a zero the matrix decomposed has infinite entries or nan, which is not modelled). -/
theorem C75_raises (it : SetIter p) (svdU : Matrix (Fin p) (Fin l) ℝ → Matrix (Fin p) (Fin (min p l)) ℝ) (m : LModel p l e)
    (_ho : ∀ k j, m.omegas k j ≠ 0) (err : Err) : m.scaledLatentIncoherence it svdU = .error err ↔ err = .valueError ∧ (p = 0 ∨ e = 0) := by
  unfold LModel.scaledLatentIncoherence
  rcases pyMax_ofFn (degrees (moralGraph it m.A)) with ⟨hp, h⟩ | ⟨hp, d, h, -⟩
  · rw [h]
    simp [hp, eq_comm]
  · obtain ⟨xs, h1, h2⟩ := incoherence_cases svdU m hp (List.finRange e)
    have hlen := h2.length_eq
    simp only [h, h1]
    cases xs with
    | nil =>
      simp only [List.length_finRange, List.length_nil] at hlen
      simp [pyMax, hlen, eq_comm]
    | cons x xs =>
      simp only [List.length_finRange, List.length_cons] at hlen
      simp only [pyMax]
      simp [hp]
      omega

/-- C75: the matrix decomposed in environment `k` has, for variable `i` and latent `h`, the effect of the latent on the variable divided
by its noise variance, minus those of the children of `i` weighted by `B`. -/
theorem C75_effects (m : LModel p l e) (k : Fin e) (i : Fin p) (h : Fin l) :
    m.latentEffects k i h = m.gamma h i / m.omegas k i - ∑ j, m.B i j * (m.gamma h j / m.omegas k j) := by
  have h1 : ∀ j, (Matrix.diagonal (fun i => 1 / m.omegas k i) * m.gammaᵀ) j h = m.gamma h j / m.omegas k j := fun j => by
    rw [Matrix.diagonal_mul, Matrix.transpose_apply, one_div, div_eq_inv_mul]
  unfold LModel.latentEffects
  rw [Matrix.mul_assoc, Matrix.transpose_sub, Matrix.transpose_transpose, Matrix.transpose_one, Matrix.sub_mul, Matrix.one_mul,
    Matrix.sub_apply, h1, Matrix.mul_apply]
  simp only [h1]

/-- C75: otherwise the metric is the largest diagonal entry, over all environments, of the matrices `U Uᵀ`, multiplied by the largest
number of nodes joined to a node in the moral graph. -/
theorem C75_value (it : SetIter p) (svdU : Matrix (Fin p) (Fin l) ℝ → Matrix (Fin p) (Fin (min p l)) ℝ) (m : LModel p l e)
    (_ho : ∀ k j, m.omegas k j ≠ 0) (hA : Nonneg m.A) (hac : Acyclic m.A) (hp : p ≠ 0) (he : e ≠ 0) : ∃ (c : ℝ) (d : Nat),
    m.scaledLatentIncoherence it svdU = .ok (c * d) ∧ IsGreatest (Set.range (moralDegree m.A)) d ∧
    IsGreatest (Set.range (fun r : Fin e × Fin p => (svdU (m.latentEffects r.1) * (svdU (m.latentEffects r.1))ᵀ) r.2 r.2)) c := by
  rcases pyMax_ofFn (degrees (moralGraph it m.A)) with ⟨h, -⟩ | ⟨-, d, h, ⟨i0, hi0⟩, hub⟩
  · exact absurd h hp
  obtain ⟨xs, h1, h2⟩ := incoherence_cases svdU m hp (List.finRange e)
  have hlen : xs.length = e := by rw [← h2.length_eq, List.length_finRange]
  have hget : ∀ k : Fin e, IsGreatest (Set.range (fun i => (svdU (m.latentEffects k) * (svdU (m.latentEffects k))ᵀ) i i))
      (xs[k.val]'(by omega)) := by
    intro k
    have := (List.forall₂_iff_get.1 h2).2 k.val (by simp) (by omega)
    simpa using this
  have hxs : xs = List.ofFn (fun k : Fin e => xs[k.val]'(by omega)) := by
    refine List.ext_getElem (by simp [hlen]) (fun n _ _ => by simp)
  rcases pyMax_ofFn (fun k : Fin e => xs[k.val]'(by omega)) with ⟨h3, -⟩ | ⟨-, c, h3, ⟨k0, hk0⟩, hcub⟩
  · exact absurd h3 he
  rw [← hxs] at h3
  refine ⟨c, moralDegree m.A i0, ?_, ⟨⟨i0, rfl⟩, ?_⟩, ?_, ?_⟩
  · unfold LModel.scaledLatentIncoherence
    simp only [h, h1, h3]
    rw [← hi0, degrees_moral it hA hac]
    simp
  · rintro _ ⟨i, rfl⟩
    have := hub ⟨i, rfl⟩
    rw [← hi0, degrees_moral it hA hac, degrees_moral it hA hac] at this
    exact_mod_cast this
  · obtain ⟨⟨i, hi⟩, -⟩ := hget k0
    exact ⟨(k0, i), by simp only; rw [← hk0]; exact hi⟩
  · rintro _ ⟨⟨k, i⟩, rfl⟩
    exact le_trans ((hget k).2 ⟨i, rfl⟩) (hcub ⟨k, rfl⟩)

theorem diag_le_one {n : Nat} {U : Matrix (Fin p) (Fin n) ℝ} (hU : Uᵀ * U = 1) (i : Fin p) : (U * Uᵀ) i i ≤ 1 := by
  have hidem : (U * Uᵀ) * (U * Uᵀ) = U * Uᵀ := by
    rw [Matrix.mul_assoc, ← Matrix.mul_assoc Uᵀ U, hU, Matrix.one_mul]
  have hsym : (U * Uᵀ)ᵀ = U * Uᵀ := by rw [Matrix.transpose_mul, Matrix.transpose_transpose]
  have h1 : (U * Uᵀ) i i = ∑ j, (U * Uᵀ) i j ^ 2 := by
    conv_lhs => rw [← hidem, Matrix.mul_apply]
    refine Finset.sum_congr rfl (fun j _ => ?_)
    have : (U * Uᵀ) j i = (U * Uᵀ) i j := by
      conv_lhs => rw [← hsym]
      rfl
    rw [this, sq]
  have h2 : (U * Uᵀ) i i ^ 2 ≤ (U * Uᵀ) i i := by
    conv_rhs => rw [h1]
    exact Finset.single_le_sum (f := fun j => (U * Uᵀ) i j ^ 2) (fun _ _ => sq_nonneg _) (Finset.mem_univ i)
  by_contra hc
  push Not at hc
  nlinarith

/-- C75: the metric lies between `d * min(p, l) / p` and `d`, where `d` is the largest degree of the moral graph, whatever reduced
singular value decompositions are found. -/
theorem C75_bounds (it : SetIter p) (svdU : Matrix (Fin p) (Fin l) ℝ → Matrix (Fin p) (Fin (min p l)) ℝ)
    (m : LModel p l e) (ho : ∀ k j, m.omegas k j ≠ 0) (hsvd : ∀ k, IsReducedU (m.latentEffects k) (svdU (m.latentEffects k)))
    (hA : Nonneg m.A) (hac : Acyclic m.A) (hp : p ≠ 0) (he : e ≠ 0) :
    ∃ (x : ℝ) (d : Nat), m.scaledLatentIncoherence it svdU = .ok x ∧ IsGreatest (Set.range (moralDegree m.A)) d ∧
      d * ((min p l : Nat) / p : ℝ) ≤ x ∧ x ≤ d := by
  obtain ⟨c, d, h1, h2, ⟨⟨⟨k, i⟩, hki⟩, hub⟩⟩ := C75_value it svdU m ho hA hac hp he
  have hpp : (0 : ℝ) < p := Nat.cast_pos.2 (Nat.pos_of_ne_zero hp)
  refine ⟨c * d, d, h1, h2, ?_, ?_⟩
  · rw [mul_comm c]
    refine mul_le_mul_of_nonneg_left ?_ (Nat.cast_nonneg d)
    rw [div_le_iff₀ hpp]
    have htr : (svdU (m.latentEffects k) * (svdU (m.latentEffects k))ᵀ).trace = (min p l : Nat) := by
      rw [Matrix.trace_mul_comm, (hsvd _).1, Matrix.trace_one, Fintype.card_fin]
    rw [← htr]
    unfold Matrix.trace
    calc _ ≤ ∑ _i : Fin p, c := Finset.sum_le_sum (fun i _ => hub ⟨(k, i), rfl⟩)
      _ = c * p := by simp [mul_comm]
  · have : c ≤ 1 := by
      rw [← hki]
      exact diag_le_one (hsvd _).1 i
    calc c * d ≤ 1 * d := mul_le_mul_of_nonneg_right this (Nat.cast_nonneg d)
      _ = d := one_mul _

/-- C75: with at least as many latents as variables the metric is the degree itself: it says nothing about the latent effects. -/
theorem C75_many_latents (it : SetIter p) (svdU : Matrix (Fin p) (Fin l) ℝ → Matrix (Fin p) (Fin (min p l)) ℝ)
    (m : LModel p l e) (ho : ∀ k j, m.omegas k j ≠ 0) (hsvd : ∀ k, IsReducedU (m.latentEffects k) (svdU (m.latentEffects k)))
    (hA : Nonneg m.A) (hac : Acyclic m.A) (hp : p ≠ 0) (he : e ≠ 0) (hl : p ≤ l) :
    ∃ d : Nat, m.scaledLatentIncoherence it svdU = .ok d ∧ IsGreatest (Set.range (moralDegree m.A)) d := by
  obtain ⟨x, d, h1, h2, h3, h4⟩ := C75_bounds it svdU m ho hsvd hA hac hp he
  refine ⟨d, ?_, h2⟩
  have hpp : (p : ℝ) ≠ 0 := Nat.cast_ne_zero.2 hp
  rw [min_eq_left hl, div_self hpp, mul_one] at h3
  rw [h1, le_antisymm h4 h3]

theorem projection_unique (hl : l ≤ p) {X : Matrix (Fin p) (Fin l) ℝ} {L : Matrix (Fin l) (Fin p) ℝ} (hL : L * X = 1)
    {U : Matrix (Fin p) (Fin (min p l)) ℝ} (hU : IsReducedU X U) {P : Matrix (Fin p) (Fin p) ℝ} (hP : Pᵀ = P) (hPX : P * X = X)
    {Z : Matrix (Fin l) (Fin p) ℝ} (hPZ : P = X * Z) : U * Uᵀ = P := by
  obtain ⟨hUU, Y, hY⟩ := hU
  have h1 : (L * U) * Y = 1 := by rw [Matrix.mul_assoc, ← hY, hL]
  have hcard : Fintype.card (Fin l) = Fintype.card (Fin (min p l)) := by simp [hl]
  have h2 : Y * (L * U) = 1 := (Matrix.mul_eq_one_comm_of_card_eq _ _ _ hcard).1 h1
  have hUX : X * (L * U) = U := by
    rw [hY, Matrix.mul_assoc, h2, Matrix.mul_one]
  have hPU : P * U = U := by
    calc P * U = P * (X * (L * U)) := by rw [hUX]
      _ = U := by rw [← Matrix.mul_assoc, hPX, hUX]
  have hQ : (U * Uᵀ) * P = P := by
    rw [hPZ, hY]
    rw [Matrix.mul_assoc U Uᵀ, ← Matrix.mul_assoc Uᵀ, ← Matrix.mul_assoc Uᵀ, hUU, Matrix.one_mul, ← Matrix.mul_assoc]
  have hQ' : P * (U * Uᵀ) = U * Uᵀ := by rw [← Matrix.mul_assoc, hPU]
  have h3 := congrArg Matrix.transpose hQ
  rw [Matrix.transpose_mul, Matrix.transpose_mul, Matrix.transpose_transpose, hP, hQ'] at h3
  exact h3

/-- The latent effects are independent if the rows of `gamma` are. -/
theorem latentEffects_left_inverse (m : LModel p l e) (hac : Acyclic m.A) (hB : Respects m.A m.B) (k : Fin e)
    (ho : ∀ j, m.omegas k j ≠ 0) {G : Matrix (Fin p) (Fin l) ℝ} (hG : m.gamma * G = 1) :
    ∃ L : Matrix (Fin l) (Fin p) ℝ, L * m.latentEffects k = 1 := by
  have hdet : IsUnit (1 - m.Bᵀ)ᵀ.det := by
    rw [Matrix.det_transpose, det_one_sub_transpose hac hB]
    exact isUnit_one
  have hD : Matrix.diagonal (fun j => m.omegas k j) * Matrix.diagonal (fun j => 1 / m.omegas k j) = 1 := by
    rw [Matrix.diagonal_mul_diagonal, ← Matrix.diagonal_one]
    congr 1
    ext j
    exact mul_one_div_cancel (ho j)
  refine ⟨Gᵀ * (Matrix.diagonal (fun j => m.omegas k j) * ((1 - m.Bᵀ)ᵀ)⁻¹), ?_⟩
  have hGt : Gᵀ * m.gammaᵀ = 1 := by rw [← Matrix.transpose_mul, hG, Matrix.transpose_one]
  unfold LModel.latentEffects
  calc _ = Gᵀ * (Matrix.diagonal (fun j => m.omegas k j) * (((1 - m.Bᵀ)ᵀ)⁻¹ * (1 - m.Bᵀ)ᵀ) *
        Matrix.diagonal (fun j => 1 / m.omegas k j)) * m.gammaᵀ := by simp only [Matrix.mul_assoc]
    _ = 1 := by rw [Matrix.nonsing_inv_mul _ hdet, Matrix.mul_one, hD, Matrix.mul_one, hGt]

theorem projection_eq (hl : l ≤ p) {X X' : Matrix (Fin p) (Fin l) ℝ} {L : Matrix (Fin l) (Fin p) ℝ} (hL : L * X = 1)
    {R R' : Matrix (Fin l) (Fin l) ℝ} (hR : R * R' = 1) (hX : X' = X * R)
    {U V : Matrix (Fin p) (Fin (min p l)) ℝ} (hU : IsReducedU X U) (hV : IsReducedU X' V) : U * Uᵀ = V * Vᵀ := by
  obtain ⟨hVV, Y, hY⟩ := hV
  have hXV : X = V * (Y * R') := by
    rw [← Matrix.mul_assoc, ← hY, hX, Matrix.mul_assoc, hR, Matrix.mul_one]
  have h1 : (L * V) * (Y * R') = 1 := by rw [Matrix.mul_assoc, ← hXV, hL]
  have hcard : Fintype.card (Fin l) = Fintype.card (Fin (min p l)) := by simp [hl]
  have h2 : (Y * R') * (L * V) = 1 := (Matrix.mul_eq_one_comm_of_card_eq _ _ _ hcard).1 h1
  have hVX : X * (L * V) = V := by
    conv_lhs => rw [hXV]
    rw [Matrix.mul_assoc, h2, Matrix.mul_one]
  refine projection_unique hl hL hU (P := V * Vᵀ) ?_ ?_ (Z := L * V * Vᵀ) ?_
  · rw [Matrix.transpose_mul, Matrix.transpose_transpose]
  · conv_lhs => rw [hXV]
    rw [Matrix.mul_assoc, ← Matrix.mul_assoc Vᵀ, hVV, Matrix.one_mul, ← hXV]
  · rw [← Matrix.mul_assoc, hVX]

/-- C75: for a model with independent latent effects the metric does not depend on which reduced singular value decompositions are
found, nor on the choice of the latent variables: replacing `gamma` by `R gamma` with an invertible `R` does not change it. -/
theorem C75_well_defined (it it' : SetIter p) (svdU svdU' : Matrix (Fin p) (Fin l) ℝ → Matrix (Fin p) (Fin (min p l)) ℝ)
    (m : LModel p l e) (hA : Nonneg m.A) (hac : Acyclic m.A) (hB : Respects m.A m.B) (ho : ∀ k j, m.omegas k j ≠ 0)
    (G : Matrix (Fin p) (Fin l) ℝ) (hG : m.gamma * G = 1) (R : Matrix (Fin l) (Fin l) ℝ) (hR : R.det ≠ 0)
    (hsvd : ∀ k, IsReducedU (m.latentEffects k) (svdU (m.latentEffects k)))
    (hsvd' : ∀ k, IsReducedU (({ m with gamma := R * m.gamma } : LModel p l e).latentEffects k)
      (svdU' (({ m with gamma := R * m.gamma } : LModel p l e).latentEffects k))) (hp : p ≠ 0) (he : e ≠ 0) :
    ∃ x, m.scaledLatentIncoherence it svdU = .ok x ∧
      ({ m with gamma := R * m.gamma } : LModel p l e).scaledLatentIncoherence it' svdU' = .ok x := by
  have hl : l ≤ p := by
    have h1 := Matrix.rank_mul_le_left m.gamma G
    rw [hG, Matrix.rank_one, Fintype.card_fin] at h1
    exact le_trans h1 (Matrix.rank_le_width _)
  obtain ⟨c, d, h1, h2, h3⟩ := C75_value it svdU m ho hA hac hp he
  obtain ⟨c', d', h1', h2', h3'⟩ := C75_value it' svdU' { m with gamma := R * m.gamma } ho hA hac hp he
  have hd : d' = d := h2'.unique h2
  have hRt : Rᵀ * (Rᵀ)⁻¹ = 1 := Matrix.mul_nonsing_inv _ (by rw [Matrix.det_transpose]; exact isUnit_iff_ne_zero.2 hR)
  have hk : ∀ k, svdU (m.latentEffects k) * (svdU (m.latentEffects k))ᵀ =
      svdU' (({ m with gamma := R * m.gamma } : LModel p l e).latentEffects k) *
        (svdU' (({ m with gamma := R * m.gamma } : LModel p l e).latentEffects k))ᵀ := by
    intro k
    obtain ⟨L, hL⟩ := latentEffects_left_inverse m hac hB k (ho k) hG
    refine projection_eq hl hL hRt ?_ (hsvd k) (hsvd' k)
    unfold LModel.latentEffects
    simp only [Matrix.transpose_mul, Matrix.mul_assoc]
  have hc : c' = c := by
    simp only [← hk] at h3'
    exact h3'.unique h3
  exact ⟨c * d, h1, by rw [h1', hc, hd]⟩

/-- The model without latent effects (`gamma = 0`) of the chain `0 → 1`. -/
noncomputable def noEffects : LModel 2 1 1 := ⟨![![0, 1], ![0, 0]], 0, 0, fun _ _ => 1, fun _ _ => 1, 1⟩

theorem noEffects_latentEffects (k : Fin 1) : noEffects.latentEffects k = 0 := by
  unfold LModel.latentEffects noEffects
  simp

theorem noEffects_nonneg : Nonneg noEffects.A := by
  change Nonneg (![![0, 1], ![0, 0]] : Adj 2)
  unfold Nonneg
  decide

theorem noEffects_acyclic : Acyclic noEffects.A :=
  (isDag_iff (SetIter.incr 2) noEffects_nonneg).1 (by change isDag (SetIter.incr 2) (![![0, 1], ![0, 0]] : Adj 2) = true; decide +kernel)

/-- C75, boundary: independence is needed.  For a model without latent effects any unit vector is a valid singular vector, and the
metric depends on the one found. -/
theorem C75_dependent_boundary : ∃ svdU svdU' : Matrix (Fin 2) (Fin 1) ℝ → Matrix (Fin 2) (Fin (min 2 1)) ℝ,
    (∀ k, IsReducedU (noEffects.latentEffects k) (svdU (noEffects.latentEffects k))) ∧
    (∀ k, IsReducedU (noEffects.latentEffects k) (svdU' (noEffects.latentEffects k))) ∧
    ∃ x y, noEffects.scaledLatentIncoherence (SetIter.incr 2) svdU = .ok x ∧
      noEffects.scaledLatentIncoherence (SetIter.incr 2) svdU' = .ok y ∧ x ≠ y := by
  refine ⟨fun _ => Matrix.of (fun i _ => if i = 0 then 1 else 0), fun _ => Matrix.of (fun i _ => if i = 0 then 3 / 5 else 4 / 5), ?_, ?_, ?_⟩
  · intro k
    refine ⟨?_, 0, by rw [noEffects_latentEffects, Matrix.mul_zero]⟩
    ext i j
    have : i = j := Subsingleton.elim (α := Fin 1) i j
    subst this
    simp [Matrix.mul_apply]
  · intro k
    refine ⟨?_, 0, by rw [noEffects_latentEffects, Matrix.mul_zero]⟩
    ext i j
    have : i = j := Subsingleton.elim (α := Fin 1) i j
    subst this
    simp [Matrix.mul_apply, Fin.sum_univ_two]
    norm_num
  · obtain ⟨c, d, h1, h2, h3⟩ := C75_value (SetIter.incr 2) (fun _ => Matrix.of (fun i _ => if i = 0 then 1 else 0)) noEffects
      (fun _ _ => one_ne_zero) noEffects_nonneg noEffects_acyclic (by decide) (by decide)
    obtain ⟨c', d', h1', h2', h3'⟩ := C75_value (SetIter.incr 2) (fun _ => Matrix.of (fun i _ => if i = 0 then 3 / 5 else 4 / 5)) noEffects
      (fun _ _ => one_ne_zero) noEffects_nonneg noEffects_acyclic (by decide) (by decide)
    obtain rfl := h2'.unique h2
    refine ⟨_, _, h1, h1', ?_⟩
    have hd : d' ≠ 0 := by
      intro h0
      have hle := h2'.2 ⟨0, rfl⟩
      rw [h0] at hle
      have : 0 < moralDegree noEffects.A 0 := by
        unfold moralDegree
        refine Finset.card_pos.2 ⟨1, ?_⟩
        simp only [Finset.mem_filter, Finset.mem_univ, true_and]
        refine ⟨by decide, Or.inl ?_⟩
        unfold Adjacent noEffects
        simp
      omega
    have hc : c = 1 := h3.unique ⟨⟨(0, 0), by simp [Matrix.mul_apply]⟩, by
      rintro _ ⟨⟨k, i⟩, rfl⟩
      fin_cases i <;> simp [Matrix.mul_apply]⟩
    have hc' : c' = 16 / 25 := h3'.unique ⟨⟨(0, 1), by simp [Matrix.mul_apply]; norm_num⟩, by
      rintro _ ⟨⟨k, i⟩, rfl⟩
      fin_cases i <;> simp [Matrix.mul_apply] <;> norm_num⟩
    rw [hc, hc']
    intro heq
    have hd' : (d' : ℝ) ≠ 0 := Nat.cast_ne_zero.2 hd
    have := mul_right_cancel₀ hd' heq
    norm_num at this

/-- An example for C75: a latent that affects variable 0 of the chain `0 → 1` only; the metric is 1, also for a rescaled latent. -/
example : ∃ x, ({ noEffects with gamma := !![1, 0] } : LModel 2 1 1).scaledLatentIncoherence (SetIter.incr 2)
      (fun _ => Matrix.of (fun i _ => if i = 0 then 1 else 0)) = .ok x ∧
    ({ noEffects with gamma := (!![2] : Matrix (Fin 1) (Fin 1) ℝ) * (!![1, 0] : Matrix (Fin 1) (Fin 2) ℝ) } : LModel 2 1 1).scaledLatentIncoherence (SetIter.decr 2)
      (fun _ => Matrix.of (fun i _ => if i = 0 then -1 else 0)) = .ok x := by
  refine C75_well_defined (SetIter.incr 2) (SetIter.decr 2) _ _ ({ noEffects with gamma := !![1, 0] } : LModel 2 1 1)
    noEffects_nonneg noEffects_acyclic ?_ ?_ !![1; 0] ?_ !![2] ?_ ?_ ?_ (by decide) (by decide)
  · intro i j _
    simp [noEffects]
  · intro k j
    simp [noEffects]
  · ext i j
    fin_cases i
    fin_cases j
    simp [Matrix.mul_apply, Fin.sum_univ_two]
  · simp
  · intro k
    refine ⟨?_, !![1], ?_⟩
    · ext i j
      have : i = j := Subsingleton.elim (α := Fin 1) i j
      subst this
      simp [Matrix.mul_apply]
    · ext i h
      rw [C75_effects]
      fin_cases i <;> fin_cases h <;> simp [noEffects, Matrix.mul_apply]
  · intro k
    refine ⟨?_, !![-2], ?_⟩
    · ext i j
      have : i = j := Subsingleton.elim (α := Fin 1) i j
      subst this
      simp [Matrix.mul_apply]
    · ext i h
      rw [C75_effects]
      fin_cases i <;> fin_cases h <;> simp [noEffects, Matrix.mul_apply]

end Verif
