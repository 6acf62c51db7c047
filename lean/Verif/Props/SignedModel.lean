import Verif.Props.SignedCandidates
import Verif.Props.Gen

/-!
# C152: `is_dag`, `Model` and `sample_parameters` for adjacency matrices of any sign

The documentation of `A` says that `A[i, j] != 0` is an edge.
-/

namespace Verif
open Spec Matrix
variable {p l e : Nat}

/-- C152: `is_dag` accepts every graph without positive weights, with whatever cycles and loops, and `topological_ordering` returns a list for it. -/
theorem C152_nonpositive (it : SetIter p) (A : Adj p) (h : ∀ i j, A i j ≤ 0) : isDag it A = true ∧ ∃ order, topologicalOrdering it A = .ok order := by
  have hd : isDag it A = true := by
    classical
    rw [C146_is_dag_exact]
    constructor <;> refine Finset.sum_nonpos fun i _ => Finset.sum_nonpos fun j _ => ?_ <;> split
    · exact h i j
    · exact le_refl _
    · exact le_refl _
    · exact h i j
  refine ⟨hd, ?_⟩
  unfold isDag at hd
  split at hd
  · exact ⟨_, ‹_›⟩
  · cases hd

theorem sumOf_nonpos {L : List Dbl} {x : Dbl} (h : SumOf L x) (hL : ∀ y ∈ L, y = .nan ∨ y = .ninf ∨ ∃ q : ℚ, y = .fin q ∧ q ≤ 0) :
    x = .nan ∨ x = .ninf ∨ ∃ q : ℚ, x = .fin q ∧ q ≤ 0 := by
  induction h with
  | nil => exact .inr (.inr ⟨0, rfl, le_refl _⟩)
  | single x => exact hL x (by simp)
  | @add L L₁ L₂ x y hp h1 h2 ih1 ih2 =>
    have i1 := ih1 fun y hy => hL y (hp.mem_iff.2 (List.mem_append_left _ hy))
    have i2 := ih2 fun y hy => hL y (hp.mem_iff.2 (List.mem_append_right _ hy))
    have hr : ∀ q : ℚ, q ≤ 0 → Dbl.round q = .nan ∨ Dbl.round q = .ninf ∨ ∃ r : ℚ, Dbl.round q = .fin r ∧ r ≤ 0 := by
      intro q hq
      cases hx : Dbl.round q with
      | nan => exact .inl rfl
      | ninf => exact .inr (.inl rfl)
      | fin r =>
        refine .inr (.inr ⟨r, rfl, ?_⟩)
        have := ((C141_round q).1 r hx).2 0 ⟨0, 0, by norm_num, by norm_num, by norm_num, by norm_num⟩
        rw [sub_zero, abs_of_nonpos hq] at this
        have := le_abs_self (q - r)
        have := neg_abs_le (q - r)
        by_contra hc
        push Not at hc
        have h0 : q - r < 0 := by linarith
        rw [abs_of_neg h0] at *
        linarith
      | pinf =>
        exfalso
        unfold Dbl.round at hx
        split at hx
        · cases hx
        · dsimp only at hx
          split at hx
          · cases hx
          · split at hx
            · rename_i h0
              have hz : (0 : ℚ) < 2 ^ (max (Int.log 2 |q| - 52) (-1074)) := by positivity
              have h1 : q / 2 ^ (max (Int.log 2 |q| - 52) (-1074)) ≤ 0 := div_nonpos_of_nonpos_of_nonneg hq hz.le
              have h2 : (pyRound (q / 2 ^ (max (Int.log 2 |q| - 52) (-1074))) : ℚ) ≤ 0 := by
                have := pyRound_le (k := 0) (by simpa using h1)
                exact_mod_cast this
              exact absurd h0 (not_lt.2 (mul_nonpos_of_nonpos_of_nonneg h2 hz.le))
            · cases hx
    rcases i1 with rfl | rfl | ⟨a, rfl, ha⟩ <;> rcases i2 with rfl | rfl | ⟨b, rfl, hb⟩ <;>
      first | exact .inl rfl | exact .inr (.inl rfl) | exact hr _ (add_nonpos ha hb)

/-- C152: the same for doubles, infinities and NaN included, and for any order of the additions. -/
theorem C152_nonpositive_float (S : Summer) (it : SetIter p) (A : FAdj p) (h : ∀ i j, A i j = .nan ∨ A i j = .ninf ∨ ∃ q : ℚ, A i j = .fin q ∧ q ≤ 0) :
    fisDag S it A = true := by
  classical
  have key : ∀ M : FAdj p, (∀ i j, M i j = .fin 0 ∨ M i j = A i j) → (fsumAll S M).gtZero = false := by
    intro M hM
    rcases sumOf_nonpos (S.isSum ((allPairs p).map fun e => M e.1 e.2)) (by
      intro y hy
      obtain ⟨e, -, rfl⟩ := List.mem_map.1 hy
      rcases hM e.1 e.2 with h' | h' <;> rw [h']
      · exact .inr (.inr ⟨0, rfl, le_refl _⟩)
      · exact h _ _) with h' | h' | ⟨q, h', hq⟩ <;> unfold fsumAll <;> rw [h'] <;> unfold Dbl.gtZero
    · rfl
    · rfl
    · simpa using hq
  rw [(C146_float_exact S it A).1]
  constructor <;> refine key _ fun i j => ?_ <;> split
  · exact .inr rfl
  · exact .inl rfl
  · exact .inl rfl
  · exact .inr rfl

/-- C152: the constructor of `Model` for `A` of any sign.  For a DAG it succeeds if and only if `B` is zero where `A` is, and then `covariances`
returns. -/
theorem C152_model (it : SetIter p) (A : Adj p) (B : Matrix (Fin p) (Fin p) ℝ) (gamma : Matrix (Fin l) (Fin p) ℝ)
    (omegas : Matrix (Fin e) (Fin p) ℝ) (psis : Matrix (Fin e) (Fin l) ℝ) :
    (Acyclic A → ((∃ m, mkModel it A B gamma omegas psis = .ok m) ↔ ∀ i j, A i j = 0 → B i j = 0) ∧
      ∀ m, mkModel it A B gamma omegas psis = .ok m → ∃ covs, m.covariances = .ok covs) ∧
    ((∀ i j, A i j ≤ 0) → (∀ i j, A i j = 0 → B i j = 0) → ∃ m, mkModel it A B gamma omegas psis = .ok m ∧
      (m.covariances = .error .linAlgError ↔ (1 - Bᵀ).det = 0)) := by
  have hok : isDag it A = true → (∀ i j, A i j = 0 → B i j = 0) →
      mkModel it A B gamma omegas psis = .ok ⟨A, B, gamma, omegas, psis, 1 - Bᵀ⟩ := by
    intro hd hB
    unfold mkModel
    rw [if_neg (by simpa using hd), if_neg]
    rintro ⟨i, j, h1, h2⟩
    exact h2 (hB i j h1)
  have hB : ∀ m, mkModel it A B gamma omegas psis = .ok m → m.B = B ∧ ∀ i j, A i j = 0 → B i j = 0 := by
    intro m h
    unfold mkModel at h
    split at h
    · cases h
    · split at h
      · cases h
      · rename_i h'
        cases h
        refine ⟨rfl, fun i j h0 => ?_⟩
        by_contra hc
        exact h' ⟨i, j, h0, hc⟩
  refine ⟨fun hac => ⟨⟨fun ⟨m, h⟩ => (hB m h).2, fun h => ⟨_, hok (C146_dag_accepted it A hac).1 h⟩⟩, fun m h => ?_⟩, fun hA h => ?_⟩
  · obtain ⟨h1, h2⟩ := hB m h
    unfold LModel.covariances npInv
    have : (1 - m.Bᵀ).det = 1 := by
      rw [h1]
      exact det_one_sub_transpose hac (fun i j hij => h2 i j (by simpa [Edge] using hij))
    rw [if_neg (by rw [this]; exact one_ne_zero)]
    exact ⟨_, rfl⟩
  · refine ⟨_, hok (C152_nonpositive it A hA).1 h, ?_⟩
    unfold LModel.covariances npInv
    by_cases hdet : (1 - Bᵀ).det = 0
    · simp [hdet]
    · simp [hdet]

theorem sampleParameters_any {it : SetIter p} {A : Adj p} (hd : isDag it A = true) {I : Finset Int} (hI : ValidTargets p I) (sparse obs : Bool)
    (dr : Draws p l e) : sampleParameters it A I sparse obs dr = .ok ⟨A, Matrix.of (fun i j => (A i j : ℝ) * dr.weights i j), genGamma sparse dr,
      genOmegas it (targetsOf p I) obs dr, genPsis obs dr, 1 - (Matrix.of (fun i j => (A i j : ℝ) * dr.weights i j))ᵀ⟩ := by
  unfold sampleParameters
  rw [if_neg (by simpa using hd), if_neg (by rw [subset_range_iff, not_not]; exact hI)]
  unfold mkModel
  rw [if_neg (by simpa using hd), if_neg]
  rintro ⟨i, j, h1, h2⟩
  exact h2 (by simp [h1])

/-- C152: `sample_parameters` returns for every DAG, whatever the signs of its weights, and multiplies the drawn weights by those of `A`.  The
weights are within `[B_lo, B_hi]` for all draws if and only if all weights of `A` are 1. -/
theorem C152_sample_parameters (it : SetIter p) (A : Adj p) (hac : Acyclic A) (I : Finset Int) (hI : ValidTargets p I) (sparse obs : Bool)
    (lo hi : ℝ) (h0 : 0 < lo) (hle : lo ≤ hi) :
    (∀ dr : Draws p l e, ∃ m, sampleParameters it A I sparse obs dr = .ok m ∧ m.A = A ∧ (∀ i j, m.B i j = A i j * dr.weights i j) ∧
      ∃ covs, m.covariances = .ok covs) ∧
    ((∀ (dr : Draws p l e) m, (∀ i j, lo ≤ dr.weights i j ∧ dr.weights i j ≤ hi) → sampleParameters it A I sparse obs dr = .ok m →
      ∀ i j, Edge A i j → lo ≤ m.B i j ∧ m.B i j ≤ hi) ↔ ZeroOne A) := by
  have hd := (C146_dag_accepted it A hac).1
  constructor
  · intro dr
    refine ⟨_, sampleParameters_any hd hI sparse obs dr, rfl, fun i j => rfl, ?_⟩
    refine ((C152_model it A (Matrix.of fun i j => (A i j : ℝ) * dr.weights i j) (genGamma sparse dr) (genOmegas it (targetsOf p I) obs dr)
      (genPsis obs dr)).1 hac).2 _ ?_
    unfold mkModel
    rw [if_neg (by simpa using hd), if_neg]
    rintro ⟨i, j, h1, h2⟩
    exact h2 (by simp [h1])
  · constructor
    · intro h i j
      by_contra hc
      push Not at hc
      have := h ⟨fun _ _ => hi, fun _ => [], fun _ _ => 0, fun _ => 0, fun _ _ => 0, fun _ _ => 0, fun _ => 0, fun _ _ _ => 0, fun _ _ => 0⟩ _
        (fun _ _ => ⟨hle, le_refl _⟩) (sampleParameters_any hd hI sparse obs _) i j hc.1
      simp only [Matrix.of_apply] at this
      have hhi : 0 < hi := lt_of_lt_of_le h0 hle
      rcases lt_or_gt_of_ne hc.1 with h1 | h1
      · have : (A i j : ℝ) < 0 := by exact_mod_cast h1
        nlinarith
      · have : (2 : ℝ) ≤ A i j := by
          have : 2 ≤ A i j := by have := hc.2; omega
          exact_mod_cast this
        nlinarith
    · intro hA dr m hw h i j hij
      rw [sampleParameters_any hd hI sparse obs dr] at h
      cases h
      simp only [Matrix.of_apply]
      rcases hA i j with h' | h'
      · exact absurd h' hij
      · rw [h']
        simpa using hw i j

/-- Two nodes with edges of weight -1 in both directions. -/
def minusCycle : Adj 2 := ![![0, -1], ![-1, 0]]

/-- C152: the documented `ValueError` for graphs with cycles is not raised for this one: with `B_lo = B_hi = 1` `sample_parameters` returns a model,
whose `covariances` raises a `LinAlgError`. -/
theorem C152_cycle_accepted (it : SetIter 2) (sparse obs : Bool) (dr : Draws 2 l e) (hw : ∀ i j, dr.weights i j = 1) :
    ¬ Acyclic minusCycle ∧ ∃ m, sampleParameters it minusCycle ∅ sparse obs dr = .ok m ∧ m.covariances = .error .linAlgError := by
  constructor
  · intro h
    exact h 0 ((Relation.TransGen.single (show Edge minusCycle 0 1 by decide)).tail (show Edge minusCycle 1 0 by decide))
  · have hd := (C152_nonpositive it minusCycle (by decide)).1
    refine ⟨_, sampleParameters_any hd (by intro i hi; simp at hi) sparse obs dr, ?_⟩
    unfold LModel.covariances npInv
    have : (1 - (Matrix.of fun i j : Fin 2 => (minusCycle i j : ℝ) * dr.weights i j)ᵀ).det = 0 := by
      simp [Matrix.det_fin_two, minusCycle, hw]
    rw [if_pos this]

/-- An example for `C152_sample_parameters`: a DAG with a weight -2. -/
example : Acyclic (![![0, -2], ![0, 0]] : Adj 2) ∧ ¬ ZeroOne (![![0, -2], ![0, 0]] : Adj 2) ∧ ValidTargets 2 {1} := by
  refine ⟨acyclic_of_rank (fun v : Fin 2 => v.val) (by unfold Edge; decide), by unfold ZeroOne; decide, ?_⟩
  intro i hi
  simp at hi
  omega

/-- An example for `C152_nonpositive_float`: a loop with NaN and a cycle with negative weights, one of them infinite. -/
example (S : Summer) (it : SetIter 2) : fisDag S it ![![.nan, .ninf], ![.fin (-1 / 2), .fin 0]] = true := by
  refine C152_nonpositive_float S it _ fun i j => ?_
  fin_cases i <;> fin_cases j
  · exact .inl rfl
  · exact .inr (.inl rfl)
  · exact .inr (.inr ⟨_, rfl, by norm_num⟩)
  · exact .inr (.inr ⟨_, rfl, by norm_num⟩)

end Verif
