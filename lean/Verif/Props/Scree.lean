import Verif.Proof.Main

/-!
# C66: the scree selection
-/

namespace Verif

open Spec

/-- Sum of the squared distances to the mean. -/
noncomputable def Spec.scatter (l : List ℝ) : ℝ := (l.map (fun x => (x - l.sum / l.length) ^ 2)).sum

/-- The scatter within the two groups: the first `h` values and the others. -/
noncomputable def Spec.within (svds : List ℝ) (h : Nat) : ℝ := scatter (svds.take h) + scatter (svds.drop h)

/-- The profile log-likelihood of the cited article: both groups are Gaussian samples with their own means and the pooled variance
(each of the `n` values contributes one normalising term). -/
noncomputable def Spec.profileLogLik (svds : List ℝ) (h : Nat) : ℝ :=
  - (svds.length / 2 : ℝ) * Real.log (2 * Real.pi * (within svds h / (svds.length - 2 : ℝ))) -
    within svds h / (2 * (within svds h / (svds.length - 2 : ℝ)))

theorem scatter_nonneg (l : List ℝ) : 0 ≤ scatter l := by
  unfold scatter
  refine List.sum_nonneg ?_
  intro x hx
  obtain ⟨y, -, rfl⟩ := List.mem_map.1 hx
  positivity

theorem within_nonneg (svds : List ℝ) (h : Nat) : 0 ≤ within svds h := add_nonneg (scatter_nonneg _) (scatter_nonneg _)

theorem scatter_one {l : List ℝ} (h : l.length ≤ 1) : scatter l = 0 := by
  match l, h with
  | [], _ => simp [scatter]
  | [x], _ => simp [scatter]

theorem varOrZero_mul (l : List ℝ) : ((l.length : ℝ) - 1) * varOrZero l = scatter l := by
  unfold varOrZero
  split_ifs with h
  · have : ((l.length : ℝ) - 1) ≠ 0 := by
      have : (1 : ℝ) < l.length := by exact_mod_cast h
      linarith
    rw [mul_div_cancel₀ _ this]
    rfl
  · rw [mul_zero, scatter_one (by omega)]

/-- The likelihood that the code computes. -/
theorem screeLik_eq {svds : List ℝ} (hn : 3 ≤ svds.length) {h : Nat} (h1 : 1 ≤ h) (h2 : h < svds.length) :
    screeLik svds h = .ok (if within svds h = 0 then none else
      some (- Real.log (2 * Real.pi) - Real.log (within svds h / (svds.length - 2 : ℝ)) - (svds.length - 2 : ℝ) / 2)) := by
  have hn2 : (0 : ℝ) < (svds.length : ℝ) - 2 := by
    have : (3 : ℝ) ≤ svds.length := by exact_mod_cast hn
    linarith
  have hl1 : (svds.take h).length = h := by rw [List.length_take]; omega
  have hl2 : (svds.drop h).length = svds.length - h := List.length_drop
  have e1 := varOrZero_mul (svds.take h)
  have e2 := varOrZero_mul (svds.drop h)
  rw [hl1] at e1
  rw [hl2, Nat.cast_sub h2.le] at e2
  have hvar : (((h : ℝ) - 1) * varOrZero (svds.take h) + ((svds.length : ℝ) - h - 1) * varOrZero (svds.drop h)) / ((svds.length : ℝ) - 2) =
      within svds h / ((svds.length : ℝ) - 2) := by rw [e1, e2]; rfl
  unfold screeLik
  simp only
  rw [if_neg (by omega), hvar]
  by_cases h0 : within svds h = 0
  · rw [if_pos h0, h0, zero_div]
    unfold gaussLogLik
    rw [if_pos rfl]
    rfl
  · rw [if_neg h0]
    have hv : within svds h / ((svds.length : ℝ) - 2) ≠ 0 := div_ne_zero h0 hn2.ne'
    unfold gaussLogLik
    rw [if_neg hv, if_neg hv]
    simp only [Flt.add, Except.ok.injEq, Option.bind_some, Option.map_some]
    refine congrArg some ?_
    have hs : sumSq (svds.take h) / 2 / (within svds h / ((svds.length : ℝ) - 2)) +
        sumSq (svds.drop h) / 2 / (within svds h / ((svds.length : ℝ) - 2)) = ((svds.length : ℝ) - 2) / 2 := by
      rw [← add_div, ← add_div]
      have : sumSq (svds.take h) + sumSq (svds.drop h) = within svds h := rfl
      rw [this]
      field_simp
    linarith

/-- The order of `np.argmax` on likelihoods. -/
noncomputable def likKey : Flt → WithBot ℝ
  | none => ⊥
  | some v => ((-v : ℝ) : WithBot ℝ)

theorem likKey_lt {svds : List ℝ} (hn : 3 ≤ svds.length) {h h' : Nat} {x x' : Flt} (h1 : 1 ≤ h) (h2 : h < svds.length) (h1' : 1 ≤ h')
    (h2' : h' < svds.length) (hx : screeLik svds h = .ok x) (hx' : screeLik svds h' = .ok x') :
    likKey x < likKey x' ↔ within svds h < within svds h' := by
  have hn2 : (0 : ℝ) < (svds.length : ℝ) - 2 := by
    have : (3 : ℝ) ≤ svds.length := by exact_mod_cast hn
    linarith
  rw [screeLik_eq hn h1 h2] at hx
  rw [screeLik_eq hn h1' h2'] at hx'
  have p1 := within_nonneg svds h
  have p2 := within_nonneg svds h'
  cases hx
  cases hx'
  by_cases h0 : within svds h = 0 <;> by_cases h0' : within svds h' = 0
  · rw [if_pos h0, if_pos h0', h0, h0']; simp
  · rw [if_pos h0, if_neg h0', h0]
    simp only [likKey, WithBot.bot_lt_coe, true_iff]
    exact lt_of_le_of_ne p2 (Ne.symm h0')
  · rw [if_neg h0, if_pos h0', h0']
    simp only [likKey, not_lt_bot, false_iff, not_lt]
    exact p1
  · rw [if_neg h0, if_neg h0']
    simp only [likKey, WithBot.coe_lt_coe]
    have q1 : 0 < within svds h := lt_of_le_of_ne p1 (Ne.symm h0)
    have q2 : 0 < within svds h' := lt_of_le_of_ne p2 (Ne.symm h0')
    have := Real.log_lt_log_iff (div_pos q1 hn2) (div_pos q2 hn2)
    rw [div_lt_div_iff_of_pos_right hn2] at this
    rw [← this]
    constructor <;> intro <;> linarith

theorem screeLiks_spec {svds : List ℝ} (hn : 3 ≤ svds.length) : ∀ hs : List Nat, (∀ h ∈ hs, 1 ≤ h ∧ h < svds.length) →
    ∃ liks, screeLiks svds hs = .ok liks ∧ List.Forall₂ (fun h x => screeLik svds h = .ok x) hs liks := by
  intro hs
  induction hs with
  | nil => intro _; exact ⟨[], rfl, List.Forall₂.nil⟩
  | cons h hs ih =>
    intro hh
    obtain ⟨liks, k1, k2⟩ := ih (fun h' hm => hh h' (by simp [hm]))
    obtain ⟨a, b⟩ := hh h (by simp)
    have := screeLik_eq hn a b
    refine ⟨_ :: liks, ?_, List.Forall₂.cons this k2⟩
    rw [screeLiks, this, k1]

/-- C66: for at least three variables the procedure returns a number between `1` and `p - 1`, and it is the cutoff with the smallest
scatter within the two groups, the first such. -/
theorem C66_selection (svds : List ℝ) (hn : 3 ≤ svds.length) :
    ∃ h, screeSelection svds = .ok h ∧ 1 ≤ h ∧ h ≤ svds.length - 1 ∧
      (∀ k, 1 ≤ k → k ≤ svds.length - 1 → within svds h ≤ within svds k) ∧ ∀ k, 1 ≤ k → k < h → within svds h < within svds k := by
  obtain ⟨liks, h1, h2⟩ := screeLiks_spec hn (List.range' 1 (svds.length - 1)) (fun h hh => by
    rw [List.mem_range'_1] at hh; omega)
  have hlen : liks.length = svds.length - 1 := by rw [← h2.length_eq, List.length_range']
  have hget : ∀ (i : Nat) (x : Flt), liks[i]? = some x → i < svds.length - 1 ∧ screeLik svds (i + 1) = .ok x := by
    intro i x hx
    obtain ⟨hi, rfl⟩ := List.getElem?_eq_some_iff.1 hx
    have hi' : i < (List.range' 1 (svds.length - 1)).length := by rw [h2.length_eq]; exact hi
    have := h2.get hi' hi
    simp only [List.get_eq_getElem, List.getElem_range', one_mul] at this
    rw [Nat.add_comm 1 i] at this
    exact ⟨by omega, this⟩
  have hex : ∀ k, 1 ≤ k → k ≤ svds.length - 1 → ∃ x, liks[k - 1]? = some x := by
    intro k k1 k2
    exact ⟨_, List.getElem?_eq_getElem (by omega)⟩
  obtain ⟨i, x, g1, g2, g3, g4⟩ := npArgmin_spec (l := liks) (key := likKey) (better := Flt.larger) (by
      intro a b
      cases a <;> cases b <;> simp [likKey, Flt.larger]) (by intro hc; rw [hc] at hlen; simp at hlen; omega)
  obtain ⟨hi, hx⟩ := hget i x g2
  refine ⟨i + 1, ?_, by omega, by omega, ?_, ?_⟩
  · unfold screeSelection
    rw [h1]
    simp only [g1]
  · intro k k1 k2
    obtain ⟨y, hy⟩ := hex k k1 k2
    have hy' := (hget _ _ hy).2
    rw [Nat.sub_add_cancel k1] at hy'
    have := g3 y (List.mem_of_getElem? hy)
    by_contra hc
    push Not at hc
    exact absurd ((likKey_lt hn k1 (by omega) (by omega) (by omega) hy' hx).2 hc) (not_lt.2 this)
  · intro k k1 k2
    obtain ⟨y, hy⟩ := hex k k1 (by omega)
    have hy' := (hget _ _ hy).2
    rw [Nat.sub_add_cancel k1] at hy'
    exact (likKey_lt hn (by omega) (by omega) k1 (by omega) hx hy').1 (g4 (k - 1) (by omega) y hy)

/-- C66: although `_gaussian_log_likelihood` counts the normalising term of the density once and not once per value, the selected
number maximises the correct profile likelihood (if no cutoff has zero scatter, where the likelihood is not defined). -/
theorem C66_profile_likelihood (svds : List ℝ) (hn : 3 ≤ svds.length) (hpos : ∀ k, 1 ≤ k → k ≤ svds.length - 1 → within svds k ≠ 0)
    (h : Nat) (hs : screeSelection svds = .ok h) :
    ∀ k, 1 ≤ k → k ≤ svds.length - 1 → profileLogLik svds k ≤ profileLogLik svds h := by
  obtain ⟨h', k1, k2, k3, k4, -⟩ := C66_selection svds hn
  rw [hs] at k1
  cases k1
  have hn3 : (3 : ℝ) ≤ svds.length := by exact_mod_cast hn
  have hn2 : (0 : ℝ) < (svds.length : ℝ) - 2 := by linarith
  have hq : ∀ k, 1 ≤ k → k ≤ svds.length - 1 → profileLogLik svds k =
      - (svds.length / 2 : ℝ) * Real.log (2 * Real.pi * (within svds k / (svds.length - 2 : ℝ))) - (svds.length - 2 : ℝ) / 2 := by
    intro k h1 h2
    unfold profileLogLik
    have := hpos k h1 h2
    congr 1
    field_simp
  intro k h1 h2
  rw [hq k h1 h2, hq h k2 k3]
  have p1 : 0 < within svds h := lt_of_le_of_ne (within_nonneg _ _) (Ne.symm (hpos h k2 k3))
  have := Real.log_le_log (x := 2 * Real.pi * (within svds h / (svds.length - 2 : ℝ)))
    (y := 2 * Real.pi * (within svds k / (svds.length - 2 : ℝ))) (by positivity) (by
      refine mul_le_mul_of_nonneg_left ?_ (by positivity)
      exact div_le_div_of_nonneg_right (k4 k h1 h2) hn2.le)
  have h3 : 0 ≤ (svds.length / 2 : ℝ) := by positivity
  nlinarith

/-- C66: for two variables the procedure raises `ZeroDivisionError`, for fewer `ValueError`. -/
theorem C66_raises (svds : List ℝ) : (svds.length = 2 → screeSelection svds = .error .zeroDivisionError) ∧
    (svds.length ≤ 1 → screeSelection svds = .error .valueError) := by
  constructor
  · intro h
    unfold screeSelection
    rw [h]
    simp only [Nat.reduceSub, List.range'_one, screeLiks]
    unfold screeLik
    simp only [h, if_true]
  · intro h
    unfold screeSelection
    have : svds.length - 1 = 0 := by omega
    rw [this]
    simp [screeLiks, npArgmin]

/-- Three large and one small value: the gap is found. -/
example : screeSelection [10, 10, 9, 1] = .ok 3 := by
  obtain ⟨h, h1, h2, h3, h4, -⟩ := C66_selection [10, 10, 9, 1] (by simp)
  have hv : ∀ k, k = 1 ∨ k = 2 ∨ k = 3 → within [10, 10, 9, 1] k = if k = 3 then 2 / 3 else if k = 2 then 32 else 146 / 3 := by
    rintro k (rfl | rfl | rfl) <;> norm_num [within, scatter]
  have := h4 3 (by norm_num) (by simp)
  simp only [List.length_cons, List.length_nil, Nat.reduceAdd, Nat.reduceSub] at h3
  rw [hv 3 (by simp), hv h (by omega)] at this
  have hh : h = 1 ∨ h = 2 ∨ h = 3 := by omega
  rcases hh with rfl | rfl | rfl
  · norm_num at this
  · norm_num at this
  · exact h1

end Verif
