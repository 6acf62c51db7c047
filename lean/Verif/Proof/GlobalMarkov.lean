import Verif.Proof.DSep
import Mathlib.LinearAlgebra.Matrix.PosDef
import Mathlib.Data.Fintype.Card

/-!
# The global Markov property of linear structural equation models

By induction over the nodes in the order of the graph: the last node is neither in the statement, or one of the two variables, or in the
conditioning set.
-/

namespace Verif

open Spec Matrix

variable {V : Type}

/-! ### Walks -/

/-- Two walks that meet can be joined: `b` reaches `v` with mark `m`, and a walk from `a` may leave `v` along an edge with mark `m`. -/
theorem Reach.join {E : V → V → Prop} {Z : Finset V} {a b v : V} {m : Bool} (h : Reach E Z b v m) :
    (m = true → (Reach E Z a v false ∧ v ∉ Z ∨ Reach E Z a v true ∧ v ∈ Z) → ∃ m', Reach E Z a b m') ∧
      (m = false → (∃ m1, Reach E Z a v m1) → v ∉ Z → ∃ m', Reach E Z a b m') ∧
      (m = false → v = b → (∃ m1, Reach E Z a v m1) → ∃ m', Reach E Z a b m') := by
  induction h with
  | start => exact ⟨by simp, fun _ h _ => h, fun _ _ h => h⟩
  | @out u w m0 _ hu huw ih =>
    refine ⟨fun _ h => ?_, by simp, by simp⟩
    have h1 : Reach E Z a u false := by
      rcases h with ⟨h1, h2⟩ | ⟨h1, h2⟩
      · exact h1.back h2 huw
      · exact h1.coll h2 huw
    cases m0 with
    | true => exact ih.1 rfl (Or.inl ⟨h1, hu⟩)
    | false => exact ih.2.1 rfl ⟨_, h1⟩ hu
  | @back u w _ hu hwu ih =>
    refine ⟨by simp, fun _ ⟨m1, h1⟩ hw => ih.2.1 rfl ⟨_, h1.out hw hwu⟩ hu, fun _ hb ⟨m1, h1⟩ => ⟨m1, hb ▸ h1⟩⟩
  | @coll u w _ hu hwu ih =>
    refine ⟨by simp, fun _ ⟨m1, h1⟩ hw => ih.1 rfl (Or.inr ⟨h1.out hw hwu, hu⟩), fun _ hb ⟨m1, h1⟩ => ⟨m1, hb ▸ h1⟩⟩

theorem Reach.symm {E : V → V → Prop} {Z : Finset V} {a b : V} (ha : a ∉ Z) (h : ∃ m, Reach E Z b a m) : ∃ m, Reach E Z a b m := by
  obtain ⟨m, h⟩ := h
  cases m with
  | true => exact h.join.1 rfl (Or.inl ⟨Reach.start, ha⟩)
  | false => exact h.join.2.1 rfl ⟨_, Reach.start⟩ ha

/-! ### Regression -/

variable [Fintype V] [DecidableEq V]

omit [DecidableEq V] in
theorem posDef_pos {C : Matrix V V ℝ} (hC : C.PosDef) {u : V → ℝ} (hu : u ≠ 0) : 0 < ∑ j, (∑ i, u i * C i j) * u j := by
  have h := hC.dotProduct_mulVec_pos hu
  have h1 : star u ⬝ᵥ (C *ᵥ u) = ∑ j, (∑ i, u i * C i j) * u j := by
    simp only [dotProduct, mulVec, Pi.star_apply, star_trivial, Finset.mul_sum, Finset.sum_mul]
    rw [Finset.sum_comm]
    refine Finset.sum_congr rfl (fun j _ => Finset.sum_congr rfl (fun i _ => ?_))
    ring
  rwa [h1] at h

omit [Fintype V] [DecidableEq V] in
theorem posDef_symm {C : Matrix V V ℝ} (hC : C.PosDef) (i j : V) : C i j = C j i := by
  have := congrFun (congrFun hC.1 j) i
  simpa using this

theorem eq_zero_of_orthogonal {C : Matrix V V ℝ} (hC : C.PosDef) {Z : Finset V} {d : V → ℝ} (h1 : ∀ i, i ∉ Z → d i = 0)
    (h2 : ∀ z ∈ Z, ∑ i, d i * C i z = 0) : d = 0 := by
  by_contra hd
  have h := posDef_pos hC hd
  rw [Finset.sum_eq_zero] at h
  · exact lt_irrefl _ h
  · intro j _
    by_cases hj : j ∈ Z
    · rw [h2 j hj, zero_mul]
    · rw [h1 j hj, mul_zero]

theorem exists_regression {C : Matrix V V ℝ} (hC : C.PosDef) (Z : Finset V) (a : V) : ∃ β, Regression C Z a β := by
  classical
  have hM : (C.submatrix (Subtype.val : {z // z ∈ Z} → V) Subtype.val).PosDef := hC.submatrix Subtype.val_injective
  set M := C.submatrix (Subtype.val : {z // z ∈ Z} → V) Subtype.val
  let x : {z // z ∈ Z} → ℝ := (fun z => C a z.1) ᵥ* M⁻¹
  have hx : x ᵥ* M = fun z => C a z.1 := by
    rw [Matrix.vecMul_vecMul, Matrix.nonsing_inv_mul _ ((Matrix.isUnit_iff_isUnit_det _).1 hM.isUnit), Matrix.vecMul_one]
  refine ⟨fun i => if h : i ∈ Z then x ⟨i, h⟩ else 0, fun i hi => by simp [hi], fun z hz => ?_⟩
  have h1 := congrFun hx ⟨z, hz⟩
  simp only [Matrix.vecMul, dotProduct] at h1
  rw [← h1, ← Finset.sum_subset (Finset.subset_univ Z) (fun i _ hi => by simp [hi]), ← Finset.sum_coe_sort Z]
  refine Finset.sum_congr rfl (fun i _ => ?_)
  simp [M]

theorem regression_unique {C : Matrix V V ℝ} (hC : C.PosDef) {Z : Finset V} {a : V} {β β' : V → ℝ} (h : Regression C Z a β)
    (h' : Regression C Z a β') : β' = β := by
  have : β' - β = 0 := by
    refine eq_zero_of_orthogonal hC (Z := Z) (fun i hi => by simp [h.1 i hi, h'.1 i hi]) (fun z hz => ?_)
    simp only [Pi.sub_apply, sub_mul, Finset.sum_sub_distrib]
    rw [← h.2 z hz, ← h'.2 z hz, sub_self]
  exact sub_eq_zero.1 this

/-- The residual of the regression of `a` on `Z` is uncorrelated with `b`. -/
def ResidZero (C : Matrix V V ℝ) (Z : Finset V) (a b : V) : Prop := ∀ β, Regression C Z a β → C a b = ∑ i, β i * C i b

theorem ResidZero.uncorrelated {C : Matrix V V ℝ} (hC : C.PosDef) {Z : Finset V} {a b : V} (h : ResidZero C Z a b) :
    UncorrelatedGiven C Z a b := by
  obtain ⟨β, hβ⟩ := exists_regression hC Z a
  exact ⟨β, hβ, fun β' hβ' => regression_unique hC hβ hβ', h β hβ⟩

theorem ResidZero.symm {C : Matrix V V ℝ} (hC : C.PosDef) {Z : Finset V} {a b : V} (h : ResidZero C Z a b) : ResidZero C Z b a := by
  intro β hβ
  obtain ⟨α, hα⟩ := exists_regression hC Z a
  have h1 : ∑ i, β i * C i a = ∑ i, ∑ j, β i * α j * C j i := by
    refine Finset.sum_congr rfl (fun i _ => ?_)
    by_cases hi : i ∈ Z
    · rw [posDef_symm hC i a, hα.2 i hi, Finset.mul_sum]
      exact Finset.sum_congr rfl (fun j _ => by ring)
    · simp [hβ.1 i hi]
  have h2 : ∑ j, α j * C j b = ∑ j, ∑ i, β i * α j * C j i := by
    refine Finset.sum_congr rfl (fun j _ => ?_)
    by_cases hj : j ∈ Z
    · rw [posDef_symm hC j b, hβ.2 j hj, Finset.mul_sum]
      exact Finset.sum_congr rfl (fun i _ => by rw [posDef_symm hC j i]; ring)
    · simp [hα.1 j hj]
  rw [h1, Finset.sum_comm, ← h2, ← h α hα]
  exact posDef_symm hC b a

/-- The residual of the regression of `s` has positive variance. -/
theorem resid_self_pos {C : Matrix V V ℝ} (hC : C.PosDef) {Z : Finset V} {s : V} (hs : s ∉ Z) {σ : V → ℝ} (hσ : Regression C Z s σ) :
    0 < C s s - ∑ i, σ i * C i s := by
  have hne : (fun i => (if i = s then (1 : ℝ) else 0) - σ i) ≠ 0 := by
    intro hc
    have := congrFun hc s
    simp [hσ.1 s hs] at this
  have h4 := posDef_pos hC hne
  have h5 : ∀ j, ∑ i, ((if i = s then (1 : ℝ) else 0) - σ i) * C i j = C s j - ∑ i, σ i * C i j := by
    intro j
    simp [sub_mul, Finset.sum_sub_distrib]
  simp only [h5] at h4
  rw [Finset.sum_eq_single s] at h4
  · simpa [hσ.1 s hs] using h4
  · intro j _ hj
    by_cases hjZ : j ∈ Z
    · rw [← hσ.2 j hjZ, sub_self, zero_mul]
    · simp [hj, hσ.1 j hjZ]
  · simp

/-- The effect of a further variable in the conditioning set. -/
theorem resid_insert_iff {C : Matrix V V ℝ} (hC : C.PosDef) {Z : Finset V} {a b s : V} (hs : s ∉ Z) {α σ : V → ℝ} (hα : Regression C Z a α)
    (hσ : Regression C Z s σ) : ResidZero C (insert s Z) a b ↔
      (C a b - ∑ i, α i * C i b) * (C s s - ∑ i, σ i * C i s) = (C a s - ∑ i, α i * C i s) * (C s b - ∑ i, σ i * C i b) := by
  obtain ⟨β, hβ⟩ := exists_regression hC (insert s Z) a
  have hd : (fun i => β i - (if i = s then β s else 0) - α i + β s * σ i) = 0 := by
    refine eq_zero_of_orthogonal hC (Z := Z) (fun i hi => ?_) (fun z hz => ?_)
    · by_cases his : i = s
      · subst his
        simp [hα.1 i hi, hσ.1 i hi]
      · simp [his, hα.1 i hi, hσ.1 i hi, hβ.1 i (by simp [his, hi])]
    · have h1 : ∑ i, (β i - (if i = s then β s else 0) - α i + β s * σ i) * C i z =
          ∑ i, β i * C i z - β s * C s z - ∑ i, α i * C i z + β s * ∑ i, σ i * C i z := by
        simp only [add_mul, sub_mul, Finset.sum_add_distrib, Finset.sum_sub_distrib, ite_mul, zero_mul, Finset.sum_ite_eq',
          Finset.mem_univ, if_true, Finset.mul_sum, mul_assoc]
      rw [h1, ← hβ.2 z (Finset.mem_insert_of_mem hz), ← hα.2 z hz, ← hσ.2 z hz]
      ring
  have hβ' : ∀ j, ∑ i, β i * C i j = β s * C s j + ∑ i, α i * C i j - β s * ∑ i, σ i * C i j := by
    intro j
    have h1 : ∀ i, β i = (if i = s then β s else 0) + α i - β s * σ i := by
      intro i
      have := congrFun hd i
      simp only [Pi.zero_apply] at this
      linarith
    calc ∑ i, β i * C i j = ∑ i, ((if i = s then β s else 0) + α i - β s * σ i) * C i j :=
          Finset.sum_congr rfl (fun i _ => by rw [← h1 i])
      _ = _ := by
        simp only [add_mul, sub_mul, Finset.sum_add_distrib, Finset.sum_sub_distrib, ite_mul, zero_mul, Finset.sum_ite_eq',
          Finset.mem_univ, if_true, Finset.mul_sum, mul_assoc]
  have hss := resid_self_pos hC hs hσ
  have has : C a s - ∑ i, α i * C i s = β s * (C s s - ∑ i, σ i * C i s) := by
    have h1 := hβ.2 s (Finset.mem_insert_self _ _)
    rw [hβ' s] at h1
    linarith
  have hres : ResidZero C (insert s Z) a b ↔ C a b - ∑ i, α i * C i b = β s * (C s b - ∑ i, σ i * C i b) := by
    constructor
    · intro h
      have h1 := h β hβ
      rw [hβ' b] at h1
      linarith
    · intro h β' hβ''
      rw [regression_unique hC hβ hβ'', hβ' b]
      linarith
  rw [hres, has]
  constructor
  · intro h
    rw [h]
    ring
  · intro h
    have h1 : (C s s - ∑ i, σ i * C i s) * (C a b - ∑ i, α i * C i b - β s * (C s b - ∑ i, σ i * C i b)) = 0 := by linarith
    have := (mul_eq_zero.1 h1).resolve_left (ne_of_gt hss)
    linarith

/-- A further variable may be added to `Z` if one of the two variables is uncorrelated with it. -/
theorem ResidZero.insert {C : Matrix V V ℝ} (hC : C.PosDef) {Z : Finset V} {a b s : V} (hs : s ∉ Z) (h : ResidZero C Z a b)
    (hor : ResidZero C Z a s ∨ ResidZero C Z b s) : ResidZero C (insert s Z) a b := by
  obtain ⟨α, hα⟩ := exists_regression hC Z a
  obtain ⟨σ, hσ⟩ := exists_regression hC Z s
  rw [resid_insert_iff hC hs hα hσ, ← h α hα, sub_self, zero_mul]
  rcases hor with hor | hor
  · rw [← hor α hα, sub_self, zero_mul]
  · rw [← (hor.symm hC) σ hσ, sub_self, mul_zero]

/-! ### Structural equations -/

/-- Variables with covariance `C` that solve `X s = ∑ B k s X k + noise s` with uncorrelated noise terms of variances `ω`, where `B`
has its non-zero entries at edges of the acyclic graph `E`. -/
structure LinearSEM (E : V → V → Prop) (B C : Matrix V V ℝ) (ω : V → ℝ) : Prop where
  acyclic : ∀ i, ¬ Relation.TransGen E i i
  respects : ∀ i j, B i j ≠ 0 → E i j
  eqs : (1 - Bᵀ) * C * (1 - Bᵀ)ᵀ = Matrix.diagonal ω
  pos : ∀ i, 0 < ω i

theorem LinearSEM.posDef {E : V → V → Prop} {B C : Matrix V V ℝ} {ω : V → ℝ} (h : LinearSEM E B C ω) : C.PosDef := by
  have hΩ : (Matrix.diagonal ω).PosDef := Matrix.PosDef.diagonal h.pos
  have hdet : IsUnit (1 - Bᵀ).det := by
    have h1 : ((1 - Bᵀ) * C * (1 - Bᵀ)ᵀ).det ≠ 0 := by
      rw [h.eqs]
      exact ne_of_gt hΩ.det_pos
    rw [Matrix.det_mul, Matrix.det_mul] at h1
    rw [isUnit_iff_ne_zero]
    intro hc
    rw [hc] at h1
    simp at h1
  have hC : C = (1 - Bᵀ)⁻¹ * Matrix.diagonal ω * ((1 - Bᵀ)⁻¹)ᵀ := by
    rw [← h.eqs, Matrix.transpose_nonsing_inv]
    have hdet' : IsUnit (1 - Bᵀ)ᵀ.det := by rwa [Matrix.det_transpose]
    rw [Matrix.mul_assoc (1 - Bᵀ) C, Matrix.nonsing_inv_mul_cancel_left _ _ hdet, Matrix.mul_nonsing_inv_cancel_right _ _ hdet']
  rw [hC]
  have := hΩ.conjTranspose_mul_mul_same (B := ((1 - Bᵀ)⁻¹)ᵀ) ?_
  · simpa [Matrix.conjTranspose_eq_transpose_of_trivial] using this
  · have hu : IsUnit ((1 - Bᵀ)⁻¹)ᵀ := by
      rw [Matrix.isUnit_iff_isUnit_det, Matrix.det_transpose, ← Matrix.isUnit_iff_isUnit_det, Matrix.isUnit_nonsing_inv_iff]
      exact (Matrix.isUnit_iff_isUnit_det _).2 hdet
    exact Matrix.mulVec_injective_of_isUnit hu

/-- The covariances of the noise term of `s` with the variables. -/
theorem LinearSEM.noise_cov {E : V → V → Prop} {B C : Matrix V V ℝ} {ω : V → ℝ} (h : LinearSEM E B C ω) (s k : V) :
    (C s k - ∑ j, B j s * C j k) - ∑ i, (C s i - ∑ j, B j s * C j i) * B i k = if s = k then ω s else 0 := by
  have h1 : ∀ i, ((1 - Bᵀ) * C) s i = C s i - ∑ j, B j s * C j i := by
    intro i
    rw [Matrix.sub_mul, Matrix.one_mul, Matrix.sub_apply, Matrix.mul_apply]
    rfl
  have h2 := congrFun (congrFun h.eqs s) k
  rw [Matrix.transpose_sub, Matrix.transpose_one, Matrix.transpose_transpose, Matrix.mul_sub, Matrix.mul_one, Matrix.sub_apply,
    Matrix.diagonal_apply, h1, Matrix.mul_apply] at h2
  rw [← h2]
  congr 1
  exact Finset.sum_congr rfl (fun i _ => by rw [h1])

omit [DecidableEq V] in
theorem wf_of_acyclic {E : V → V → Prop} (h : ∀ i, ¬ Relation.TransGen E i i) : WellFounded (Relation.TransGen E) := by
  have : IsTrans V (Relation.TransGen E) := ⟨fun _ _ _ => Relation.TransGen.trans⟩
  have : Std.Irrefl (Relation.TransGen E) := ⟨h⟩
  exact Finite.wellFounded_of_trans_of_irrefl _

/-- The noise term of the last node of `U` is uncorrelated with the other variables of `U`. -/
theorem LinearSEM.noise_last {E : V → V → Prop} {B C : Matrix V V ℝ} {ω : V → ℝ} (h : LinearSEM E B C ω) {U : Finset V} {s : V}
    (hU : ∀ i j, E i j → j ∈ U → i ∈ U) (hs : ∀ j ∈ U, ¬ E s j) (k : V) (hk : k ∈ U) (hks : k ≠ s) :
    C s k = ∑ j, B j s * C j k := by
  revert hk hks
  induction k using (wf_of_acyclic h.acyclic).induction with
  | _ k ih =>
    intro hk hks
    have h1 := h.noise_cov s k
    have h0 : ∑ i, (C s i - ∑ j, B j s * C j i) * B i k = 0 := by
      refine Finset.sum_eq_zero (fun i _ => ?_)
      by_cases hB : B i k = 0
      · rw [hB, mul_zero]
      · have he := h.respects i k hB
        have h2 : i ≠ s := by
          rintro rfl
          exact hs k hk he
        rw [ih i (Relation.TransGen.single he) (hU i k he hk) h2, sub_self, zero_mul]
    rw [if_neg (Ne.symm hks), h0] at h1
    linarith

omit [DecidableEq V] in
theorem exists_last {E : V → V → Prop} (h : ∀ i, ¬ Relation.TransGen E i i) {U : Finset V} (hU : U.Nonempty) :
    ∃ s ∈ U, ∀ j ∈ U, ¬ E s j := by
  have hwf : WellFounded (Function.swap (Relation.TransGen E)) := by
    have : IsTrans V (Function.swap (Relation.TransGen E)) := ⟨fun _ _ _ h1 h2 => Relation.TransGen.trans h2 h1⟩
    have : Std.Irrefl (Function.swap (Relation.TransGen E)) := ⟨h⟩
    exact Finite.wellFounded_of_trans_of_irrefl _
  obtain ⟨s, hs, hmin⟩ := hwf.has_min (U : Set V) hU
  exact ⟨s, hs, fun j hj he => hmin j hj (Relation.TransGen.single he)⟩

/-- The edges between nodes of `U`. -/
def Inside (E : V → V → Prop) (U : Finset V) (i j : V) : Prop := E i j ∧ i ∈ U ∧ j ∈ U

omit [Fintype V] in
theorem reach_erase_insert {E : V → V → Prop} {U Z : Finset V} {s a v : V} {m : Bool}
    (h : Reach (Inside E (U.erase s)) Z a v m) : Reach (Inside E U) (insert s Z) a v m := by
  have hsub : ∀ {i j}, Inside E (U.erase s) i j → Inside E U i j := fun h =>
    ⟨h.1, Finset.mem_of_mem_erase h.2.1, Finset.mem_of_mem_erase h.2.2⟩
  induction h with
  | start => exact Reach.start
  | out _ hv he ih =>
    exact ih.out (by simp [hv, Finset.ne_of_mem_erase he.2.1]) (hsub he)
  | back _ hv he ih =>
    exact ih.back (by simp [hv, Finset.ne_of_mem_erase he.2.2]) (hsub he)
  | coll _ hv he ih =>
    exact ih.coll (Finset.mem_insert_of_mem hv) (hsub he)

omit [Fintype V] in
theorem reach_insert_last {E : V → V → Prop} {U Z : Finset V} {s a v : V} {m : Bool} (hs : ∀ j ∈ U, ¬ E s j) (has : a ≠ s)
    (h : Reach (Inside E U) Z a v m) : Reach (Inside E U) (insert s Z) a v m ∧ (v = s → m = true) := by
  have hlast : ∀ {j}, ¬ Inside E U s j := fun h => hs _ h.2.2 h.1
  induction h with
  | start => exact ⟨Reach.start, fun h => absurd h has⟩
  | @out v w m _ hv he ih =>
    have hvs : v ≠ s := by
      rintro rfl
      exact hlast he
    exact ⟨ih.1.out (by simp [hv, hvs]) he, fun _ => rfl⟩
  | @back v w _ hv he ih =>
    have hvs : v ≠ s := fun h => by simpa using ih.2 h
    refine ⟨ih.1.back (by simp [hv, hvs]) he, fun h => ?_⟩
    subst h
    exact absurd he hlast
  | @coll v w _ hv he ih =>
    refine ⟨ih.1.coll (Finset.mem_insert_of_mem hv) he, fun h => ?_⟩
    subst h
    exact absurd he hlast

/-- The global Markov property inside a set of nodes that contains all parents of its members. -/
theorem LinearSEM.global_inside {E : V → V → Prop} {B C : Matrix V V ℝ} {ω : V → ℝ} (h : LinearSEM E B C ω) (n : Nat) :
    ∀ U : Finset V, U.card = n → (∀ i j, E i j → j ∈ U → i ∈ U) → ∀ Z ⊆ U, ∀ a ∈ U, ∀ b ∈ U, a ∉ Z → b ∉ Z →
      (¬ ∃ m, Reach (Inside E U) Z a b m) → ResidZero C Z a b := by
  have hC := h.posDef
  induction n with
  | zero =>
    intro U hU _ Z _ a ha
    rw [Finset.card_eq_zero] at hU
    subst hU
    exact absurd ha (Finset.notMem_empty a)
  | succ n ih =>
    intro U hU hcl
    obtain ⟨s, hsU, hs⟩ := exists_last h.acyclic (U := U) (Finset.card_pos.1 (by omega))
    have hcard : (U.erase s).card = n := by
      rw [Finset.card_erase_of_mem hsU, hU]
      rfl
    have hcl' : ∀ i j, E i j → j ∈ U.erase s → i ∈ U.erase s := by
      intro i j he hj
      rw [Finset.mem_erase] at hj ⊢
      refine ⟨?_, hcl i j he hj.2⟩
      rintro rfl
      exact hs j hj.2 he
    have hsub : ∀ {i j}, Inside E (U.erase s) i j → Inside E U i j := fun h =>
      ⟨h.1, Finset.mem_of_mem_erase h.2.1, Finset.mem_of_mem_erase h.2.2⟩
    -- the last node is the second variable
    have hsecond : ∀ Z ⊆ U.erase s, ∀ a ∈ U.erase s, a ∉ Z → (¬ ∃ m, Reach (Inside E U) Z a s m) → ResidZero C Z a s := by
      intro Z hZ a ha haZ hr β hβ
      have hpar : ∀ k, B k s ≠ 0 → C a k = ∑ i, β i * C i k := by
        intro k hk
        have he := h.respects k s hk
        have hkU : k ∈ U := hcl k s he hsU
        have hks : k ≠ s := by
          rintro rfl
          exact hs k hsU he
        by_cases hkZ : k ∈ Z
        · exact hβ.2 k hkZ
        · refine ih _ hcard hcl' Z hZ a ha k (Finset.mem_erase.2 ⟨hks, hkU⟩) haZ hkZ ?_ β hβ
          rintro ⟨m, hm⟩
          exact hr ⟨true, (hm.congr (fun _ _ => hsub)).out hkZ ⟨he, hkU, hsU⟩⟩
      have hnoise : ∀ i ∈ U.erase s, C i s = ∑ j, B j s * C i j := by
        intro i hi
        rw [posDef_symm hC i s, h.noise_last hcl hs i (Finset.mem_of_mem_erase hi) (Finset.ne_of_mem_erase hi)]
        exact Finset.sum_congr rfl (fun j _ => by rw [posDef_symm hC i j])
      have h1 : ∑ i, β i * C i s = ∑ i, ∑ j, B j s * (β i * C i j) := by
        refine Finset.sum_congr rfl (fun i _ => ?_)
        by_cases hi : i ∈ Z
        · rw [hnoise i (hZ hi), Finset.mul_sum]
          exact Finset.sum_congr rfl (fun j _ => by ring)
        · simp [hβ.1 i hi]
      rw [h1, Finset.sum_comm, hnoise a ha]
      refine Finset.sum_congr rfl (fun j _ => ?_)
      rw [← Finset.mul_sum]
      by_cases hB : B j s = 0
      · rw [hB, zero_mul, zero_mul]
      · rw [hpar j hB]
    intro Z hZ a ha b hb haZ hbZ hr
    by_cases hsZ : s ∈ Z
    · -- the last node is in the conditioning set
      have has : a ≠ s := fun hc => haZ (hc ▸ hsZ)
      have hbs : b ≠ s := fun hc => hbZ (hc ▸ hsZ)
      have hZ' : Z.erase s ⊆ U.erase s := Finset.erase_subset_erase s hZ
      have haU : a ∈ U.erase s := Finset.mem_erase.2 ⟨has, ha⟩
      have hbU : b ∈ U.erase s := Finset.mem_erase.2 ⟨hbs, hb⟩
      have haZ' : a ∉ Z.erase s := fun hc => haZ (Finset.mem_of_mem_erase hc)
      have hbZ' : b ∉ Z.erase s := fun hc => hbZ (Finset.mem_of_mem_erase hc)
      have h1 : ResidZero C (Z.erase s) a b := by
        refine ih _ hcard hcl' _ hZ' a haU b hbU haZ' hbZ' ?_
        rintro ⟨m, hm⟩
        have := reach_erase_insert hm
        rw [Finset.insert_erase hsZ] at this
        exact hr ⟨m, this⟩
      rw [← Finset.insert_erase hsZ]
      refine h1.insert hC (Finset.notMem_erase s Z) ?_
      by_cases h2 : ∃ m, Reach (Inside E U) (Z.erase s) a s m
      · refine Or.inr (hsecond _ hZ' b hbU hbZ' ?_)
        rintro ⟨m', hm'⟩
        obtain ⟨m, hm⟩ := h2
        have ra := reach_insert_last hs has hm
        have rb := reach_insert_last hs hbs hm'
        rw [Finset.insert_erase hsZ] at ra rb
        have e1 := ra.2 rfl
        have e2 := rb.2 rfl
        subst e1 e2
        exact hr (rb.1.join.1 rfl (Or.inr ⟨ra.1, hsZ⟩))
      · exact Or.inl (hsecond _ hZ' a haU haZ' h2)
    · have hZ' : Z ⊆ U.erase s := fun z hz => Finset.mem_erase.2 ⟨fun hc => hsZ (hc ▸ hz), hZ hz⟩
      by_cases hbs : b = s
      · subst hbs
        have hab : a ≠ b := by
          rintro rfl
          exact hr ⟨_, Reach.start⟩
        exact hsecond Z hZ' a (Finset.mem_erase.2 ⟨hab, ha⟩) haZ hr
      · by_cases has : a = s
        · subst has
          refine ResidZero.symm hC (hsecond Z hZ' b (Finset.mem_erase.2 ⟨hbs, hb⟩) hbZ ?_)
          intro hc
          exact hr (Reach.symm haZ hc)
        · refine ih _ hcard hcl' Z hZ' a (Finset.mem_erase.2 ⟨has, ha⟩) b (Finset.mem_erase.2 ⟨hbs, hb⟩) haZ hbZ ?_
          rintro ⟨m, hm⟩
          exact hr ⟨m, hm.congr (fun _ _ => hsub)⟩

/-- The global Markov property: variables that are d-separated by `Z` are uncorrelated given `Z`. -/
theorem LinearSEM.global_markov {E : V → V → Prop} {B C : Matrix V V ℝ} {ω : V → ℝ} (h : LinearSEM E B C ω) {Z : Finset V} {a b : V}
    (ha : a ∉ Z) (hb : b ∉ Z) (hsep : DSeparated E Z a b) : UncorrelatedGiven C Z a b := by
  refine ResidZero.uncorrelated h.posDef (h.global_inside _ Finset.univ rfl (fun _ _ _ _ => Finset.mem_univ _) Z (Finset.subset_univ _) a
    (Finset.mem_univ _) b (Finset.mem_univ _) ha hb ?_)
  rintro ⟨m, hm⟩
  exact hsep ((dconnected_iff h.acyclic ha).2 ⟨m, hm.congr (fun _ _ he => he.1)⟩)

end Verif
