import Verif.Props.Score

/-!
# C71: `score_dag` returns a model for well-posed inputs

For the solver `cvx`.  The conclusion shows in particular that the theorems about returned models (C44-C48, C52) are not vacuous.
-/

namespace Verif

open Spec Matrix

variable {p l e : Nat}

/-! ## Gradient descent -/

section GD

variable {ι : Type} {nArr : Nat} {blk : ι → Nat} {lossFun : (ι → ℝ) → Except Err Flt} {gradFun : (ι → ℝ) → Except Err (ι → ℝ)}
  {threshold learningRate : ℝ} {bounds : Option (List (EReal × EReal))} {kappaZero : ℝ}

theorem gdStep_no_error (hord : BoundsOrdered? nArr bounds) (hl : ∀ X, InBounds? nArr blk bounds X → ∃ L, lossFun X = .ok L)
    (hg : ∀ X, InBounds? nArr blk bounds X → ∃ g, gradFun X = .ok g) (s : GDState ι) (hs : InBounds? nArr blk bounds s.X)
    (err : Err) : gdStep nArr blk lossFun gradFun threshold learningRate bounds kappaZero s ≠ .error err := by
  intro h
  have hgr : ∃ g, s.gradients gradFun = .ok g := by
    unfold GDState.gradients
    cases s.grad with
    | none => exact hg _ hs
    | some g => exact ⟨g, rfl⟩
  obtain ⟨g, hgr⟩ := hgr
  unfold gdStep at h
  rw [hgr] at h
  simp only [] at h
  obtain ⟨b, hb⟩ := checkBounds_ordered nArr blk (fun i => s.X i - s.kappa * learningRate * g i) bounds hord
  rw [hb] at h
  cases b with
  | false => simp at h
  | true =>
    simp only [] at h
    obtain ⟨L, hL⟩ := hl _ ((checkBounds_true _ _ _ _).1 hb).2
    rw [hL] at h
    simp only [] at h
    split_ifs at h

/-- As `C51_returns`, the functions being total inside the bounds only. -/
theorem gd_returns [Finite ι] (hthr : 0 < threshold) (hz : 0 < kappaZero) (lower : ℝ)
    (hl : ∀ X, InBounds? nArr blk bounds X → ∃ v, lossFun X = .ok (some v) ∧ lower ≤ v)
    (hg : ∀ X, InBounds? nArr blk bounds X → ∃ g, gradFun X = .ok g) (Xinit : ι → ℝ)
    (hord : BoundsOrdered? nArr bounds) (hin : InBounds? nArr blk bounds Xinit) :
    ∃ r, gradientDescent nArr blk lossFun gradFun Xinit threshold learningRate bounds kappaZero = .ok r := by
  unfold gradientDescent
  rw [(checkBounds_true _ _ _ _).2 ⟨hord, hin⟩]
  simp only []
  obtain ⟨v, hv, -⟩ := hl _ hin
  rw [hv]
  simp only []
  have hinv : GDInv nArr blk lossFun bounds Xinit (some v) { X := Xinit, loss := some v, kappa := 1, grad := none } :=
    ⟨hin, hv, one_pos, Or.inl ⟨rfl, rfl⟩⟩
  have hst := gd_stops (gradFun := gradFun) (learningRate := learningRate) hthr hz hord lower
    (fun X w hX hw => by
      obtain ⟨w', h1, h2⟩ := hl X hX
      rw [h1] at hw
      simp only [Except.ok.injEq, Option.some.injEq] at hw
      exact hw ▸ h2) Xinit (some v) _ _ hinv rfl
  cases hr : runLoop (gdStep nArr blk lossFun gradFun threshold learningRate bounds kappaZero)
      { X := Xinit, loss := some v, kappa := 1, grad := none } with
  | ok r => exact ⟨r, rfl⟩
  | error err =>
    exfalso
    refine runLoop_error (GDInv nArr blk lossFun bounds Xinit (some v)) (fun _ => False) (fun s s' hs hstep => hs.step hstep)
      (fun s err hs hstep => ?_) hinv hst hr
    exact gdStep_no_error hord (fun X hX => by obtain ⟨v, hv, -⟩ := hl X hX; exact ⟨_, hv⟩) hg s hs.inBounds err hstep

end GD

/-! ## The score -/

/-- Lower bound of the score computed by the code on positive definite sample covariances. -/
noncomputable def scoreBound (d : Data p e) : ℝ :=
  ∑ k, (d.nObs k : ℝ) * (Real.log (d.covs k).det + p) / (∑ k, (d.nObs k : ℝ)) ^ (e - k.val)

/-- Admissible data: positive definite sample covariances and at least one environment with observations. -/
structure GoodData (d : Data p e) : Prop where
  posDef : ∀ k, (d.covs k).PosDef
  pos : ∀ k, 0 < d.nObs k
  some : 0 < e

theorem GoodData.total_pos {d : Data p e} (hd : GoodData d) : 0 < d.total := by
  unfold Data.total
  exact Finset.sum_pos (fun k _ => hd.pos k) ⟨⟨0, hd.some⟩, Finset.mem_univ _⟩

/-- The score of a model with positive variances is a number. -/
theorem scoreOn_ok (d : Data p e) (hd : GoodData d) (m : LModel p l e) (ho : ∀ k i, 0 < m.omegas k i) (hp : ∀ k i, 0 ≤ m.psis k i) :
    m.scoreOn d = .ok (some (∑ k, (d.nObs k : ℝ) * (Real.log (m.noise k).det +
      ((m.noise k)⁻¹ * (m.IB * d.covs k * m.IBᵀ)).trace) / (∑ k, (d.nObs k : ℝ)) ^ (e - k.val))) := by
  unfold LModel.scoreOn LModel.score
  rw [invNoise_ok_of_pos _ ho hp]
  simp only []
  have hsum : (List.ofFn d.nObs).sum = ∑ k, d.nObs k := List.sum_ofFn
  have hsum' : (((List.ofFn d.nObs).sum : Nat) : ℝ) = ∑ k, (d.nObs k : ℝ) := by rw [hsum]; push_cast; rfl
  rw [scoreLoop_closed m.IB _ (List.ofFn d.nObs) (by rw [hsum]; exact hd.total_pos.ne') (fun j => if hj : j < e then d.nObs ⟨j, hj⟩ else 0)
    (by intro j hj; simp [hj])
    (fun j => if hj : j < e then Real.log (m.noise ⟨j, hj⟩).det +
      ((m.noise ⟨j, hj⟩)⁻¹ * (m.IB * d.covs ⟨j, hj⟩ * m.IBᵀ)).trace else 0) (List.ofFn d.covs) 0 0 (by simp) ?_]
  · simp only [zero_div, zero_add, List.length_ofFn, hsum']
    congr 2
    rw [Finset.sum_range]
    refine Finset.sum_congr rfl (fun k _ => ?_)
    simp
  · intro j σ hj hlt
    have hje : j < e := by omega
    have hσ : σ = d.covs ⟨j, hje⟩ := by simpa [hje] using hj.symm
    subst hσ
    simp only [Nat.zero_add, hje, dif_pos]
    rw [scoreTerm_inv (noise_posDef _ _ (ho _) (hp _))]

/-- The score is bounded below. -/
theorem scoreOn_lower (d : Data p e) (hd : GoodData d) (m : LModel p l e) (ho : ∀ k i, 0 < m.omegas k i)
    (hp : ∀ k i, 0 ≤ m.psis k i) (hI : m.IB.det = 1) : ∃ v, m.scoreOn d = .ok (some v) ∧ scoreBound d ≤ v := by
  refine ⟨_, scoreOn_ok d hd m ho hp, ?_⟩
  unfold scoreBound
  refine Finset.sum_le_sum (fun k _ => ?_)
  have hN : (0 : ℝ) < ∑ k, (d.nObs k : ℝ) := by
    have := hd.total_pos
    unfold Data.total at this
    exact_mod_cast this
  refine div_le_div_of_nonneg_right (mul_le_mul_of_nonneg_left ?_ (Nat.cast_nonneg _)) (pow_pos hN _).le
  rw [term_eq_gaussNLL hI]
  refine (gaussNLL_ge ?_ (hd.posDef k)).1
  have hV := noise_posDef m k (ho k) (hp k)
  have hu : IsUnit (m.IB⁻¹).det := by rw [Matrix.det_nonsing_inv, hI]; simp
  have := hV.mul_mul_conjTranspose_same (B := m.IB⁻¹) (Matrix.vecMul_injective_iff_isUnit.2 ((Matrix.isUnit_iff_isUnit_det _).2 hu))
  rwa [Matrix.conjTranspose_eq_transpose_of_trivial] at this

/-! ## The sub-procedures return -/

/-- Parameters inside the bounds. -/
structure GoodModel (it : SetIter p) (A : Adj p) (psiMax : Option ℝ) (m : LModel p l e) : Prop where
  graph : m.A = A
  respects : Respects A m.B
  omegas : ∀ k i, 0 < m.omegas k i
  psis : ∀ k i, 0 < m.psis k i
  psiMax : ∀ x, psiMax = some x → ∀ k i, m.psis k i < x

theorem solveForGamma_returns {it : SetIter p} {A : Adj p} (hA : Nonneg A) (hac : Acyclic A) {psiMax : Option ℝ} (d : Data p e)
    (hd : GoodData d) {thr lr : ℝ} (hthr : 0 < thr) {m : LModel p l e} (hm : GoodModel it A psiMax m) :
    ∃ g, solveForGamma it d thr lr m = .ok g := by
  have hmk : ∀ X : Fin l × Fin p → ℝ, mkModel it m.A m.B (toGamma X) m.omegas m.psis =
      .ok ⟨m.A, m.B, toGamma X, m.omegas, m.psis, 1 - m.Bᵀ⟩ := fun X =>
    mkModel_eq_ok (by rw [hm.graph]; exact hA) _ _ _ (by rw [hm.graph]; exact hac) (by rw [hm.graph]; exact hm.respects)
  have hdet : (1 - m.Bᵀ).det = 1 := det_one_sub_transpose hac hm.respects
  obtain ⟨r, hr⟩ := gd_returns (nArr := 1) (blk := fun _ => 0) (lossFun := gammaLoss it d m) (gradFun := gammaGrad it d m)
    (threshold := thr) (learningRate := lr) (bounds := none) (kappaZero := 1 / 10 ^ 50) hthr (by positivity) (scoreBound d)
    (fun X _ => by
      unfold gammaLoss
      rw [hmk X]
      exact scoreOn_lower d hd ⟨m.A, m.B, toGamma X, m.omegas, m.psis, 1 - m.Bᵀ⟩ hm.omegas (fun k i => (hm.psis k i).le) hdet)
    (fun X _ => by
      unfold gammaGrad
      rw [hmk X]
      simp only []
      rw [invNoise_ok_of_pos ⟨m.A, m.B, toGamma X, m.omegas, m.psis, 1 - m.Bᵀ⟩ hm.omegas (fun k i => (hm.psis k i).le)]
      exact ⟨_, rfl⟩)
    (fun ak => m.gamma ak.1 ak.2) (fun b hb => by simp at hb) (fun b hb => by simp at hb)
  exact ⟨toGamma r.1, by unfold solveForGamma; rw [hr]⟩

theorem restBounds_ordered (psiMax : Option ℝ) (h : ∀ x, psiMax = some x → 0 ≤ x) : BoundsOrdered? 2 (some (restBounds psiMax)) := by
  intro b hb
  simp only [Option.some.injEq] at hb
  subst hb
  intro k lo hi hk hkb
  cases psiMax with
  | none =>
    simp only [restBounds] at hkb
    match k, hk with
    | 0, _ => simp at hkb; rw [← hkb.1, ← hkb.2]; exact le_top
    | 1, _ => simp at hkb; rw [← hkb.1, ← hkb.2]; exact le_top
  | some x =>
    simp only [restBounds] at hkb
    match k, hk with
    | 0, _ => simp at hkb; rw [← hkb.1, ← hkb.2]; exact le_top
    | 1, _ => simp at hkb; rw [← hkb.1, ← hkb.2]; exact EReal.coe_nonneg.2 (h x rfl)

theorem restBounds_iff (psiMax : Option ℝ) (X : RestIx p l e → ℝ) :
    InBounds? 2 (Sum.elim (fun _ => 0) (fun _ => 1)) (some (restBounds psiMax)) X ↔
      (∀ k j, 0 < X (.inl (k, j))) ∧ (∀ k j, 0 < X (.inr (k, j))) ∧ ∀ x, psiMax = some x → ∀ k j, X (.inr (k, j)) < x := by
  constructor
  · intro h
    have hb := h _ rfl
    refine ⟨?_, ?_, ?_⟩
    · intro k j
      cases psiMax with
      | none => exact EReal.coe_pos.1 (hb 0 0 ⊤ (by norm_num) rfl (.inl (k, j)) rfl).1
      | some x => exact EReal.coe_pos.1 (hb 0 0 ⊤ (by norm_num) rfl (.inl (k, j)) rfl).1
    · intro k j
      cases psiMax with
      | none => exact EReal.coe_pos.1 (hb 1 0 ⊤ (by norm_num) rfl (.inr (k, j)) rfl).1
      | some x => exact EReal.coe_pos.1 (hb 1 0 x (by norm_num) rfl (.inr (k, j)) rfl).1
    · rintro x rfl k j
      exact EReal.coe_lt_coe_iff.1 (hb 1 0 x (by norm_num) rfl (.inr (k, j)) rfl).2
  · rintro ⟨h1, h2, h3⟩ b hb k lo hi hk hkb i hi'
    simp only [Option.some.injEq] at hb
    subst hb
    rcases i with ⟨k', j⟩ | ⟨k', j⟩
    · simp only [Sum.elim_inl] at hi'
      subst hi'
      have : lo = 0 ∧ hi = ⊤ := by cases psiMax <;> simp [restBounds] at hkb <;> exact ⟨hkb.1.symm, hkb.2.symm⟩
      obtain ⟨rfl, rfl⟩ := this
      exact ⟨EReal.coe_pos.2 (h1 k' j), EReal.coe_lt_top _⟩
    · simp only [Sum.elim_inr] at hi'
      subst hi'
      cases psiMax with
      | none =>
        simp [restBounds] at hkb
        rw [← hkb.1, ← hkb.2]
        exact ⟨EReal.coe_pos.2 (h2 k' j), EReal.coe_lt_top _⟩
      | some x =>
        simp [restBounds] at hkb
        rw [← hkb.1, ← hkb.2]
        exact ⟨EReal.coe_pos.2 (h2 k' j), EReal.coe_lt_coe_iff.2 (h3 x rfl k' j)⟩

theorem solveForRest_returns {it : SetIter p} {A : Adj p} (hA : Nonneg A) (hac : Acyclic A) {psiMax : Option ℝ}
    (hpsi : ∀ x, psiMax = some x → 0 ≤ x) (d : Data p e) (hd : GoodData d) (I : Finset (Fin p)) (psiFixed : Bool) {thr lr : ℝ}
    (hthr : 0 < thr) {m : LModel p l e} (hm : GoodModel it A psiMax m) :
    ∃ r, solveForRest it d I psiMax psiFixed thr lr m = .ok r := by
  have hmk : ∀ X : RestIx p l e → ℝ, mkModel it m.A m.B m.gamma (toOmegas X) (toPsis X) =
      .ok ⟨m.A, m.B, m.gamma, toOmegas X, toPsis X, 1 - m.Bᵀ⟩ := fun X =>
    mkModel_eq_ok (by rw [hm.graph]; exact hA) _ _ _ (by rw [hm.graph]; exact hac) (by rw [hm.graph]; exact hm.respects)
  have hdet : (1 - m.Bᵀ).det = 1 := det_one_sub_transpose hac hm.respects
  obtain ⟨r, hr⟩ := gd_returns (nArr := 2) (blk := Sum.elim (fun _ => 0) (fun _ => 1)) (lossFun := restLoss it d m)
    (gradFun := restGrad it d I psiFixed m)
    (threshold := thr) (learningRate := lr) (bounds := some (restBounds psiMax)) (kappaZero := 1 / 10 ^ 50) hthr (by positivity)
    (scoreBound d)
    (fun X hX => by
      obtain ⟨h1, h2, -⟩ := (restBounds_iff psiMax X).1 hX
      unfold restLoss
      rw [hmk X]
      exact scoreOn_lower d hd ⟨m.A, m.B, m.gamma, toOmegas X, toPsis X, 1 - m.Bᵀ⟩ h1 (fun k i => (h2 k i).le) hdet)
    (fun X hX => by
      obtain ⟨h1, h2, -⟩ := (restBounds_iff psiMax X).1 hX
      unfold restGrad
      rw [hmk X]
      simp only []
      rw [invNoise_ok_of_pos ⟨m.A, m.B, m.gamma, toOmegas X, toPsis X, 1 - m.Bᵀ⟩ h1 (fun k i => (h2 k i).le)]
      exact ⟨_, rfl⟩)
    (Sum.elim (fun hj => m.omegas hj.1 hj.2) (fun hk => m.psis hk.1 hk.2)) (restBounds_ordered psiMax hpsi)
    ((restBounds_iff psiMax _).2 ⟨hm.omegas, hm.psis, hm.psiMax⟩)
  exact ⟨(toOmegas r.1, toPsis r.1), by unfold solveForRest; rw [hr]⟩

/-- Abstract contract under which one iteration succeeds: the solver for `B` finds weights on the graph. -/
theorem altBody_returns {it : SetIter p} {A : Adj p} (hA : Nonneg A) (hac : Acyclic A) {cfg : ScoreCfg}
    (hpsi : ∀ x, cfg.psiMax = some x → 0 ≤ x) (num : NumLib p e) (d : Data p e) (hd : GoodData d) (u v : Nat → Fin (p * p) → ℝ)
    (I : Finset (Fin p)) (hthr : 0 < cfg.thresholdScore)
    (hB : ∀ i (m : LModel p l e), GoodModel it A cfg.psiMax m →
      ∃ B, (codeSolvers it num cfg d u v I).solveB i m = .ok B ∧ Respects A B)
    {m : LModel p l e} (hm : GoodModel it A cfg.psiMax m) (i : Nat) :
    ∃ m', altBody it (codeSolvers it num cfg d u v I) i m = .ok m' ∧ GoodModel it A cfg.psiMax m' := by
  have hcopy : m.copy it = .ok { m with IB := 1 - m.Bᵀ } := by
    unfold LModel.copy
    exact mkModel_eq_ok (by rw [hm.graph]; exact hA) _ _ _ (by rw [hm.graph]; exact hac) (by rw [hm.graph]; exact hm.respects)
  have h1 : GoodModel it A cfg.psiMax { m with IB := 1 - m.Bᵀ } := ⟨hm.graph, hm.respects, hm.omegas, hm.psis, hm.psiMax⟩
  obtain ⟨B, hB1, hB2⟩ := hB i _ h1
  have h2 : GoodModel it A cfg.psiMax { m with B := B, IB := 1 - m.Bᵀ } := ⟨hm.graph, hB2, hm.omegas, hm.psis, hm.psiMax⟩
  obtain ⟨g, hg⟩ := solveForGamma_returns (lr := cfg.learningRate) hA hac d hd hthr h2
  have h3 : GoodModel it A cfg.psiMax { m with B := B, gamma := g, IB := 1 - m.Bᵀ } :=
    ⟨hm.graph, hB2, hm.omegas, hm.psis, hm.psiMax⟩
  obtain ⟨r, hr⟩ := solveForRest_returns (lr := cfg.learningRate) hA hac hpsi d hd I cfg.psiFixed hthr h3
  refine ⟨⟨m.A, B, g, r.1, r.2, 1 - m.Bᵀ⟩, ?_, ?_⟩
  · unfold altBody
    rw [hcopy]
    simp only [hB1]
    have hg' : (codeSolvers it num cfg d u v I).gamma { m with B := B, IB := 1 - m.Bᵀ } = .ok g := hg
    simp only [hg']
    have hr' : (codeSolvers it num cfg d u v I).rest { m with B := B, gamma := g, IB := 1 - m.Bᵀ } = .ok r := hr
    simp only [hr']
  · obtain ⟨h4, h5, h6⟩ := solveForRest_inBounds hr
    exact ⟨hm.graph, hB2, h4, h5, h6⟩

/-! ## The initial model -/

theorem avgCov_posDef (d : Data p e) (hd : GoodData d) : (avgCov d).PosDef := by
  unfold avgCov
  have hN : (0 : ℝ) < 1 / (d.total : ℝ) := by
    have := hd.total_pos
    positivity
  refine Matrix.PosDef.smul ?_ hN
  have key : ∀ s : Finset (Fin e), s.Nonempty → (∑ k ∈ s, (d.nObs k : ℝ) • d.covs k).PosDef := by
    intro s hs
    induction hs using Finset.Nonempty.cons_induction with
    | singleton a =>
      rw [Finset.sum_singleton]
      exact (hd.posDef a).smul (Nat.cast_pos.2 (hd.pos a))
    | cons a s ha _ ih =>
      rw [Finset.sum_cons]
      exact ((hd.posDef a).smul (Nat.cast_pos.2 (hd.pos a))).add ih
  exact key _ ⟨⟨0, hd.some⟩, Finset.mem_univ _⟩

theorem covPa_posDef {C : Matrix (Fin p) (Fin p) ℝ} (hC : C.PosDef) (s : Finset (Fin p)) : (covPa C s).PosDef := by
  unfold covPa
  exact hC.submatrix Subtype.val_injective

theorem initializeB_ok {A : Adj p} (d : Data p e) (hd : GoodData d) : ∃ B, initializeB A d .avg = .ok B ∧ Respects A B := by
  unfold initializeB initCovariance regressAll
  simp only []
  rw [if_neg (by push Not; intro j; exact (covPa_posDef (avgCov_posDef d hd) _).det_pos.ne')]
  refine ⟨_, rfl, ?_⟩
  intro i j hij
  rw [Matrix.of_apply]
  split
  · rfl
  · rw [dif_neg (by simp [paOf, hij])]

theorem nCov_posDef {A : Adj p} (hac : Acyclic A) (d : Data p e) (hd : GoodData d) {B : Matrix (Fin p) (Fin p) ℝ}
    (hB : Respects A B) (k : Fin e) : (nCov d B k).PosDef := by
  unfold nCov
  have hu : IsUnit (1 - Bᵀ).det := by rw [det_one_sub_transpose hac hB]; exact isUnit_one
  have := (hd.posDef k).mul_mul_conjTranspose_same (B := 1 - Bᵀ)
    (Matrix.vecMul_injective_iff_isUnit.2 ((Matrix.isUnit_iff_isUnit_det _).2 hu))
  rwa [Matrix.conjTranspose_eq_transpose_of_trivial] at this

theorem initialModel_returns {it : SetIter p} {A : Adj p} (hA : Nonneg A) (hac : Acyclic A)
    (svd : Matrix (Fin p) (Fin p) ℝ → Matrix (Fin p) (Fin p) ℝ × (Fin p → ℝ)) (d : Data p e) (hd : GoodData d) (I : Finset (Fin p))
    (hl : l ≤ p) {psiMax : Option ℝ} (hpsi : ∀ x, psiMax = some x → 1 < x) :
    ∃ m : LModel p l e, initialModel it svd d A I = .ok m ∧ GoodModel it A psiMax m := by
  obtain ⟨B, hB, hR⟩ := initializeB_ok (A := A) d hd
  have hom : ∀ k j, 0 < (if j ∈ I then omegasFree B d k j else (∑ h, omegasFree B d h j * (d.nObs h : ℝ)) / (d.total : ℝ)) := by
    intro k j
    have hpos : ∀ h, 0 < omegasFree B d h j := fun h => (nCov_posDef hac d hd hR h).diag_pos
    split_ifs
    · exact hpos k
    · refine div_pos (Finset.sum_pos (fun h _ => mul_pos (hpos h) (Nat.cast_pos.2 (hd.pos h))) ⟨⟨0, hd.some⟩, Finset.mem_univ _⟩) ?_
      exact Nat.cast_pos.2 hd.total_pos
  unfold initialModel
  rw [hB]
  simp only []
  unfold initializeGamma initializeOmegas initCovariance
  simp only []
  rw [dif_pos (min_eq_left hl)]
  refine ⟨_, mkModel_eq_ok hA _ _ _ hac hR, ?_⟩
  refine ⟨rfl, hR, hom, fun k i => ?_, fun x hx k i => ?_⟩
  · exact one_pos
  · exact hpsi x hx

/-! ## Theorem -/

theorem alternate_returns {it : SetIter p} {sv : Solvers p l e} {cfg : StopCfg} {d : Data p e} (hp : p ≠ 0)
    (hit : 0 < cfg.maxIter) (hfl : 0 < cfg.maxFluctuations) (P : LModel p l e → Prop)
    (hP : ∀ m, P m → ∃ s, m.scoreOn d = .ok s) (hbody : ∀ i m, P m → ∃ m', altBody it sv i m = .ok m' ∧ P m')
    {m0 : LModel p l e} (h0 : P m0) : ∃ r, alternate it sv cfg d m0 = .ok r := by
  obtain ⟨s0, hs0⟩ := hP m0 h0
  unfold LModel.scoreOn at hs0
  unfold alternate
  rw [hs0]
  simp only []
  cases hr : runLoop (altStep it sv cfg d) { prev := m0, prevScore := s0, diff := none, i := 0, flucs := 0, cur := none } with
  | error err =>
    exfalso
    refine runLoop_error (fun s => P s.prev) (fun _ => False) (fun s s' hs hstep => ?_) (fun s err hs hstep => ?_) h0
      (altStep_stops _) hr
    · by_cases hg : distGt s.diff cfg.thresholdDistB ∧ (s.i : Int) < cfg.maxIter ∧ (s.flucs : Int) < cfg.maxFluctuations
      · obtain ⟨m', h1, h2⟩ := hbody s.i s.prev hs
        rcases altStep_go (it := it) (sv := sv) (d := d) hg with ⟨_, -, h3⟩ | h3 | ⟨_, _, -, -, h3⟩ | ⟨c, sc, h4, -, h3⟩ <;>
          rw [h3] at hstep <;> simp only [Except.ok.injEq, Sum.inl.injEq, reduceCtorEq] at hstep
        subst hstep
        rw [h1] at h4
        simp only [Except.ok.injEq] at h4
        subst h4
        exact h2
      · rw [altStep_stop hg] at hstep
        simp at hstep
    · by_cases hg : distGt s.diff cfg.thresholdDistB ∧ (s.i : Int) < cfg.maxIter ∧ (s.flucs : Int) < cfg.maxFluctuations
      · obtain ⟨m', h1, h2⟩ := hbody s.i s.prev hs
        obtain ⟨sc, hsc⟩ := hP m' h2
        unfold LModel.scoreOn at hsc
        unfold altStep at hstep
        rw [if_neg (not_not.2 hg)] at hstep
        simp only [h1, if_neg hp, hsc] at hstep
        simp at hstep
      · rw [altStep_stop hg] at hstep
        simp at hstep
  | ok st =>
    simp only []
    obtain ⟨h1, h2⟩ := altLoop_ok hs0 hr
    rcases h1.last with ⟨h3, -, -⟩ | ⟨j, m', -, -, -, h3⟩
    · exfalso
      apply h2
      rw [h3]
      exact ⟨by simpa using hit, by simpa [fluctuations] using hfl, by simp⟩
    · rw [h3]
      exact ⟨_, rfl⟩

/-- What `cvxpy` is expected to do for the problem set up by `_solve_for_B_cvx`: it returns weights that satisfy the sparsity
constraint up to `1e-8`. -/
def CvxFeasible (num : NumLib p e) (A : Adj p) (d : Data p e) : Prop :=
  ∀ Ms, ∃ B, num.cvx A Ms d = some B ∧ ∀ i j, A i j = 0 → |B i j| ≤ 1 / 10 ^ 8

/-- C71: with the solver `cvx`, `score_dag` returns a model (it neither raises nor runs forever) for every DAG over at least one
variable, all target sets, all positive definite sample covariances, not more latents than variables, a positive threshold for the
score, positive limits for iterations and fluctuations, `psi_max > 1` or none, and any learning rate. -/
theorem C71_score_dag_returns (it : SetIter p) (svd : Matrix (Fin p) (Fin p) ℝ → Matrix (Fin p) (Fin p) ℝ × (Fin p → ℝ))
    (num : NumLib p e) (cfg : ScoreCfg) (d : Data p e) (hd : GoodData d) (u v : Nat → Fin (p * p) → ℝ) (A : Adj p)
    (hA : Nonneg A) (hac : Acyclic A) (I : Finset (Fin p)) (hp : p ≠ 0) (hl : l ≤ p) (hcvx : cfg.solver = .cvx)
    (hnum : CvxFeasible num A d) (hthr : 0 < cfg.thresholdScore) (hpsi : ∀ x, cfg.psiMax = some x → 1 < x)
    (hit : 0 < cfg.stop.maxIter) (hfl : 0 < cfg.stop.maxFluctuations) :
    ∃ (m : LModel p l e) (s : ℝ), fitCode it svd num cfg d u v A I none = .ok (m, some s) := by
  obtain ⟨m0, hm0, hg0⟩ := initialModel_returns (it := it) hA hac svd d hd I hl hpsi
  have hsolve : ∀ i (m : LModel p l e), GoodModel it A cfg.psiMax m →
      ∃ B, (codeSolvers it num cfg d u v I).solveB i m = .ok B ∧ Respects A B := by
    intro i m hm
    obtain ⟨B, h1, h2⟩ := hnum (fun k => (m.noise k)⁻¹)
    refine ⟨Matrix.of (fun i j => if A i j = 0 then 0 else B i j), ?_, fun i j hij => by rw [Matrix.of_apply, if_pos hij]⟩
    simp only [codeSolvers, hcvx]
    unfold solveForBCvx
    rw [invNoise_ok_of_pos m hm.omegas (fun k i => (hm.psis k i).le)]
    simp only [hm.graph, h1]
    rw [if_neg (not_not.2 h2)]
  have hpsi0 : ∀ x, cfg.psiMax = some x → 0 ≤ x := fun x hx => by linarith [hpsi x hx]
  obtain ⟨r, hr⟩ := alternate_returns (it := it) (sv := codeSolvers it num cfg d u v I) hp hit hfl (GoodModel it A cfg.psiMax)
    (fun m hm => ⟨_, scoreOn_ok d hd m hm.omegas (fun k i => (hm.psis k i).le)⟩)
    (fun i m hm => altBody_returns hA hac hpsi0 num d hd u v I hthr hsolve hm i) hg0
  have hfit : fitCode it svd num cfg d u v A I (none : Option (LModel p l e)) = .ok r := by
    unfold fitCode fitDag
    rw [if_neg (by simpa using (isDag_iff it hA).2 hac)]
    simp only [hm0]
    exact hr
  obtain ⟨m, s⟩ := r
  obtain ⟨h1, h2, -⟩ := C47_within_bounds none m s hfit
  obtain ⟨n, -, -, h3, -⟩ := C44_run hr
  rw [scoreOn_ok d hd m h1 (fun k i => (h2 k i).le)] at h3
  simp only [Except.ok.injEq] at h3
  exact ⟨m, _, by rw [hfit, ← h3]⟩

/-- C49: with `psi_max <= 1` and a latent variable, and all other inputs such that `score_dag` would return (C71), `score_dag` raises
`ValueError`. -/
theorem C49_raises (it : SetIter p) (svd : Matrix (Fin p) (Fin p) ℝ → Matrix (Fin p) (Fin p) ℝ × (Fin p → ℝ))
    (num : NumLib p e) (cfg : ScoreCfg) (d : Data p e) (hd : GoodData d) (u v : Nat → Fin (p * p) → ℝ) (A : Adj p)
    (hA : Nonneg A) (hac : Acyclic A) (I : Finset (Fin p)) (hl : l ≤ p) (hcvx : cfg.solver = .cvx)
    (hnum : CvxFeasible num A d) (hthr : 0 < cfg.thresholdScore) (x : ℝ) (hx : cfg.psiMax = some x) (hx1 : x ≤ 1) (j : Fin l)
    (hit : 0 < cfg.stop.maxIter) (hfl : 0 < cfg.stop.maxFluctuations) :
    fitCode it svd num cfg d u v A I (none : Option (LModel p l e)) = .error .valueError := by
  obtain ⟨m0, hm0, hg0⟩ := initialModel_returns (it := it) (psiMax := none) hA hac svd d hd I hl (by simp)
  obtain ⟨B, h1, h2⟩ := hnum (fun k => (m0.noise k)⁻¹)
  have hB : (codeSolvers it num cfg d u v I).solveB 0 m0 = .ok (Matrix.of (fun i j => if A i j = 0 then 0 else B i j)) := by
    simp only [codeSolvers, hcvx]
    unfold solveForBCvx
    rw [invNoise_ok_of_pos m0 hg0.omegas (fun k i => (hg0.psis k i).le)]
    simp only [hg0.graph, h1]
    rw [if_neg (not_not.2 h2)]
  have hg1 : GoodModel it A none { m0 with B := Matrix.of (fun i j => if A i j = 0 then 0 else B i j) } :=
    ⟨hg0.graph, fun i j hij => by change (if A i j = 0 then 0 else B i j) = 0; rw [if_pos hij], hg0.omegas, hg0.psis, by simp⟩
  obtain ⟨g, hg⟩ := solveForGamma_returns (lr := cfg.learningRate) hA hac d hd hthr hg1
  exact C49_value_error x hx hx1 j ⟨0, hd.some⟩ ((isDag_iff it hA).2 hac) hit hfl m0 hm0 _
    (scoreOn_ok d hd m0 hg0.omegas (fun k i => (hg0.psis k i).le)) _ hB g hg

/-- C45, boundary: the condition on the draws is needed.  If all the initial weights are zero the loop of `_solve_for_B_grad` is not
entered, and the returned weights are the identity matrix, with a self-loop at every variable. -/
theorem C45_small_draws_boundary (it : SetIter p) (num : NumLib p e) (hfin : ∀ x, num.finite x = true) (d : Data p e) (hp : p ≠ 0)
    (Badapt : Fin (p * p) → ℝ) (m : LModel p l e) (ho : ∀ k i, 0 < m.omegas k i) (hps : ∀ k i, 0 ≤ m.psis k i) :
    solveForBGrad it num d 0 Badapt m = .ok 1 := by
  unfold solveForBGrad
  rw [invNoise_ok_of_pos m ho hps]
  simp only []
  rw [runLoop_unfold]
  have hz : (unflattenB (0 : Fin (p * p) → ℝ)) = 1 := by
    ext i j
    simp [unflattenB, reshapeF, Matrix.transpose_apply, Matrix.sub_apply, Matrix.one_apply, eq_comm]
  simp only [gradStep, if_neg hp]
  rw [if_pos (by simp)]
  simp only [hfin, hz]
  norm_num

/-- An example for `C45_small_draws_boundary`: in the graph without edges over two variables the returned weights have self-loops. -/
example : solveForBGrad (SetIter.incr 2) (⟨id, fun _ => true, fun x => x / 2, fun _ _ _ => none⟩ : NumLib 2 1) ⟨fun _ => 1, fun _ => 5⟩ 0 0
    (⟨0, 0, 0, fun _ _ => 1, fun _ _ => 1, 1⟩ : LModel 2 1 1) = .ok 1 ∧ (1 : Matrix (Fin 2) (Fin 2) ℝ) 0 0 ≠ 0 :=
  ⟨C45_small_draws_boundary _ _ (fun _ => rfl) _ (by decide) _ _ (fun _ _ => one_pos) (fun _ _ => zero_le_one), by simp⟩

end Verif
