import Verif.Model.Score
import Verif.Props.GradDescent
import Verif.Props.LModel

namespace Verif

open Spec Matrix

variable {p l e : Nat}

/-! ## The constructor inside the solvers -/

theorem mkModel_fields {it : SetIter p} {A : Adj p} {B : Matrix (Fin p) (Fin p) ℝ}
    {gamma : Matrix (Fin l) (Fin p) ℝ} {omegas : Matrix (Fin e) (Fin p) ℝ} {psis : Matrix (Fin e) (Fin l) ℝ}
    {m : LModel p l e} (h : mkModel it A B gamma omegas psis = .ok m) :
    isDag it A = true ∧ Respects A B ∧ m = ⟨A, B, gamma, omegas, psis, 1 - Bᵀ⟩ := by
  unfold mkModel at h
  split_ifs at h with h1 h2
  push Not at h2
  simp only [Bool.not_eq_true', Bool.not_eq_false] at h1
  simp only [Except.ok.injEq] at h
  exact ⟨h1, h2, h.symm⟩

theorem mkModel_of_dag {it : SetIter p} {A : Adj p} {B : Matrix (Fin p) (Fin p) ℝ}
    (gamma : Matrix (Fin l) (Fin p) ℝ) (omegas : Matrix (Fin e) (Fin p) ℝ) (psis : Matrix (Fin e) (Fin l) ℝ)
    (hac : isDag it A = true) (hB : Respects A B) :
    mkModel it A B gamma omegas psis = .ok ⟨A, B, gamma, omegas, psis, 1 - Bᵀ⟩ := by
  unfold mkModel
  rw [if_neg (by simpa using hac), if_neg]
  push Not
  exact hB

theorem mkModel_error {it : SetIter p} {A : Adj p} {B : Matrix (Fin p) (Fin p) ℝ}
    {gamma : Matrix (Fin l) (Fin p) ℝ} {omegas : Matrix (Fin e) (Fin p) ℝ} {psis : Matrix (Fin e) (Fin l) ℝ} {err : Err}
    (h : mkModel it A B gamma omegas psis = .error err) : err = .valueError := by
  unfold mkModel at h
  split_ifs at h
  · simpa using h.symm
  · simpa using h.symm

/-! ## Flattening -/

theorem divNat_pair (i j : Fin p) : (finProdFinEquiv (i, j)).divNat = i := by
  have := finProdFinEquiv.symm_apply_apply (i, j)
  exact congrArg Prod.fst this

theorem modNat_pair (i j : Fin p) : (finProdFinEquiv (i, j)).modNat = j := by
  have := finProdFinEquiv.symm_apply_apply (i, j)
  exact congrArg Prod.snd this

theorem pair_div_mod (k : Fin (p * p)) : finProdFinEquiv (k.divNat, k.modNat) = k := finProdFinEquiv.apply_symm_apply k

theorem reshapeF_flattenF {α : Type} (M : Fin p → Fin p → α) : reshapeF (flattenF M) = M := by
  funext i j
  unfold reshapeF flattenF
  rw [divNat_pair, modNat_pair]

theorem flattenF_reshapeF {α : Type} (v : Fin (p * p) → α) : flattenF (reshapeF v) = v := by
  funext k
  exact congrArg v (pair_div_mod k)

theorem unflattenB_apply (v : Fin (p * p) → ℝ) (i j : Fin p) :
    unflattenB v i j = (if i = j then 1 else 0) - v (finProdFinEquiv (i, j)) := by
  unfold unflattenB reshapeF
  rw [Matrix.transpose_apply, Matrix.sub_apply, Matrix.one_apply, Matrix.of_apply]
  simp only [eq_comm]

theorem maskVec_pair (A : Adj p) (v : Fin (p * p) → ℝ) (i j : Fin p) :
    maskVec A v (finProdFinEquiv (i, j)) = if i = j then 1 else if A i j = 0 then 0 else v (finProdFinEquiv (i, j)) := by
  unfold maskVec oneElements zeroElements flattenF
  rw [divNat_pair, modNat_pair]
  simp only [decide_eq_true_eq, eq_comm (a := j)]

/-- A masked vector is a matrix with zeros where the graph has no edge, and zero diagonal. -/
theorem unflattenB_maskVec (A : Adj p) (v : Fin (p * p) → ℝ) : Respects A (unflattenB (maskVec A v)) := by
  intro i j hij
  rw [unflattenB_apply, maskVec_pair]
  by_cases h : i = j
  · rw [if_pos h, if_pos h, sub_self]
  · rw [if_neg h, if_neg h, if_pos hij, sub_self]

/-! ## The solvers for `B` -/

theorem solveForBAdaptive_respects {it : SetIter p} {num : NumLib p e} {d : Data p e} {Binit : Fin (p * p) → ℝ}
    {m : LModel p l e} {B : Matrix (Fin p) (Fin p) ℝ} (h : solveForBAdaptive it num d Binit m = .ok B) : Respects m.A B := by
  unfold solveForBAdaptive at h
  cases hM : m.invNoise with
  | error err => rw [hM] at h; simp at h
  | ok Ms =>
    rw [hM] at h
    simp only [] at h
    cases hl : likelihood it d m (maskVec m.A Binit) with
    | error err => rw [hl] at h; simp at h
    | ok score =>
      rw [hl] at h
      simp only [] at h
      cases hr : runLoop (adaptStep it d m (nMatrix num d Ms)) { B := maskVec m.A Binit, score := score, lr := 1 } with
      | error err => rw [hr] at h; simp at h
      | ok v =>
        rw [hr] at h
        simp only [] at h
        split_ifs at h
        simp only [Except.ok.injEq] at h
        subst h
        obtain ⟨w, rfl⟩ := runLoop_ok (fun s : AdaptState p => ∃ w, s.B = maskVec m.A w) (fun v => ∃ w, v = maskVec m.A w)
          (fun s s' hs hstep => by
            unfold adaptStep at hstep
            simp only [] at hstep
            split at hstep
            · simp at hstep
            · split_ifs at hstep
              · simp only [Except.ok.injEq, Sum.inl.injEq] at hstep; subst hstep; exact hs
              · simp at hstep
              · simp only [Except.ok.injEq, Sum.inl.injEq] at hstep; subst hstep; exact ⟨_, rfl⟩)
          (fun s v hs hstep => by
            unfold adaptStep at hstep
            simp only [] at hstep
            split at hstep
            · simp at hstep
            · split_ifs at hstep
              · simp at hstep
              · simp only [Except.ok.injEq, Sum.inr.injEq] at hstep; subst hstep; exact hs
              · simp at hstep)
          ⟨_, rfl⟩ hr
        exact unflattenB_maskVec _ _

theorem solveForBGrad_respects {it : SetIter p} {num : NumLib p e} {d : Data p e} {Binit Badapt : Fin (p * p) → ℝ}
    {m : LModel p l e} {B : Matrix (Fin p) (Fin p) ℝ} (hB : ∃ k, (1 : ℝ) / 10 ^ 10 < |Binit k|)
    (h : solveForBGrad it num d Binit Badapt m = .ok B) : Respects m.A B := by
  unfold solveForBGrad at h
  cases hM : m.invNoise with
  | error err => rw [hM] at h; simp at h
  | ok Ms =>
    rw [hM] at h
    simp only [] at h
    cases hr : runLoop (gradStep num m.A (nMatrix num d Ms) Binit) { B := 0, Bnew := Binit, lr := 5 / 1000 } with
    | error err => rw [hr] at h; simp at h
    | ok s =>
      rw [hr] at h
      simp only [] at h
      split_ifs at h with hfin
      · simp only [Except.ok.injEq] at h
        subst h
        have := runLoop_ok (fun s : GradState p => (∃ w, s.Bnew = maskVec m.A w) ∨ (s.B = 0 ∧ s.Bnew = Binit))
          (fun s => s.lr = 0 ∨ ∃ w, s.Bnew = maskVec m.A w)
          (fun s s' hs hstep => by
            unfold gradStep at hstep
            simp only [] at hstep
            split_ifs at hstep
            · simp at hstep
            · simp only [Except.ok.injEq, Sum.inl.injEq] at hstep; subst hstep; exact Or.inr ⟨rfl, rfl⟩
            · simp only [Except.ok.injEq, Sum.inl.injEq] at hstep; subst hstep; exact Or.inl ⟨_, rfl⟩
            · simp at hstep)
          (fun s v hs hstep => by
            unfold gradStep at hstep
            simp only [] at hstep
            split_ifs at hstep with h1 h2 h3
            · simp only [Except.ok.injEq, Sum.inr.injEq] at hstep
              subst hstep
              exact Or.inl h3
            · simp at hstep
            · simp at hstep
            · simp only [Except.ok.injEq, Sum.inr.injEq] at hstep
              subst hstep
              rcases hs with hs | ⟨h4, h5⟩
              · exact Or.inr hs
              · exfalso
                obtain ⟨k, hk⟩ := hB
                apply h2
                refine ⟨k, ?_⟩
                rw [h4, h5]
                simpa using hk)
          (Or.inr ⟨rfl, rfl⟩) hr
        rcases this with h0 | ⟨w, hw⟩
        · rw [h0] at hfin
          exact absurd hfin.2 (lt_irrefl _)
        · rw [hw]
          exact unflattenB_maskVec _ _
      · exact solveForBAdaptive_respects h

theorem solveForBCvx_respects {num : NumLib p e} {d : Data p e} {m : LModel p l e} {B : Matrix (Fin p) (Fin p) ℝ}
    (h : solveForBCvx num d m = .ok B) : Respects m.A B := by
  unfold solveForBCvx at h
  split at h
  · simp at h
  · split at h
    · simp at h
    · split_ifs at h
      simp only [Except.ok.injEq] at h
      subst h
      intro i j hij
      rw [Matrix.of_apply, if_pos hij]

/-! ## Invariants of gradient descent -/

section GD

variable {ι : Type} {nArr : Nat} {blk : ι → Nat} {lossFun : (ι → ℝ) → Except Err Flt} {gradFun : (ι → ℝ) → Except Err (ι → ℝ)}
  {threshold learningRate : ℝ} {bounds : Option (List (EReal × EReal))} {kappaZero : ℝ}

theorem gdStep_inr_point {s : GDState ι} {r : (ι → ℝ) × Flt}
    (h : gdStep nArr blk lossFun gradFun threshold learningRate bounds kappaZero s = .ok (.inr r)) :
    r.1 = s.X ∨ ∃ g, s.gradients gradFun = .ok g ∧ r.1 = fun i => s.X i - s.kappa * learningRate * g i := by
  unfold gdStep at h
  cases hg : s.gradients gradFun with
  | error err => rw [hg] at h; simp at h
  | ok g =>
    rw [hg] at h
    simp only [] at h
    cases hb : checkBounds nArr blk (fun i => s.X i - s.kappa * learningRate * g i) bounds with
    | error err => rw [hb] at h; simp at h
    | ok b =>
      rw [hb] at h
      cases b with
      | false => simp at h
      | true =>
        simp only [] at h
        cases hl : lossFun (fun i => s.X i - s.kappa * learningRate * g i) with
        | error err => rw [hl] at h; simp at h
        | ok newLoss =>
          rw [hl] at h
          simp only [] at h
          split_ifs at h with h1 h2 h3
          · simp only [Except.ok.injEq, Sum.inr.injEq] at h
            subst h
            exact Or.inr ⟨g, rfl, rfl⟩
          · simp at h
          · simp only [Except.ok.injEq, Sum.inr.injEq] at h
            exact Or.inl (by rw [← h])
          · simp at h

/-- A property of points that every step in direction of a gradient preserves holds for the result. -/
theorem gd_invariant (P G : (ι → ℝ) → Prop) (hG : ∀ X g, P X → gradFun X = .ok g → G g)
    (hstep : ∀ X g c, P X → G g → P (fun i => X i - c * learningRate * g i)) {Xinit X : ι → ℝ} {L : Flt} (h0 : P Xinit)
    (h : gradientDescent nArr blk lossFun gradFun Xinit threshold learningRate bounds kappaZero = .ok (X, L)) : P X := by
  have hgr : ∀ s : GDState ι, (P s.X ∧ ∀ g, s.grad = some g → G g) → ∀ g, s.gradients gradFun = .ok g → G g := by
    rintro s ⟨h1, h2⟩ g hg
    unfold GDState.gradients at hg
    cases hs : s.grad with
    | none => rw [hs] at hg; exact hG _ _ h1 hg
    | some g' =>
      rw [hs] at hg
      simp only [Except.ok.injEq] at hg
      subst hg
      exact h2 _ hs
  unfold gradientDescent at h
  split at h
  · simp at h
  · simp at h
  · split at h
    · simp at h
    · exact runLoop_ok (fun s => P s.X ∧ ∀ g, s.grad = some g → G g) (fun r => P r.1)
        (fun s s' hs hst => by
          obtain ⟨g, h1, ⟨h2, -⟩ | ⟨nl, -, -, -, -, h2⟩⟩ := gdStep_inl hst
          · subst h2
            refine ⟨hs.1, fun g' hg' => ?_⟩
            simp only [Option.some.injEq] at hg'
            subst hg'
            exact hgr s hs _ h1
          · subst h2
            exact ⟨hstep _ _ _ hs.1 (hgr s hs _ h1), by simp⟩)
        (fun s r hs hst => by
          rcases gdStep_inr_point hst with h1 | ⟨g, h1, h2⟩
          · rw [h1]; exact hs.1
          · rw [h2]; exact hstep _ _ _ hs.1 (hgr s hs _ h1))
        ⟨h0, by simp⟩ h

end GD

/-! ## `_solve_for_rest` -/

theorem solveForRest_inBounds {it : SetIter p} {d : Data p e} {I : Finset (Fin p)} {psiMax : Option ℝ} {psiFixed : Bool}
    {thr lr : ℝ} {m : LModel p l e} {om : Matrix (Fin e) (Fin p) ℝ} {ps : Matrix (Fin e) (Fin l) ℝ}
    (h : solveForRest it d I psiMax psiFixed thr lr m = .ok (om, ps)) :
    (∀ k j, 0 < om k j) ∧ (∀ k j, 0 < ps k j) ∧ ∀ x, psiMax = some x → ∀ k j, ps k j < x := by
  unfold solveForRest at h
  split at h
  · simp at h
  · rename_i X L hgd
    simp only [Except.ok.injEq, Prod.mk.injEq] at h
    obtain ⟨rfl, rfl⟩ := h
    obtain ⟨hb, -⟩ := C50_returns _ _ _ hgd
    have hb := hb _ rfl
    refine ⟨?_, ?_, ?_⟩
    · intro k j
      have : (0 : EReal) < (X (.inl (k, j)) : EReal) := by
        cases psiMax with
        | none => exact (hb 0 0 ⊤ (by norm_num) rfl (.inl (k, j)) rfl).1
        | some x => exact (hb 0 0 ⊤ (by norm_num) rfl (.inl (k, j)) rfl).1
      exact EReal.coe_pos.1 this
    · intro k j
      have : (0 : EReal) < (X (.inr (k, j)) : EReal) := by
        cases psiMax with
        | none => exact (hb 1 0 ⊤ (by norm_num) rfl (.inr (k, j)) rfl).1
        | some x => exact (hb 1 0 x (by norm_num) rfl (.inr (k, j)) rfl).1
      exact EReal.coe_pos.1 this
    · rintro x rfl k j
      exact EReal.coe_lt_coe_iff.1 (hb 1 0 x (by norm_num) rfl (.inr (k, j)) rfl).2

theorem solveForRest_start {it : SetIter p} {d : Data p e} {I : Finset (Fin p)} {psiMax : ℝ} {psiFixed : Bool}
    {thr lr : ℝ} {m : LModel p l e} (k : Fin e) (j : Fin l) (h1 : psiMax ≤ m.psis k j) :
    solveForRest it d I (some psiMax) psiFixed thr lr m = .error .valueError := by
  unfold solveForRest gradientDescent
  have hb : checkBounds 2 (Sum.elim (fun _ => 0) (fun _ => 1))
      (Sum.elim (fun hj => m.omegas hj.1 hj.2) (fun hk => m.psis hk.1 hk.2) : RestIx p l e → ℝ)
      (some (restBounds (some psiMax))) ≠ .ok true := by
    intro hc
    have := ((checkBounds_true _ _ _ _).1 hc).2 _ rfl 1 0 psiMax (by norm_num) rfl (.inr (k, j)) rfl
    exact absurd (EReal.coe_lt_coe_iff.1 this.2) (not_lt.2 h1)
  cases hc : checkBounds 2 (Sum.elim (fun _ => 0) (fun _ => 1))
      (Sum.elim (fun hj => m.omegas hj.1 hj.2) (fun hk => m.psis hk.1 hk.2) : RestIx p l e → ℝ)
      (some (restBounds (some psiMax))) with
  | error err =>
    have := checkBounds_error _ _ _ _ _ hc
    subst this
    rfl
  | ok b =>
    cases b with
    | false => rfl
    | true => exact absurd hc hb

/-- `x` does not depend on the environment. -/
def Spec.ConstEnv {n : Nat} (X : Matrix (Fin e) (Fin n) ℝ) (j : Fin n) : Prop := ∀ k k', X k j = X k' j

theorem solveForRest_omegas_const {it : SetIter p} {d : Data p e} {I : Finset (Fin p)} {psiMax : Option ℝ} {psiFixed : Bool}
    {thr lr : ℝ} {m : LModel p l e} {om : Matrix (Fin e) (Fin p) ℝ} {ps : Matrix (Fin e) (Fin l) ℝ}
    (h : solveForRest it d I psiMax psiFixed thr lr m = .ok (om, ps)) (j : Fin p) (hj : j ∉ I) (h0 : ConstEnv m.omegas j) :
    ConstEnv om j := by
  unfold solveForRest at h
  split at h
  · simp at h
  · rename_i X L hgd
    simp only [Except.ok.injEq, Prod.mk.injEq] at h
    obtain ⟨rfl, rfl⟩ := h
    have := gd_invariant (fun X : RestIx p l e → ℝ => ∀ k k', X (.inl (k, j)) = X (.inl (k', j)))
      (fun X => ∀ k k', X (.inl (k, j)) = X (.inl (k', j)))
      (fun X g _ hg k k' => by
        unfold restGrad at hg
        split at hg
        · simp at hg
        · split at hg
          · simp at hg
          · simp only [Except.ok.injEq] at hg
            subst hg
            simp [hj])
      (fun X g c hX hg k k' => by simp only [hX k k', hg k k'])
      (fun k k' => h0 k k') hgd
    exact fun k k' => this k k'

theorem solveForRest_psis_const {it : SetIter p} {d : Data p e} {I : Finset (Fin p)} {psiMax : Option ℝ}
    {thr lr : ℝ} {m : LModel p l e} {om : Matrix (Fin e) (Fin p) ℝ} {ps : Matrix (Fin e) (Fin l) ℝ}
    (h : solveForRest it d I psiMax true thr lr m = .ok (om, ps)) (j : Fin l) (h0 : ConstEnv m.psis j) :
    ConstEnv ps j := by
  unfold solveForRest at h
  split at h
  · simp at h
  · rename_i X L hgd
    simp only [Except.ok.injEq, Prod.mk.injEq] at h
    obtain ⟨rfl, rfl⟩ := h
    have := gd_invariant (fun X : RestIx p l e → ℝ => ∀ k k', X (.inr (k, j)) = X (.inr (k', j)))
      (fun X => ∀ k k', X (.inr (k, j)) = X (.inr (k', j)))
      (fun X g _ hg k k' => by
        unfold restGrad at hg
        split at hg
        · simp at hg
        · split at hg
          · simp at hg
          · simp only [Except.ok.injEq] at hg
            subst hg
            simp)
      (fun X g c hX hg k k' => by simp only [hX k k', hg k k'])
      (fun k k' => h0 k k') hgd
    exact fun k k' => this k k'

/-! ## The alternating procedure -/

theorem altBody_ok {it : SetIter p} {sv : Solvers p l e} {i : Nat} {prev cur : LModel p l e}
    (h : altBody it sv i prev = .ok cur) :
    Respects prev.A prev.B ∧ cur.A = prev.A ∧ cur.IB = 1 - prev.Bᵀ ∧
    sv.solveB i { prev with IB := 1 - prev.Bᵀ } = .ok cur.B ∧
    sv.gamma { prev with B := cur.B, IB := 1 - prev.Bᵀ } = .ok cur.gamma ∧
    sv.rest { prev with B := cur.B, gamma := cur.gamma, IB := 1 - prev.Bᵀ } = .ok (cur.omegas, cur.psis) := by
  unfold altBody at h
  cases hc : prev.copy it with
  | error err => rw [hc] at h; simp at h
  | ok c =>
    rw [hc] at h
    obtain ⟨-, h1, rfl⟩ := mkModel_fields hc
    simp only [] at h
    cases hB : sv.solveB i ⟨prev.A, prev.B, prev.gamma, prev.omegas, prev.psis, 1 - prev.Bᵀ⟩ with
    | error err => rw [hB] at h; simp at h
    | ok B =>
      rw [hB] at h
      simp only [] at h
      cases hg : sv.gamma ⟨prev.A, B, prev.gamma, prev.omegas, prev.psis, 1 - prev.Bᵀ⟩ with
      | error err => rw [hg] at h; simp at h
      | ok gamma =>
        rw [hg] at h
        simp only [] at h
        cases hr : sv.rest ⟨prev.A, B, gamma, prev.omegas, prev.psis, 1 - prev.Bᵀ⟩ with
        | error err => rw [hr] at h; simp at h
        | ok r =>
          rw [hr] at h
          simp only [Except.ok.injEq] at h
          subst h
          exact ⟨h1, rfl, rfl, rfl, hg, hr⟩

end Verif
