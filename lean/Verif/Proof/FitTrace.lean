import Verif.Model.FitTrace
import Verif.Props.IntArrays
import Verif.Props.Threshold

/-! # Lemmas about the lines of `score_dag` and `_gradient_descent` -/

namespace Verif

open Spec Matrix

variable {p l e : Nat} {ι : Type}

theorem printedAbove_of {α : Type} {v k : Int} (h : k < v) (x : α) : printedAbove v k x = [x] := by
  unfold printedAbove
  rw [if_pos h]

theorem printedAbove_not {α : Type} {v k : Int} (h : v ≤ k) (x : α) : printedAbove v k x = [] := by
  unfold printedAbove
  rw [if_neg (by omega)]

/-! ### Forgetting the lines -/

section erase

variable {nArr : Nat} {blk : ι → Nat} {lossFun : (ι → ℝ) → Except Err Flt} {gradFun : (ι → ℝ) → Except Err (ι → ℝ)}
  {threshold learningRate : ℝ} {bounds : Option (List (EReal × EReal))} {kappaZero : ℝ}

theorem gdStepV_erase (v : Int) (s : GDStateV ι) :
    gdStep nArr blk lossFun gradFun threshold learningRate bounds kappaZero s.st =
      (gdStepV v nArr blk lossFun gradFun threshold learningRate bounds kappaZero s).map (Sum.map GDStateV.st Prod.fst) := by
  unfold gdStep gdStepV
  simp only
  cases s.st.gradients gradFun with
  | error err => rfl
  | ok g =>
    simp only
    cases checkBounds nArr blk (fun i => s.st.X i - s.st.kappa * learningRate * g i) bounds with
    | error err => rfl
    | ok b =>
      cases b with
      | false => rfl
      | true =>
        simp only
        cases lossFun (fun i => s.st.X i - s.st.kappa * learningRate * g i) with
        | error err => rfl
        | ok newLoss =>
          simp only
          split_ifs <;> rfl

theorem gradientDescentV_erase (v : Int) (Xinit : ι → ℝ) :
    (gradientDescentV v nArr blk lossFun gradFun Xinit threshold learningRate bounds kappaZero).map Prod.fst =
      gradientDescent nArr blk lossFun gradFun Xinit threshold learningRate bounds kappaZero := by
  unfold gradientDescentV gradientDescent
  cases checkBounds nArr blk Xinit bounds with
  | error err => rfl
  | ok b =>
    cases b with
    | false => rfl
    | true =>
      simp only
      cases lossFun Xinit with
      | error err => rfl
      | ok loss =>
        simp only
        exact (runLoop_sim (step := gdStepV v nArr blk lossFun gradFun threshold learningRate bounds kappaZero)
          (step' := gdStep nArr blk lossFun gradFun threshold learningRate bounds kappaZero) GDStateV.st Prod.fst (gdStepV_erase v)
          ⟨⟨Xinit, loss, 1, none⟩, 0, _⟩).symm

end erase

theorem gradStepV_erase (num : NumLib p e) (A : Adj p) (N : Matrix (Fin (p * p)) (Fin (p * p)) ℝ) (Binit : Fin (p * p) → ℝ) (s : GradStateV p e) :
    gradStep num A N Binit s.st = (gradStepV num A N Binit s).map (Sum.map GradStateV.st GradStateV.st) := by
  unfold gradStep gradStepV
  simp only
  split_ifs <;> rfl

theorem solveForBGradV_erase (it : SetIter p) (num : NumLib p e) (d : Data p e) (Binit Badapt : Fin (p * p) → ℝ) (m : LModel p l e) :
    (solveForBGradV it num d Binit Badapt m).map Prod.fst = solveForBGrad it num d Binit Badapt m := by
  unfold solveForBGradV solveForBGrad
  cases m.invNoise with
  | error err => rfl
  | ok Ms =>
    simp only
    have h := runLoop_sim (step := gradStepV num m.A (nMatrix num d Ms) Binit) (step' := gradStep num m.A (nMatrix num d Ms) Binit) GradStateV.st
      GradStateV.st (gradStepV_erase num m.A (nMatrix num d Ms) Binit) ⟨{ B := 0, Bnew := Binit, lr := 5 / 1000 }, 0, []⟩
    simp only at h
    rw [h]
    cases runLoop (gradStepV num m.A (nMatrix num d Ms) Binit) ⟨{ B := 0, Bnew := Binit, lr := 5 / 1000 }, 0, []⟩ with
    | error err => rfl
    | ok s =>
      simp only [Except.map]
      by_cases hc : num.finite (flattenF (unflattenB s.st.Bnew)) ∧ 0 < s.st.lr
      · rw [if_pos hc, if_pos hc]
      · rw [if_neg hc, if_neg hc]
        cases solveForBAdaptive it num d Badapt m <;> rfl

/-- The sub-procedures without their lines. -/
def SolversV.plain (sv : SolversV p l e) : Solvers p l e where
  solveB i m := (sv.solveB i m).map Prod.fst
  gamma m := (sv.gamma m).map Prod.fst
  rest m := (sv.rest m).map Prod.fst

theorem codeSolversV_plain (v : Int) (it : SetIter p) (num : NumLib p e) (cfg : ScoreCfg) (d : Data p e)
    (u w : Nat → Fin (p * p) → ℝ) (I : Finset (Fin p)) :
    (codeSolversV v it num cfg d u w I : SolversV p l e).plain = codeSolvers it num cfg d u w I := by
  unfold SolversV.plain codeSolversV codeSolvers
  congr 1
  · funext i m
    simp only
    cases cfg.solver with
    | grad => exact solveForBGradV_erase it num d _ _ m
    | adaptive =>
      simp only
      cases solveForBAdaptive it num d (u i) m <;> rfl
    | cvx =>
      simp only
      cases solveForBCvx num d m <;> rfl
  · funext m
    simp only
    unfold solveForGammaV solveForGamma
    rw [← gradientDescentV_erase (max 0 (v - 1))]
    split <;> rename_i h <;> rw [h] <;> rfl
  · funext m
    simp only
    unfold solveForRestV solveForRest
    rw [← gradientDescentV_erase (max 0 (v - 1))]
    split <;> rename_i h <;> rw [h] <;> rfl

theorem altBodyV_erase (v : Int) (it : SetIter p) (sv : SolversV p l e) (i : Nat) (prev : LModel p l e) :
    (altBodyV v it sv i prev).map Prod.fst = altBody it sv.plain i prev := by
  unfold altBodyV altBody SolversV.plain
  simp only
  cases prev.copy it with
  | error err => rfl
  | ok cur =>
    simp only
    cases sv.solveB i cur with
    | error err => rfl
    | ok r =>
      obtain ⟨B, ws⟩ := r
      simp only [Except.map]
      cases hg : sv.gamma { cur with B := B } with
      | error err => rfl
      | ok r =>
        obtain ⟨gamma, gl⟩ := r
        simp only [Except.map]
        cases hr : sv.rest { cur with B := B, gamma := gamma } with
        | error err => rfl
        | ok r => rfl

theorem altStepV_erase (v : Int) (it : SetIter p) (sv : SolversV p l e) (cfg : StopCfg) (d : Data p e) (s : AltStateV p l e) :
    altStep it sv.plain cfg d s.st = (altStepV v it sv cfg d s).map (Sum.map AltStateV.st AltStateV.st) := by
  unfold altStep altStepV
  rw [← altBodyV_erase v]
  by_cases h : distGt s.st.diff cfg.thresholdDistB ∧ (s.st.i : Int) < cfg.maxIter ∧ (s.st.flucs : Int) < cfg.maxFluctuations
  · rw [if_neg (not_not.2 h), if_neg (not_not.2 h)]
    cases altBodyV v it sv s.st.i s.st.prev with
    | error err => rfl
    | ok r =>
      obtain ⟨cur, lines⟩ := r
      simp only [Except.map]
      by_cases hp : p = 0
      · rw [if_pos hp, if_pos hp]
      · rw [if_neg hp, if_neg hp]
        cases cur.score (List.ofFn d.covs) (List.ofFn d.nObs) with
        | error err => rfl
        | ok score => rfl
  · rw [if_pos h, if_pos h]
    rfl

theorem fitDagV_erase_pos {v : Int} (hv : 0 < v) (it : SetIter p) (svd : Matrix (Fin p) (Fin p) ℝ → Matrix (Fin p) (Fin p) ℝ × (Fin p → ℝ))
    (svdU : Matrix (Fin p) (Fin l) ℝ → Matrix (Fin p) (Fin (min p l)) ℝ) (T : Texts)
    (sv : Finset (Fin p) → SolversV p l e) (cfg : StopCfg) (d : Data p e) (A : Adj p) (I : Finset (Fin p)) (init : Option (LModel p l e)) :
    (fitDagV v it svd svdU T sv cfg d A I init).map Prod.fst = fitDagVerbose it svd svdU T (fun I => (sv I).plain) cfg d A I init := by
  unfold fitDagV fitDagVerbose
  by_cases hdag : (! isDag it A) = true
  · rw [if_pos hdag, if_pos hdag]; rfl
  rw [if_neg hdag, if_neg hdag]
  have key : ∀ m : LModel p l e, ((match (if 0 < v then
          match m.str it svdU T with
          | .error err => .error err
          | .ok s => .ok [FitLine.initial s]
        else .ok [] : Except Err (List (FitLine p l e))) with
      | .error err => .error err
      | .ok lines =>
        match m.score (List.ofFn d.covs) (List.ofFn d.nObs) with
        | .error err => .error err
        | .ok score =>
          match runLoop (altStepV v it (sv I) cfg d)
            ⟨{ prev := m, prevScore := score, diff := none, i := 0, flucs := 0, cur := none }, lines⟩ with
          | .error err => .error err
          | .ok s =>
            match s.st.cur with
            | none => .error .unboundLocalError
            | some r => .ok (r, s.lines) : Except Err ((LModel p l e × Flt) × List (FitLine p l e)))).map Prod.fst =
      (match m.str it svdU T with
      | .error err => .error err
      | .ok _ => alternate it (sv I).plain cfg d m) := by
    intro m
    rw [if_pos hv]
    cases m.str it svdU T with
    | error err => rfl
    | ok t =>
      simp only
      unfold alternate
      cases m.score (List.ofFn d.covs) (List.ofFn d.nObs) with
      | error err => rfl
      | ok score =>
        simp only
        have h := runLoop_sim (step := altStepV v it (sv I) cfg d) (step' := altStep it (sv I).plain cfg d) AltStateV.st AltStateV.st
          (altStepV_erase v it (sv I) cfg d)
          ⟨{ prev := m, prevScore := score, diff := none, i := 0, flucs := 0, cur := none }, [FitLine.initial t]⟩
        simp only at h
        rw [h]
        cases runLoop (altStepV v it (sv I) cfg d)
          ⟨{ prev := m, prevScore := score, diff := none, i := 0, flucs := 0, cur := none }, [FitLine.initial t]⟩ with
        | error err => rfl
        | ok s =>
          simp only [Except.map]
          cases s.st.cur with
          | none => rfl
          | some r => rfl
  cases init with
  | some m =>
    simp only
    by_cases hA : m.A ≠ A
    · rw [if_pos hA]; rfl
    · rw [if_neg hA]
      exact key m
  | none =>
    simp only
    cases (initialModel it svd d A I : Except Err (LModel p l e)) with
    | error err => rfl
    | ok m => exact key m

theorem fitDagV_erase_neg {v : Int} (hv : v ≤ 0) (it : SetIter p) (svd : Matrix (Fin p) (Fin p) ℝ → Matrix (Fin p) (Fin p) ℝ × (Fin p → ℝ))
    (svdU : Matrix (Fin p) (Fin l) ℝ → Matrix (Fin p) (Fin (min p l)) ℝ) (T : Texts)
    (sv : Finset (Fin p) → SolversV p l e) (cfg : StopCfg) (d : Data p e) (A : Adj p) (I : Finset (Fin p)) (init : Option (LModel p l e)) :
    (fitDagV v it svd svdU T sv cfg d A I init).map Prod.fst = fitDag it svd (fun I => (sv I).plain) cfg d A I init := by
  unfold fitDagV fitDag
  by_cases hdag : (! isDag it A) = true
  · rw [if_pos hdag, if_pos hdag]; rfl
  rw [if_neg hdag, if_neg hdag]
  have key : ∀ m : LModel p l e, ((match (if 0 < v then
          match m.str it svdU T with
          | .error err => .error err
          | .ok s => .ok [FitLine.initial s]
        else .ok [] : Except Err (List (FitLine p l e))) with
      | .error err => .error err
      | .ok lines =>
        match m.score (List.ofFn d.covs) (List.ofFn d.nObs) with
        | .error err => .error err
        | .ok score =>
          match runLoop (altStepV v it (sv I) cfg d)
            ⟨{ prev := m, prevScore := score, diff := none, i := 0, flucs := 0, cur := none }, lines⟩ with
          | .error err => .error err
          | .ok s =>
            match s.st.cur with
            | none => .error .unboundLocalError
            | some r => .ok (r, s.lines) : Except Err ((LModel p l e × Flt) × List (FitLine p l e)))).map Prod.fst =
      alternate it (sv I).plain cfg d m := by
    intro m
    rw [if_neg (by omega)]
    simp only
    unfold alternate
    cases m.score (List.ofFn d.covs) (List.ofFn d.nObs) with
    | error err => rfl
    | ok score =>
      simp only
      have h := runLoop_sim (step := altStepV v it (sv I) cfg d) (step' := altStep it (sv I).plain cfg d) AltStateV.st AltStateV.st
        (altStepV_erase v it (sv I) cfg d)
        ⟨{ prev := m, prevScore := score, diff := none, i := 0, flucs := 0, cur := none }, []⟩
      simp only at h
      rw [h]
      cases runLoop (altStepV v it (sv I) cfg d)
        ⟨{ prev := m, prevScore := score, diff := none, i := 0, flucs := 0, cur := none }, []⟩ with
      | error err => rfl
      | ok s =>
        simp only [Except.map]
        cases s.st.cur with
        | none => rfl
        | some r => rfl
  cases init with
  | some m =>
    simp only
    by_cases hA : m.A ≠ A
    · rw [if_pos hA, if_pos hA]; rfl
    · rw [if_neg hA, if_neg hA]
      exact key m
  | none =>
    simp only
    cases (initialModel it svd d A I : Except Err (LModel p l e)) with
    | error err => rfl
    | ok m => exact key m

end Verif
