import Verif.Model.IntArrays
import Verif.Props.Progress
import Verif.Props.Truth

/-!
# C105: element types of the initial model
-/

namespace Verif

open Spec Matrix

variable {p l e : Nat} {ι : Type}

section loop

variable {σ ρ σ' ρ' : Type}

/-- Two loops whose steps correspond. -/
theorem iterLoop_sim {step : σ → Except Err (σ ⊕ ρ)} {step' : σ' → Except Err (σ' ⊕ ρ')} (f : σ → σ') (g : ρ → ρ')
    (h : ∀ s, step' (f s) = (step s).map (Sum.map f g)) (n : Nat) :
    ∀ s, iterLoop step' n (f s) = (iterLoop step n s).map (Except.map g) := by
  induction n with
  | zero => intro s; rfl
  | succ n ih =>
    intro s
    rw [iterLoop, iterLoop, h s]
    cases hs : step s with
    | error err => rfl
    | ok v =>
      cases v with
      | inr r => rfl
      | inl s' => exact ih s'

theorem runLoop_sim {step : σ → Except Err (σ ⊕ ρ)} {step' : σ' → Except Err (σ' ⊕ ρ')} (f : σ → σ') (g : ρ → ρ')
    (h : ∀ s, step' (f s) = (step s).map (Sum.map f g)) (s : σ) :
    runLoop step' (f s) = (runLoop step s).map g := by
  by_cases hst : Stops step s
  · obtain ⟨n, r, hn⟩ := hst
    have h1 : iterLoop step' n (f s) = some (r.map g) := by rw [iterLoop_sim f g h, hn]; rfl
    rw [runLoop_of_iter h1, runLoop_of_iter hn]
  · have h1 : ¬ Stops step' (f s) := by
      rintro ⟨n, r, hn⟩
      rw [iterLoop_sim f g h] at hn
      cases hi : iterLoop step n s with
      | none => rw [hi] at hn; simp at hn
      | some r' => exact hst ⟨n, r', hi⟩
    rw [runLoop_of_not_stops h1, runLoop_of_not_stops hst]
    rfl

end loop

section float

/-- The element types of float arrays. -/
abbrev allFloat : Nat → DType := fun _ => .float

theorem gradientDescentT_float (nArr : Nat) (blk : ι → Nat) (lossFun : (ι → ℝ) → Except Err Flt)
    (gradFun : (ι → ℝ) → Except Err (ι → ℝ)) (gradFunT : (Nat → DType) → (ι → ℝ) → Except Err (ι → ℝ))
    (hg : gradFunT allFloat = gradFun) (Xinit : ι → ℝ) (threshold learningRate : ℝ)
    (bounds : Option (List (EReal × EReal))) (kappaZero : ℝ) :
    gradientDescentT nArr blk lossFun gradFunT Xinit allFloat threshold learningRate bounds kappaZero =
      (gradientDescent nArr blk lossFun gradFun Xinit threshold learningRate bounds kappaZero).map (fun r => (r.1, r.2, allFloat)) := by
  unfold gradientDescentT gradientDescent
  cases checkBounds nArr blk Xinit bounds with
  | error err => rfl
  | ok b =>
    cases b with
    | false => rfl
    | true =>
      simp only []
      cases lossFun Xinit with
      | error err => rfl
      | ok loss =>
        simp only []
        refine runLoop_sim (step := gdStep nArr blk lossFun gradFun threshold learningRate bounds kappaZero)
          (step' := gdStepT nArr blk lossFun gradFunT threshold learningRate bounds kappaZero)
          (fun s => ⟨s, allFloat⟩) (fun r => (r.1, r.2, allFloat)) ?_ ⟨Xinit, loss, 1, none⟩
        intro s
        unfold gdStepT gdStep
        simp only [hg]
        cases s.gradients gradFun with
        | error err => rfl
        | ok g =>
          simp only []
          cases checkBounds nArr blk (fun i => s.X i - s.kappa * learningRate * g i) bounds with
          | error err => rfl
          | ok b =>
            cases b with
            | false => rfl
            | true =>
              simp only []
              cases lossFun (fun i => s.X i - s.kappa * learningRate * g i) with
              | error err => rfl
              | ok newLoss =>
                simp only []
                split_ifs <;> rfl

theorem solveForGammaT_float (it : SetIter p) (d : Data p e) (thr lr : ℝ) (m : LModel p l e) :
    solveForGammaT it d thr lr (.ofFloat m) = (solveForGamma it d thr lr m).map (fun g => (g, .float)) := by
  unfold solveForGammaT solveForGamma
  have h := gradientDescentT_float 1 (fun _ => 0) (gammaLoss it d m) (gammaGrad it d m) (gammaGradT it d m)
    (by funext X; unfold gammaGradT; cases gammaGrad it d m X <;> rfl) (fun ak => m.gamma ak.1 ak.2) thr lr none (1 / 10 ^ 50)
  simp only [TModel.ofFloat]
  rw [h]
  cases gradientDescent 1 (fun _ => 0) (gammaLoss it d m) (gammaGrad it d m) (fun ak => m.gamma ak.1 ak.2) thr lr none (1 / 10 ^ 50) <;> rfl

theorem solveForRestT_float (it : SetIter p) (d : Data p e) (I : Finset (Fin p)) (psiMax : Option ℝ) (psiFixed : Bool) (thr lr : ℝ)
    (m : LModel p l e) :
    solveForRestT it d I psiMax psiFixed thr lr (.ofFloat m) =
      (solveForRest it d I psiMax psiFixed thr lr m).map (fun r => ((r.1, .float), r.2, .float)) := by
  unfold solveForRestT solveForRest
  have h := gradientDescentT_float 2 (Sum.elim (fun _ => 0) (fun _ => 1)) (restLoss it d m) (restGrad it d I psiFixed m)
    (restGradT it d I psiFixed m)
    (by
      funext X
      unfold restGradT restGrad
      cases mkModel it m.A m.B m.gamma (toOmegas X) (toPsis X) with
      | error err => rfl
      | ok m' =>
        simp only []
        cases m'.invNoise <;> rfl) (Sum.elim (fun hj => m.omegas hj.1 hj.2) (fun hk => m.psis hk.1 hk.2)) thr lr (some (restBounds psiMax))
    (1 / 10 ^ 50)
  have hdt : (fun n : Nat => if n = 0 then (TModel.ofFloat m).dOmegas else (TModel.ofFloat m).dPsis) = allFloat := by
    funext n; simp [TModel.ofFloat]
  rw [hdt]
  simp only [TModel.ofFloat]
  rw [h]
  cases gradientDescent 2 (Sum.elim (fun _ => 0) (fun _ => 1)) (restLoss it d m) (restGrad it d I psiFixed m)
    (Sum.elim (fun hj => m.omegas hj.1 hj.2) (fun hk => m.psis hk.1 hk.2)) thr lr (some (restBounds psiMax)) (1 / 10 ^ 50) <;> rfl

theorem altBodyT_float (it : SetIter p) (num : NumLib p e) (cfg : ScoreCfg) (d : Data p e) (u v : Nat → Fin (p * p) → ℝ)
    (I : Finset (Fin p)) (i : Nat) (m : LModel p l e) :
    altBodyT it (codeSolversT it num cfg d u v I) i (.ofFloat m) =
      (altBody it (codeSolvers it num cfg d u v I) i m).map TModel.ofFloat := by
  unfold altBodyT altBody
  simp only [TModel.ofFloat]
  cases m.copy it with
  | error err => rfl
  | ok cur =>
    simp only [codeSolversT]
    cases hB : (codeSolvers it num cfg d u v I).solveB i cur with
    | error err => rfl
    | ok B =>
      simp only []
      have h1 := solveForGammaT_float it d cfg.thresholdScore cfg.learningRate { cur with B := B }
      simp only [TModel.ofFloat] at h1
      rw [h1]
      show _ = Except.map _ (match solveForGamma it d cfg.thresholdScore cfg.learningRate { cur with B := B } with
        | .error err => .error err
        | .ok gamma => match solveForRest it d I cfg.psiMax cfg.psiFixed cfg.thresholdScore cfg.learningRate { cur with B := B, gamma := gamma } with
          | .error err => .error err
          | .ok (omegas, psis) => .ok { cur with B := B, gamma := gamma, omegas := omegas, psis := psis })
      cases solveForGamma it d cfg.thresholdScore cfg.learningRate { cur with B := B } with
      | error err => rfl
      | ok gamma =>
        simp only [Except.map]
        have h2 := solveForRestT_float it d I cfg.psiMax cfg.psiFixed cfg.thresholdScore cfg.learningRate { cur with B := B, gamma := gamma }
        simp only [TModel.ofFloat] at h2
        rw [h2]
        cases solveForRest it d I cfg.psiMax cfg.psiFixed cfg.thresholdScore cfg.learningRate { cur with B := B, gamma := gamma } with
        | error err => rfl
        | ok r => rfl

theorem alternateT_float (it : SetIter p) (num : NumLib p e) (cfg : ScoreCfg) (d : Data p e) (u v : Nat → Fin (p * p) → ℝ)
    (I : Finset (Fin p)) (m : LModel p l e) :
    alternateT it (codeSolversT it num cfg d u v I) cfg.stop d (.ofFloat m) =
      (alternate it (codeSolvers it num cfg d u v I) cfg.stop d m).map (fun r => (TModel.ofFloat r.1, r.2)) := by
  unfold alternateT alternate
  simp only [TModel.ofFloat]
  cases m.score (List.ofFn d.covs) (List.ofFn d.nObs) with
  | error err => rfl
  | ok score =>
    simp only []
    have h := runLoop_sim (step := altStep it (codeSolvers it num cfg d u v I) cfg.stop d)
      (step' := altStepT it (codeSolversT it num cfg d u v I) cfg.stop d)
      (fun s => ⟨.ofFloat s.prev, s.prevScore, s.diff, s.i, s.flucs, s.cur.map (fun r => (TModel.ofFloat r.1, r.2))⟩)
      (fun s => ⟨.ofFloat s.prev, s.prevScore, s.diff, s.i, s.flucs, s.cur.map (fun r => (TModel.ofFloat r.1, r.2))⟩) ?_
      ⟨m, score, none, 0, 0, none⟩
    · simp only [TModel.ofFloat, Option.map_none] at h
      rw [h]
      cases runLoop (altStep it (codeSolvers it num cfg d u v I) cfg.stop d) ⟨m, score, none, 0, 0, none⟩ with
      | error err => rfl
      | ok s =>
        simp only [Except.map]
        cases s.cur <;> rfl
    · intro s
      unfold altStepT altStep
      simp only []
      split_ifs with h1 h2
      · have := altBodyT_float it num cfg d u v I s.i s.prev
        rw [this]
        cases altBody it (codeSolvers it num cfg d u v I) s.i s.prev <;> rfl
      · have := altBodyT_float it num cfg d u v I s.i s.prev
        rw [this]
        cases altBody it (codeSolvers it num cfg d u v I) s.i s.prev with
        | error err => rfl
        | ok cur =>
          simp only [Except.map, TModel.ofFloat]
          cases cur.score (List.ofFn d.covs) (List.ofFn d.nObs) <;> rfl
      · rfl

/-- C105: without `init_model`, and with one whose arrays hold floats, element types play no role: the result is the one of the model in
which numbers are real numbers, and its arrays hold floats. -/
theorem C105_float (it : SetIter p) (svd : Matrix (Fin p) (Fin p) ℝ → Matrix (Fin p) (Fin p) ℝ × (Fin p → ℝ)) (num : NumLib p e)
    (cfg : ScoreCfg) (d : Data p e) (u v : Nat → Fin (p * p) → ℝ) (A : Adj p) (I : Finset (Fin p)) (init : Option (LModel p l e)) :
    fitDagT it svd (codeSolversT it num cfg d u v) cfg.stop d A I (init.map .ofFloat) =
      (fitDag it svd (codeSolvers it num cfg d u v) cfg.stop d A I init).map (fun r => (⟨r.1, .float, .float, .float⟩, r.2)) := by
  unfold fitDagT fitDag
  split_ifs with h
  · rfl
  · cases init with
    | some m =>
      simp only [Option.map_some, TModel.ofFloat]
      split_ifs with h1
      · rfl
      · exact alternateT_float it num cfg d u v I m
    | none =>
      simp only [Option.map_none]
      cases initialModel it svd d A I with
      | error err => rfl
      | ok m => exact alternateT_float it num cfg d u v I m

end float

section frozen

theorem store_small (x : ℝ) (h : |x| < 1) : DType.int.store x = 0 := by
  rw [abs_lt] at h
  unfold DType.store
  simp only []
  split_ifs with h0
  · have : ⌊x⌋ = 0 := Int.floor_eq_iff.2 ⟨by simpa using h0, by simpa using h.2⟩
    rw [this]; simp
  · push Not at h0
    have : ⌈x⌉ = 0 := Int.ceil_eq_iff.2 ⟨by simpa using h.1, by simpa using h0.le⟩
    rw [this]; simp

theorem store_zero (t : DType) : t.store 0 = 0 := by
  cases t
  · exact store_small 0 (by simp)
  · rfl

theorem Flt.lt_irrefl (a : Flt) : ¬ a.lt a := by
  cases a with
  | none => exact id
  | some x => exact _root_.lt_irrefl x

/-- C105: if all stored derivatives at the initial point are zero, `_gradient_descent` returns this point, and its arrays keep their element
types. -/
theorem C105_descent_stays {nArr : Nat} {blk : ι → Nat} {lossFun : (ι → ℝ) → Except Err Flt}
    {gradFun : (Nat → DType) → (ι → ℝ) → Except Err (ι → ℝ)} {Xinit : ι → ℝ} {dts : Nat → DType} {threshold learningRate : ℝ}
    {bounds : Option (List (EReal × EReal))} {kappaZero : ℝ} (hz : 0 < kappaZero) (L : Flt)
    (hb : checkBounds nArr blk Xinit bounds = .ok true) (hl : lossFun Xinit = .ok L) (hg : gradFun dts Xinit = .ok (fun _ => 0)) :
    gradientDescentT nArr blk lossFun gradFun Xinit dts threshold learningRate bounds kappaZero = .ok (Xinit, L, dts) := by
  unfold gradientDescentT
  rw [hb]
  simp only [hl]
  have hstep : ∀ (kappa : ℝ) (grad : Option (ι → ℝ)), (⟨Xinit, L, kappa, grad⟩ : GDState ι).gradients (gradFun dts) = .ok (fun _ => 0) →
      gdStepT nArr blk lossFun gradFun threshold learningRate bounds kappaZero ⟨⟨Xinit, L, kappa, grad⟩, dts⟩ =
        if kappa * learningRate ≤ kappaZero then .ok (.inr (Xinit, L, dts))
        else .ok (.inl ⟨⟨Xinit, L, kappa / 2, some (fun _ => 0)⟩, dts⟩) := by
    intro kappa grad hgr
    unfold gdStepT
    simp only [hgr, mul_zero, sub_zero]
    have e1 : (fun i => Xinit i) = Xinit := rfl
    rw [e1, hb]
    simp only [hl]
    rw [if_neg (fun h => Flt.lt_irrefl L h.1), if_neg (Flt.lt_irrefl L)]
  have key : ∀ (n : Nat) (kappa : ℝ) (grad : Option (ι → ℝ)),
      (⟨Xinit, L, kappa, grad⟩ : GDState ι).gradients (gradFun dts) = .ok (fun _ => 0) → (1 / 2 : ℝ) ^ n * (kappa * learningRate) ≤ kappaZero →
      iterLoop (gdStepT nArr blk lossFun gradFun threshold learningRate bounds kappaZero) (n + 1) ⟨⟨Xinit, L, kappa, grad⟩, dts⟩ =
        some (.ok (Xinit, L, dts)) := by
    intro n
    induction n with
    | zero =>
      intro kappa grad h4 h5
      rw [pow_zero, one_mul] at h5
      rw [iterLoop, hstep kappa grad h4, if_pos h5]
    | succ n ih =>
      intro kappa grad h4 h5
      rw [iterLoop, hstep kappa grad h4]
      split_ifs with h6
      · rfl
      · refine ih (kappa / 2) _ rfl ?_
        calc (1 / 2 : ℝ) ^ n * (kappa / 2 * learningRate) = (1 / 2 : ℝ) ^ (n + 1) * (kappa * learningRate) := by ring
          _ ≤ kappaZero := h5
  obtain ⟨n, hn⟩ : ∃ n : Nat, (1 / 2 : ℝ) ^ n * (1 * learningRate) ≤ kappaZero := by
    by_cases hlr : learningRate ≤ 0
    · refine ⟨0, ?_⟩
      rw [pow_zero, one_mul, one_mul]
      exact hlr.trans hz.le
    · push Not at hlr
      obtain ⟨n, hn⟩ := exists_pow_lt_of_lt_one (div_pos hz hlr) (by norm_num : (1 / 2 : ℝ) < 1)
      refine ⟨n, ?_⟩
      rw [one_mul]
      rw [lt_div_iff₀ hlr] at hn
      exact hn.le
  exact runLoop_of_iter (key n 1 none hg hn)

/-- All partial derivatives of the documented score with respect to `gamma`, the noise variances and the variances of the latents are less
than one in absolute value. -/
def Spec.FlatAt (d : Data p e) (B : Matrix (Fin p) (Fin p) ℝ) (gamma : Matrix (Fin l) (Fin p) ℝ) (omegas : Matrix (Fin e) (Fin p) ℝ)
    (psis : Matrix (Fin e) (Fin l) ℝ) : Prop :=
  (∀ a k (C : ℝ → Fin e → Matrix (Fin p) (Fin p) ℝ),
    (∀ t h, Entails B (noiseCov (fun b i => gamma b i + if b = a ∧ i = k then t else 0) (psis h) (omegas h)) (C t h)) →
    |deriv (fun t => weightedNLL d.nObs (C t) d.covs) 0| < 1) ∧
  (∀ h j (C : ℝ → Fin e → Matrix (Fin p) (Fin p) ℝ),
    (∀ t k, Entails B (noiseCov gamma (psis k) (fun i => omegas k i + if k = h ∧ i = j then t else 0)) (C t k)) →
    |deriv (fun t => weightedNLL d.nObs (C t) d.covs) 0| < 1) ∧
  (∀ h j (C : ℝ → Fin e → Matrix (Fin p) (Fin p) ℝ),
    (∀ t k, Entails B (noiseCov gamma (fun i => psis k i + if k = h ∧ i = j then t else 0) (omegas k)) (C t k)) →
    |deriv (fun t => weightedNLL d.nObs (C t) d.covs) 0| < 1)

/-- C105: what `_gradient_descent` returns is either the initial point, with the element types of the given arrays, or a point with a
smaller loss, and then all arrays hold floats: one successful step ends the truncation. -/
theorem C105_moves {nArr : Nat} {blk : ι → Nat} {lossFun : (ι → ℝ) → Except Err Flt}
    {gradFun : (Nat → DType) → (ι → ℝ) → Except Err (ι → ℝ)} {Xinit : ι → ℝ} {dts : Nat → DType} {threshold learningRate : ℝ}
    {bounds : Option (List (EReal × EReal))} {kappaZero : ℝ} {X : ι → ℝ} {loss : Flt} {dts' : Nat → DType}
    (h : gradientDescentT nArr blk lossFun gradFun Xinit dts threshold learningRate bounds kappaZero = .ok (X, loss, dts')) :
    lossFun X = .ok loss ∧ ∃ loss0, lossFun Xinit = .ok loss0 ∧
      ((X = Xinit ∧ dts' = dts) ∨ (loss.lt loss0 ∧ ∀ k, dts' k = .float)) := by
  unfold gradientDescentT at h
  split at h
  · simp at h
  · simp at h
  · split at h
    · simp at h
    · rename_i loss0 h0
      have htrans : ∀ a b c : Flt, a.lt b → b.lt c → a.lt c := by
        intro a b c hab hbc
        cases a <;> cases b <;> cases c <;> simp only [Flt.lt] at hab hbc ⊢
        exact hab.trans hbc
      refine runLoop_ok (P := fun s => lossFun s.st.X = .ok s.st.loss ∧ ((s.st.X = Xinit ∧ s.st.loss = loss0 ∧ s.dts = dts) ∨
          (s.st.loss.lt loss0 ∧ ∀ k, s.dts k = .float)))
        (Q := fun r => lossFun r.1 = .ok r.2.1 ∧ ∃ l0, lossFun Xinit = .ok l0 ∧
          ((r.1 = Xinit ∧ r.2.2 = dts) ∨ (r.2.1.lt l0 ∧ ∀ k, r.2.2 k = .float))) ?_ ?_ ?_ h
      · intro s s' hs hst
        obtain ⟨hs1, hs2⟩ := hs
        unfold gdStepT at hst
        split at hst
        · simp at hst
        · simp only [] at hst
          split at hst
          · simp at hst
          · cases hst
            exact ⟨hs1, hs2⟩
          · split at hst
            · simp at hst
            · rename_i newLoss hl
              split_ifs at hst with c1 c2 c3
              · simp at hst
              · cases hst
                refine ⟨hl, Or.inr ⟨?_, fun k => rfl⟩⟩
                rcases hs2 with ⟨-, e2, -⟩ | ⟨e1, -⟩
                · rw [← e2]; exact c2
                · exact htrans _ _ _ c2 e1
              · simp at hst
              · cases hst
                exact ⟨hs1, hs2⟩
      · intro s r hs hst
        obtain ⟨hs1, hs2⟩ := hs
        unfold gdStepT at hst
        split at hst
        · simp at hst
        · simp only [] at hst
          split at hst
          · simp at hst
          · simp at hst
          · split at hst
            · simp at hst
            · rename_i newLoss hl
              split_ifs at hst with c1 c2 c3
              · cases hst
                refine ⟨hl, loss0, h0, Or.inr ⟨?_, fun k => rfl⟩⟩
                rcases hs2 with ⟨-, e2, -⟩ | ⟨e1, -⟩
                · rw [← e2]; exact c1.1
                · exact htrans _ _ _ c1.1 e1
              · simp at hst
              · cases hst
                refine ⟨hs1, loss0, h0, ?_⟩
                rcases hs2 with ⟨e1, -, e3⟩ | hs2
                · exact Or.inl ⟨e1, e3⟩
                · exact Or.inr hs2
              · simp at hst
      · exact ⟨h0, Or.inl ⟨rfl, rfl, rfl⟩⟩

/-- Concrete case: the loss is the only coordinate; from the integer 0 one step leads to -1, now a float. -/
example : ∃ dts', gradientDescentT (ι := Fin 1) 1 (fun _ => 0) (fun X => .ok (some (X 0))) (fun _ _ => .ok (fun _ => 1)) (fun _ => 0)
    (fun _ => .int) 2 1 none 0 = .ok (fun _ => -1, some (-1), dts') ∧ dts' 0 = .float := by
  have h : gradientDescentT (ι := Fin 1) 1 (fun _ => 0) (fun X => .ok (some (X 0))) (fun _ _ => .ok (fun _ => 1)) (fun _ => 0)
      (fun _ => .int) 2 1 none 0 = .ok (fun _ => -1, some (-1), fun _ => .float) := by
    unfold gradientDescentT
    simp only [checkBounds]
    refine runLoop_of_iter (n := 1) ?_
    simp only [iterLoop, gdStepT, GDState.gradients, checkBounds, Flt.lt, Flt.absSubLt]
    norm_num
  obtain ⟨-, l0, -, h3⟩ := C105_moves h
  rcases h3 with ⟨h3, -⟩ | ⟨-, h3⟩
  · exact absurd (congrFun h3 0) (by norm_num)
  · exact ⟨_, h, h3 0⟩

theorem store_whole (x : ℝ) : ∃ n : ℤ, DType.int.store x = n := by
  unfold DType.store
  simp only []
  split
  · exact ⟨_, rfl⟩
  · exact ⟨_, rfl⟩

/-- C105: as long as the arrays of `init_model` hold integers, the gradient of `_solve_for_gamma` consists of integers. -/
theorem C105_gamma_whole {it : SetIter p} {d : Data p e} {m : LModel p l e} {X g : Fin l × Fin p → ℝ}
    (h : gammaGradT it d m (fun _ => .int) X = .ok g) (q : Fin l × Fin p) : ∃ n : ℤ, g q = n := by
  unfold gammaGradT at h
  split at h
  · simp at h
  · cases h
    exact store_whole _

/-- C105: as long as the arrays of `init_model` hold integers, the gradient of `_solve_for_rest` consists of integers, also where the
derivatives are replaced by their mean over the environments: for variables that are not targets, and for the latents if `psi_fixed`. -/
theorem C105_rest_whole {it : SetIter p} {d : Data p e} {I : Finset (Fin p)} {psiFixed : Bool} {m : LModel p l e} {X g : RestIx p l e → ℝ}
    (h : restGradT it d I psiFixed m (fun _ => .int) X = .ok g) (q : RestIx p l e) : ∃ n : ℤ, g q = n := by
  unfold restGradT at h
  split at h
  · simp at h
  · split at h
    · simp at h
    · cases h
      cases q with
      | inl hj =>
        show ∃ n : ℤ, (if hj.2 ∈ I then _ else _) = (n : ℝ)
        split
        · exact store_whole _
        · exact store_whole _
      | inr hk =>
        show ∃ n : ℤ, (if psiFixed = true then _ else _) = (n : ℝ)
        split
        · exact store_whole _
        · exact store_whole _

/-- C105: integer effects of the latents at which all derivatives are less than one are returned unchanged by `_solve_for_gamma`. -/
theorem C105_gamma_stays (it : SetIter p) (d : Data p e) (hn : d.total ≠ 0) (thr lr : ℝ) (m : LModel p l e) (dO dP : DType)
    (hA : Nonneg m.A) (hac : Acyclic m.A) (hB : Respects m.A m.B) (ho : ∀ k i, 0 < m.omegas k i) (hp : ∀ k i, 0 ≤ m.psis k i)
    (hflat : FlatAt d m.B m.gamma m.omegas m.psis) : solveForGammaT it d thr lr ⟨m, .int, dO, dP⟩ = .ok (m.gamma, .int) := by
  have hdet := det_one_sub_transpose hac hB
  obtain ⟨g, hg, hd⟩ := C76_gamma it d m hA hac hB ho hp (fun ak => m.gamma ak.1 ak.2)
  choose C0 hC0 using fun h : Fin e => entails_exists hdet (noiseCov (fun b i => m.gamma b i) (m.psis h) (m.omegas h))
  have hl := gammaLoss_eq it d m hA hac hB ho hp hn (fun ak => m.gamma ak.1 ak.2) C0 hC0
  have hz : ∀ q, DType.int.store (g q) = 0 := by
    rintro ⟨a, k⟩
    choose C hC using fun (t : ℝ) (h : Fin e) =>
      entails_exists hdet (noiseCov (fun b i => m.gamma b i + if b = a ∧ i = k then t else 0) (m.psis h) (m.omegas h))
    have h1 := (hd a k C hC).deriv
    have h2 := hflat.1 a k C hC
    rw [h1] at h2
    exact store_small _ h2
  unfold solveForGammaT
  simp only []
  rw [C105_descent_stays (by positivity) _ rfl hl (by
    unfold gammaGradT
    rw [hg]
    simp only [hz])]
  rfl

theorem checkBounds_of (psiMax : Option ℝ) (X : RestIx p l e → ℝ) (h1 : ∀ k j, 0 < X (.inl (k, j))) (h2 : ∀ k j, 0 < X (.inr (k, j)))
    (h3 : ∀ x, psiMax = some x → 0 ≤ x ∧ ∀ k j, X (.inr (k, j)) < x) :
    checkBounds 2 (Sum.elim (fun _ => 0) (fun _ => 1)) X (some (restBounds psiMax)) = .ok true := by
  rw [checkBounds_true]
  refine ⟨?_, (restBounds_iff psiMax X).2 ⟨h1, h2, fun x hx => (h3 x hx).2⟩⟩
  exact restBounds_ordered psiMax (fun x hx => (h3 x hx).1)

/-- C105: integer variances at which all derivatives are less than one are returned unchanged by `_solve_for_rest`, for all targets. -/
theorem C105_rest_stays (it : SetIter p) (d : Data p e) (hn : d.total ≠ 0) (I : Finset (Fin p)) (psiMax : Option ℝ) (psiFixed : Bool)
    (thr lr : ℝ) (m : LModel p l e) (dG : DType)
    (hA : Nonneg m.A) (hac : Acyclic m.A) (hB : Respects m.A m.B) (ho : ∀ k i, 0 < m.omegas k i) (hp : ∀ k i, 0 < m.psis k i)
    (hmax : ∀ x, psiMax = some x → 0 ≤ x ∧ ∀ k j, m.psis k j < x) (hflat : FlatAt d m.B m.gamma m.omegas m.psis) :
    solveForRestT it d I psiMax psiFixed thr lr ⟨m, dG, .int, .int⟩ = .ok ((m.omegas, .int), m.psis, .int) := by
  have hdet := det_one_sub_transpose hac hB
  obtain ⟨X, hX⟩ : ∃ X : RestIx p l e → ℝ, X = Sum.elim (fun hj => m.omegas hj.1 hj.2) (fun hk => m.psis hk.1 hk.2) := ⟨_, rfl⟩
  have hXo : ∀ k j, X (.inl (k, j)) = m.omegas k j := fun k j => by rw [hX]; rfl
  have hXp : ∀ k j, X (.inr (k, j)) = m.psis k j := fun k j => by rw [hX]; rfl
  have hto : toOmegas X = m.omegas := by ext k j; exact hXo k j
  have htp : toPsis X = m.psis := by ext k j; exact hXp k j
  obtain ⟨M, hM, hg⟩ := restGrad_ok it d Finset.univ false m hA hac hB X (fun k j => by rw [hXo]; exact ho k j)
    (fun k j => by rw [hXp]; exact (hp k j).le)
  choose C0 hC0 using fun h : Fin e => entails_exists hdet (noiseCov m.gamma (m.psis h) (m.omegas h))
  have hl := restLoss_eq it d m hA hac hB hn X (fun k j => by rw [hXo]; exact ho k j) (fun k j => by rw [hXp]; exact (hp k j).le) C0
    (fun h => by simp only [hXo, hXp]; exact hC0 h)
  have hzo : ∀ h j, DType.int.store (omegaGrad d m.B M h j) = 0 := by
    intro h j
    obtain ⟨g, hg', hd, -⟩ := C76_omegas it d Finset.univ false m hA hac hB X (fun k j => by rw [hXo]; exact ho k j)
      (fun k j => by rw [hXp]; exact (hp k j).le)
    rw [hg, Except.ok.injEq] at hg'
    choose C hC using fun (t : ℝ) (k : Fin e) =>
      entails_exists hdet (noiseCov m.gamma (m.psis k) (fun i => m.omegas k i + if k = h ∧ i = j then t else 0))
    have h1 := (hd h j (Finset.mem_univ j) C (fun t k => by simp only [hXo, hXp]; exact hC t k)).deriv
    have h2 := hflat.2.1 h j C hC
    rw [h1, ← hg'] at h2
    exact store_small _ (by simpa using h2)
  have hzp : ∀ h j, DType.int.store (psiGrad d m.B m.gamma M h j) = 0 := by
    intro h j
    obtain ⟨g, hg', hd, -⟩ := C76_psis it d Finset.univ false m hA hac hB X (fun k j => by rw [hXo]; exact ho k j)
      (fun k j => by rw [hXp]; exact (hp k j).le)
    rw [hg, Except.ok.injEq] at hg'
    choose C hC using fun (t : ℝ) (k : Fin e) =>
      entails_exists hdet (noiseCov m.gamma (fun i => m.psis k i + if k = h ∧ i = j then t else 0) (m.omegas k))
    have h1 := (hd rfl h j C (fun t k => by simp only [hXo, hXp]; exact hC t k)).deriv
    have h2 := hflat.2.2 h j C hC
    rw [h1, ← hg'] at h2
    exact store_small _ (by simpa using h2)
  have hmk : mkModel it m.A m.B m.gamma (toOmegas X) (toPsis X) = .ok ⟨m.A, m.B, m.gamma, toOmegas X, toPsis X, 1 - m.Bᵀ⟩ :=
    mkModel_eq_ok hA _ _ _ hac hB
  have hinv := invNoise_ok_of_pos (⟨m.A, m.B, m.gamma, toOmegas X, toPsis X, 1 - m.Bᵀ⟩ : LModel p l e)
    (fun k j => by show 0 < toOmegas X k j; rw [hto]; exact ho k j) (fun k j => by show 0 ≤ toPsis X k j; rw [htp]; exact (hp k j).le)
  have hM' : (fun h => ((⟨m.A, m.B, m.gamma, toOmegas X, toPsis X, 1 - m.Bᵀ⟩ : LModel p l e).noise h)⁻¹) = M := by
    funext h
    rw [hM h, noise_eq]
  rw [hM'] at hinv
  have hmean : meanEnv (fun _ : Fin e => (0 : ℝ)) = 0 := by simp [meanEnv]
  unfold solveForRestT
  simp only []
  rw [← hX]
  rw [C105_descent_stays (by positivity) _ (checkBounds_of psiMax X (fun k j => by rw [hXo]; exact ho k j)
    (fun k j => by rw [hXp]; exact hp k j) (fun x hx => ⟨(hmax x hx).1, fun k j => by rw [hXp]; exact (hmax x hx).2 k j⟩)) hl (by
    unfold restGradT
    rw [hmk]
    simp only [hinv, ite_self, hzo, hzp, hmean, store_zero]
    congr 1
    funext q
    cases q <;> rfl)]
  simp only [if_true, hto, htp]
  rfl

theorem altBodyT_ok {it : SetIter p} {sv : SolversT p l e} {i : Nat} {prev cur : TModel p l e} (h : altBodyT it sv i prev = .ok cur) :
    Respects prev.m.A prev.m.B ∧ cur.m.A = prev.m.A ∧ cur.m.IB = 1 - prev.m.Bᵀ ∧
    sv.solveB i { prev.m with IB := 1 - prev.m.Bᵀ } = .ok cur.m.B ∧
    sv.gamma { prev with m := { prev.m with B := cur.m.B, IB := 1 - prev.m.Bᵀ } } = .ok (cur.m.gamma, cur.dGamma) ∧
    sv.rest { prev with m := { prev.m with B := cur.m.B, gamma := cur.m.gamma, IB := 1 - prev.m.Bᵀ }, dGamma := cur.dGamma } =
      .ok ((cur.m.omegas, cur.dOmegas), cur.m.psis, cur.dPsis) := by
  unfold altBodyT at h
  cases hc : prev.m.copy it with
  | error err => rw [hc] at h; simp at h
  | ok c =>
    rw [hc] at h
    obtain ⟨-, h1, rfl⟩ := mkModel_fields hc
    simp only [] at h
    cases hB : sv.solveB i ⟨prev.m.A, prev.m.B, prev.m.gamma, prev.m.omegas, prev.m.psis, 1 - prev.m.Bᵀ⟩ with
    | error err => rw [hB] at h; simp at h
    | ok B =>
      rw [hB] at h
      simp only [] at h
      cases hg : sv.gamma ⟨⟨prev.m.A, B, prev.m.gamma, prev.m.omegas, prev.m.psis, 1 - prev.m.Bᵀ⟩, prev.dGamma, prev.dOmegas, prev.dPsis⟩ with
      | error err => rw [hg] at h; simp at h
      | ok gamma =>
        rw [hg] at h
        simp only [] at h
        cases hr : sv.rest ⟨⟨prev.m.A, B, gamma.1, prev.m.omegas, prev.m.psis, 1 - prev.m.Bᵀ⟩, gamma.2, prev.dOmegas, prev.dPsis⟩ with
        | error err => rw [hr] at h; simp at h
        | ok r =>
          rw [hr] at h
          simp only [Except.ok.injEq] at h
          subst h
          exact ⟨h1, rfl, rfl, rfl, hg, hr⟩

/-- C105: if the parameters of `init_model` are integers, and all derivatives of the documented score at these parameters are less than one
for all weights that the solver for `B` returns, then `score_dag` returns the parameters of `init_model` unchanged, however bad they are. -/
theorem C105_frozen (it : SetIter p) (svd : Matrix (Fin p) (Fin p) ℝ → Matrix (Fin p) (Fin p) ℝ × (Fin p → ℝ)) (num : NumLib p e)
    (cfg : ScoreCfg) (d : Data p e) (hn : d.total ≠ 0) (u v : Nat → Fin (p * p) → ℝ) (A : Adj p) (hA : Nonneg A) (I : Finset (Fin p))
    (hu : cfg.solver = .grad → GoodDraws p u) (m0 : LModel p l e) (ho : ∀ k i, 0 < m0.omegas k i) (hp : ∀ k i, 0 < m0.psis k i)
    (hmax : ∀ x, cfg.psiMax = some x → 0 ≤ x ∧ ∀ k j, m0.psis k j < x)
    (hflat : ∀ i B0 B, Respects A B0 → (codeSolvers it num cfg d u v I).solveB i ⟨A, B0, m0.gamma, m0.omegas, m0.psis, 1 - B0ᵀ⟩ = .ok B →
      FlatAt d B m0.gamma m0.omegas m0.psis) (t : TModel p l e) (s : Flt)
    (h : fitDagT it svd (codeSolversT it num cfg d u v) cfg.stop d A I (some ⟨m0, .int, .int, .int⟩) = .ok (t, s)) :
    Respects A t.m.B ∧ t.m.A = A ∧ t.m.gamma = m0.gamma ∧ t.m.omegas = m0.omegas ∧ t.m.psis = m0.psis ∧ t.dGamma = .int ∧
      t.dOmegas = .int ∧ t.dPsis = .int := by
  unfold fitDagT at h
  split_ifs at h with hdag
  have hac : Acyclic A := (isDag_iff it hA).1 (by simpa using hdag)
  simp only [] at h
  split_ifs at h with hA0
  push Not at hA0
  have hbody : ∀ i (t t' : TModel p l e), (t.m.A = A ∧ t.m.gamma = m0.gamma ∧ t.m.omegas = m0.omegas ∧ t.m.psis = m0.psis ∧ t.dGamma = .int ∧
      t.dOmegas = .int ∧ t.dPsis = .int) → altBodyT it (codeSolversT it num cfg d u v I) i t = .ok t' →
      Respects A t'.m.B ∧ (t'.m.A = A ∧ t'.m.gamma = m0.gamma ∧ t'.m.omegas = m0.omegas ∧ t'.m.psis = m0.psis ∧ t'.dGamma = .int ∧
      t'.dOmegas = .int ∧ t'.dPsis = .int) := by
    rintro i ⟨⟨tA, tB, tg, tw, tp, tI⟩, d1, d2, d3⟩ ⟨⟨A', B', g', o', p', I'⟩, e1, e2, e3⟩ ⟨h1, h2, h3, h4, h5, h6, h7⟩ hb
    simp only at h1 h2 h3 h4 h5 h6 h7
    subst h1 h2 h3 h4 h5 h6 h7
    obtain ⟨b1, b2, b3, b4, b5, b6⟩ := altBodyT_ok hb
    simp only at b1 b2 b3 b4 b5 b6
    subst b2
    have hr : Respects A' B' := codeSolvers_respects (I := I) hu b4
    have hf := hflat i tB B' b1 b4
    have g1 := C105_gamma_stays it d hn cfg.thresholdScore cfg.learningRate
      ⟨A', B', m0.gamma, m0.omegas, m0.psis, 1 - tBᵀ⟩ .int .int hA hac hr ho (fun k i => (hp k i).le) hf
    have b5' := b5.symm.trans g1
    simp only [Except.ok.injEq, Prod.mk.injEq] at b5'
    obtain ⟨rfl, rfl⟩ := b5'
    have g2 := C105_rest_stays it d hn I cfg.psiMax cfg.psiFixed cfg.thresholdScore cfg.learningRate
      ⟨A', B', m0.gamma, m0.omegas, m0.psis, 1 - tBᵀ⟩ .int hA hac hr ho hp hmax hf
    have b6' := b6.symm.trans g2
    simp only [Except.ok.injEq, Prod.mk.injEq] at b6'
    obtain ⟨⟨rfl, rfl⟩, rfl, rfl⟩ := b6'
    exact ⟨hr, rfl, rfl, rfl, rfl, rfl, rfl, rfl⟩
  unfold alternateT at h
  split at h
  · simp at h
  · split at h
    · simp at h
    · rename_i st hrun
      have hP := runLoop_ok (step := altStepT it (codeSolversT it num cfg d u v I) cfg.stop d)
        (fun st => (st.prev.m.A = A ∧ st.prev.m.gamma = m0.gamma ∧ st.prev.m.omegas = m0.omegas ∧ st.prev.m.psis = m0.psis ∧
          st.prev.dGamma = .int ∧ st.prev.dOmegas = .int ∧ st.prev.dPsis = .int) ∧ ∀ r, st.cur = some r → r.1 = st.prev ∧ Respects A st.prev.m.B)
        (fun st => (st.prev.m.A = A ∧ st.prev.m.gamma = m0.gamma ∧ st.prev.m.omegas = m0.omegas ∧ st.prev.m.psis = m0.psis ∧
          st.prev.dGamma = .int ∧ st.prev.dOmegas = .int ∧ st.prev.dPsis = .int) ∧ ∀ r, st.cur = some r → r.1 = st.prev ∧ Respects A st.prev.m.B)
        (fun st st' hst hstep => by
          unfold altStepT at hstep
          split_ifs at hstep
          · split at hstep <;> simp at hstep
          · split at hstep
            · simp at hstep
            · rename_i cur hb
              split at hstep
              · simp at hstep
              · simp only [Except.ok.injEq, Sum.inl.injEq] at hstep
                subst hstep
                refine ⟨(hbody _ _ _ hst.1 hb).2, ?_⟩
                rintro r hr
                simp only [Option.some.injEq] at hr
                exact ⟨by rw [← hr], (hbody _ _ _ hst.1 hb).1⟩
          · simp at hstep)
        (fun st st' hst hstep => by
          unfold altStepT at hstep
          split_ifs at hstep
          · split at hstep
            · simp at hstep
            · simp at hstep
          · split at hstep
            · simp at hstep
            · split at hstep <;> simp at hstep
          · simp only [Except.ok.injEq, Sum.inr.injEq] at hstep
            rw [← hstep]
            exact hst)
        ⟨⟨hA0, rfl, rfl, rfl, rfl, rfl, rfl⟩, fun r hr => by simp at hr⟩ hrun
      cases hc : st.cur with
      | none => rw [hc] at h; simp at h
      | some r =>
        rw [hc] at h
        simp only [Except.ok.injEq] at h
        obtain ⟨h1, h2⟩ := hP.2 r hc
        rw [h] at h1
        simp only at h1
        rw [h1]
        exact ⟨h2, hP.1⟩

theorem invDiag (w : Fin p → ℝ) (hw : ∀ i, w i ≠ 0) : (Matrix.diagonal w)⁻¹ = Matrix.diagonal (fun i => (w i)⁻¹) := by
  refine Matrix.inv_eq_left_inv ?_
  rw [Matrix.diagonal_mul_diagonal, ← Matrix.diagonal_one]
  congr 1
  funext i
  exact inv_mul_cancel₀ (hw i)

/-- Without edges and effects of latents the derivatives are less than one if the sample variances are at most the squares of the variances
and these are at least one. -/
theorem flat_diag (d : Data p e) (hn : d.total ≠ 0) (omegas : Matrix (Fin e) (Fin p) ℝ) (psis : Matrix (Fin e) (Fin l) ℝ)
    (ho : ∀ k j, 1 ≤ omegas k j) (hp : ∀ k j, 0 ≤ psis k j) (hs0 : ∀ k j, 0 < d.covs k j j)
    (hs : ∀ k j, d.covs k j j ≤ omegas k j ^ 2) : FlatAt d (0 : Matrix (Fin p) (Fin p) ℝ) (0 : Matrix (Fin l) (Fin p) ℝ) omegas psis := by
  have hA : Nonneg (fun _ _ => 0 : Adj p) := fun _ _ => le_refl _
  have hac : Acyclic (fun _ _ => 0 : Adj p) := fun i h => by
    rcases Relation.TransGen.head'_iff.1 h with ⟨b, hb, -⟩
    exact hb rfl
  have hpos : ∀ k j, 0 < omegas k j := fun k j => one_pos.trans_le (ho k j)
  obtain ⟨m, hm⟩ : ∃ m : LModel p l e, m = ⟨fun _ _ => 0, 0, 0, omegas, psis, 1⟩ := ⟨_, rfl⟩
  have hmA : m.A = fun _ _ => 0 := by rw [hm]
  have hmB : m.B = 0 := by rw [hm]
  have hmg : m.gamma = 0 := by rw [hm]
  have hB : Respects m.A m.B := by rw [hmB]; exact fun _ _ _ => rfl
  have hA' : Nonneg m.A := by rw [hmA]; exact hA
  have hac' : Acyclic m.A := by rw [hmA]; exact hac
  have hmo : m.omegas = omegas := by rw [hm]
  have hmp : m.psis = psis := by rw [hm]
  have hweight : ∀ h, 0 ≤ (d.nObs h : ℝ) / (d.total : ℝ) ∧ (d.nObs h : ℝ) / (d.total : ℝ) ≤ 1 := by
    intro h
    refine ⟨by positivity, ?_⟩
    rw [div_le_one (by exact_mod_cast Nat.pos_of_ne_zero hn)]
    exact_mod_cast Finset.single_le_sum (f := d.nObs) (fun _ _ => Nat.zero_le _) (Finset.mem_univ h)
  refine ⟨fun a k C hC => ?_, fun h j C hC => ?_, fun h j C hC => ?_⟩
  · obtain ⟨g, hg, hd⟩ := C76_gamma (SetIter.incr p) d m hA' hac' hB (by rw [hmo]; exact hpos) (by rw [hmp]; exact hp) 0
    have h1 := hd a k C (fun t h => by rw [hmB, hmo, hmp]; exact hC t h)
    have h0 : g (a, k) = 0 := by
      unfold gammaGrad at hg
      split at hg
      · simp at hg
      · split at hg
        · simp at hg
        · simp only [Except.ok.injEq] at hg
          rw [← hg]
          have hT : ∀ h, gammaT (toGamma (0 : Fin l × Fin p → ℝ)) m.psis h a k = 0 := by
            intro h
            ext i j
            simp [gammaT, toGamma]
          simp [hT]
    rw [h1.deriv, h0]
    simp
  · obtain ⟨X, hX⟩ : ∃ X : RestIx p l e → ℝ, X = Sum.elim (fun hj => omegas hj.1 hj.2) (fun hk => psis hk.1 hk.2) := ⟨_, rfl⟩
    have hXo : ∀ k j, X (.inl (k, j)) = omegas k j := fun k j => by rw [hX]; rfl
    have hXp : ∀ k j, X (.inr (k, j)) = psis k j := fun k j => by rw [hX]; rfl
    obtain ⟨M, hM, hg⟩ := restGrad_ok (SetIter.incr p) d Finset.univ false m hA' hac' hB X (fun k j => by rw [hXo]; exact hpos k j)
      (fun k j => by rw [hXp]; exact hp k j)
    obtain ⟨g, hg', hd, -⟩ := C76_omegas (SetIter.incr p) d Finset.univ false m hA' hac' hB X (fun k j => by rw [hXo]; exact hpos k j)
      (fun k j => by rw [hXp]; exact hp k j)
    rw [hg, Except.ok.injEq] at hg'
    have h1 := hd h j (Finset.mem_univ j) C (fun t k => by simp only [hXo, hXp]; rw [hmB, hmg]; exact hC t k)
    rw [h1.deriv, ← hg']
    simp only [Sum.elim_inl, Finset.mem_univ, if_true]
    have hMd : M h = Matrix.diagonal (fun i => (omegas h i)⁻¹) := by
      rw [hM, hmg]
      have : noiseCov (0 : Matrix (Fin l) (Fin p) ℝ) (toPsis X h) (toOmegas X h) = Matrix.diagonal (fun i => omegas h i) := by
        ext a b
        simp only [noiseCov, Matrix.diagonal_apply, toOmegas, Matrix.of_apply, hXo]
        simp
      rw [this, invDiag _ (fun i => (hpos h i).ne')]
    have hv : omegaGrad d m.B M h j = (d.nObs h : ℝ) / (d.total : ℝ) * ((omegas h j)⁻¹ - (omegas h j)⁻¹ * d.covs h j j * (omegas h j)⁻¹) := by
      unfold omegaGrad nCov
      rw [hmB, hMd]
      simp [Matrix.mul_diagonal, Matrix.diagonal_mul]
    rw [hv, abs_mul, abs_of_nonneg (hweight h).1]
    have hw := ho h j
    have hw0 := hpos h j
    have hi : 0 < (omegas h j)⁻¹ := inv_pos.2 hw0
    have hi1 : (omegas h j)⁻¹ ≤ 1 := inv_le_one_of_one_le₀ hw
    have hq : (omegas h j)⁻¹ * d.covs h j j * (omegas h j)⁻¹ ≤ 1 := by
      calc (omegas h j)⁻¹ * d.covs h j j * (omegas h j)⁻¹ ≤ (omegas h j)⁻¹ * omegas h j ^ 2 * (omegas h j)⁻¹ := by
            gcongr; exact hs h j
        _ = 1 := by field_simp
    have hq0 : 0 < (omegas h j)⁻¹ * d.covs h j j * (omegas h j)⁻¹ := by have := hs0 h j; positivity
    have hlt : |(omegas h j)⁻¹ - (omegas h j)⁻¹ * d.covs h j j * (omegas h j)⁻¹| < 1 := by
      rw [abs_lt]; constructor <;> linarith
    calc (d.nObs h : ℝ) / (d.total : ℝ) * |(omegas h j)⁻¹ - (omegas h j)⁻¹ * d.covs h j j * (omegas h j)⁻¹|
        ≤ 1 * |(omegas h j)⁻¹ - (omegas h j)⁻¹ * d.covs h j j * (omegas h j)⁻¹| := by gcongr; exact (hweight h).2
      _ < 1 := by rw [one_mul]; exact hlt
  · obtain ⟨X, hX⟩ : ∃ X : RestIx p l e → ℝ, X = Sum.elim (fun hj => omegas hj.1 hj.2) (fun hk => psis hk.1 hk.2) := ⟨_, rfl⟩
    have hXo : ∀ k j, X (.inl (k, j)) = omegas k j := fun k j => by rw [hX]; rfl
    have hXp : ∀ k j, X (.inr (k, j)) = psis k j := fun k j => by rw [hX]; rfl
    obtain ⟨M, hM, hg⟩ := restGrad_ok (SetIter.incr p) d Finset.univ false m hA' hac' hB X (fun k j => by rw [hXo]; exact hpos k j)
      (fun k j => by rw [hXp]; exact hp k j)
    obtain ⟨g, hg', hd, -⟩ := C76_psis (SetIter.incr p) d Finset.univ false m hA' hac' hB X (fun k j => by rw [hXo]; exact hpos k j)
      (fun k j => by rw [hXp]; exact hp k j)
    rw [hg, Except.ok.injEq] at hg'
    have h1 := hd rfl h j C (fun t k => by simp only [hXo, hXp]; rw [hmB, hmg]; exact hC t k)
    rw [h1.deriv, ← hg']
    have hT : (Matrix.of (fun a b => m.gamma j a * m.gamma j b) : Matrix (Fin p) (Fin p) ℝ) = 0 := by
      ext a b; rw [hmg]; simp
    simp [psiGrad, hT]

/-- C105: a graph without edges and an `init_model` without effects of latents and with integer variances, at least as large as the roots of
the sample variances: `score_dag` returns these variances. -/
theorem C105_frozen_empty (it : SetIter p) (svd : Matrix (Fin p) (Fin p) ℝ → Matrix (Fin p) (Fin p) ℝ × (Fin p → ℝ)) (num : NumLib p e)
    (cfg : ScoreCfg) (d : Data p e) (hn : d.total ≠ 0) (u v : Nat → Fin (p * p) → ℝ) (I : Finset (Fin p))
    (hu : cfg.solver = .grad → GoodDraws p u) (w : Fin e → Fin p → ℕ) (z : Fin e → Fin l → ℕ) (IB : Matrix (Fin p) (Fin p) ℝ)
    (hw : ∀ k j, 0 < w k j) (hz : ∀ k j, 0 < z k j)
    (hmax : ∀ x, cfg.psiMax = some x → 0 ≤ x ∧ ∀ k j, (z k j : ℝ) < x) (hs0 : ∀ k j, 0 < d.covs k j j)
    (hs : ∀ k j, d.covs k j j ≤ (w k j : ℝ) ^ 2) (t : TModel p l e) (s : Flt)
    (h : fitDagT it svd (codeSolversT it num cfg d u v) cfg.stop d (fun _ _ => 0) I
      (some ⟨⟨fun _ _ => 0, 0, 0, Matrix.of fun k j => (w k j : ℝ), Matrix.of fun k j => (z k j : ℝ), IB⟩, .int, .int, .int⟩) = .ok (t, s)) :
    t.m.B = 0 ∧ t.m.gamma = 0 ∧ (∀ k j, t.m.omegas k j = w k j) ∧ ∀ k j, t.m.psis k j = z k j := by
  have hA : Nonneg (fun _ _ => 0 : Adj p) := fun _ _ => le_refl _
  obtain ⟨h1, h2, h3, h4, h5, -⟩ := C105_frozen it svd num cfg d hn u v (fun _ _ => 0) hA I hu _
    (fun k j => by simpa using hw k j) (fun k j => by simpa using hz k j) (fun x hx => by simpa using hmax x hx)
    (fun i B0 B hB0 hB => by
      have hr := codeSolvers_respects hu hB
      have hB' : B = 0 := by ext a b; exact hr a b rfl
      rw [hB']
      exact flat_diag d hn _ _ (fun k j => by show (1 : ℝ) ≤ (w k j : ℝ); exact_mod_cast hw k j) (fun k j => by simp) hs0 (fun k j => by simpa using hs k j)) t s h
  refine ⟨by ext a b; exact h1 a b rfl, h3, fun k j => by rw [h4]; rfl, fun k j => by rw [h5]; rfl⟩

/-- A run whose first iteration does not change the weights ends after it. -/
theorem alternateT_one (hp0 : p ≠ 0) {it : SetIter p} {sv : SolversT p l e} {cfg : StopCfg} (h1 : 0 ≤ cfg.thresholdDistB) (h2 : 1 ≤ cfg.maxIter)
    (h3 : 1 ≤ cfg.maxFluctuations) {d : Data p e} {model cur : TModel p l e} {s0 s1 : Flt}
    (hs0 : model.m.score (List.ofFn d.covs) (List.ofFn d.nObs) = .ok s0) (hb : altBodyT it sv 0 model = .ok cur) (hB : cur.m.B = model.m.B)
    (hs1 : cur.m.score (List.ofFn d.covs) (List.ofFn d.nObs) = .ok s1) : alternateT it sv cfg d model = .ok (cur, s1) := by
  unfold alternateT
  simp only [hs0]
  rw [runLoop_unfold]
  have e1 : altStepT it sv cfg d ⟨model, s0, none, 0, 0, none⟩ = .ok (.inl ⟨cur, s1, some (model.m.B - cur.m.B), 1,
      (open Classical in if s1.subGt s0 cfg.thresholdFluctuation then 1 else 0), some (cur, s1)⟩) := by
    unfold altStepT
    rw [if_neg (by
      push Not
      exact ⟨trivial, by show ((0 : Nat) : Int) < cfg.maxIter; omega, by show ((0 : Nat) : Int) < cfg.maxFluctuations; omega⟩)]
    simp only [hb, if_neg hp0, hs1, zero_add]
  rw [e1]
  simp only []
  rw [runLoop_unfold]
  have e2 : ∀ k, altStepT it sv cfg d ⟨cur, s1, some (model.m.B - cur.m.B), 1, k, some (cur, s1)⟩ =
      .ok (.inr ⟨cur, s1, some (model.m.B - cur.m.B), 1, k, some (cur, s1)⟩) := by
    intro k
    unfold altStepT
    rw [if_pos]
    rintro ⟨⟨i, j, hij⟩, -⟩
    rw [hB, sub_self] at hij
    simp at hij
    linarith
  rw [e2]

namespace IntEx

/-- Numerical routines for the example: the convex solver returns the only matrix allowed by the graph without edges. -/
noncomputable def num : NumLib 1 1 := ⟨id, fun _ => true, fun x => x / 2, fun _ _ _ => some 0⟩

/-- One environment with sample variance 3. -/
noncomputable def data : Data 1 1 := ⟨fun _ => Matrix.of fun _ _ => 3, fun _ => 2⟩

/-- One variable with noise variance `w`, no latents. -/
noncomputable def model (w : ℝ) : LModel 1 0 1 := ⟨fun _ _ => 0, 0, 0, Matrix.of fun _ _ => w, 0, 1⟩

/-- The score of `model w`. -/
noncomputable def f (w : ℝ) : ℝ := Real.log w + 3 * w⁻¹

theorem nonneg : Nonneg (fun _ _ => 0 : Adj 1) := fun _ _ => le_refl _

theorem acyclic : Acyclic (fun _ _ => 0 : Adj 1) := by
  intro i h
  rcases Relation.TransGen.head'_iff.1 h with ⟨b, hb, -⟩
  exact hb rfl

theorem respects (A : Adj 1) : Respects A (0 : Matrix (Fin 1) (Fin 1) ℝ) := fun _ _ _ => rfl

theorem total_ne : data.total ≠ 0 := by decide

theorem mk (it : SetIter 1) (w : ℝ) (ps : Matrix (Fin 1) (Fin 0) ℝ) :
    mkModel it (fun _ _ => 0) 0 0 (Matrix.of fun _ _ => w) ps = .ok (model w) := by
  rw [mkModel_eq_ok nonneg _ _ _ acyclic (respects _), show ps = 0 from Subsingleton.elim _ _]
  simp [model]

theorem entails (w : ℝ) (om : Fin 1 → ℝ) (hom : om 0 = w) (g : Matrix (Fin 0) (Fin 1) ℝ) (ps : Fin 0 → ℝ) :
    Entails (0 : Matrix (Fin 1) (Fin 1) ℝ) (noiseCov g ps om) (Matrix.of fun _ _ => w) := by
  unfold Entails
  ext i j
  have hi : i = 0 := Subsingleton.elim _ _
  have hj : j = 0 := Subsingleton.elim _ _
  subst hi hj
  simp [noiseCov, hom]

theorem nll (w : ℝ) : gaussNLL (Matrix.of fun _ _ => w : Matrix (Fin 1) (Fin 1) ℝ) (Matrix.of fun _ _ => 3) = f w := by
  have h : ∀ x : ℝ, (Matrix.of fun _ _ => x : Matrix (Fin 1) (Fin 1) ℝ) = !![x] := by
    intro x
    ext i j
    have hi : i = 0 := Subsingleton.elim _ _
    have hj : j = 0 := Subsingleton.elim _ _
    subst hi hj
    rfl
  rw [h, h, gaussNLL_one]
  simp [f, mul_comm]

theorem score (it : SetIter 1) (w : ℝ) (hw : 0 < w) :
    (model w).score (List.ofFn data.covs) (List.ofFn data.nObs) = .ok (some (f w)) := by
  have hdet : (1 - (0 : Matrix (Fin 1) (Fin 1) ℝ)ᵀ).det = 1 := by simp
  have h1 := C37_actual_score it (fun _ _ => 0) nonneg 0 0 _ 0 _ (mk it w 0) (fun _ _ => hw) (fun _ i => i.elim0) data.nObs total_ne data.covs
    (fun _ => Matrix.of fun _ _ => w) (by
      have hco := covariances_ok (model w) hdet
      rw [hco]
      congr 1
      ext1 k
      have he := entails_eq hdet (entails w ((model w).omegas k) rfl (model w).gamma ((model w).psis k))
      rw [he, noise_eq]
      rfl)
  rw [h1]
  congr 2
  simp [data, nll]

theorem goodData : GoodData data := by
  refine ⟨fun k => ?_, fun k => two_pos, one_pos⟩
  refine Matrix.PosDef.of_dotProduct_mulVec_pos ?_ (fun x hx => ?_)
  · ext i j
    simp [data]
  · have hx0 : x 0 ≠ 0 := fun h => hx (funext fun i => by rw [Subsingleton.elim i 0]; exact h)
    simp only [dotProduct, Fin.sum_univ_one, Matrix.mulVec]
    simp [data]
    nlinarith [mul_self_pos.2 hx0]

theorem goodModel (it : SetIter 1) : GoodModel it (fun _ _ => 0) none (model 2) :=
  ⟨rfl, fun _ _ _ => rfl, fun k j => two_pos, fun _ i => i.elim0, fun x hx => by simp at hx⟩

theorem copy (it : SetIter 1) : (model 2).copy it = .ok (model 2) := mk it 2 0

theorem solveB (it : SetIter 1) (cfg : ScoreCfg) (hcvx : cfg.solver = .cvx) (u v : Nat → Fin (1 * 1) → ℝ) :
    (codeSolvers it num cfg data u v {0}).solveB 0 (model 2) = .ok 0 := by
  simp only [codeSolvers, hcvx]
  unfold solveForBCvx
  rw [invNoise_ok_of_pos (model 2) (fun k j => two_pos) (fun _ i => i.elim0)]
  simp only [num]
  rw [if_neg (by push Not; intro i j _; simp)]
  congr 1

theorem gamma (it : SetIter 1) (thr lr : ℝ) (dt : DType) : solveForGammaT it data thr lr ⟨model 2, dt, dt, dt⟩ = .ok (0, dt) := by
  have hl := gammaLoss_eq it data (model 2) nonneg acyclic (respects _) (fun _ _ => two_pos) (fun _ i => i.elim0) total_ne
    (fun ak => (model 2).gamma ak.1 ak.2) (fun _ => Matrix.of fun _ _ => 2) (fun h => entails 2 _ rfl _ _)
  obtain ⟨g, hg, -⟩ := C76_gamma it data (model 2) nonneg acyclic (respects _) (fun _ _ => two_pos) (fun _ i => i.elim0)
    (fun ak => (model 2).gamma ak.1 ak.2)
  unfold solveForGammaT
  simp only []
  rw [C105_descent_stays (by positivity) _ rfl hl (by
    unfold gammaGradT
    rw [hg]
    simp only []
    congr 1
    funext q
    exact q.1.elim0)]
  rfl

theorem restInt (it : SetIter 1) (psiFixed : Bool) (thr lr : ℝ) :
    solveForRestT it data {0} none psiFixed thr lr ⟨model 2, .int, .int, .int⟩ = .ok (((model 2).omegas, .int), (model 2).psis, .int) :=
  C105_rest_stays it data total_ne {0} none psiFixed _ _ (model 2) .int nonneg acyclic (respects _) (fun _ _ => two_pos) (fun _ i => i.elim0)
    (fun x hx => by simp at hx)
    (flat_diag data total_ne _ _ (fun k j => by simp [model]) (fun _ i => i.elim0) (fun k j => by simp [data])
      (fun k j => by simp only [data, model, Matrix.of_apply]; norm_num))

theorem restLoss (it : SetIter 1) (X : RestIx 1 0 1 → ℝ) (hX : 0 < X (.inl (0, 0))) :
    Verif.restLoss it data (model 2) X = .ok (some (f (X (.inl (0, 0))))) := by
  have hX' : ∀ k i, 0 < X (.inl (k, i)) := fun k i => by rw [Subsingleton.elim k 0, Subsingleton.elim i 0]; exact hX
  have h1 := restLoss_eq it data (model 2) nonneg acyclic (respects _) total_ne X hX' (fun _ i => i.elim0)
    (fun _ => Matrix.of fun _ _ => X (.inl (0, 0))) (fun h => by
      rw [Subsingleton.elim h 0]
      exact entails _ _ rfl _ _)
  rw [h1]
  congr 2
  simp [data, nll]

theorem restGrad (it : SetIter 1) (psiFixed : Bool) (X : RestIx 1 0 1 → ℝ) (hX : ∀ k i, X (.inl (k, i)) = 2) :
    ∃ g, Verif.restGrad it data {0} psiFixed (model 2) X = .ok g ∧ g (.inl (0, 0)) = -1 / 4 := by
  obtain ⟨M, hM, hg⟩ := restGrad_ok it data {0} psiFixed (model 2) nonneg acyclic (respects _) X (fun k i => by rw [hX]; exact two_pos)
    (fun _ i => i.elim0)
  refine ⟨_, hg, ?_⟩
  have hMd : M 0 = Matrix.diagonal (fun _ => (2 : ℝ)⁻¹) := by
    rw [hM]
    have : noiseCov (model 2).gamma (toPsis X 0) (toOmegas X 0) = Matrix.diagonal (fun _ => (2 : ℝ)) := by
      ext a b
      simp [noiseCov, Matrix.diagonal_apply, toOmegas, hX]
    rw [this, invDiag _ (fun i => two_ne_zero)]
  have h0 : (0 : Fin 1) ∈ ({0} : Finset (Fin 1)) := by simp
  simp only [Sum.elim_inl, if_pos h0]
  unfold omegaGrad nCov
  rw [hMd]
  simp [Matrix.mul_diagonal, Matrix.diagonal_mul, model, data, Data.total]
  norm_num

theorem f_lt {h : ℝ} (h0 : 0 < h) (h1 : h < 1) : f (2 + h) < f 2 := by
  unfold f
  have e1 : Real.log (2 + h) = Real.log 2 + Real.log (1 + h / 2) := by
    rw [← Real.log_mul two_ne_zero (by positivity)]
    congr 1
    ring
  have e2 : Real.log (1 + h / 2) ≤ h / 2 := by
    have := Real.log_le_sub_one_of_pos (show 0 < 1 + h / 2 by positivity)
    linarith
  have e3 : 3 * (2 + h)⁻¹ + h / 2 < 3 * (2 : ℝ)⁻¹ := by
    have hp : 0 < 2 + h := by linarith
    have : 3 * (2 : ℝ)⁻¹ - 3 * (2 + h)⁻¹ - h / 2 = h * (1 - h) / (2 * (2 + h)) := by field_simp; ring
    have : 0 < h * (1 - h) / (2 * (2 + h)) := div_pos (mul_pos h0 (by linarith)) (by linarith)
    linarith
  linarith

theorem restFloat (it : SetIter 1) (psiFixed : Bool) (thr lr : ℝ) (hthr : 0 < thr) (hlr : 0 < lr) :
    ∃ w, 0 < w ∧ f w < f 2 ∧ solveForRestT it data {0} none psiFixed thr lr ⟨model 2, .float, .float, .float⟩ =
      .ok ((Matrix.of fun _ _ => w, .float), 0, .float) := by
  obtain ⟨r, hr⟩ := solveForRest_returns (psiMax := none) nonneg acyclic (fun x hx => by simp at hx) data goodData {0} psiFixed (lr := lr) hthr
    (goodModel it)
  have hT := solveForRestT_float it data {0} none psiFixed thr lr (model 2)
  rw [hr] at hT
  have hpos := solveForRest_inBounds hr
  unfold solveForRest at hr
  split at hr
  · simp at hr
  · rename_i X L hgd
    simp only [Except.ok.injEq] at hr
    subst hr
    have hX : 0 < X (.inl (0, 0)) := hpos.1 0 0
    obtain ⟨g, hg, hg0⟩ := restGrad it psiFixed
      (Sum.elim (fun hj => (model 2).omegas hj.1 hj.2) (fun hk => (model 2).psis hk.1 hk.2)) (fun _ _ => rfl)
    obtain ⟨-, hL, -⟩ := C50_returns _ _ _ hgd
    obtain ⟨x, rfl, hx⟩ := C80_strict_progress hlr _ X g L (f 2) 1 (restLoss it _ two_pos) hg (by norm_num)
      (fun s hs0 hs1 => by
        have hv : (model 2).omegas 0 0 - s * g (.inl (0, 0)) = 2 + s / 4 := by
          rw [hg0]
          simp only [model, Matrix.of_apply]
          ring
        have hp : 0 < (model 2).omegas 0 0 - s * g (.inl (0, 0)) := by rw [hv]; positivity
        refine ⟨?_, f ((model 2).omegas 0 0 - s * g (.inl (0, 0))), restLoss it _ hp, ?_⟩
        · exact (restBounds_iff none _).2 ⟨fun k j => by rw [Subsingleton.elim k 0, Subsingleton.elim j 0]; exact hp, fun _ i => i.elim0,
            fun x hx => by simp at hx⟩
        · rw [hv]
          exact f_lt (by positivity) (by linarith)) hgd
    rw [restLoss it X hX] at hL
    simp only [Except.ok.injEq, Option.some.injEq] at hL
    refine ⟨X (.inl (0, 0)), hX, by rw [hL]; exact hx, ?_⟩
    refine hT.trans ?_
    simp only [Except.map]
    rw [show toPsis X = 0 from Subsingleton.elim _ _]
    congr 3
    ext k j
    rw [Subsingleton.elim k 0, Subsingleton.elim j 0]
    rfl

theorem run (it : SetIter 1) (svd : Matrix (Fin 1) (Fin 1) ℝ → Matrix (Fin 1) (Fin 1) ℝ × (Fin 1 → ℝ)) (u v : Nat → Fin (1 * 1) → ℝ)
    (cfg : ScoreCfg) (hcvx : cfg.solver = .cvx) (hpsi : cfg.psiMax = none) (h1 : 0 ≤ cfg.stop.thresholdDistB)
    (h2 : 1 ≤ cfg.stop.maxIter) (h3 : 1 ≤ cfg.stop.maxFluctuations) (dt : DType) (w : ℝ) (hw : 0 < w)
    (hr : solveForRestT it data {0} none cfg.psiFixed cfg.thresholdScore cfg.learningRate ⟨model 2, dt, dt, dt⟩ =
      .ok ((Matrix.of fun _ _ => w, dt), 0, dt)) :
    fitDagT it svd (codeSolversT it num cfg data u v) cfg.stop data (fun _ _ => 0) {0} (some ⟨model 2, dt, dt, dt⟩) =
      .ok (⟨model w, dt, dt, dt⟩, some (f w)) := by
  have hb : altBodyT it (codeSolversT it num cfg data u v {0}) 0 ⟨model 2, dt, dt, dt⟩ = .ok ⟨model w, dt, dt, dt⟩ := by
    unfold altBodyT
    rw [copy it]
    have e1 : (codeSolversT it num cfg data u v {0}).solveB 0 (model 2) = .ok 0 := solveB it cfg hcvx u v
    simp only [e1]
    have e2 : (codeSolversT it num cfg data u v {0}).gamma ⟨model 2, dt, dt, dt⟩ = .ok (0, dt) := gamma it _ _ dt
    have e3 : (codeSolversT it num cfg data u v {0}).rest ⟨model 2, dt, dt, dt⟩ = .ok ((Matrix.of fun _ _ => w, dt), 0, dt) := by
      show solveForRestT it data {0} cfg.psiMax _ _ _ _ = _
      rw [hpsi]
      exact hr
    have e4' : (⟨(model 2).A, 0, (model 2).gamma, (model 2).omegas, (model 2).psis, (model 2).IB⟩ : LModel 1 0 1) = model 2 := rfl
    have e5' : (⟨(model 2).A, 0, 0, (model 2).omegas, (model 2).psis, (model 2).IB⟩ : LModel 1 0 1) = model 2 := rfl
    rw [e4', e2]
    simp only []
    rw [e5', e3]
    rfl
  unfold fitDagT
  rw [(isDag_iff it nonneg).2 acyclic]
  simp only [Bool.not_true, Bool.false_eq_true, if_false]
  rw [if_neg (by simp [model])]
  exact alternateT_one one_ne_zero h1 h2 h3 (score it 2 two_pos) hb rfl (score it w hw)

end IntEx

/-- C105, violation: one variable with sample variance 3, one environment, no latents, and an `init_model` with variance 2.  If the array holds
the integer 2, `score_dag` returns variance 2; if it holds the float 2.0, `score_dag` returns a model with a strictly smaller score. -/
theorem C105_violated : ∃ (num : NumLib 1 1) (d : Data 1 1) (m0 : LModel 1 0 1), (∀ k j, m0.omegas k j = 2) ∧ d.covs 0 0 0 = 3 ∧
    ∀ (it : SetIter 1) (svd : Matrix (Fin 1) (Fin 1) ℝ → Matrix (Fin 1) (Fin 1) ℝ × (Fin 1 → ℝ)) (u v : Nat → Fin (1 * 1) → ℝ) (cfg : ScoreCfg),
      cfg.solver = .cvx → cfg.psiMax = none → 0 < cfg.thresholdScore → 0 < cfg.learningRate → 0 ≤ cfg.stop.thresholdDistB →
      1 ≤ cfg.stop.maxIter → 1 ≤ cfg.stop.maxFluctuations →
      ∃ (ti tf : TModel 1 0 1) (si sf : ℝ),
        fitDagT it svd (codeSolversT it num cfg d u v) cfg.stop d (fun _ _ => 0) {0} (some ⟨m0, .int, .int, .int⟩) = .ok (ti, some si) ∧
        fitDagT it svd (codeSolversT it num cfg d u v) cfg.stop d (fun _ _ => 0) {0} (some ⟨m0, .float, .float, .float⟩) = .ok (tf, some sf) ∧
        ti.m.omegas 0 0 = 2 ∧ sf < si := by
  refine ⟨IntEx.num, IntEx.data, IntEx.model 2, fun _ _ => rfl, rfl, fun it svd u v cfg hcvx hpsi hthr hlr h1 h2 h3 => ?_⟩
  obtain ⟨w, hw, hlt, hr⟩ := IntEx.restFloat it cfg.psiFixed cfg.thresholdScore cfg.learningRate hthr hlr
  exact ⟨_, _, _, _, IntEx.run it svd u v cfg hcvx hpsi h1 h2 h3 .int 2 two_pos (IntEx.restInt it _ _ _),
    IntEx.run it svd u v cfg hcvx hpsi h1 h2 h3 .float w hw hr, rfl, hlt⟩

/-- Concrete case of `C105_rest_whole`: one variable with variance 2 and sample variance 3, a target.  The derivative is `-1/4`; the integer
array holds another number. -/
example (it : SetIter 1) (psiFixed : Bool) : ∃ g, restGradT it IntEx.data {0} psiFixed (IntEx.model 2) (fun _ => .int)
    (Sum.elim (fun _ => 2) (fun _ => 2)) = .ok g ∧ ∃ n : ℤ, g (.inl (0, 0)) = n ∧ (n : ℝ) ≠ -1 / 4 := by
  have hmk := mkModel_eq_ok (it := it) IntEx.nonneg (IntEx.model 2).gamma (toOmegas (Sum.elim (fun _ => 2) (fun _ => 2) : RestIx 1 0 1 → ℝ))
    (toPsis (Sum.elim (fun _ => 2) (fun _ => 2) : RestIx 1 0 1 → ℝ)) IntEx.acyclic (IntEx.respects _)
  have hinv := invNoise_ok_of_pos (⟨fun _ _ => 0, 0, (IntEx.model 2).gamma, toOmegas (Sum.elim (fun _ => 2) (fun _ => 2) : RestIx 1 0 1 → ℝ),
    toPsis (Sum.elim (fun _ => 2) (fun _ => 2) : RestIx 1 0 1 → ℝ), 1 - (0 : Matrix (Fin 1) (Fin 1) ℝ)ᵀ⟩ : LModel 1 0 1)
    (fun k j => two_pos) (fun k j => j.elim0)
  have hg : ∃ g, restGradT it IntEx.data {0} psiFixed (IntEx.model 2) (fun _ => .int) (Sum.elim (fun _ => 2) (fun _ => 2)) = .ok g := by
    unfold restGradT
    have e1 : (IntEx.model 2).A = fun _ _ => 0 := rfl
    have e2 : (IntEx.model 2).B = 0 := rfl
    rw [e1, e2, hmk]
    simp only [hinv]
    exact ⟨_, rfl⟩
  obtain ⟨g, hg⟩ := hg
  obtain ⟨n, hn⟩ := C105_rest_whole hg (.inl (0, 0))
  refine ⟨g, hg, n, hn, fun h => ?_⟩
  have h4 : ((4 * n : ℤ) : ℝ) = ((-1 : ℤ) : ℝ) := by push_cast; linarith
  have h5 : 4 * n = -1 := by exact_mod_cast h4
  omega

end frozen

end Verif
