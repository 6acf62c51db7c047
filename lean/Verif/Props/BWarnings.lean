import Verif.Props.FitTrace

/-!
# C138: the warnings of the solver for `B`
-/

namespace Verif

open Spec Matrix

variable {p l e : Nat}

/-! ### Specification -/

/-- The points of a descent with a fixed learning rate: after every step the entries of the diagonal are one and the other entries without an edge are
zero (positions in the order of columns: position `k` is row `k mod p` and column `k / p` of `I - Bᵀ`). -/
noncomputable def descentPoint (A : Adj p) (N : Matrix (Fin (p * p)) (Fin (p * p)) ℝ) (lr : ℝ) (x0 : Fin (p * p) → ℝ) : Nat → Fin (p * p) → ℝ
  | 0 => x0
  | n + 1 => fun k =>
    if k.modNat = k.divNat then 1
    else if A k.divNat k.modNat = 0 then 0
    else descentPoint A N lr x0 n k - lr * (N *ᵥ descentPoint A N lr x0 n) k

theorem descentPoint_succ (A : Adj p) (N : Matrix (Fin (p * p)) (Fin (p * p)) ℝ) (lr : ℝ) (x0 : Fin (p * p) → ℝ) (n : Nat) :
    descentPoint A N lr x0 (n + 1) = maskVec A (descentPoint A N lr x0 n - lr • (N *ᵥ descentPoint A N lr x0 n)) := by
  funext k
  rw [descentPoint]
  unfold maskVec oneElements zeroElements flattenF
  simp

/-- The learning rate after `k` restarts. -/
noncomputable def rateAfter (num : NumLib p e) (k : Nat) : ℝ := num.halve^[k] (5 / 1000)

/-- With learning rate `lr`, exactly the steps before the one with number `i` (from zero) are finite. -/
def FirstInfinite (num : NumLib p e) (A : Adj p) (N : Matrix (Fin (p * p)) (Fin (p * p)) ℝ) (lr : ℝ) (x0 : Fin (p * p) → ℝ) (i : Nat) : Prop :=
  num.finite (lr • (N *ᵥ descentPoint A N lr x0 i)) = false ∧ ∀ j < i, num.finite (lr • (N *ᵥ descentPoint A N lr x0 j)) = true

/-- The warnings about restarts, for the numbers that they show. -/
noncomputable def restartLines (num : NumLib p e) (ws : List Nat) : List (BLine p e) := ws.mapIdx (fun k i => .notFinite i (rateAfter num k))

theorem restartLines_snoc (num : NumLib p e) (ws : List Nat) (i : Nat) :
    restartLines num (ws ++ [i]) = restartLines num ws ++ [.notFinite i (rateAfter num ws.length)] := by
  unfold restartLines
  rw [List.mapIdx_append]
  simp

/-! ### The loop -/

structure GradInv (num : NumLib p e) (A : Adj p) (N : Matrix (Fin (p * p)) (Fin (p * p)) ℝ) (x0 : Fin (p * p) → ℝ) (s : GradStateV p e) (ws : List Nat) :
    Prop where
  lines : s.lines = restartLines num ws
  past : ∀ k i, ws[k]? = some i → rateAfter num k ≠ 0 ∧ FirstInfinite num A N (rateAfter num k) x0 i
  rate : s.st.lr = rateAfter num ws.length
  point : s.st.Bnew = descentPoint A N s.st.lr x0 s.i
  fin : ∀ j < s.i, num.finite (s.st.lr • (N *ᵥ descentPoint A N s.st.lr x0 j)) = true
  before : (s.i = 0 ∧ s.st.B = 0) ∨ ∃ j, s.i = j + 1 ∧ s.st.B = descentPoint A N s.st.lr x0 j

theorem GradInv.step {num : NumLib p e} {A : Adj p} {N : Matrix (Fin (p * p)) (Fin (p * p)) ℝ} {x0 : Fin (p * p) → ℝ} {s s' : GradStateV p e}
    {ws : List Nat} (h : GradInv num A N x0 s ws) (hs : gradStepV num A N x0 s = .ok (.inl s')) : ∃ ws', GradInv num A N x0 s' ws' := by
  unfold gradStepV at hs
  simp only at hs
  split at hs
  · simp at hs
  split at hs
  · simp at hs
  split at hs
  · simp at hs
  rename_i hlr
  split at hs
  · rename_i hfin
    simp only [Except.ok.injEq, Sum.inl.injEq] at hs
    subst hs
    refine ⟨ws ++ [s.i], ?_, ?_, ?_, ?_, ?_, ?_⟩
    · simp only
      rw [restartLines_snoc, h.lines, h.rate]
    · intro k i hk
      by_cases hkl : k < ws.length
      · rw [List.getElem?_append_left hkl] at hk
        exact h.past k i hk
      · rw [List.getElem?_append_right (by omega)] at hk
        have hk0 : k = ws.length := by
          by_contra hne
          rw [List.getElem?_eq_none (by simp; omega)] at hk
          simp at hk
        subst hk0
        simp only [Nat.sub_self, List.getElem?_cons_zero, Option.some.injEq] at hk
        subst hk
        rw [← h.rate]
        refine ⟨hlr, ?_, h.fin⟩
        rw [← h.point]
        simpa using hfin
    · simp only [List.length_append, List.length_singleton]
      unfold rateAfter
      rw [Function.iterate_succ_apply', h.rate]
      rfl
    · rfl
    · intro j hj
      simp at hj
    · exact Or.inl ⟨rfl, rfl⟩
  · rename_i hfin
    simp only [Except.ok.injEq, Sum.inl.injEq] at hs
    subst hs
    refine ⟨ws, h.lines, h.past, h.rate, ?_, ?_, ?_⟩
    · simp only
      rw [descentPoint_succ, ← h.point]
    · intro j hj
      by_cases hj' : j < s.i
      · exact h.fin j hj'
      · have : j = s.i := by simp only at hj; omega
        subst this
        simp only
        rw [← h.point]
        simpa using hfin
    · exact Or.inr ⟨s.i, rfl, h.point⟩

/-- C138: how to read the warnings of `_solve_for_B_grad`.  All lines but possibly the last report a restart.  The `k`-th of these (from zero) shows the
learning rate 0.005 halved `k` times, which is not zero, and the number of the first step of the descent with this rate that is not finite.  Without a
further line the returned matrix is the point of the descent with the next learning rate, which is positive, at which no entry changed by more than
1e-10.  With the further line `non-convex solver failed` the returned matrix is that of `_solve_for_B_adaptive`. -/
theorem C138_warnings {it : SetIter p} {num : NumLib p e} {d : Data p e} {Binit Badapt : Fin (p * p) → ℝ} {m : LModel p l e}
    {Ms : Fin e → Matrix (Fin p) (Fin p) ℝ} (hM : m.invNoise = .ok Ms) {B : Matrix (Fin p) (Fin p) ℝ} {lines : List (BLine p e)}
    (h : solveForBGradV it num d Binit Badapt m = .ok (B, lines)) :
    ∃ ws : List Nat,
      (∀ k i, ws[k]? = some i → rateAfter num k ≠ 0 ∧ FirstInfinite num m.A (nMatrix num d Ms) (rateAfter num k) Binit i) ∧
      ((lines = restartLines num ws ∧ 0 < rateAfter num ws.length ∧
          ∃ n, (∀ j < n, num.finite (rateAfter num ws.length • (nMatrix num d Ms *ᵥ
              descentPoint m.A (nMatrix num d Ms) (rateAfter num ws.length) Binit j)) = true) ∧
            (∀ k, |(if n = 0 then 0 else descentPoint m.A (nMatrix num d Ms) (rateAfter num ws.length) Binit (n - 1) k) -
              descentPoint m.A (nMatrix num d Ms) (rateAfter num ws.length) Binit n k| ≤ 1 / 10 ^ 10) ∧
            ∀ i j, B i j = (if i = j then 1 else 0) -
              descentPoint m.A (nMatrix num d Ms) (rateAfter num ws.length) Binit n (finProdFinEquiv (i, j))) ∨
       (∃ n, lines = restartLines num ws ++ [.failed m.omegas Ms (rateAfter num ws.length • (nMatrix num d Ms *ᵥ
            descentPoint m.A (nMatrix num d Ms) (rateAfter num ws.length) Binit n))] ∧
          (rateAfter num ws.length ≤ 0 ∨ num.finite (fun k => (if k.divNat = k.modNat then 1 else 0) -
            descentPoint m.A (nMatrix num d Ms) (rateAfter num ws.length) Binit n (finProdFinEquiv (k.modNat, k.divNat))) = false) ∧
          solveForBAdaptive it num d Badapt m = .ok B)) := by
  unfold solveForBGradV at h
  rw [hM] at h
  simp only at h
  split at h
  · simp at h
  rename_i s hs
  obtain ⟨⟨ws, hinv⟩, hstop⟩ := runLoop_ok (fun s : GradStateV p e => ∃ ws, GradInv num m.A (nMatrix num d Ms) Binit s ws)
    (fun s : GradStateV p e => (∃ ws, GradInv num m.A (nMatrix num d Ms) Binit s ws) ∧
      ((∀ k, |s.st.B k - s.st.Bnew k| ≤ 1 / 10 ^ 10) ∨ s.st.lr = 0))
    (fun s s' ⟨ws, hs⟩ hst => hs.step hst) (fun s r hs hst => by
      unfold gradStepV at hst
      simp only at hst
      split at hst
      · simp at hst
      split at hst
      · rename_i hc
        cases hst
        push Not at hc
        exact ⟨hs, Or.inl hc⟩
      split at hst
      · rename_i hc
        cases hst
        exact ⟨hs, Or.inr hc⟩
      split at hst <;> simp at hst)
    ⟨[], ⟨rfl, by simp, rfl, rfl, by simp, Or.inl ⟨rfl, rfl⟩⟩⟩ hs
  refine ⟨ws, hinv.past, ?_⟩
  split at h
  · rename_i hc
    simp only [Except.ok.injEq, Prod.mk.injEq] at h
    obtain ⟨rfl, rfl⟩ := h
    refine Or.inl ⟨hinv.lines, by rw [← hinv.rate]; exact hc.2, s.i, ?_, ?_, ?_⟩
    · rw [← hinv.rate]
      exact hinv.fin
    · have h1 := hstop.resolve_right hc.2.ne'
      rw [← hinv.rate, ← hinv.point]
      intro k
      have h2 := h1 k
      rcases hinv.before with ⟨h3, h4⟩ | ⟨j, h3, h4⟩
      · rw [if_pos h3]
        rw [h4] at h2
        exact h2
      · rw [if_neg (by omega), h3, Nat.add_sub_cancel]
        rw [h4] at h2
        exact h2
    · intro i j
      rw [← hinv.rate, ← hinv.point]
      unfold unflattenB reshapeF
      simp only [Matrix.transpose_apply, Matrix.sub_apply, Matrix.one_apply, Matrix.of_apply, eq_comm]
  · rename_i hc
    split at h
    · simp at h
    rename_i B' hB'
    simp only [Except.ok.injEq, Prod.mk.injEq] at h
    obtain ⟨rfl, rfl⟩ := h
    refine Or.inr ⟨s.i, by rw [hinv.lines, ← hinv.rate, ← hinv.point], ?_, hB'⟩
    rw [not_and_or, not_lt, Bool.not_eq_true] at hc
    rw [← hinv.rate, ← hinv.point]
    refine hc.symm.imp_right fun hf => ?_
    rw [← hf]
    congr 1

/-- C138: if `n` halvings of 0.005 give zero, as in the arithmetic of the machine for some `n`, at most `n` restarts are reported. -/
theorem C138_bound {it : SetIter p} {num : NumLib p e} {d : Data p e} {Binit Badapt : Fin (p * p) → ℝ} {m : LModel p l e} {n : Nat}
    (hn : num.halve^[n] (5 / 1000) = 0) {B : Matrix (Fin p) (Fin p) ℝ} {lines : List (BLine p e)}
    (h : solveForBGradV it num d Binit Badapt m = .ok (B, lines)) : lines.length ≤ n + 1 := by
  have hM : ∃ Ms, m.invNoise = .ok Ms := by
    unfold solveForBGradV at h
    cases hm : m.invNoise with
    | error err => rw [hm] at h; simp at h
    | ok Ms => exact ⟨Ms, rfl⟩
  obtain ⟨Ms, hM⟩ := hM
  obtain ⟨ws, h1, h2⟩ := C138_warnings hM h
  have hws : ws.length ≤ n := by
    by_contra hlt
    push Not at hlt
    exact (h1 n _ (List.getElem?_eq_getElem hlt)).1 hn
  have hr : (restartLines num ws).length = ws.length := by simp [restartLines]
  rcases h2 with ⟨h3, -⟩ | ⟨k, h3, -⟩
  · rw [h3, hr]
    omega
  · rw [h3, List.length_append, hr]
    simpa using hws

/-- C138: if no step and no matrix that it computes overflows, `_solve_for_B_grad` prints nothing. -/
theorem C138_no_overflow {it : SetIter p} {num : NumLib p e} (hfin : ∀ x, num.finite x = true) {d : Data p e} {Binit Badapt : Fin (p * p) → ℝ}
    {m : LModel p l e} {B : Matrix (Fin p) (Fin p) ℝ} {lines : List (BLine p e)}
    (h : solveForBGradV it num d Binit Badapt m = .ok (B, lines)) : lines = [] := by
  have hM : ∃ Ms, m.invNoise = .ok Ms := by
    unfold solveForBGradV at h
    cases hm : m.invNoise with
    | error err => rw [hm] at h; simp at h
    | ok Ms => exact ⟨Ms, rfl⟩
  obtain ⟨Ms, hM⟩ := hM
  obtain ⟨ws, h1, h2⟩ := C138_warnings hM h
  have hws : ws = [] := by
    cases ws with
    | nil => rfl
    | cons i t =>
      have := (h1 0 i rfl).2.1
      rw [hfin] at this
      simp at this
  subst hws
  rcases h2 with ⟨h3, -⟩ | ⟨k, -, h4, -⟩
  · exact h3
  · rw [hfin] at h4
    simp [rateAfter] at h4
    norm_num at h4

/-! ### The warnings in the output of `score_dag` -/

/-- Whether a line of the output is a warning of the solver for `B`. -/
def isWarning : FitLine p l e → Bool
  | .solverB _ => true
  | _ => false

theorem filter_solverB (ws : List (BLine p e)) : (ws.map (.solverB : _ → FitLine p l e)).filter isWarning = ws.map .solverB := by
  rw [List.filter_eq_self]
  intro x hx
  obtain ⟨y, -, rfl⟩ := List.mem_map.1 hx
  rfl

theorem filter_gammaStep (ls : List (GDLine (Fin l × Fin p))) : (ls.map (.gammaStep : _ → FitLine p l e)).filter isWarning = [] := by
  rw [List.filter_eq_nil_iff]
  intro x hx
  obtain ⟨y, -, rfl⟩ := List.mem_map.1 hx
  simp [isWarning]

theorem filter_restStep (ls : List (GDLine (RestIx p l e))) : (ls.map (.restStep : _ → FitLine p l e)).filter isWarning = [] := by
  rw [List.filter_eq_nil_iff]
  intro x hx
  obtain ⟨y, -, rfl⟩ := List.mem_map.1 hx
  simp [isWarning]

theorem filter_printed (v k : Int) (x : FitLine p l e) (h : isWarning x = false) : (printedAbove v k x).filter isWarning = [] := by
  unfold printedAbove
  split <;> simp [h]

theorem descent_quiet {ι : Type} {nArr : Nat} {blk : ι → Nat} {lossFun : (ι → ℝ) → Except Err Flt} {gradFun : (ι → ℝ) → Except Err (ι → ℝ)}
    {threshold learningRate : ℝ} {bounds : Option (List (EReal × EReal))} {kappaZero : ℝ} {Xinit : ι → ℝ} (v : Int) :
    gradientDescentV 0 nArr blk lossFun gradFun Xinit threshold learningRate bounds kappaZero =
      (gradientDescentV v nArr blk lossFun gradFun Xinit threshold learningRate bounds kappaZero).map (fun r => (r.1, [])) := by
  have h0 := gradientDescentV_erase (nArr := nArr) (blk := blk) (lossFun := lossFun) (gradFun := gradFun) (threshold := threshold)
    (learningRate := learningRate) (bounds := bounds) (kappaZero := kappaZero) 0 Xinit
  have hv := gradientDescentV_erase (nArr := nArr) (blk := blk) (lossFun := lossFun) (gradFun := gradFun) (threshold := threshold)
    (learningRate := learningRate) (bounds := bounds) (kappaZero := kappaZero) v Xinit
  have hq := (C136_descent_same (nArr := nArr) (blk := blk) (lossFun := lossFun) (gradFun := gradFun) (threshold := threshold)
    (learningRate := learningRate) (bounds := bounds) (kappaZero := kappaZero) 0 Xinit).2 le_rfl
  rw [← hv] at h0
  cases ha : gradientDescentV 0 nArr blk lossFun gradFun Xinit threshold learningRate bounds kappaZero with
  | error err =>
    rw [ha] at h0
    cases hb : gradientDescentV v nArr blk lossFun gradFun Xinit threshold learningRate bounds kappaZero with
    | error err' => rw [hb] at h0; simpa [Except.map] using h0
    | ok r => rw [hb] at h0; simp [Except.map] at h0
  | ok r =>
    rw [ha] at h0
    cases hb : gradientDescentV v nArr blk lossFun gradFun Xinit threshold learningRate bounds kappaZero with
    | error err' => rw [hb] at h0; simp [Except.map] at h0
    | ok r' =>
      rw [hb] at h0
      simp only [Except.map, Except.ok.injEq] at h0 ⊢
      exact Prod.ext h0 (hq r.1 r.2 ha)

section

variable (v : Int) (it : SetIter p) (num : NumLib p e) (scfg : ScoreCfg) (d : Data p e) (u w : Nat → Fin (p * p) → ℝ)

theorem altBodyV_quiet (I : Finset (Fin p)) (i : Nat) (prev : LModel p l e) :
    altBodyV 0 it (codeSolversV 0 it num scfg d u w I) i prev =
      (altBodyV v it (codeSolversV v it num scfg d u w I) i prev).map (fun r => (r.1, r.2.filter isWarning)) := by
  unfold altBodyV
  cases prev.copy it with
  | error err => rfl
  | ok cur =>
    simp only
    have hB : (codeSolversV 0 it num scfg d u w I).solveB i cur = (codeSolversV v it num scfg d u w I : SolversV p l e).solveB i cur := rfl
    rw [hB]
    cases (codeSolversV v it num scfg d u w I : SolversV p l e).solveB i cur with
    | error err => rfl
    | ok r =>
      obtain ⟨B, ws⟩ := r
      simp only
      have hg : ∀ m, (codeSolversV 0 it num scfg d u w I : SolversV p l e).gamma m =
          ((codeSolversV v it num scfg d u w I : SolversV p l e).gamma m).map (fun r => (r.1, [])) := by
        intro m
        simp only [codeSolversV, solveForGammaV]
        rw [show max (0 : Int) (0 - 1) = 0 by decide, descent_quiet (max 0 (v - 1))]
        cases gradientDescentV (max 0 (v - 1)) 1 (fun _ => 0) (gammaLoss it d m) (gammaGrad it d m) (fun ak => m.gamma ak.1 ak.2) scfg.thresholdScore
          scfg.learningRate none (1 / 10 ^ 50) <;> rfl
      have hr : ∀ m, (codeSolversV 0 it num scfg d u w I : SolversV p l e).rest m =
          ((codeSolversV v it num scfg d u w I : SolversV p l e).rest m).map (fun r => (r.1, [])) := by
        intro m
        simp only [codeSolversV, solveForRestV]
        rw [show max (0 : Int) (0 - 1) = 0 by decide, descent_quiet (max 0 (v - 1))]
        cases gradientDescentV (max 0 (v - 1)) 2 (Sum.elim (fun _ => 0) (fun _ => 1)) (restLoss it d m) (restGrad it d I scfg.psiFixed m)
          (Sum.elim (fun hj => m.omegas hj.1 hj.2) (fun hk => m.psis hk.1 hk.2)) scfg.thresholdScore scfg.learningRate
          (some (restBounds scfg.psiMax)) (1 / 10 ^ 50) <;> rfl
      rw [hg]
      cases (codeSolversV v it num scfg d u w I : SolversV p l e).gamma { cur with B := B } with
      | error err => rfl
      | ok r =>
        obtain ⟨g, gl⟩ := r
        simp only [Except.map]
        rw [hr]
        cases (codeSolversV v it num scfg d u w I : SolversV p l e).rest { cur with B := B, gamma := g } with
        | error err => rfl
        | ok r =>
          obtain ⟨⟨o, ps⟩, rl⟩ := r
          simp only [Except.map, List.filter_append, filter_solverB, filter_gammaStep, filter_restStep]
          simp only [filter_printed _ _ _ (show isWarning (.solvedB : FitLine p l e) = false from rfl),
            filter_printed _ _ _ (show isWarning (.B _ : FitLine p l e) = false from rfl),
            filter_printed _ _ _ (show isWarning (.solvedGamma : FitLine p l e) = false from rfl),
            filter_printed _ _ _ (show isWarning (.gamma _ : FitLine p l e) = false from rfl),
            filter_printed _ _ _ (show isWarning (.solvedRest : FitLine p l e) = false from rfl),
            filter_printed _ _ _ (show isWarning (.rest _ _ : FitLine p l e) = false from rfl)]
          simp [printedAbove_not]

theorem altStepV_quiet (I : Finset (Fin p)) (cfg : StopCfg) (s : AltStateV p l e) :
    altStepV 0 it (codeSolversV 0 it num scfg d u w I) cfg d ⟨s.st, s.lines.filter isWarning⟩ =
      (altStepV v it (codeSolversV v it num scfg d u w I) cfg d s).map
        (Sum.map (fun s => ⟨s.st, s.lines.filter isWarning⟩) (fun s => ⟨s.st, s.lines.filter isWarning⟩)) := by
  unfold altStepV
  simp only
  split
  · rfl
  rw [altBodyV_quiet v]
  cases altBodyV v it (codeSolversV v it num scfg d u w I) s.st.i s.st.prev with
  | error err => rfl
  | ok r =>
    obtain ⟨cur, lines⟩ := r
    simp only [Except.map]
    split
    · rfl
    cases cur.score (List.ofFn d.covs) (List.ofFn d.nObs) with
    | error err => rfl
    | ok score =>
      simp only [Sum.map, Sum.elim_inl, Function.comp, List.filter_append,
        filter_printed _ _ _ (show isWarning (.iter _ _ _ _ : FitLine p l e) = false from rfl), filter_printed _ _ _ (show isWarning (.newB _ : FitLine p l e) = false from rfl)]
      simp [printedAbove_not]

end

/-- C138: the warnings do not depend on `verbose`: if `score_dag` returns with some verbosity, then with `verbose = 0` it returns the same and prints
exactly the warnings among the lines, in the same order. -/
theorem C138_same_warnings {v : Int} {it : SetIter p} {svd : Matrix (Fin p) (Fin p) ℝ → Matrix (Fin p) (Fin p) ℝ × (Fin p → ℝ)}
    {svdU : Matrix (Fin p) (Fin l) ℝ → Matrix (Fin p) (Fin (min p l)) ℝ} {T : Texts} {num : NumLib p e} {scfg : ScoreCfg} {u w : Nat → Fin (p * p) → ℝ}
    {cfg : StopCfg} {d : Data p e} {A : Adj p} {I : Finset (Fin p)} {init : Option (LModel p l e)} {m : LModel p l e} {s : Flt}
    {lines : List (FitLine p l e)}
    (h : fitDagV v it svd svdU T (codeSolversV v it num scfg d u w) cfg d A I init = .ok ((m, s), lines)) :
    fitDagV 0 it svd svdU T (codeSolversV 0 it num scfg d u w) cfg d A I init = .ok ((m, s), lines.filter isWarning) := by
  unfold fitDagV at h ⊢
  split at h
  · simp at h
  rename_i hdag
  rw [if_neg hdag]
  split at h
  · simp at h
  rename_i m0 hm0
  split at h
  · simp at h
  rename_i l0 hl0
  have hl0' : l0.filter isWarning = [] := by
    split at hl0
    · split at hl0
      · simp at hl0
      · cases hl0
        rfl
    · cases hl0
      rfl
  simp only [lt_irrefl, if_false]
  split at h
  · simp at h
  rename_i s0 hs0
  have hsim := runLoop_sim (fun s : AltStateV p l e => (⟨s.st, s.lines.filter isWarning⟩ : AltStateV p l e))
    (fun s : AltStateV p l e => (⟨s.st, s.lines.filter isWarning⟩ : AltStateV p l e)) (altStepV_quiet v it num scfg d u w I cfg)
    ⟨{ prev := m0, prevScore := s0, diff := none, i := 0, flucs := 0, cur := none }, l0⟩
  simp only [hl0'] at hsim
  rw [hsim]
  split at h
  · simp at h
  rename_i st hst
  rw [hst]
  simp only [Except.map]
  split at h
  · simp at h
  rename_i r hr
  simp only [Except.ok.injEq, Prod.mk.injEq] at h ⊢
  exact ⟨h.1, by rw [h.2]⟩

/-- C138: if nothing overflows, `score_dag` with `verbose ≤ 0` prints nothing, whatever the solver. -/
theorem C138_silent {v : Int} (hv : v ≤ 0) {it : SetIter p} {svd : Matrix (Fin p) (Fin p) ℝ → Matrix (Fin p) (Fin p) ℝ × (Fin p → ℝ)}
    {svdU : Matrix (Fin p) (Fin l) ℝ → Matrix (Fin p) (Fin (min p l)) ℝ} {T : Texts} {num : NumLib p e} (hfin : ∀ x, num.finite x = true)
    {scfg : ScoreCfg} {u w : Nat → Fin (p * p) → ℝ} {cfg : StopCfg} {d : Data p e} {A : Adj p} {I : Finset (Fin p)} {init : Option (LModel p l e)}
    {m : LModel p l e} {s : Flt} {lines : List (FitLine p l e)}
    (h : fitDagV v it svd svdU T (codeSolversV v it num scfg d u w) cfg d A I init = .ok ((m, s), lines)) : lines = [] := by
  have h1 := (C136_silent hv h).1
  have h2 : ∀ y, (.solverB y : FitLine p l e) ∉ lines := by
    refine fitDagV_ok h (fun ls _ => ∀ y, (.solverB y : FitLine p l e) ∉ ls) ?_ ?_ ?_
    · intro m0 t _ _ h0
      simp
    · simp
    · intro ls o i m0 m1 m2 ws gl rl b g q x c hls hb hg hr y hy
      have hws : ws = [] := by
        by_cases hs : scfg.solver = .grad
        · unfold codeSolversV at hb
          simp only [hs] at hb
          exact C138_no_overflow hfin hb
        · exact solverB_silent hs hb
      rcases List.mem_append.1 hy with hy | hy
      · exact hls y hy
      · rw [hws] at hy
        unfold iterationLines printedAbove at hy
        simp at hy
  rw [List.eq_nil_iff_forall_not_mem]
  intro x hx
  obtain ⟨y, rfl⟩ := h1 x hx
  exact h2 y hx

/-! ### Concrete cases -/

namespace BWarnings

/-- One variable. -/
def model : LModel 1 0 1 := ⟨fun _ _ => 0, 0, fun i => i.elim0, fun _ _ => 1, fun _ i => i.elim0, 1⟩

theorem noise_one (k : Fin 1) : model.noise k = 1 := by
  ext i j
  fin_cases i
  fin_cases j
  unfold LModel.noise
  rw [Matrix.add_apply, Matrix.mul_apply, Finset.univ_eq_empty, Finset.sum_empty]
  simp [model]

theorem invNoise : model.invNoise = .ok (fun _ => 1) := by
  unfold LModel.invNoise
  simp [noise_one]

theorem nMatrix_mulVec (num : NumLib 1 1) (hs : num.sqrtm 1 = 1) (x : Fin (1 * 1) → ℝ) : nMatrix num ⟨fun _ => 1, fun _ => 10⟩ (fun _ => 1) *ᵥ x = x := by
  have h : nMatrix num ⟨fun _ => 1, fun _ => 10⟩ (fun _ => 1) = 1 := by
    ext i j
    have hi : i = 0 := Subsingleton.elim (α := Fin 1) _ _
    have hj : j = 0 := Subsingleton.elim (α := Fin 1) _ _
    subst hi hj
    simp [nMatrix, hs, kron, Matrix.mul_apply]
  rw [h, Matrix.one_mulVec]

theorem mask (x : Fin (1 * 1) → ℝ) : maskVec model.A x = fun _ => 1 := by
  funext k
  have hk : k.modNat = k.divNat := Subsingleton.elim _ _
  simp [maskVec, oneElements, flattenF, hk]

theorem weights : unflattenB (fun _ : Fin (1 * 1) => (1 : ℝ)) = 0 := by
  ext i j
  fin_cases i
  fin_cases j
  simp [unflattenB, reshapeF]

/-- Steps of size 3 are too large. -/
noncomputable def num : NumLib 1 1 := ⟨id, fun x => decide (|x 0| < 3), fun x => x / 2, fun _ _ _ => none⟩

/-- A concrete case for `C138_warnings`: from 1000 the first step, 5, is too large and half of it is not; one restart is reported, and then the descent
converges in the second step. -/
theorem restart (it : SetIter 1) (Badapt : Fin (1 * 1) → ℝ) :
    solveForBGradV it num ⟨fun _ => 1, fun _ => 10⟩ (fun _ => 1000) Badapt model = .ok (0, [.notFinite 0 (5 / 1000)]) := by
  unfold solveForBGradV
  rw [invNoise]
  simp only
  rw [runLoop_of_iter (n := 4) (r := .ok ⟨{ B := fun _ => 1, Bnew := fun _ => 1, lr := 5 / 1000 / 2 }, 2, [.notFinite 0 (5 / 1000)]⟩)]
  · simp only [weights]
    rw [if_pos]
    refine ⟨?_, by norm_num⟩
    simp [num, flattenF]
  · norm_num [iterLoop, gradStepV, nMatrix_mulVec, num, mask]

/-- Every step is too large and the first halving underflows. -/
noncomputable def num' : NumLib 1 1 := ⟨id, fun x => decide (x 0 = 0), fun _ => 0, fun _ _ _ => none⟩

/-- A concrete case with the other ending: the restart and the failure are reported, and the result is that of the adaptive solver. -/
example (it : SetIter 1) (Badapt : Fin (1 * 1) → ℝ) :
    solveForBGradV it num' ⟨fun _ => 1, fun _ => 10⟩ (fun _ => 1) Badapt model =
      .ok (0, [.notFinite 0 (5 / 1000), .failed (fun _ _ => 1) (fun _ => 1) 0]) := by
  have hn : Nonneg model.A := by unfold Nonneg model; simp
  have hac : Acyclic model.A := (isDag_iff (SetIter.incr 1) hn).1 (by decide)
  have had : solveForBAdaptive it num' ⟨fun _ => 1, fun _ => 10⟩ Badapt model = .ok 0 := by
    unfold solveForBAdaptive
    rw [invNoise]
    simp only [mask]
    have hlik := likelihood_traceLoss it ⟨fun _ => 1, fun _ => 10⟩ model hn hac (fun _ _ => one_pos) (fun _ i => i.elim0) (by simp) (fun _ => 1)
      (by rw [weights]; intro i j _; rfl)
    rw [hlik]
    simp only
    rw [runLoop_of_iter (n := 1) (r := .ok (fun _ => 1))]
    · simp [weights, num', flattenF]
    · simp [iterLoop, adaptStep, mask, hlik, Flt.lt]
  unfold solveForBGradV
  rw [invNoise, had]
  simp only
  rw [runLoop_of_iter (n := 2) (r := .ok ⟨{ B := 0, Bnew := fun _ => 1, lr := 0 }, 0, [.notFinite 0 (5 / 1000)]⟩)]
  · simp [model]
  · norm_num [iterLoop, gradStepV, nMatrix_mulVec, num']

theorem gammaV_quiet {p l e : Nat} {it : SetIter p} {d : Data p e} {thr lr : ℝ} {m : LModel p l e} {g : Matrix (Fin l) (Fin p) ℝ}
    (h : solveForGamma it d thr lr m = .ok g) : solveForGammaV 0 it d thr lr m = .ok (g, []) := by
  unfold solveForGamma at h
  unfold solveForGammaV
  rw [← gradientDescentV_erase 0] at h
  cases hg : gradientDescentV 0 1 (fun _ => 0) (gammaLoss it d m) (gammaGrad it d m) (fun ak => m.gamma ak.1 ak.2) thr lr none (1 / 10 ^ 50) with
  | error err => rw [hg] at h; simp [Except.map] at h
  | ok r =>
    obtain ⟨r, lines⟩ := r
    rw [hg] at h
    simp only [Except.map, Except.ok.injEq] at h
    simp only [h, (C136_descent_same 0 _).2 le_rfl _ _ hg]

theorem restV_quiet {p l e : Nat} {it : SetIter p} {d : Data p e} {I : Finset (Fin p)} {psiMax : Option ℝ} {psiFixed : Bool} {thr lr : ℝ}
    {m : LModel p l e} {r : Matrix (Fin e) (Fin p) ℝ × Matrix (Fin e) (Fin l) ℝ}
    (h : solveForRest it d I psiMax psiFixed thr lr m = .ok r) : solveForRestV 0 it d I psiMax psiFixed thr lr m = .ok (r, []) := by
  unfold solveForRest at h
  unfold solveForRestV
  rw [← gradientDescentV_erase 0] at h
  cases hg : gradientDescentV 0 2 (Sum.elim (fun _ => 0) (fun _ => 1)) (restLoss it d m) (restGrad it d I psiFixed m)
    (Sum.elim (fun hj => m.omegas hj.1 hj.2) (fun hk => m.psis hk.1 hk.2)) thr lr (some (restBounds psiMax)) (1 / 10 ^ 50) with
  | error err => rw [hg] at h; simp [Except.map] at h
  | ok r' =>
    obtain ⟨r', lines⟩ := r'
    rw [hg] at h
    simp only [Except.map, Except.ok.injEq] at h
    simp only [h, (C136_descent_same 0 _).2 le_rfl _ _ hg]

/-- A concrete case for `C138_same_warnings`: a run of one iteration in which the solver for `B` restarts once.  With `verbose = 0` the warning is all
that is printed, and with `verbose = 1` it is the only warning. -/
example (svd : Matrix (Fin 1) (Fin 1) ℝ → Matrix (Fin 1) (Fin 1) ℝ × (Fin 1 → ℝ)) (svdU : Matrix (Fin 1) (Fin 0) ℝ → Matrix (Fin 1) (Fin (min 1 0)) ℝ)
    (T : Texts) (w : Nat → Fin (1 * 1) → ℝ) :
    ∃ (cfg : ScoreCfg) (m : LModel 1 0 1) (s : Flt) (lines : List (FitLine 1 0 1)),
      fitDagV 1 (SetIter.incr 1) svd svdU T (codeSolversV 1 (SetIter.incr 1) num cfg ⟨fun _ => 1, fun _ => 10⟩ (fun _ _ => 1000) w) cfg.stop
        ⟨fun _ => 1, fun _ => 10⟩ model.A ∅ (some model) = .ok ((m, s), lines) ∧
      lines.filter isWarning = [.solverB (.notFinite 0 (5 / 1000))] ∧
      fitDagV 0 (SetIter.incr 1) svd svdU T (codeSolversV 0 (SetIter.incr 1) num cfg ⟨fun _ => 1, fun _ => 10⟩ (fun _ _ => 1000) w) cfg.stop
        ⟨fun _ => 1, fun _ => 10⟩ model.A ∅ (some model) = .ok ((m, s), [.solverB (.notFinite 0 (5 / 1000))]) := by
  have hn : Nonneg model.A := by unfold Nonneg model; simp
  have hdag : isDag (SetIter.incr 1) model.A = true := by decide
  have hac : Acyclic model.A := (isDag_iff (SetIter.incr 1) hn).1 hdag
  have hd : GoodData (⟨fun _ => 1, fun _ => 10⟩ : Data 1 1) := ⟨fun _ => Matrix.PosDef.one, fun _ => by norm_num, one_pos⟩
  have hgood : GoodModel (SetIter.incr 1) model.A none model := ⟨rfl, fun _ _ _ => rfl, fun _ _ => one_pos, fun _ i => i.elim0, by simp⟩
  have hcopy : model.copy (SetIter.incr 1) = .ok model := by
    unfold LModel.copy
    rw [mkModel_eq_ok hn _ _ _ hac hgood.respects]
    simp [model]
  obtain ⟨cfg, hcfg⟩ : ∃ cfg : ScoreCfg, cfg = ⟨.grad, none, false, ⟨1, 1 / 1000, 1 / 100000, 10⟩, 1 / 100000, 10⟩ := ⟨_, rfl⟩
  have hthr : 0 < cfg.thresholdScore := by rw [hcfg]; norm_num
  obtain ⟨g, hg⟩ := solveForGamma_returns (lr := cfg.learningRate) hn hac _ hd hthr hgood
  have hgood' : GoodModel (SetIter.incr 1) model.A cfg.psiMax { model with gamma := g } :=
    ⟨rfl, fun _ _ _ => rfl, fun _ _ => one_pos, fun _ i => i.elim0, fun _ _ _ i => i.elim0⟩
  obtain ⟨r, hr⟩ := solveForRest_returns (lr := cfg.learningRate) hn hac (by rw [hcfg]; simp) _ hd ∅ cfg.psiFixed hthr hgood'
  have hbody : altBodyV 0 (SetIter.incr 1) (codeSolversV 0 (SetIter.incr 1) num cfg ⟨fun _ => 1, fun _ => 10⟩ (fun _ _ => 1000) w ∅) 0 model =
      .ok ({ model with gamma := g, omegas := r.1, psis := r.2 }, [.solverB (.notFinite 0 (5 / 1000))]) := by
    have h1 : (codeSolversV 0 (SetIter.incr 1) num cfg ⟨fun _ => 1, fun _ => 10⟩ (fun _ _ => 1000) w ∅).solveB 0 model =
        .ok (0, [.notFinite 0 (5 / 1000)]) := by
      simp only [codeSolversV, hcfg]
      exact restart _ _
    have h2 : (codeSolversV 0 (SetIter.incr 1) num cfg ⟨fun _ => 1, fun _ => 10⟩ (fun _ _ => 1000) w ∅).gamma model = .ok (g, []) := gammaV_quiet hg
    have h3 : (codeSolversV 0 (SetIter.incr 1) num cfg ⟨fun _ => 1, fun _ => 10⟩ (fun _ _ => 1000) w ∅).rest { model with B := 0, gamma := g } =
        .ok (r, []) := restV_quiet hr
    unfold altBodyV
    rw [hcopy]
    simp only [h1]
    rw [show ({ model with B := 0 } : LModel 1 0 1) = model from rfl, h2]
    simp only [h3]
    simp [printedAbove]
    rfl
  obtain ⟨h4, -, -⟩ := solveForRest_inBounds hr
  have hs0 := scoreOn_ok _ hd model (fun _ _ => one_pos) (fun _ i => i.elim0)
  have hs1 := scoreOn_ok _ hd { model with gamma := g, omegas := r.1, psis := r.2 } h4 (fun _ i => i.elim0)
  unfold LModel.scoreOn at hs0 hs1
  obtain ⟨s0, hs0⟩ : ∃ s0, model.score (List.ofFn (⟨fun _ => 1, fun _ => 10⟩ : Data 1 1).covs) (List.ofFn (⟨fun _ => 1, fun _ => 10⟩ : Data 1 1).nObs) = .ok s0 :=
    ⟨_, hs0⟩
  obtain ⟨s1, hs1⟩ : ∃ s1, LModel.score { model with gamma := g, omegas := r.1, psis := r.2 } (List.ofFn (⟨fun _ => 1, fun _ => 10⟩ : Data 1 1).covs)
    (List.ofFn (⟨fun _ => 1, fun _ => 10⟩ : Data 1 1).nObs) = .ok s1 := ⟨_, hs1⟩
  have h0 : ∃ x, fitDagV 0 (SetIter.incr 1) svd svdU T (codeSolversV 0 (SetIter.incr 1) num cfg ⟨fun _ => 1, fun _ => 10⟩ (fun _ _ => 1000) w) cfg.stop
        ⟨fun _ => 1, fun _ => 10⟩ model.A ∅ (some model) = .ok (x, [.solverB (.notFinite 0 (5 / 1000))]) := by
    have hstep : ∃ st, altStepV 0 (SetIter.incr 1) (codeSolversV 0 (SetIter.incr 1) num cfg ⟨fun _ => 1, fun _ => 10⟩ (fun _ _ => 1000) w ∅) cfg.stop
        ⟨fun _ => 1, fun _ => 10⟩ ⟨{ prev := model, prevScore := s0, diff := none, i := 0, flucs := 0, cur := none }, []⟩ = .ok (.inl st) ∧
        st.st.i = 1 ∧ (∃ r, st.st.cur = some r) ∧ st.lines = [.solverB (.notFinite 0 (5 / 1000))] := by
      unfold altStepV
      rw [if_neg (by rw [hcfg]; simp [distGt])]
      simp only [hbody, hs1]
      refine ⟨_, rfl, rfl, ⟨_, rfl⟩, ?_⟩
      simp [printedAbove]
    obtain ⟨st, hst, hi, ⟨x, hx⟩, hl⟩ := hstep
    refine ⟨x, ?_⟩
    unfold fitDagV
    rw [if_neg (by simp [hdag])]
    simp only [ne_eq, not_true_eq_false, if_false, lt_irrefl, hs0]
    rw [runLoop_of_iter (n := 2) (r := .ok st)]
    · simp only [hx, hl]
    · simp only [iterLoop, hst]
      unfold altStepV
      rw [if_pos (by rw [hcfg, hi]; simp)]
  obtain ⟨⟨m, s⟩, h0⟩ := h0
  have hsame := fun v => C136_same_result v (SetIter.incr 1) svd svdU T num cfg (fun _ _ => 1000) w cfg.stop _ hd model.A hn ∅ (some model) one_ne_zero
    (by rintro m ⟨⟩ k j; exact one_ne_zero)
  have h1 := hsame 1
  rw [← hsame 0, h0] at h1
  cases h2 : fitDagV 1 (SetIter.incr 1) svd svdU T (codeSolversV 1 (SetIter.incr 1) num cfg ⟨fun _ => 1, fun _ => 10⟩ (fun _ _ => 1000) w) cfg.stop
        ⟨fun _ => 1, fun _ => 10⟩ model.A ∅ (some model) with
  | error err => rw [h2] at h1; simp [Except.map] at h1
  | ok x =>
    obtain ⟨⟨m', s'⟩, lines⟩ := x
    have h3 := C138_same_warnings h2
    rw [h0] at h3
    simp only [Except.ok.injEq, Prod.mk.injEq] at h3
    refine ⟨cfg, m, s, lines, ?_, h3.2.symm, h0⟩
    rw [h2, h3.1.1, h3.1.2]

end BWarnings

end Verif
