import Verif.Proof.Score

/-!
# C44-C49, C52: the alternating optimisation
-/

namespace Verif

open Spec Matrix

variable {p l e : Nat}

/-! ## Specification of the run -/

namespace Spec

/-- The models of a procedure that repeats `body`, as long as it does not raise. -/
def iterates {M : Type} (body : Nat → M → Except Err M) (m0 : M) : Nat → Except Err M
  | 0 => .ok m0
  | k + 1 => match iterates body m0 k with
    | .error err => .error err
    | .ok m => body k m

variable {M : Type} (body : Nat → M → Except Err M) (score : M → Except Err Flt) (weights : M → Matrix (Fin p) (Fin p) ℝ)

/-- Iteration `k` (from model `k` to model `k + 1`) makes the score worse by more than `t`. -/
def Fluctuation (m0 : M) (t : ℝ) (k : Nat) : Prop :=
  ∃ m m' x y, iterates body m0 k = .ok m ∧ iterates body m0 (k + 1) = .ok m' ∧ score m = .ok (some x) ∧
    score m' = .ok (some y) ∧ x + t < y

open Classical in
/-- Number of fluctuations in the first `n` iterations. -/
noncomputable def fluctuations (m0 : M) (t : ℝ) (n : Nat) : Nat := ((Finset.range n).filter (Fluctuation body score m0 t)).card

/-- Iteration `k` changes some weight by more than `t`. -/
def Moves (m0 : M) (t : ℝ) (k : Nat) : Prop :=
  ∃ m m', iterates body m0 k = .ok m ∧ iterates body m0 (k + 1) = .ok m' ∧ ∃ i j, t < |weights m i j - weights m' i j|

/-- None of the three documented stopping criteria is met after `k` iterations. -/
def GoesOn (cfg : StopCfg) (m0 : M) (k : Nat) : Prop :=
  (k : Int) < cfg.maxIter ∧ (fluctuations body score m0 cfg.thresholdFluctuation k : Int) < cfg.maxFluctuations ∧
    ∀ j, k = j + 1 → Moves body weights m0 cfg.thresholdDistB j

end Spec

/-- The score of a model on the data of the `Score` object. -/
noncomputable def LModel.scoreOn (d : Data p e) (m : LModel p l e) : Except Err Flt := m.score (List.ofFn d.covs) (List.ofFn d.nObs)

section Alt

variable (it : SetIter p) (sv : Solvers p l e) (cfg : StopCfg) (d : Data p e) (m0 : LModel p l e)

theorem fluctuations_succ {M : Type} (body : Nat → M → Except Err M) (score : M → Except Err Flt) (m0 : M) (t : ℝ) (n : Nat) :
    open Classical in
    fluctuations body score m0 t (n + 1) =
      fluctuations body score m0 t n + if Fluctuation body score m0 t n then 1 else 0 := by
  classical
  unfold fluctuations
  rw [Finset.range_add_one, Finset.filter_insert]
  split_ifs
  · rw [Finset.card_insert_of_notMem (by simp)]
  · rfl

/-- What is known about the variables of the loop. -/
structure AltInv (s : AltState p l e) : Prop where
  prev : iterates (altBody it sv) m0 s.i = .ok s.prev
  score : s.prev.scoreOn d = .ok s.prevScore
  last : (s.i = 0 ∧ s.diff = none ∧ s.cur = none) ∨ ∃ j m', s.i = j + 1 ∧ iterates (altBody it sv) m0 j = .ok m' ∧
    s.diff = some (m'.B - s.prev.B) ∧ s.cur = some (s.prev, s.prevScore)
  flucs : s.flucs = fluctuations (altBody it sv) (LModel.scoreOn d) m0 cfg.thresholdFluctuation s.i
  past : ∀ k < s.i, GoesOn (altBody it sv) (LModel.scoreOn d) LModel.B cfg m0 k

variable {it sv cfg d m0}

theorem AltInv.init {s0 : Flt} (hs0 : m0.score (List.ofFn d.covs) (List.ofFn d.nObs) = .ok s0) :
    AltInv it sv cfg d m0 { prev := m0, prevScore := s0, diff := none, i := 0, flucs := 0, cur := none } where
  prev := rfl
  score := hs0
  last := Or.inl ⟨rfl, rfl, rfl⟩
  flucs := by simp [fluctuations]
  past := by intro k hk; exact absurd hk (Nat.not_lt_zero k)

theorem altStep_stop {s : AltState p l e}
    (h : ¬ (distGt s.diff cfg.thresholdDistB ∧ (s.i : Int) < cfg.maxIter ∧ (s.flucs : Int) < cfg.maxFluctuations)) :
    altStep it sv cfg d s = .ok (.inr s) := by
  unfold altStep
  rw [if_pos h]

open Classical in
/-- The possible outcomes of a step that is not the exit. -/
theorem altStep_go {s : AltState p l e}
    (h : distGt s.diff cfg.thresholdDistB ∧ (s.i : Int) < cfg.maxIter ∧ (s.flucs : Int) < cfg.maxFluctuations) :
    (∃ err, altBody it sv s.i s.prev = .error err ∧ altStep it sv cfg d s = .error err) ∨
    altStep it sv cfg d s = .error .valueError ∨
    (∃ cur err, altBody it sv s.i s.prev = .ok cur ∧ cur.score (List.ofFn d.covs) (List.ofFn d.nObs) = .error err ∧
      altStep it sv cfg d s = .error err) ∨
    ∃ cur score, altBody it sv s.i s.prev = .ok cur ∧ cur.score (List.ofFn d.covs) (List.ofFn d.nObs) = .ok score ∧
      altStep it sv cfg d s = .ok (.inl
        { prev := cur
          prevScore := score
          diff := some (s.prev.B - cur.B)
          i := s.i + 1
          flucs := if score.subGt s.prevScore cfg.thresholdFluctuation then s.flucs + 1 else s.flucs
          cur := some (cur, score) }) := by
  unfold altStep
  rw [if_neg (not_not.2 h)]
  cases hb : altBody it sv s.i s.prev with
  | error err => exact Or.inl ⟨err, rfl, rfl⟩
  | ok cur =>
    by_cases hp : p = 0
    · right; left; simp only []; rw [if_pos hp]
    · simp only [if_neg hp]
      cases hs : cur.score (List.ofFn d.covs) (List.ofFn d.nObs) with
      | error err => exact Or.inr (Or.inr (Or.inl ⟨cur, err, rfl, hs, by simp only []⟩))
      | ok score => exact Or.inr (Or.inr (Or.inr ⟨cur, score, rfl, hs, by simp only []⟩))

/-- The possible exceptions of an iteration. -/
theorem altBody_error {i : Nat} {prev : LModel p l e} {err : Err} (h : altBody it sv i prev = .error err) :
    err = .valueError ∨ (∃ i m, sv.solveB i m = .error err) ∨ (∃ m, sv.gamma m = .error err) ∨ ∃ m, sv.rest m = .error err := by
  unfold altBody at h
  split at h
  · rename_i hc
    simp only [Except.error.injEq] at h
    subst h
    exact Or.inl (mkModel_error hc)
  · split at h
    · rename_i hc
      simp only [Except.error.injEq] at h
      subst h
      exact Or.inr (Or.inl ⟨_, _, hc⟩)
    · simp only [] at h
      split at h
      · rename_i hc
        simp only [Except.error.injEq] at h
        subst h
        exact Or.inr (Or.inr (Or.inl ⟨_, hc⟩))
      · split at h
        · rename_i hc
          simp only [Except.error.injEq] at h
          subst h
          exact Or.inr (Or.inr (Or.inr ⟨_, hc⟩))
        · simp at h

theorem AltInv.goesOn {s : AltState p l e} (hs : AltInv it sv cfg d m0 s) :
    (distGt s.diff cfg.thresholdDistB ∧ (s.i : Int) < cfg.maxIter ∧ (s.flucs : Int) < cfg.maxFluctuations) ↔
      GoesOn (altBody it sv) (LModel.scoreOn d) LModel.B cfg m0 s.i := by
  unfold GoesOn
  rw [← hs.flucs]
  rcases hs.last with ⟨h1, h2, -⟩ | ⟨j, m', h1, h2, h3, -⟩
  · rw [h2]
    simp only [distGt, true_and]
    refine ⟨fun h => ⟨h.1, h.2, fun j hj => ?_⟩, fun h => ⟨h.1, h.2.1⟩⟩
    omega
  · rw [h3]
    constructor
    · rintro ⟨⟨a, b, hab⟩, h4, h5⟩
      refine ⟨h4, h5, fun j' hj' => ?_⟩
      obtain rfl : j' = j := by omega
      exact ⟨m', s.prev, h2, by rw [← h1]; exact hs.prev, a, b, by simpa [Matrix.sub_apply] using hab⟩
    · rintro ⟨h4, h5, h6⟩
      refine ⟨?_, h4, h5⟩
      obtain ⟨m1, m2, h7, h8, a, b, hab⟩ := h6 j h1
      rw [h2] at h7
      rw [← h1, hs.prev] at h8
      simp only [Except.ok.injEq] at h7 h8
      subst h7 h8
      exact ⟨a, b, by simpa [Matrix.sub_apply] using hab⟩

theorem AltInv.step {s s' : AltState p l e} (hs : AltInv it sv cfg d m0 s) (h : altStep it sv cfg d s = .ok (.inl s')) :
    AltInv it sv cfg d m0 s' := by
  by_cases hg : distGt s.diff cfg.thresholdDistB ∧ (s.i : Int) < cfg.maxIter ∧ (s.flucs : Int) < cfg.maxFluctuations
  · rcases altStep_go (it := it) (sv := sv) (d := d) hg with ⟨_, -, h1⟩ | h1 | ⟨_, _, -, -, h1⟩ | ⟨cur, score, hcur, hscore, h1⟩
    · rw [h1] at h; simp at h
    · rw [h1] at h; simp at h
    · rw [h1] at h; simp at h
    · rw [h1] at h
      simp only [Except.ok.injEq, Sum.inl.injEq] at h
      subst h
      have hit : iterates (altBody it sv) m0 (s.i + 1) = .ok cur := by
        rw [iterates, hs.prev]; exact hcur
      refine ⟨hit, hscore, Or.inr ⟨s.i, s.prev, rfl, hs.prev, rfl, rfl⟩, ?_, ?_⟩
      · simp only []
        rw [fluctuations_succ, hs.flucs]
        have hiff : Flt.subGt score s.prevScore cfg.thresholdFluctuation ↔
            Fluctuation (altBody it sv) (LModel.scoreOn d) m0 cfg.thresholdFluctuation s.i := by
          constructor
          · intro hf
            cases score with
            | none => simp [Flt.subGt] at hf
            | some y =>
              cases hx : s.prevScore with
              | none => rw [hx] at hf; simp [Flt.subGt] at hf
              | some x =>
                rw [hx] at hf
                refine ⟨s.prev, cur, x, y, hs.prev, hit, by rw [hs.score, hx], hscore, ?_⟩
                simp only [Flt.subGt] at hf
                linarith
          · rintro ⟨m1, m2, x, y, h1, h2, h3, h4, h5⟩
            rw [hs.prev] at h1
            rw [hit] at h2
            simp only [Except.ok.injEq] at h1 h2
            subst h1 h2
            rw [hs.score] at h3
            unfold LModel.scoreOn at h4
            rw [hscore] at h4
            simp only [Except.ok.injEq] at h3 h4
            rw [h3, h4]
            simp only [Flt.subGt]
            linarith
        by_cases hf : Flt.subGt score s.prevScore cfg.thresholdFluctuation
        · rw [if_pos hf, if_pos (hiff.1 hf)]
        · rw [if_neg hf, if_neg (fun hc => hf (hiff.2 hc)), add_zero]
      · intro k hk
        rcases Nat.lt_succ_iff_lt_or_eq.1 hk with hk | rfl
        · exact hs.past k hk
        · exact hs.goesOn.1 hg
  · rw [altStep_stop hg] at h
    simp at h

theorem altStep_inr {s r : AltState p l e} (hs : AltInv it sv cfg d m0 s) (h : altStep it sv cfg d s = .ok (.inr r)) :
    r = s ∧ ¬ GoesOn (altBody it sv) (LModel.scoreOn d) LModel.B cfg m0 s.i := by
  by_cases hg : distGt s.diff cfg.thresholdDistB ∧ (s.i : Int) < cfg.maxIter ∧ (s.flucs : Int) < cfg.maxFluctuations
  · exfalso
    rcases altStep_go (it := it) (sv := sv) (d := d) hg with ⟨_, -, h1⟩ | h1 | ⟨_, _, -, -, h1⟩ | ⟨cur, score, hcur, hscore, h1⟩ <;>
      rw [h1] at h <;> simp at h
  · rw [altStep_stop hg] at h
    simp only [Except.ok.injEq, Sum.inr.injEq] at h
    exact ⟨h.symm, fun hc => hg (hs.goesOn.2 hc)⟩

/-- What is known when the loop is left. -/
theorem altLoop_ok {s0 : Flt} (hs0 : m0.score (List.ofFn d.covs) (List.ofFn d.nObs) = .ok s0) {r : AltState p l e}
    (h : runLoop (altStep it sv cfg d) { prev := m0, prevScore := s0, diff := none, i := 0, flucs := 0, cur := none } = .ok r) :
    AltInv it sv cfg d m0 r ∧ ¬ GoesOn (altBody it sv) (LModel.scoreOn d) LModel.B cfg m0 r.i := by
  refine runLoop_ok (AltInv it sv cfg d m0) (fun r => AltInv it sv cfg d m0 r ∧
          ¬ GoesOn (altBody it sv) (LModel.scoreOn d) LModel.B cfg m0 r.i)
        (fun s s' hs hstep => hs.step hstep) (fun s r hs hstep => ?_) (AltInv.init hs0) h
  obtain ⟨rfl, h1⟩ := altStep_inr hs hstep
  exact ⟨hs, h1⟩

/-- C44: whatever the sub-procedures do, a returned model is the result of some number `n ≥ 1` of iterations, `n` being the first
number after which one of the three documented criteria (distance of successive `B`, iterations, fluctuations of the score) says
stop, and the returned score is its score. -/
theorem C44_run {m : LModel p l e} {s : Flt} (h : alternate it sv cfg d m0 = .ok (m, s)) :
    ∃ n, 0 < n ∧ iterates (altBody it sv) m0 n = .ok m ∧ m.scoreOn d = .ok s ∧
      (∀ k < n, GoesOn (altBody it sv) (LModel.scoreOn d) LModel.B cfg m0 k) ∧
      ¬ GoesOn (altBody it sv) (LModel.scoreOn d) LModel.B cfg m0 n := by
  unfold alternate at h
  split at h
  · simp at h
  · rename_i s0 hs0
    split at h
    · simp at h
    · rename_i st hst
      obtain ⟨h1, h2⟩ := altLoop_ok hs0 hst
      split at h
      · simp at h
      · rename_i r hr
        simp only [Except.ok.injEq] at h
        subst h
        rcases h1.last with ⟨-, -, h3⟩ | ⟨j, m', h3, -, -, h5⟩
        · rw [h3] at hr; simp at hr
        · rw [h5] at hr
          simp only [Option.some.injEq, Prod.mk.injEq] at hr
          obtain ⟨rfl, rfl⟩ := hr
          exact ⟨st.i, by omega, h1.prev, h1.score, h1.past, h2⟩

/-- C44: at most `max_iter` iterations and at most `max_fluctuations` fluctuations take place before a model is returned. -/
theorem C44_bounds {m : LModel p l e} {s : Flt} (h : alternate it sv cfg d m0 = .ok (m, s)) :
    ∃ n, 0 < n ∧ iterates (altBody it sv) m0 n = .ok m ∧ (n : Int) ≤ cfg.maxIter ∧
      (fluctuations (altBody it sv) (LModel.scoreOn d) m0 cfg.thresholdFluctuation n : Int) ≤ cfg.maxFluctuations := by
  obtain ⟨n, h0, h1, -, h2, -⟩ := C44_run h
  obtain ⟨j, rfl⟩ : ∃ j, n = j + 1 := ⟨n - 1, by omega⟩
  obtain ⟨h3, h4, -⟩ := h2 j (by omega)
  refine ⟨j + 1, h0, h1, by push_cast; omega, ?_⟩
  rw [fluctuations_succ]
  split_ifs <;> push_cast <;> omega

theorem altStep_stops (s : AltState p l e) : Stops (altStep it sv cfg d) s := by
  refine stops_of_wf (rel := (· < ·)) wellFounded_lt (fun _ => True) (fun s => (cfg.maxIter - s.i).toNat) ?_ trivial
  intro s s' _ h
  refine ⟨trivial, ?_⟩
  by_cases hg : distGt s.diff cfg.thresholdDistB ∧ (s.i : Int) < cfg.maxIter ∧ (s.flucs : Int) < cfg.maxFluctuations
  · rcases altStep_go (it := it) (sv := sv) (d := d) hg with ⟨_, -, h1⟩ | h1 | ⟨_, _, -, -, h1⟩ | ⟨cur, score, hcur, hscore, h1⟩
    · rw [h1] at h; simp at h
    · rw [h1] at h; simp at h
    · rw [h1] at h; simp at h
    · rw [h1] at h
      simp only [Except.ok.injEq, Sum.inl.injEq] at h
      subst h
      obtain ⟨-, h1, -⟩ := hg
      simp only []
      push_cast
      omega
  · rw [altStep_stop hg] at h
    simp at h

/-- The possible exceptions of `score` are `LinAlgError` (singular noise covariance) and `IndexError`. -/
theorem score_error {m : LModel p l e} {covs : List (Matrix (Fin p) (Fin p) ℝ)} {nObs : List Nat} {err : Err}
    (h : m.score covs nObs = .error err) : err = .linAlgError ∨ err = .indexError := by
  have hloop : ∀ (IB : Matrix (Fin p) (Fin p) ℝ) (Ms : Fin e → Matrix (Fin p) (Fin p) ℝ) (covs : List (Matrix (Fin p) (Fin p) ℝ))
      (i : Nat) (s : Flt), scoreLoop IB Ms nObs i covs s = .error err → err = .indexError := by
    intro IB Ms covs
    induction covs with
    | nil => intro i s h; simp [scoreLoop] at h
    | cons c covs ih =>
      intro i s h
      rw [scoreLoop] at h
      split at h
      · simpa using h.symm
      · split_ifs at h
        · exact ih _ _ h
        · simpa using h.symm
  unfold LModel.score LModel.invNoise at h
  split at h
  · rename_i err' herr
    split_ifs at herr
    simp only [Except.error.injEq] at h herr
    left; rw [← h, ← herr]
  · exact Or.inr (hloop _ _ _ _ _ h)

/-- C44: the procedure stops; an exception other than `ValueError`, `LinAlgError`, `IndexError` or `UnboundLocalError` comes from one
of the three sub-procedures. -/
theorem C44_terminates (err : Err) (h : alternate it sv cfg d m0 = .error err) :
    err = .valueError ∨ err = .linAlgError ∨ err = .indexError ∨ err = .unboundLocalError ∨
      (∃ i m, sv.solveB i m = .error err) ∨ (∃ m, sv.gamma m = .error err) ∨ ∃ m, sv.rest m = .error err := by
  unfold alternate at h
  split at h
  · rename_i err' herr
    simp only [Except.error.injEq] at h
    subst h
    rcases score_error herr with h | h <;> simp [h]
  · split at h
    · rename_i err' herr
      simp only [Except.error.injEq] at h
      subst h
      refine runLoop_error (fun _ => True) (fun err => err = .valueError ∨ err = .linAlgError ∨ err = .indexError ∨
        err = .unboundLocalError ∨ (∃ i m, sv.solveB i m = .error err) ∨ (∃ m, sv.gamma m = .error err) ∨
        ∃ m, sv.rest m = .error err) (fun _ _ _ _ => trivial) (fun s err _ hstep => ?_) trivial (altStep_stops _) herr
      by_cases hg : distGt s.diff cfg.thresholdDistB ∧ (s.i : Int) < cfg.maxIter ∧ (s.flucs : Int) < cfg.maxFluctuations
      · rcases altStep_go (it := it) (sv := sv) (d := d) hg with ⟨_, h0, h1⟩ | h1 | ⟨_, _, -, h0, h1⟩ | ⟨cur, score, -, -, h1⟩
        · rw [h1] at hstep
          simp only [Except.error.injEq] at hstep
          subst hstep
          rcases altBody_error h0 with h2 | h2
          · exact Or.inl h2
          · exact Or.inr (Or.inr (Or.inr (Or.inr h2)))
        · rw [h1] at hstep
          exact Or.inl (by simpa using hstep.symm)
        · rw [h1] at hstep
          simp only [Except.error.injEq] at hstep
          subst hstep
          rcases score_error h0 with h | h <;> simp [h]
        · rw [h1] at hstep; simp at hstep
      · rw [altStep_stop hg] at hstep
        simp at hstep
    · split at h
      · simp only [Except.error.injEq] at h
        subst h
        simp
      · simp at h

/-- C44: with `max_iter = 0` or `max_fluctuations = 0` (or negative) the variable `current_model` is never bound: no model is
returned for any data and any sub-procedures, but `UnboundLocalError` raised (if the initial model can be scored at all). -/
theorem C44_unbound (h : cfg.maxIter ≤ 0 ∨ cfg.maxFluctuations ≤ 0) (s0 : Flt) (hs : m0.scoreOn d = .ok s0) :
    alternate it sv cfg d m0 = .error .unboundLocalError := by
  unfold alternate
  unfold LModel.scoreOn at hs
  simp only [hs]
  rw [runLoop_unfold, altStep_stop (by rintro ⟨-, h1, h2⟩; push_cast at h1 h2; omega)]

/-- C44: otherwise `UnboundLocalError` can only come from a sub-procedure. -/
theorem C44_bound (h : 0 < cfg.maxIter) (h' : 0 < cfg.maxFluctuations) (hB : ∀ i m, sv.solveB i m ≠ .error .unboundLocalError)
    (hg : ∀ m, sv.gamma m ≠ .error .unboundLocalError) (hr : ∀ m, sv.rest m ≠ .error .unboundLocalError) :
    alternate it sv cfg d m0 ≠ .error .unboundLocalError := by
  intro hc
  unfold alternate at hc
  split at hc
  · rename_i err' herr
    simp only [Except.error.injEq] at hc
    subst hc
    rcases score_error herr with h | h <;> simp at h
  · rename_i s0 hs0
    split at hc
    · rename_i err' herr
      simp only [Except.error.injEq] at hc
      subst hc
      refine runLoop_error (fun _ => True) (fun err => err ≠ .unboundLocalError) (fun _ _ _ _ => trivial)
        (fun s err _ hstep => ?_) trivial (altStep_stops _) herr rfl
      rintro rfl
      by_cases hg' : distGt s.diff cfg.thresholdDistB ∧ (s.i : Int) < cfg.maxIter ∧ (s.flucs : Int) < cfg.maxFluctuations
      · rcases altStep_go (it := it) (sv := sv) (d := d) hg' with ⟨_, h0, h1⟩ | h1 | ⟨_, _, -, h0, h1⟩ | ⟨cur, score, -, -, h1⟩
        · rw [h1] at hstep
          simp only [Except.error.injEq] at hstep
          subst hstep
          rcases altBody_error h0 with h2 | ⟨i, m, h2⟩ | ⟨m, h2⟩ | ⟨m, h2⟩
          · simp at h2
          · exact hB _ _ h2
          · exact hg _ h2
          · exact hr _ h2
        · rw [h1] at hstep; simp at hstep
        · rw [h1] at hstep
          simp only [Except.error.injEq] at hstep
          subst hstep
          rcases score_error h0 with h | h <;> simp at h
        · rw [h1] at hstep; simp at hstep
      · rw [altStep_stop hg'] at hstep
        simp at hstep
    · rename_i st hst
      obtain ⟨h1, h2⟩ := altLoop_ok hs0 hst
      split at hc
      · rename_i hcur
        rcases h1.last with ⟨h3, -, -⟩ | ⟨j, m', -, -, -, h3⟩
        · apply h2
          rw [h3]
          exact ⟨by simpa using h, by simpa [fluctuations] using h', by simp⟩
        · rw [hcur] at h3; simp at h3
      · simp at hc

/-- Induction over a run: a property that the initial model has and every iteration preserves holds for the returned model, and
a property that every iteration establishes too. -/
theorem alternate_induct {m : LModel p l e} {s : Flt} (h : alternate it sv cfg d m0 = .ok (m, s)) (P : LModel p l e → Prop)
    (h0 : P m0) (hstep : ∀ k m m', P m → altBody it sv k m = .ok m' → P m') :
    ∃ k m', P m' ∧ altBody it sv k m' = .ok m ∧ P m := by
  obtain ⟨n, hn, h1, -⟩ := C44_run h
  have key : ∀ k m, iterates (altBody it sv) m0 k = .ok m → P m := by
    intro k
    induction k with
    | zero => intro m hm; simp only [iterates, Except.ok.injEq] at hm; exact hm ▸ h0
    | succ k ih =>
      intro m hm
      rw [iterates] at hm
      split at hm
      · simp at hm
      · rename_i m1 hm1
        exact hstep k m1 m (ih _ hm1) hm
  obtain ⟨j, rfl⟩ : ∃ j, n = j + 1 := ⟨n - 1, by omega⟩
  have h2 := h1
  rw [iterates] at h2
  split at h2
  · simp at h2
  · rename_i m1 hm1
    exact ⟨j, m1, key _ _ hm1, h2, key _ _ h1⟩

end Alt

/-! ## C45-C49: the fitted model -/

section Fit

variable (it : SetIter p) (svd : Matrix (Fin p) (Fin p) ℝ → Matrix (Fin p) (Fin p) ℝ × (Fin p → ℝ)) (num : NumLib p e)
  (cfg : ScoreCfg) (d : Data p e) (u v : Nat → Fin (p * p) → ℝ) (A : Adj p) (I : Finset (Fin p))

/-- `score_dag` with the sub-procedures of the code. -/
noncomputable def fitCode (init : Option (LModel p l e)) : Except Err (LModel p l e × Flt) :=
  fitDag it svd (fun I => codeSolvers it num cfg d u v I) cfg.stop d A I init

/-- Some random initial weight is larger than the tolerance of `_solve_for_B_grad` (for draws from the uniform distribution on
`[0, 1)` this fails with probability `10 ^ (-10 p²)`). -/
def GoodDraws (p : Nat) (u : Nat → Fin (p * p) → ℝ) : Prop := ∀ i, ∃ k, (1 : ℝ) / 10 ^ 10 < |u i k|

variable {it svd num cfg d u v A I}

theorem fitDag_ok {sv : Finset (Fin p) → Solvers p l e} {stop : StopCfg} {init : Option (LModel p l e)} {m : LModel p l e} {s : Flt}
    (h : fitDag it svd sv stop d A I init = .ok (m, s)) :
    isDag it A = true ∧ ∃ m0, alternate it (sv I) stop d m0 = .ok (m, s) ∧ m0.A = A ∧
      ((init = some m0) ∨ (init = none ∧ initialModel it svd d A I = .ok m0)) := by
  unfold fitDag at h
  split_ifs at h with h1
  simp only [Bool.not_eq_true', Bool.not_eq_false] at h1
  refine ⟨h1, ?_⟩
  cases init with
  | some m0 =>
    simp only [] at h
    split_ifs at h with h2
    push Not at h2
    exact ⟨m0, h, h2, Or.inl rfl⟩
  | none =>
    simp only [] at h
    split at h
    · simp at h
    · rename_i m0 hm0
      refine ⟨m0, h, ?_, Or.inr ⟨rfl, hm0⟩⟩
      unfold initialModel at hm0
      split at hm0
      · simp at hm0
      · split at hm0
        · simp at hm0
        · split at hm0
          · simp at hm0
          · split_ifs at hm0
            obtain ⟨-, -, rfl⟩ := mkModel_fields hm0
            rfl

theorem codeSolvers_respects (hu : cfg.solver = .grad → GoodDraws p u) {i : Nat} {m : LModel p l e}
    {B : Matrix (Fin p) (Fin p) ℝ} (h : (codeSolvers it num cfg d u v I).solveB i m = .ok B) : Respects m.A B := by
  unfold codeSolvers at h
  simp only [] at h
  cases hs : cfg.solver with
  | grad => rw [hs] at h; exact solveForBGrad_respects (hu hs i) h
  | adaptive => rw [hs] at h; exact solveForBAdaptive_respects h
  | cvx => rw [hs] at h; exact solveForBCvx_respects h

/-- C45: every weight matrix found by one of the three solvers is zero wherever the graph has no edge, whatever the data, the
numerical library and (for `grad`, but for an event of negligible probability) the random initialisation. -/
theorem C45_solvers_respect_graph (hu : cfg.solver = .grad → GoodDraws p u) (i : Nat) (m : LModel p l e)
    (B : Matrix (Fin p) (Fin p) ℝ) (h : (codeSolvers it num cfg d u v I).solveB i m = .ok B) :
    ∀ a b, m.A a b = 0 → B a b = 0 := codeSolvers_respects hu h

/-- C45: every model returned by `score_dag` (with or without `init_model`) has the given graph, its weights are zero wherever the
graph has no edge, and it can be copied (so writing it to the cache does not fail). -/
theorem C45_fitted_model (hu : cfg.solver = .grad → GoodDraws p u) (init : Option (LModel p l e)) (m : LModel p l e) (s : Flt)
    (h : fitCode it svd num cfg d u v A I init = .ok (m, s)) :
    m.A = A ∧ (∀ a b, A a b = 0 → m.B a b = 0) ∧ ∃ m', m.copy it = .ok m' := by
  obtain ⟨hdag, m0, halt, hA, -⟩ := fitDag_ok h
  obtain ⟨k, m', hP, hb, hP'⟩ := alternate_induct halt (fun m => m.A = A) hA (fun k m m' hm hb => by
    rw [(altBody_ok hb).2.1, hm])
  have hr : Respects A m.B := by
    have := codeSolvers_respects hu (altBody_ok hb).2.2.2.1
    simp only [hP] at this
    exact this
  refine ⟨hP', hr, ?_⟩
  refine ⟨⟨A, m.B, m.gamma, m.omegas, m.psis, 1 - m.Bᵀ⟩, ?_⟩
  unfold LModel.copy
  rw [hP']
  exact mkModel_of_dag _ _ _ hdag hr

/-- C46: in every model returned by `score_dag` without `init_model`, a variable that is not a target has the same noise variance
in all environments. -/
theorem C46_non_targets_constant (m : LModel p l e) (s : Flt) (h : fitCode it svd num cfg d u v A I none = .ok (m, s))
    (j : Fin p) (hj : j ∉ I) (k k' : Fin e) : m.omegas k j = m.omegas k' j := by
  obtain ⟨-, m0, halt, -, hinit⟩ := fitDag_ok h
  rcases hinit with hinit | ⟨-, hinit⟩
  · simp at hinit
  have h0 : ConstEnv m0.omegas j := by
    unfold initialModel at hinit
    split at hinit
    · simp at hinit
    · split at hinit
      · simp at hinit
      · split at hinit
        · simp at hinit
        · rename_i om hom
          split_ifs at hinit
          obtain ⟨-, -, rfl⟩ := mkModel_fields hinit
          unfold initializeOmegas at hom
          split at hom
          · simp at hom
          · simp only [Except.ok.injEq] at hom
            subst hom
            intro k k'
            simp [hj]
  obtain ⟨-, -, -, -, hP⟩ := alternate_induct halt (fun m => ConstEnv m.omegas j) h0 (fun k m m' hm hb => by
    obtain ⟨-, -, -, -, -, hr⟩ := altBody_ok hb
    exact solveForRest_omegas_const hr j hj hm)
  exact hP k k'

/-- C46 with `init_model`: the same holds for the non-targets whose variances are constant in the given model. -/
theorem C46_init_model (m0 m : LModel p l e) (s : Flt) (h : fitCode it svd num cfg d u v A I (some m0) = .ok (m, s))
    (j : Fin p) (hj : j ∉ I) (h0 : ∀ k k', m0.omegas k j = m0.omegas k' j) (k k' : Fin e) : m.omegas k j = m.omegas k' j := by
  obtain ⟨-, m1, halt, -, hinit⟩ := fitDag_ok h
  rcases hinit with hinit | ⟨hinit, -⟩
  swap
  · simp at hinit
  simp only [Option.some.injEq] at hinit
  subst hinit
  obtain ⟨-, -, -, -, hP⟩ := alternate_induct halt (fun m => ConstEnv m.omegas j) h0 (fun k m m' hm hb => by
    obtain ⟨-, -, -, -, -, hr⟩ := altBody_ok hb
    exact solveForRest_omegas_const hr j hj hm)
  exact hP k k'

/-- C47: every model returned by `score_dag`, even with `init_model`, has positive noise variances, positive latent variances, and
latent variances below `psi_max` if it is given. -/
theorem C47_within_bounds (init : Option (LModel p l e)) (m : LModel p l e) (s : Flt)
    (h : fitCode it svd num cfg d u v A I init = .ok (m, s)) :
    (∀ k j, 0 < m.omegas k j) ∧ (∀ k j, 0 < m.psis k j) ∧ ∀ x, cfg.psiMax = some x → ∀ k j, m.psis k j < x := by
  obtain ⟨-, m0, halt, -, -⟩ := fitDag_ok h
  obtain ⟨k, m', -, hb, -⟩ := alternate_induct halt (fun _ => True) trivial (fun _ _ _ _ _ => trivial)
  obtain ⟨-, -, -, -, -, hr⟩ := altBody_ok hb
  exact solveForRest_inBounds hr

/-- C47, consequence: the covariances entailed by a returned model exist and its noise-term covariances are positive definite. -/
theorem C47_noise_posDef (init : Option (LModel p l e)) (m : LModel p l e) (s : Flt)
    (h : fitCode it svd num cfg d u v A I init = .ok (m, s)) (k : Fin e) : (noiseCov m.gamma (m.psis k) (m.omegas k)).PosDef := by
  obtain ⟨h1, h2, -⟩ := C47_within_bounds init m s h
  rw [← noise_eq]
  exact noise_posDef m k (h1 k) (fun i => (h2 k i).le)

theorem initialModel_psis {m0 : LModel p l e} (hinit : initialModel it svd d A I = .ok m0) (k : Fin e) (j : Fin l) :
    m0.psis k j = 1 := by
  unfold initialModel at hinit
  split at hinit
  · simp at hinit
  · split at hinit
    · simp at hinit
    · split at hinit
      · simp at hinit
      · split_ifs at hinit
        obtain ⟨-, -, rfl⟩ := mkModel_fields hinit
        rfl

/-- C48: with `psi_fixed=True` (and no `init_model`) every latent variable of a returned model has the same variance in all
environments. -/
theorem C48_psi_fixed (hf : cfg.psiFixed = true) (m : LModel p l e) (s : Flt)
    (h : fitCode it svd num cfg d u v A I none = .ok (m, s)) (j : Fin l) (k k' : Fin e) : m.psis k j = m.psis k' j := by
  obtain ⟨-, m0, halt, -, hinit⟩ := fitDag_ok h
  rcases hinit with hinit | ⟨-, hinit⟩
  · simp at hinit
  obtain ⟨-, -, -, -, hP⟩ := alternate_induct halt (fun m => ConstEnv m.psis j)
    (fun k k' => by rw [initialModel_psis hinit, initialModel_psis hinit]) (fun k m m' hm hb => by
    obtain ⟨-, -, -, -, -, hr⟩ := altBody_ok hb
    simp only [codeSolvers, hf] at hr
    exact solveForRest_psis_const hr j hm)
  exact hP k k'

/-- C48 with `init_model`: the same holds for the latents whose variances are constant in the given model. -/
theorem C48_init_model (hf : cfg.psiFixed = true) (m0 m : LModel p l e) (s : Flt)
    (h : fitCode it svd num cfg d u v A I (some m0) = .ok (m, s)) (j : Fin l) (h0 : ∀ k k', m0.psis k j = m0.psis k' j)
    (k k' : Fin e) : m.psis k j = m.psis k' j := by
  obtain ⟨-, m1, halt, -, hinit⟩ := fitDag_ok h
  rcases hinit with hinit | ⟨hinit, -⟩
  swap
  · simp at hinit
  simp only [Option.some.injEq] at hinit
  subst hinit
  obtain ⟨-, -, -, -, hP⟩ := alternate_induct halt (fun m => ConstEnv m.psis j) h0 (fun k m m' hm hb => by
    obtain ⟨-, -, -, -, -, hr⟩ := altBody_ok hb
    simp only [codeSolvers, hf] at hr
    exact solveForRest_psis_const hr j hm)
  exact hP k k'

/-- C49: with `psi_max <= 1`, a latent variable and an environment, `score_dag` without `init_model` never returns. -/
theorem C49_psi_max_unusable (x : ℝ) (hx : cfg.psiMax = some x) (hx1 : x ≤ 1) (j : Fin l) (k : Fin e)
    (r : LModel p l e × Flt) : fitCode it svd num cfg d u v A I none ≠ .ok r := by
  intro h
  obtain ⟨-, m0, halt, -, hinit⟩ := fitDag_ok h
  rcases hinit with hinit | ⟨-, hinit⟩
  · simp at hinit
  obtain ⟨_, m', hP, hb, -⟩ := alternate_induct halt (fun m => m.psis k j = 1) (initialModel_psis hinit k j)
    (fun i m m' hm hb => by
      exfalso
      obtain ⟨-, -, -, -, -, hr⟩ := altBody_ok hb
      simp only [codeSolvers, hx] at hr
      rw [solveForRest_start k j (by simpa only [hm] using hx1)] at hr
      simp at hr)
  obtain ⟨-, -, -, -, -, hr⟩ := altBody_ok hb
  simp only [codeSolvers, hx] at hr
  rw [solveForRest_start k j (by simpa only [hP] using hx1)] at hr
  simp at hr

/-- C49: and the exception is `ValueError` if the steps before the one for the variances succeed: if the initial model exists and
can be scored and the first solutions for `B` and `gamma` are found. -/
theorem C49_value_error (x : ℝ) (hx : cfg.psiMax = some x) (hx1 : x ≤ 1) (j : Fin l) (k : Fin e) (hA : isDag it A = true)
    (hit : 0 < cfg.stop.maxIter) (hfl : 0 < cfg.stop.maxFluctuations) (m0 : LModel p l e)
    (hinit : initialModel it svd d A I = .ok m0) (s0 : Flt) (hs0 : m0.scoreOn d = .ok s0)
    (B : Matrix (Fin p) (Fin p) ℝ) (hB : (codeSolvers it num cfg d u v I).solveB 0 m0 = .ok B)
    (g : Matrix (Fin l) (Fin p) ℝ) (hg : solveForGamma it d cfg.thresholdScore cfg.learningRate { m0 with B := B } = .ok g) :
    fitCode it svd num cfg d u v A I (none : Option (LModel p l e)) = .error .valueError := by
  unfold fitCode fitDag
  rw [if_neg (by simpa using hA)]
  simp only [hinit]
  unfold alternate
  unfold LModel.scoreOn at hs0
  simp only [hs0]
  rw [runLoop_unfold]
  have hcopy : m0.copy it = .ok m0 := by
    unfold initialModel at hinit
    split at hinit
    · simp at hinit
    · split at hinit
      · simp at hinit
      · split at hinit
        · simp at hinit
        · split_ifs at hinit
          have h1 := hinit
          obtain ⟨-, -, rfl⟩ := mkModel_fields hinit
          exact h1
  have hbody : altBody it (codeSolvers it num cfg d u v I) 0 m0 = .error .valueError := by
    unfold altBody
    rw [hcopy]
    simp only [hB]
    have hg' : (codeSolvers it num cfg d u v I).gamma { m0 with B := B } = .ok g := hg
    simp only [hg']
    have hr : (codeSolvers it num cfg d u v I).rest { m0 with B := B, gamma := g } = .error .valueError := by
      simp only [codeSolvers, hx]
      exact solveForRest_start k j (by simpa only [initialModel_psis hinit] using hx1)
    simp only [hr]
  rcases altStep_go (it := it) (sv := codeSolvers it num cfg d u v I) (d := d) (cfg := cfg.stop)
    (s := { prev := m0, prevScore := s0, diff := none, i := 0, flucs := 0, cur := none })
    ⟨trivial, by simpa using hit, by simpa using hfl⟩ with ⟨err, h1, h2⟩ | h2 | ⟨c, err, h1, -, h2⟩ | ⟨c, sc, h1, -, h2⟩
  · rw [hbody] at h1
    simp only [Except.error.injEq] at h1
    rw [h2, ← h1]
  · rw [h2]
  · rw [hbody] at h1; simp at h1
  · rw [hbody] at h1; simp at h1

end Fit

end Verif
