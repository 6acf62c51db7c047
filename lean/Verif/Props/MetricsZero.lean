import Verif.Model.MetricsZero
import Verif.Props.Text

/-!
# C147: zero noise variances in the metrics and the text of a model
-/

namespace Verif

open Spec Matrix

variable {p l e n : Nat}

/-- A float that is neither infinite nor NaN. -/
def Spec.IsFin (x : FloatVal) : Prop := ∃ r, x = .fin r

theorem add_isFin (x y : FloatVal) : IsFin (x.add y) ↔ IsFin x ∧ IsFin y := by
  cases x <;> cases y <;> simp [IsFin, FloatVal.add]

theorem mul_isFin (x y : FloatVal) : IsFin (x.mul y) ↔ IsFin x ∧ IsFin y := by
  cases x <;> cases y <;> simp [IsFin, FloatVal.mul] <;> (try split_ifs) <;> simp

theorem floatDot_isFin (skip : Bool) (x y : Fin n → FloatVal) : IsFin (floatDot skip x y) ↔
    ∀ j, (skip = true ∧ (x j = .fin 0 ∨ y j = .fin 0)) ∨ (IsFin (x j) ∧ IsFin (y j)) := by
  classical
  unfold floatDot
  have key : ∀ (L : List (Fin n)) (f : Fin n → FloatVal) (a : FloatVal),
      IsFin (L.foldl (fun acc j => acc.add (f j)) a) ↔ IsFin a ∧ ∀ j ∈ L, IsFin (f j) := by
    intro L f
    induction L with
    | nil => simp
    | cons b L ih => intro a; rw [List.foldl_cons, ih, add_isFin]; simp [and_assoc]
  rw [key]
  simp only [List.mem_finRange, true_implies]
  rw [and_iff_right ⟨0, rfl⟩]
  refine forall_congr' fun j => ?_
  split_ifs with h
  · simp [h, IsFin]
  · simp [h, mul_isFin]

theorem floatDot_fin (skip : Bool) (x y : Fin n → ℝ) : floatDot skip (fun j => .fin (x j)) (fun j => .fin (y j)) = .fin (∑ j, x j * y j) := by
  classical
  unfold floatDot
  have key : ∀ (L : List (Fin n)) (a : ℝ), L.foldl (fun acc j => FloatVal.add acc
      (if skip = true ∧ ((FloatVal.fin (x j)) = .fin 0 ∨ (FloatVal.fin (y j)) = .fin 0) then .fin 0 else (FloatVal.fin (x j)).mul (.fin (y j)))) (.fin a) =
      .fin (a + (L.map fun j => x j * y j).sum) := by
    intro L
    induction L with
    | nil => simp
    | cons b L ih =>
      intro a
      rw [List.foldl_cons]
      have : FloatVal.add (.fin a) (if skip = true ∧ ((FloatVal.fin (x b)) = .fin 0 ∨ (FloatVal.fin (y b)) = .fin 0) then .fin 0
          else (FloatVal.fin (x b)).mul (.fin (y b))) = .fin (a + x b * y b) := by
        split_ifs with h
        · have : x b * y b = 0 := by
            obtain ⟨-, h | h⟩ := h
            · rw [FloatVal.fin.injEq] at h; simp [h]
            · rw [FloatVal.fin.injEq] at h; simp [h]
          simp [FloatVal.add, this]
        · simp [FloatVal.add, FloatVal.mul]
      rw [this, ih]
      simp [add_assoc]
  rw [key, zero_add, ← List.ofFn_eq_map, List.sum_ofFn]

theorem omegaInvF_regular {om : Fin p → ℝ} (h : ∀ j, om j ≠ 0) (i j : Fin p) :
    omegaInvF om i j = .fin (Matrix.diagonal (fun i => 1 / om i) i j) := by
  unfold omegaInvF
  by_cases hij : i = j
  · subst hij; simp [floatDiv, h]
  · simp [hij]

theorem latentEffectsF_regular (skip : Bool) (m : LModel p l e) (k : Fin e) (h : ∀ j, m.omegas k j ≠ 0) (i : Fin p) (a : Fin l) :
    m.latentEffectsF skip k i a = .fin (m.latentEffects k i a) := by
  unfold LModel.latentEffectsF LModel.latentEffects
  simp only [omegaInvF_regular h, floatDot_fin]
  simp only [Matrix.mul_apply, Matrix.transpose_apply m.gamma]

theorem incoherenceF_regular (skip : Bool) (svdU : Matrix (Fin p) (Fin l) ℝ → Matrix (Fin p) (Fin (min p l)) ℝ) (m : LModel p l e) (k : Fin e)
    (h : ∀ i a, m.latentEffectsF skip k i a = .fin (m.latentEffects k i a)) : m.incoherenceF skip svdU k = m.incoherence svdU k := by
  unfold LModel.incoherenceF LModel.incoherence
  rw [if_pos fun i a => ⟨_, h i a⟩]
  simp only [h]
  rfl

theorem incoherenceLoopF_congr (skip : Bool) (svdU : Matrix (Fin p) (Fin l) ℝ → Matrix (Fin p) (Fin (min p l)) ℝ) (m : LModel p l e)
    (h : ∀ k, m.incoherenceF skip svdU k = m.incoherence svdU k) (L : List (Fin e)) :
    incoherenceLoopF skip svdU m L = incoherenceLoop svdU m L := by
  induction L with
  | nil => rfl
  | cons k L ih =>
    unfold incoherenceLoopF incoherenceLoop
    rw [h, ih]
    rfl

theorem incoherenceLoopF_error (skip : Bool) (svdU : Matrix (Fin p) (Fin l) ℝ → Matrix (Fin p) (Fin (min p l)) ℝ) (m : LModel p l e) (hp : p ≠ 0)
    (L : List (Fin e)) : (∃ k ∈ L, ∃ i a, ¬ IsFin (m.latentEffectsF skip k i a)) → incoherenceLoopF skip svdU m L = .error .linAlgError := by
  induction L with
  | nil => simp
  | cons k L ih =>
    intro h
    unfold incoherenceLoopF LModel.incoherenceF
    by_cases hk : ∀ i a, ∃ x, m.latentEffectsF skip k i a = .fin x
    · rw [if_pos hk]
      rcases pyMax_ofFn (fun i => (svdU (fun i h => (m.latentEffectsF skip k i h).val) *
        (svdU (fun i h => (m.latentEffectsF skip k i h).val)).transpose) i i) with ⟨h0, -⟩ | ⟨-, x, hx, -⟩
      · exact absurd h0 hp
      · simp only [hx]
        rw [ih]
        obtain ⟨k', hk', i, a, hn⟩ := h
        rcases List.mem_cons.1 hk' with rfl | hm
        · exact absurd (hk i a) hn
        · exact ⟨k', hm, i, a, hn⟩
    · rw [if_neg hk]

theorem degrees_max (it : SetIter p) (A : Adj p) (hp : p ≠ 0) : ∃ d, pyMax (List.ofFn (degrees (moralGraph it A))) = .ok d := by
  rcases pyMax_ofFn (degrees (moralGraph it A)) with ⟨h, -⟩ | ⟨-, d, h, -⟩
  · exact absurd h hp
  · exact ⟨d, h⟩

theorem sliF_error (skip : Bool) (it : SetIter p) (svdU : Matrix (Fin p) (Fin l) ℝ → Matrix (Fin p) (Fin (min p l)) ℝ) (m : LModel p l e) (hp : p ≠ 0)
    (h : ∃ k i a, ¬ IsFin (m.latentEffectsF skip k i a)) : m.scaledLatentIncoherenceF skip it svdU = .error .linAlgError := by
  obtain ⟨d, hd⟩ := degrees_max it m.A hp
  unfold LModel.scaledLatentIncoherenceF
  obtain ⟨k, hk⟩ := h
  rw [hd, incoherenceLoopF_error skip svdU m hp (List.finRange e) ⟨k, List.mem_finRange k, hk⟩]

theorem sliF_regular (skip : Bool) (it : SetIter p) (svdU : Matrix (Fin p) (Fin l) ℝ → Matrix (Fin p) (Fin (min p l)) ℝ) (m : LModel p l e)
    (h : ∀ k i a, m.latentEffectsF skip k i a = .fin (m.latentEffects k i a)) :
    m.scaledLatentIncoherenceF skip it svdU = m.scaledLatentIncoherence it svdU := by
  unfold LModel.scaledLatentIncoherenceF LModel.scaledLatentIncoherence
  rw [incoherenceLoopF_congr skip svdU m fun k => incoherenceF_regular skip svdU m k (h k)]
  rfl

theorem omegaInvF_zero {om : Fin p → ℝ} {j : Fin p} (h : om j = 0) : omegaInvF om j j = .pinf := by
  simp [omegaInvF, floatDiv, h]

theorem latentEffectsF_zero (skip : Bool) (m : LModel p l e) (k : Fin e) (j : Fin p) (h : m.omegas k j = 0) (hB : m.B j j ≠ 1) (a : Fin l)
    (hg : m.gamma a j ≠ 0) : ¬ IsFin (m.latentEffectsF skip k j a) := by
  unfold LModel.latentEffectsF
  rw [floatDot_isFin]
  intro hc
  have hinner : ¬ IsFin (floatDot skip (fun a => .fin ((1 - m.B.transpose).transpose j a)) (fun a => omegaInvF (m.omegas k) a j)) := by
    rw [floatDot_isFin]
    intro hc
    rcases hc j with ⟨-, h1 | h1⟩ | ⟨-, h1⟩
    · rw [FloatVal.fin.injEq] at h1
      simp at h1
      exact hB (by linarith)
    · rw [omegaInvF_zero h] at h1; cases h1
    · rw [omegaInvF_zero h] at h1; obtain ⟨r, h1⟩ := h1; cases h1
  rcases hc j with ⟨-, h1 | h1⟩ | ⟨h1, -⟩
  · exact hinner ⟨_, h1⟩
  · rw [FloatVal.fin.injEq] at h1; exact hg h1
  · exact hinner h1

theorem latentEffectsF_ieee (m : LModel p l e) (k : Fin e) (j : Fin p) (h : m.omegas k j = 0) (i : Fin p) (a : Fin l) :
    ¬ IsFin (m.latentEffectsF false k i a) := by
  unfold LModel.latentEffectsF
  rw [floatDot_isFin]
  intro hc
  rcases hc j with ⟨h1, -⟩ | ⟨h1, -⟩
  · cases h1
  · rw [floatDot_isFin] at h1
    rcases h1 j with ⟨h2, -⟩ | ⟨-, h2⟩
    · cases h2
    · rw [omegaInvF_zero h] at h2; obtain ⟨r, h2⟩ := h2; cases h2

theorem strF_of_error (skip : Bool) (it : SetIter p) (svdU : Matrix (Fin p) (Fin l) ℝ → Matrix (Fin p) (Fin (min p l)) ℝ) (T : Texts) (m : LModel p l e)
    {err : Err} (h : m.scaledLatentIncoherenceF skip it svdU = .error err) : m.strF skip it svdU T = .error err := by
  unfold LModel.strF
  simp only [h]

theorem strengthLinesF_eq (T : Texts) (L : List (Nat × FloatVal)) (string : String) :
    strengthLinesF T string L = string ++ unlines (L.map fun x => "    X_" ++ toString x.1 ++ ": " ++ T.floatVal x.2) := by
  induction L generalizing string with
  | nil => simp [strengthLinesF, unlines]
  | cons x xs ih =>
    obtain ⟨i, s⟩ := x
    rw [strengthLinesF, ih]
    simp [unlines, String.append_assoc]

/-- The text of a model, line by line, with strengths that may be infinite or NaN. -/
def Spec.modelLinesF (T : Texts) (m : LModel p l e) (x : ℝ) (s : Fin p → FloatVal) : List String :=
  [hyphens, "Model - p:" ++ toString p ++ " - l:" ++ toString l ++ " - e:" ++ toString e, "",
    "A:", T.ints m.A, "", "B:", T.floats m.B, "", "gamma:", T.floats m.gamma, "", "omegas:", T.floats m.omegas, "", "psis:", T.floats m.psis, "",
    "Assumption deviation metrics", "  latent incoherence x max. degree of moral graph: " ++ T.float x, "  strength of interventions:"] ++
  List.ofFn (fun i : Fin p => "    X_" ++ toString i.val ++ ": " ++ (match s i with
    | .fin x => T.float x
    | .pinf => "inf"
    | .ninf => "-inf"
    | .nan => "nan")) ++ ["", hyphens]

theorem strF_of_ok (skip : Bool) (it : SetIter p) (svdU : Matrix (Fin p) (Fin l) ℝ → Matrix (Fin p) (Fin (min p l)) ℝ) (T : Texts) (m : LModel p l e)
    {x : ℝ} {s : Fin p → FloatVal} (h : m.scaledLatentIncoherenceF skip it svdU = .ok x) (hs : m.interventionStrengthF = .ok s) :
    m.strF skip it svdU T = .ok (unlines (modelLinesF T m x s)) := by
  have key : ∀ v, (match v with
    | .fin x => T.float x
    | .pinf => "inf"
    | .ninf => "-inf"
    | .nan => "nan") = T.floatVal v := fun v => by cases v <;> rfl
  unfold LModel.strF
  simp only [h, hs, strengthLinesF_eq, modelLinesF, unlines_append, rule70_eq, key]
  rw [List.map_ofFn]
  simp only [unlines, Function.comp_def]
  refine congrArg Except.ok (String.toList_injective ?_)
  simp only [String.toList_append, List.append_assoc]
  simp

/-- C147: without zero variances nothing changes. -/
theorem C147_regular (skip : Bool) (it : SetIter p) (svdU : Matrix (Fin p) (Fin l) ℝ → Matrix (Fin p) (Fin (min p l)) ℝ) (T : Texts) (m : LModel p l e)
    (ho : ∀ k j, m.omegas k j ≠ 0) :
    m.scaledLatentIncoherenceF skip it svdU = m.scaledLatentIncoherence it svdU ∧ m.strF skip it svdU T = m.str it svdU T := by
  have h1 := sliF_regular skip it svdU m fun k i a => latentEffectsF_regular skip m k (ho k) i a
  refine ⟨h1, ?_⟩
  cases hx : m.scaledLatentIncoherence it svdU with
  | error err =>
    rw [strF_of_error skip it svdU T m (h1.trans hx)]
    unfold LModel.str
    simp only [hx]
  | ok x =>
    have he : e ≠ 0 := fun he => by
      rw [(C75_raises it svdU m ho .valueError).2 ⟨rfl, Or.inr he⟩] at hx
      cases hx
    obtain ⟨s, r, h2, h3, h4⟩ := C74_division m he
    rw [strF_of_ok skip it svdU T m (h1.trans hx) h2]
    unfold LModel.str
    have hs : ∀ j, s j = .fin (r j) := fun j => (h4 j).2.2.2.2 fun hg => by
      obtain ⟨k, hk⟩ := hg.1
      exact ho k j hk
    simp only [hx, h3, strengthLines_eq, modelLinesF, unlines_append, rule70_eq, hs]
    rw [List.map_ofFn]
    simp only [unlines, Function.comp_def]
    refine congrArg Except.ok (String.toList_injective ?_)
    simp only [String.toList_append, List.append_assoc]
    simp

theorem mkModel_cov (it : SetIter p) {A : Adj p} (hA : Nonneg A) {B : Matrix (Fin p) (Fin p) ℝ} {gamma : Matrix (Fin l) (Fin p) ℝ}
    {omegas : Matrix (Fin e) (Fin p) ℝ} {psis : Matrix (Fin e) (Fin l) ℝ} {m : LModel p l e} (hm : mkModel it A B gamma omegas psis = .ok m) :
    m.B = B ∧ m.gamma = gamma ∧ m.omegas = omegas ∧ (∀ j, m.B j j = 0) ∧ ∃ c, m.covariances = .ok c := by
  unfold mkModel at hm
  split_ifs at hm with hd hs
  cases hm
  have hac : Acyclic A := (isDag_iff it hA).1 (by simpa using hd)
  push Not at hs
  refine ⟨rfl, rfl, rfl, fun j => hs j j ?_, _, covariances_ok _ (det_one_sub_transpose hac fun i j h => hs i j h)⟩
  by_contra hc
  exact hac j (Relation.TransGen.single hc)

/-- C147: a model that the constructor accepts, in which a variable with an effect of a latent variable has the noise variance zero in some
environment: `covariances()` returns, but `scaled_latent_incoherence()` and `str(model)` raise `LinAlgError`. -/
theorem C147_raises (skip : Bool) (it : SetIter p) (svdU : Matrix (Fin p) (Fin l) ℝ → Matrix (Fin p) (Fin (min p l)) ℝ) (T : Texts) (A : Adj p)
    (hA : Nonneg A) (B : Matrix (Fin p) (Fin p) ℝ) (gamma : Matrix (Fin l) (Fin p) ℝ) (omegas : Matrix (Fin e) (Fin p) ℝ) (psis : Matrix (Fin e) (Fin l) ℝ)
    (m : LModel p l e) (hm : mkModel it A B gamma omegas psis = .ok m) (k : Fin e) (j : Fin p) (h : omegas k j = 0) (a : Fin l) (hg : gamma a j ≠ 0) :
    m.scaledLatentIncoherenceF skip it svdU = .error .linAlgError ∧ m.strF skip it svdU T = .error .linAlgError ∧ ∃ c, m.covariances = .ok c := by
  obtain ⟨-, rfl, rfl, h3, h4⟩ := mkModel_cov it hA hm
  have h5 := sliF_error skip it svdU m (Nat.ne_of_gt j.pos) ⟨k, j, a, latentEffectsF_zero skip m k j h (by rw [h3]; norm_num) a hg⟩
  exact ⟨h5, strF_of_error skip it svdU T m h5, h4⟩

/-- C147: where products of zero and infinity are NaN, as in IEEE arithmetic, the two functions raise exactly in these cases, for a model with latent
variables: `ValueError` without variables or environments, and `LinAlgError` if any variance is zero. -/
theorem C147_exact (it : SetIter p) (svdU : Matrix (Fin p) (Fin l) ℝ → Matrix (Fin p) (Fin (min p l)) ℝ) (T : Texts) (m : LModel p l e) (hl : l ≠ 0)
    (err : Err) :
    (m.scaledLatentIncoherenceF false it svdU = .error err ↔
      (err = .valueError ∧ (p = 0 ∨ e = 0)) ∨ (err = .linAlgError ∧ ∃ k j, m.omegas k j = 0)) ∧
    (m.strF false it svdU T = .error err ↔ (err = .valueError ∧ (p = 0 ∨ e = 0)) ∨ (err = .linAlgError ∧ ∃ k j, m.omegas k j = 0)) := by
  by_cases hz : ∃ k j, m.omegas k j = 0
  · obtain ⟨k, j, h⟩ := hz
    have h5 := sliF_error false it svdU m (Nat.ne_of_gt j.pos) ⟨k, j, ⟨0, Nat.pos_of_ne_zero hl⟩, latentEffectsF_ieee m k j h _ _⟩
    have hp := Nat.ne_of_gt j.pos
    have he := Nat.ne_of_gt k.pos
    have hex : ∃ k j, m.omegas k j = 0 := ⟨k, j, h⟩
    rw [h5, strF_of_error false it svdU T m h5]
    simp only [Except.error.injEq, eq_comm (a := Err.linAlgError), hp, he, hex, or_self, and_false, and_true, false_or, and_self]
  · have ho : ∀ k j, m.omegas k j ≠ 0 := fun k j h => hz ⟨k, j, h⟩
    obtain ⟨h1, h2⟩ := C147_regular false it svdU T m ho
    rw [h1, h2, C75_raises it svdU m ho, C130_raises it svdU T m ho]
    simp [hz]

/-- C147: without latent variables zero variances do no harm: the latent incoherence is the one of any other variances, and the text is complete; the
strength it shows is `nan` exactly for the variables without any noise, and `inf` exactly for those whose variances are zero and negative. -/
theorem C147_no_latents (skip : Bool) (it : SetIter p) (svdU : Matrix (Fin p) (Fin 0) ℝ → Matrix (Fin p) (Fin (min p 0)) ℝ) (T : Texts) (m : LModel p 0 e)
    (hp : p ≠ 0) (he : e ≠ 0) : ∃ s, m.scaledLatentIncoherenceF skip it svdU = .ok 0 ∧
      m.strF skip it svdU T = .ok (unlines (modelLinesF T m 0 s)) ∧ ∀ j, (s j = .nan ↔ ∀ k, m.omegas k j = 0) ∧
        (s j = .pinf ↔ IsGreatest (Set.range (fun k => m.omegas k j)) 0 ∧ ∃ k, m.omegas k j < 0) ∧ s j ≠ .ninf := by
  have h1 := sliF_regular skip it svdU m fun k i a => a.elim0
  obtain ⟨s, r, h2, -, h4⟩ := C74_division m he
  have h0 : m.scaledLatentIncoherence it svdU = .ok 0 := by
    have hU : ∀ k, svdU (m.latentEffects k) * (svdU (m.latentEffects k)).transpose = 0 := fun k => by
      ext i j
      rw [Matrix.mul_apply]
      exact Finset.sum_eq_zero fun x _ => absurd x.isLt (by simp)
    obtain ⟨d, hd⟩ := degrees_max it m.A hp
    obtain ⟨xs, h3, h5⟩ := incoherence_cases svdU m hp (List.finRange e)
    have hall : ∀ (ks : List (Fin e)) (xs : List ℝ), List.Forall₂ (fun k x =>
        IsGreatest (Set.range (fun i => (svdU (m.latentEffects k) * (svdU (m.latentEffects k))ᵀ) i i)) x) ks xs → ∀ x ∈ xs, x = 0 := by
      intro ks xs h
      induction h with
      | nil => simp
      | cons hk _ ih =>
        intro x hx
        rcases List.mem_cons.1 hx with rfl | hx
        · obtain ⟨i, hi⟩ := hk.1
          simpa [hU] using hi.symm
        · exact ih x hx
    have hlen := h5.length_eq
    unfold LModel.scaledLatentIncoherence
    simp only [hd, h3]
    cases xs with
    | nil => simp at hlen; exact absurd hlen he
    | cons y ys =>
      simp only [pyMax]
      rcases (foldl_max_spec ys y).1 with h | h
      · rw [h, hall _ _ h5 y (by simp), zero_mul]
      · rw [hall _ _ h5 _ (List.mem_cons_of_mem _ h), zero_mul]
  exact ⟨s, h1.trans h0, strF_of_ok skip it svdU T m (h1.trans h0) h2, fun j => ⟨(h4 j).1, (h4 j).2.1, (h4 j).2.2.1⟩⟩

/-- C147: `score_dag(..., verbose=1)` raises `LinAlgError` for such an initial model before it does anything else, whatever it returns without `verbose`. -/
theorem C147_verbose (skip : Bool) (it : SetIter p) (svd : Matrix (Fin p) (Fin p) ℝ → Matrix (Fin p) (Fin p) ℝ × (Fin p → ℝ))
    (svdU : Matrix (Fin p) (Fin l) ℝ → Matrix (Fin p) (Fin (min p l)) ℝ) (T : Texts) (sv : Finset (Fin p) → Solvers p l e) (cfg : StopCfg) (d : Data p e)
    (A : Adj p) (hA : Nonneg A) (I : Finset (Fin p)) (B : Matrix (Fin p) (Fin p) ℝ) (gamma : Matrix (Fin l) (Fin p) ℝ) (omegas : Matrix (Fin e) (Fin p) ℝ)
    (psis : Matrix (Fin e) (Fin l) ℝ) (m : LModel p l e) (hm : mkModel it A B gamma omegas psis = .ok m) (k : Fin e) (j : Fin p) (h : omegas k j = 0)
    (a : Fin l) (hg : gamma a j ≠ 0) : fitDagVerboseF skip it svd svdU T sv cfg d A I (some m) = .error .linAlgError := by
  have h1 := (C147_raises skip it svdU T A hA B gamma omegas psis m hm k j h a hg).2.1
  unfold mkModel at hm
  split_ifs at hm with hd hs
  cases hm
  unfold fitDagVerboseF
  rw [if_neg hd]
  simp [h1]

/-- C147: with the other initial models, or none, `fitDagVerboseF` is the function of C130 (for data with positive definite covariances). -/
theorem C147_verbose_regular (skip : Bool) (it : SetIter p) (svd : Matrix (Fin p) (Fin p) ℝ → Matrix (Fin p) (Fin p) ℝ × (Fin p → ℝ))
    (svdU : Matrix (Fin p) (Fin l) ℝ → Matrix (Fin p) (Fin (min p l)) ℝ) (T : Texts) (sv : Finset (Fin p) → Solvers p l e) (cfg : StopCfg) (d : Data p e)
    (hd : GoodData d) (A : Adj p) (hA : Nonneg A) (I : Finset (Fin p)) (init : Option (LModel p l e)) (hp : p ≠ 0)
    (hinit : ∀ m, init = some m → ∀ k j, m.omegas k j ≠ 0) :
    fitDagVerboseF skip it svd svdU T sv cfg d A I init = fitDag it svd sv cfg d A I init := by
  rw [← C130_verbose it svd svdU T sv cfg d hd A hA I init hp hinit]
  unfold fitDagVerboseF fitDagVerbose
  split_ifs with hdag
  · rfl
  cases init with
  | some m =>
    by_cases hA : m.A ≠ A
    · simp [hA]
    · simp only [hA, if_false, (C147_regular skip it svdU T m (hinit m rfl)).2]
      rfl
  | none =>
    have hac : Acyclic A := (isDag_iff it hA).1 (by simpa using hdag)
    cases hm : (initialModel it svd d A I : Except Err (LModel p l e)) with
    | error err => simp
    | ok m =>
      have hl : l ≤ p := by
        unfold initialModel at hm
        split at hm
        · simp at hm
        split at hm
        · simp at hm
        split at hm
        · simp at hm
        split at hm
        · omega
        · simp at hm
      obtain ⟨m', hm', hg⟩ := initialModel_returns (it := it) hA hac svd d hd I hl (psiMax := none) (by simp)
      obtain rfl : m' = m := by rw [hm'] at hm; exact Except.ok.inj hm
      simp only [(C147_regular skip it svdU T m' fun k j => (hg.omegas k j).ne').2]
      rfl

namespace ZeroEx

/-- One variable with an effect of one latent variable and no noise of its own. -/
noncomputable def one : LModel 1 1 1 := ⟨0, 0, 1, 0, 1, 1⟩

theorem one_mk (it : SetIter 1) : mkModel it 0 0 1 0 1 = .ok one := by
  have hn : Nonneg (0 : Adj 1) := fun _ _ => le_refl _
  have hd : isDag it (0 : Adj 1) = true := (isDag_iff it hn).2 ((isDag_iff (SetIter.incr 1) hn).1 (by decide))
  unfold mkModel
  rw [hd]
  simp [one]

theorem one_noise (k : Fin 1) : one.noise k = 1 := by
  ext i j
  fin_cases i; fin_cases j; fin_cases k
  simp [LModel.noise, one]

theorem one_score : one.score (List.ofFn fun _ : Fin 1 => 1) (List.ofFn fun _ : Fin 1 => 1) = .ok (some 1) := by
  unfold LModel.score
  rw [invNoise_ok one fun k => by rw [one_noise]; simp]
  simp only [one_noise, show one.IB = 1 from rfl]
  simp [scoreLoop, scoreTerm, Flt.divNat, Flt.add, Flt.smul]

/-- Solvers that return the parameters they are given. -/
noncomputable def same : Solvers 1 1 1 := ⟨fun _ m => .ok m.B, fun m => .ok m.gamma, fun m => .ok (m.omegas, m.psis)⟩

end ZeroEx

open ZeroEx in
/-- C147: without `verbose` `score_dag` can return for such an initial model where with it `LinAlgError` is raised (the model of one variable above). -/
theorem C147_verbose_violated (skip : Bool) (it : SetIter 1) (svd : Matrix (Fin 1) (Fin 1) ℝ → Matrix (Fin 1) (Fin 1) ℝ × (Fin 1 → ℝ))
    (svdU : Matrix (Fin 1) (Fin 1) ℝ → Matrix (Fin 1) (Fin (min 1 1)) ℝ) (T : Texts) :
    fitDag it svd (fun _ => same) ⟨10, 1, 1, 10⟩ ⟨fun _ => 1, fun _ => 1⟩ 0 ∅ (some one) = .ok (one, some 1) ∧
    fitDagVerboseF skip it svd svdU T (fun _ => same) ⟨10, 1, 1, 10⟩ ⟨fun _ => 1, fun _ => 1⟩ 0 ∅ (some one) = .error .linAlgError := by
  have hn : Nonneg (0 : Adj 1) := fun _ _ => le_refl _
  refine ⟨?_, C147_verbose skip it svd svdU T _ _ _ 0 hn ∅ 0 1 0 1 one (one_mk it) 0 0 rfl 0 (by simp)⟩
  have hd : isDag it (0 : Adj 1) = true := (isDag_iff it hn).2 ((isDag_iff (SetIter.incr 1) hn).1 (by decide))
  have hc : one.copy it = .ok one := one_mk it
  have hb : altBody it same 0 one = .ok one := by
    unfold altBody
    rw [hc]
    rfl
  unfold fitDag
  rw [hd]
  simp only [Bool.not_true, Bool.false_eq_true, if_false]
  rw [if_neg (by simp [ZeroEx.one])]
  unfold alternate
  simp only [one_score]
  rw [runLoop_unfold]
  have h1 : altStep it same ⟨10, 1, 1, 10⟩ ⟨fun _ => 1, fun _ => 1⟩
      { prev := one, prevScore := some 1, diff := none, i := 0, flucs := 0, cur := none } =
      .ok (.inl { prev := one, prevScore := some 1, diff := some 0, i := 1, flucs := 0, cur := some (one, some 1) }) := by
    unfold altStep
    rw [if_neg (by simp [distGt])]
    simp only [hb, one_score]
    simp [Flt.subGt]
  simp only [h1]
  rw [runLoop_unfold]
  have h2 : altStep it same ⟨10, 1, 1, 10⟩ ⟨fun _ => 1, fun _ => 1⟩
      { prev := one, prevScore := some 1, diff := some 0, i := 1, flucs := 0, cur := some (one, some 1) } =
      .ok (.inr { prev := one, prevScore := some 1, diff := some 0, i := 1, flucs := 0, cur := some (one, some 1) }) := by
    unfold altStep
    rw [if_pos]
    simp [distGt]
  simp only [h2]

namespace ZeroEx

/-- This model cannot be printed. -/
example (skip : Bool) (it : SetIter 1) (svdU : Matrix (Fin 1) (Fin 1) ℝ → Matrix (Fin 1) (Fin (min 1 1)) ℝ) (T : Texts) :
    one.strF skip it svdU T = .error .linAlgError :=
  (C147_raises skip it svdU T 0 (fun _ _ => le_refl _) 0 1 0 1 one (one_mk it) 0 0 rfl 0 (by simp)).2.1

/-- Nor can one with a zero variance of a variable without latent effects, where zero times infinity is NaN. -/
example (it : SetIter 2) (svdU : Matrix (Fin 2) (Fin 1) ℝ → Matrix (Fin 2) (Fin (min 2 1)) ℝ) (T : Texts) :
    (⟨0, 0, !![1, 0], !![1, 0], 1, 1⟩ : LModel 2 1 1).strF false it svdU T = .error .linAlgError :=
  (C147_exact it svdU T _ (by norm_num) _).2.2 (Or.inr ⟨rfl, 0, 1, by simp⟩)

/-- Without latent variables the strength of a variable without noise is shown as `nan`. -/
example (skip : Bool) (it : SetIter 1) (svdU : Matrix (Fin 1) (Fin 0) ℝ → Matrix (Fin 1) (Fin (min 1 0)) ℝ) :
    (⟨0, 0, 0, 0, 0, 1⟩ : LModel 1 0 2).strF skip it svdU TextEx.texts = .ok (unlines [hyphens, "Model - p:1 - l:0 - e:2", "", "A:", "[[0]]", "", "B:",
      "[[...]]", "", "gamma:", "[[...]]", "", "omegas:", "[[...]]", "", "psis:", "[[...]]", "", "Assumption deviation metrics",
      "  latent incoherence x max. degree of moral graph: 0.0", "  strength of interventions:", "    X_0: nan", "", hyphens]) := by
  obtain ⟨s, -, h, hs⟩ := C147_no_latents skip it svdU TextEx.texts (⟨0, 0, 0, 0, 0, 1⟩ : LModel 1 0 2) (by norm_num) (by norm_num)
  have h0 := (hs 0).1.2 fun k => rfl
  rw [h]
  refine congrArg (fun L => Except.ok (unlines L)) ?_
  simp [modelLinesF, TextEx.texts, h0]
  decide

end ZeroEx

end Verif
