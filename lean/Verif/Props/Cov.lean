import Verif.Model.Cov
import Verif.Props.Units
import Verif.Props.MainTotal
import Mathlib.LinearAlgebra.FiniteDimensional.Basic

/-!
# C97: sample covariances
-/

namespace Verif

open Spec Matrix

variable {p e : Nat}

/-- The linear combination of the variables with coefficients `v`. -/
def Spec.combine (v x : Fin p → ℝ) : ℝ := ∑ i, v i * x i

/-- The sample variance of a list of numbers (with denominator `n - 1`). -/
noncomputable def Spec.sampleVar (l : List ℝ) : ℝ := (l.map (fun y => (y - l.sum / l.length) ^ 2)).sum / ((l.length : ℝ) - 1)

theorem list_sum_comm {α : Type} (s : List α) (f : α → Fin p → ℝ) : (s.map (fun x => ∑ i, f x i)).sum = ∑ i, (s.map (fun x => f x i)).sum := by
  induction s with
  | nil => simp
  | cons x s ih => simp only [List.map_cons, List.sum_cons, ih, Finset.sum_add_distrib]

theorem combine_mean (s : Sample p) (v : Fin p → ℝ) :
    combine v (colMean s) = (s.map (combine v)).sum / (s.length : ℝ) := by
  unfold combine
  rw [list_sum_comm, Finset.sum_div]
  refine Finset.sum_congr rfl fun i _ => ?_
  unfold colMean
  rw [List.sum_map_mul_left]
  ring

/-- C97: the quadratic form of the sample covariance is the sample variance of the linear combination. -/
theorem C97_quadratic (s : Sample p) (v : Fin p → ℝ) :
    v ⬝ᵥ (npCov s *ᵥ v) = sampleVar (s.map (combine v)) := by
  unfold sampleVar
  rw [List.length_map, List.map_map, ← combine_mean]
  have h1 : ∀ x : Fin p → ℝ, ((fun y => (y - combine v (colMean s)) ^ 2) ∘ combine v) x =
      ∑ i, ∑ j, v i * v j * ((x i - colMean s i) * (x j - colMean s j)) := by
    intro x
    have : combine v x - combine v (colMean s) = ∑ i, v i * (x i - colMean s i) := by
      unfold combine
      rw [← Finset.sum_sub_distrib]
      exact Finset.sum_congr rfl fun i _ => by ring
    simp only [Function.comp_apply]
    rw [this, sq, Finset.sum_mul_sum]
    exact Finset.sum_congr rfl fun i _ => Finset.sum_congr rfl fun j _ => by ring
  rw [List.map_congr_left (fun x _ => h1 x), list_sum_comm, Finset.sum_div]
  unfold dotProduct mulVec dotProduct
  refine Finset.sum_congr rfl fun i _ => ?_
  rw [list_sum_comm, Finset.sum_div, Finset.mul_sum]
  refine Finset.sum_congr rfl fun j _ => ?_
  unfold npCov
  rw [List.sum_map_mul_left]
  ring

/-- C97: sample covariances are symmetric. -/
theorem C97_symmetric (s : Sample p) : (npCov s)ᵀ = npCov s := by
  ext i j
  rw [Matrix.transpose_apply]
  unfold npCov
  congr 2
  exact List.map_congr_left fun x _ => mul_comm _ _

theorem sampleVar_nonneg {l : List ℝ} (h : 1 ≤ l.length) : 0 ≤ sampleVar l := by
  unfold sampleVar
  refine div_nonneg (List.sum_nonneg ?_) ?_
  · intro y hy
    obtain ⟨x, -, rfl⟩ := List.mem_map.1 hy
    positivity
  · have : (1 : ℝ) ≤ l.length := by exact_mod_cast h
    linarith

theorem sampleVar_eq_zero {l : List ℝ} (h : 2 ≤ l.length) : sampleVar l = 0 ↔ ∀ x ∈ l, ∀ y ∈ l, x = y := by
  have hl : (2 : ℝ) ≤ l.length := by exact_mod_cast h
  unfold sampleVar
  rw [div_eq_zero_iff, or_iff_left (by linarith)]
  constructor
  · intro h0
    have key : ∀ x ∈ l, x = l.sum / l.length := by
      intro x hx
      have h1 := List.all_zero_of_le_zero_le_of_sum_eq_zero (l := l.map (fun y => (y - l.sum / l.length) ^ 2)) (by
        intro y hy
        obtain ⟨x, -, rfl⟩ := List.mem_map.1 hy
        positivity) h0 (List.mem_map_of_mem hx)
      have := pow_eq_zero_iff (two_ne_zero) |>.1 h1
      linarith
    intro x hx y hy
    rw [key x hx, key y hy]
  · intro hall
    obtain ⟨z, hz⟩ : ∃ z, z ∈ l := List.exists_mem_of_length_pos (by omega)
    have hsum : l.sum = l.length * z := by
      rw [List.eq_replicate_of_mem (fun x hx => hall x hx z hz), List.sum_replicate, List.length_replicate, nsmul_eq_mul]
    have hm : l.sum / l.length = z := by rw [hsum]; field_simp
    rw [hm]
    refine List.sum_eq_zero ?_
    intro y hy
    obtain ⟨x, hx, rfl⟩ := List.mem_map.1 hy
    rw [hall x hx z hz]
    ring

/-- C97: sample covariances of at least one observation are positive semidefinite. -/
theorem C97_posSemidef (s : Sample p) (h : 1 ≤ s.length) : (npCov s).PosSemidef := by
  refine Matrix.PosSemidef.of_dotProduct_mulVec_nonneg (by rw [Matrix.IsHermitian, Matrix.conjTranspose_eq_transpose_of_trivial, C97_symmetric]) ?_
  intro v
  rw [star_trivial, C97_quadratic]
  exact sampleVar_nonneg (by simpa using h)

/-- C97: the sample covariance is positive definite — what the theorems on fitting assume — exactly if no non-trivial linear combination of
the variables is constant in the sample. -/
theorem C97_posDef_iff (s : Sample p) (h : 2 ≤ s.length) :
    (npCov s).PosDef ↔ ∀ v : Fin p → ℝ, v ≠ 0 → ∃ x ∈ s, ∃ y ∈ s, combine v x ≠ combine v y := by
  have hzero : ∀ v : Fin p → ℝ, sampleVar (s.map (combine v)) = 0 ↔ ∀ x ∈ s, ∀ y ∈ s, combine v x = combine v y := by
    intro v
    rw [sampleVar_eq_zero (by simpa using h)]
    simp
  constructor
  · intro hpd v hv
    by_contra hcon
    push Not at hcon
    have := hpd.dotProduct_mulVec_pos hv
    rw [star_trivial, C97_quadratic, (hzero v).2 hcon] at this
    exact lt_irrefl _ this
  · intro hall
    refine Matrix.PosDef.of_dotProduct_mulVec_pos (by rw [Matrix.IsHermitian, Matrix.conjTranspose_eq_transpose_of_trivial, C97_symmetric]) ?_
    intro v hv
    rw [star_trivial, C97_quadratic]
    refine lt_of_le_of_ne (sampleVar_nonneg (by simpa using le_trans (by norm_num) h)) fun h0 => ?_
    obtain ⟨x, hx, y, hy, hne⟩ := hall v hv
    exact hne ((hzero v).1 h0.symm x hx y hy)

/-- C97: with at most as many observations as variables the sample covariance is singular. -/
theorem C97_singular (s : Sample p) (h : 2 ≤ s.length) (hp : s.length ≤ p) : (npCov s).det = 0 := by
  obtain ⟨x0, rest, rfl⟩ : ∃ x0 rest, s = x0 :: rest := by
    cases s with
    | nil => simp at h
    | cons a b => exact ⟨a, b, rfl⟩
  let f : (Fin p → ℝ) →ₗ[ℝ] (Fin rest.length → ℝ) :=
    { toFun := fun v k => combine v (rest.get k) - combine v x0
      map_add' := by
        intro v w
        ext k
        simp only [combine, Pi.add_apply, add_mul, Finset.sum_add_distrib]
        ring
      map_smul' := by
        intro c v
        ext k
        simp only [combine, Pi.smul_apply, smul_eq_mul, mul_assoc, ← Finset.mul_sum, RingHom.id_apply]
        ring }
  have hker : LinearMap.ker f ≠ ⊥ := LinearMap.ker_ne_bot_of_finrank_lt (by
    rw [Module.finrank_fin_fun, Module.finrank_fin_fun]
    simp only [List.length_cons] at hp
    omega)
  obtain ⟨v, hv, hv0⟩ := Submodule.exists_mem_ne_zero_of_ne_bot hker
  have hconst : ∀ x ∈ x0 :: rest, combine v x = combine v x0 := by
    intro x hx
    rcases List.mem_cons.1 hx with rfl | hx
    · rfl
    · obtain ⟨k, rfl⟩ := List.mem_iff_get.1 hx
      have := congrFun (LinearMap.mem_ker.1 hv) k
      simp only [f, LinearMap.coe_mk, AddHom.coe_mk, Pi.zero_apply] at this
      linarith
  by_contra hdet
  have hpd : (npCov (x0 :: rest)).PosDef := by
    refine (C97_posSemidef _ (by simp)).posDef_iff_isUnit.2 ?_
    rw [Matrix.isUnit_iff_isUnit_det]
    exact isUnit_iff_ne_zero.2 hdet
  obtain ⟨x, hx, y, hy, hne⟩ := (C97_posDef_iff _ h).1 hpd v hv0
  exact hne (by rw [hconst x hx, hconst y hy])

/-- C97: the order of the observations does not matter. -/
theorem C97_order {s t : Sample p} (h : s.Perm t) : npCov s = npCov t := by
  have hm : colMean s = colMean t := by
    funext j
    unfold colMean
    rw [(h.map _).sum_eq, h.length_eq]
  ext i j
  unfold npCov
  rw [hm, (h.map _).sum_eq, h.length_eq]

theorem colMean_map_add (s : Sample p) (hs : s ≠ []) (a : Fin p → ℝ) (j : Fin p) :
    colMean (s.map (fun x i => x i + a i)) j = colMean s j + a j := by
  have hl : (s.length : ℝ) ≠ 0 := by
    have := List.length_pos_iff.2 hs
    positivity
  unfold colMean
  rw [List.length_map, List.map_map]
  have : (s.map ((fun x : Fin p → ℝ => x j) ∘ fun x i => x i + a i)).sum = (s.map (fun x => x j)).sum + s.length * a j := by
    clear hl hs
    induction s with
    | nil => simp
    | cons x s ih =>
      simp only [List.map_cons, List.sum_cons, ih, List.length_cons, Function.comp_apply]
      push_cast
      ring
  rw [this, add_div, mul_div_cancel_left₀ _ hl]

/-- C97: adding a constant to every observation does not matter. -/
theorem C97_shift (s : Sample p) (a : Fin p → ℝ) : npCov (s.map (fun x i => x i + a i)) = npCov s := by
  rcases eq_or_ne s [] with rfl | hs
  · rfl
  · ext i j
    unfold npCov
    rw [List.length_map, List.map_map]
    congr 2
    refine List.map_congr_left fun x _ => ?_
    simp only [Function.comp_apply, colMean_map_add s hs]
    ring

/-- C97: in other units of measurement the sample covariance is the converted one. -/
theorem C97_units (s : Sample p) (c : Fin p → ℝ) : npCov (s.map (fun x i => c i * x i)) = rescale c (npCov s) := by
  have hm : ∀ j, colMean (s.map (fun x i => c i * x i)) j = c j * colMean s j := by
    intro j
    unfold colMean
    rw [List.length_map, List.map_map, ← mul_div_assoc, ← List.sum_map_mul_left]
    rfl
  ext i j
  unfold npCov rescale
  rw [List.length_map, List.map_map, mul_comm _ (c j), ← mul_div_assoc, ← mul_div_assoc, ← List.sum_map_mul_left, ← List.sum_map_mul_left]
  congr 2
  refine List.map_congr_left fun x _ => ?_
  simp only [Function.comp_apply, hm]
  ring

/-! ## Environments with different means -/

/-- The data after `a k` has been added to every observation of environment `k`. -/
def Spec.shiftEnvs (a : Nat → Fin p → ℝ) (data : List (Sample p)) : List (Sample p) := data.mapIdx (fun k s => s.map (fun x i => x i + a k i))

theorem pySlice_map {α β : Type} (f : α → β) (l : List α) (a b : Int) : pySlice (l.map f) a b = (pySlice l a b).map f := by
  unfold pySlice
  rw [List.length_map, List.map_drop, List.map_take]

theorem splitSample_map {α β : Type} (f : α → β) (l : List α) (n : Nat) (rs : List (Nat × Rat)) :
    ∀ start, splitSample (l.map f) n rs start = (splitSample l n rs start).map (List.map f) := by
  induction rs with
  | nil => intro start; rfl
  | cons r rs ih =>
    intro start
    obtain ⟨i, q⟩ := r
    simp only [splitSample, List.length_map, List.map_cons, ih, List.cons.injEq, and_true]
    split_ifs
    · exact pySlice_map f l _ _
    · rw [List.map_drop]

theorem splitData_mapIdx {α β : Type} (rng : Nat → Rng) (f : Nat → α → β)
    (hnat : ∀ k (l : List α), (rng k).shuffle (l.map (f k)) = ((rng k).shuffle l).map (f k)) (data : List (List α)) (ratios : List Rat) :
    splitData rng (data.mapIdx (fun k s => s.map (f k))) ratios =
      (splitData rng data ratios).map (List.map (List.mapIdx (fun k s => s.map (f k)))) := by
  unfold splitData
  have hfolds : (List.range ratios.length).map (fun i => ((data.mapIdx (fun k s => s.map (f k))).zipIdx.map (fun s =>
        splitSample ((rng s.2).shuffle s.1) ratios.length (ratios.zipIdx.map (fun r => (r.2, r.1))) 0)).map (fun g => g.getD i [])) =
      ((List.range ratios.length).map (fun i => (data.zipIdx.map (fun s =>
        splitSample ((rng s.2).shuffle s.1) ratios.length (ratios.zipIdx.map (fun r => (r.2, r.1))) 0)).map (fun g => g.getD i []))).map
          (List.mapIdx (fun k s => s.map (f k))) := by
    rw [List.map_map]
    refine List.map_congr_left fun i _ => ?_
    simp only [Function.comp_apply]
    apply List.ext_getElem
    · simp
    · intro k h1 h2
      simp only [List.getElem_map, List.getElem_mapIdx, List.getElem_zipIdx, Nat.zero_add]
      rw [hnat, splitSample_map]
      simp only [List.getD_eq_getElem?_getD, List.getElem?_map]
      cases (splitSample ((rng k).shuffle _) ratios.length (ratios.zipIdx.map (fun r => (r.2, r.1))) 0)[i]? <;> simp
  by_cases h0 : ratios.sum ≠ 1
  · rw [if_pos h0, if_pos h0]
    rfl
  · rw [if_neg h0, if_neg h0]
    simp only [hfolds]
    have hlen : ((((List.range ratios.length).map (fun i => (data.zipIdx.map (fun s =>
        splitSample ((rng s.2).shuffle s.1) ratios.length (ratios.zipIdx.map (fun r => (r.2, r.1))) 0)).map (fun g => g.getD i []))).map
          (List.mapIdx (fun k s => s.map (f k)))).getD 0 []).length = (((List.range ratios.length).map (fun i => (data.zipIdx.map (fun s =>
        splitSample ((rng s.2).shuffle s.1) ratios.length (ratios.zipIdx.map (fun r => (r.2, r.1))) 0)).map (fun g => g.getD i []))).getD 0 []).length := by
      simp only [List.getD_eq_getElem?_getD, List.getElem?_map]
      cases (List.range ratios.length)[0]? <;> simp
    simp only [hlen, List.length_map, List.length_mapIdx]
    split_ifs <;> rfl

theorem foldData_shift (a : Nat → Fin p → ℝ) (fold : List (Sample p)) : foldData npCov (shiftEnvs a fold) e = foldData npCov fold e := by
  have hget : ∀ k, (shiftEnvs a fold).getD k [] = (fold.getD k []).map (fun x i => x i + a k i) := by
    intro k
    unfold shiftEnvs
    simp only [List.getD_eq_getElem?_getD, List.getElem?_mapIdx]
    cases fold[k]? <;> simp
  unfold foldData
  simp only [hget, C97_shift, List.length_map]

/-- C97: `equivalence_class` does not depend on the means of the environments: adding a constant to the observations of each environment
(a different one for every environment) changes nothing in the result.  The hypothesis on the generator says that the permutation applied
by `shuffle` does not depend on the values. -/
theorem C97_means_irrelevant (E : FitEnv p e) (hcov : E.cov = npCov) (hnat : ∀ (rs : Int) (k : Nat) (f : (Fin p → ℝ) → (Fin p → ℝ)) (l : Sample p),
      (E.rng rs k).shuffle (l.map f) = ((E.rng rs k).shuffle l).map f)
    (candidates : List (Adj p)) (data : Fin e → Sample p) (a : Fin e → Fin p → ℝ) (solverKnown pruneEdges : Bool)
    (numsLatent : Option (List Nat)) (folds : List Rat) (rs : Int) :
    equivalenceClass E candidates (fun k => (data k).map (fun x i => x i + a k i)) solverKnown pruneEdges numsLatent folds rs =
      equivalenceClass E candidates data solverKnown pruneEdges numsLatent folds rs := by
  unfold equivalenceClass
  congr 1
  unfold fitMain
  have hdata : List.ofFn (fun k => (data k).map (fun x i => x i + a k i)) =
      (List.ofFn data).mapIdx (fun k s => s.map (fun x i => x i + (if h : k < e then a ⟨k, h⟩ i else 0))) := by
    apply List.ext_getElem
    · simp
    · intro k h1 h2
      have hk : k < e := by simpa using h1
      simp [hk]
  set a' : Nat → Fin p → ℝ := fun k i => if h : k < e then a ⟨k, h⟩ i else 0 with ha'
  have hsplit := splitData_mapIdx (E.rng 42) (fun k (x : Fin p → ℝ) i => x i + a' k i) (fun k l => hnat 42 k _ l) (List.ofFn data) folds
  have hdata' : List.ofFn (fun k => (data k).map (fun x i => x i + a k i)) =
      (List.ofFn data).mapIdx (fun k s => s.map ((fun k (x : Fin p → ℝ) i => x i + a' k i) k)) := hdata
  rw [hdata', hsplit]
  cases hs : splitData (E.rng 42) (List.ofFn data) folds with
  | error err => rfl
  | ok fs =>
    match fs with
    | [] => rfl
    | [_] => rfl
    | [_, _] => rfl
    | _ :: _ :: _ :: _ :: _ => rfl
    | [training, testG, testI] =>
      change (match initialGraphs E (some candidates) (shiftEnvs a' training) with
        | .error err => .error err
        | .ok graphs =>
          match latentNumbers E numsLatent (shiftEnvs a' training) with
          | .error err => .error err
          | .ok ns =>
            match latentLoop E.it (E.fit (foldData E.cov (shiftEnvs a' training) e)) (scoreCtor (shiftEnvs a' training) solverKnown) pruneEdges none graphs
                (foldData E.cov (shiftEnvs a' testG) e) ns [] with
            | .error err => .error err
            | .ok results =>
              match sortedM tupleLt (results.map (fun r => (r.2.1, r.1, r.2.2.1, r.2.2.2))) with
              | .error err => .error err
              | .ok [] => .error .indexError
              | .ok ((_, h, graph, obj) :: _) =>
                targetPhase E (E.fit (foldData E.cov (shiftEnvs a' training) e) h) none (foldData E.cov (shiftEnvs a' testI) e) graph obj : Except Err (AnyModel p e × Finset (Fin p) × Flt)) = _
      have h1 : latentNumbers E numsLatent (shiftEnvs a' training) = latentNumbers E numsLatent training := by
        unfold latentNumbers
        cases numsLatent with
        | some ns => rfl
        | none =>
          cases training with
          | nil => rfl
          | cons t ts =>
            have : shiftEnvs a' (t :: ts) = t.map (fun x i => x i + a' 0 i) :: (shiftEnvs (fun k => a' (k + 1)) ts) := by
              unfold shiftEnvs
              rw [List.mapIdx_cons]
            rw [this]
            simp only [hcov, C97_shift]
      have h2 : scoreCtor (shiftEnvs a' training) solverKnown = scoreCtor training solverKnown := by
        unfold scoreCtor
        have : (shiftEnvs a' training).map (fun s => PyItem.arr [s.length, p]) = training.map (fun s => PyItem.arr [s.length, p]) := by
          unfold shiftEnvs
          apply List.ext_getElem
          · simp
          · intro k _ _
            simp
        rw [this]
      rw [h1, h2, hcov, foldData_shift, foldData_shift, foldData_shift]
      rfl

/-- The mean of the pooled sample. -/
theorem sum_flatten_map {α : Type} (ss : List (List α)) (f : α → ℝ) : (ss.flatten.map f).sum = (ss.map (fun s => (s.map f).sum)).sum := by
  induction ss with
  | nil => simp
  | cons s ss ih => rw [List.flatten_cons, List.map_append, List.sum_append, ih, List.map_cons, List.sum_cons]

/-- C97, violated for `equivalence_class_w_ges`: GES gets the pooled observations (main.py:728-730) without centring them per environment.
The covariance of pooled samples is the one within the environments plus one of the means of the environments. -/
theorem C97_pooled (ss : List (Sample p)) (hs : ∀ s ∈ ss, 2 ≤ s.length) (hne : ss ≠ []) (i j : Fin p) :
    ((ss.flatten.length : ℝ) - 1) * npCov ss.flatten i j =
      (ss.map (fun s => ((s.length : ℝ) - 1) * npCov s i j)).sum +
      (ss.map (fun s => (s.length : ℝ) * ((colMean s i - colMean ss.flatten i) * (colMean s j - colMean ss.flatten j)))).sum := by
  have hlen : 2 ≤ ss.flatten.length := by
    obtain ⟨s, ts, rfl⟩ := List.exists_cons_of_ne_nil hne
    have := hs s (by simp)
    simp only [List.flatten_cons, List.length_append]
    omega
  have hcancel : ∀ s : Sample p, 2 ≤ s.length → ∀ i j, ((s.length : ℝ) - 1) * npCov s i j =
      (s.map (fun x => (x i - colMean s i) * (x j - colMean s j))).sum := by
    intro s h i j
    have : (2 : ℝ) ≤ s.length := by exact_mod_cast h
    unfold npCov
    rw [mul_div_cancel₀]
    linarith
  have hmean : ∀ s : Sample p, 2 ≤ s.length → ∀ i, (s.map (fun x => x i)).sum = s.length * colMean s i := by
    intro s h i
    have : (2 : ℝ) ≤ s.length := by exact_mod_cast h
    unfold colMean
    field_simp
  rw [hcancel _ hlen, sum_flatten_map, ← List.sum_map_add]
  congr 1
  refine List.map_congr_left fun s hmem => ?_
  have h2 := hs s hmem
  rw [hcancel s h2]
  generalize colMean ss.flatten i = mi
  generalize colMean ss.flatten j = mj
  have e1 : ∀ (t : Sample p) (u v : ℝ), (t.map (fun x => (x i - u) * (x j - v))).sum =
      (t.map (fun x => x i * x j)).sum - v * (t.map (fun x => x i)).sum - u * (t.map (fun x => x j)).sum + t.length * (u * v) := by
    intro t u v
    induction t with
    | nil => simp
    | cons x t ih =>
      simp only [List.map_cons, List.sum_cons, ih, List.length_cons]
      push_cast
      ring
  rw [e1, e1, hmean s h2 i, hmean s h2 j]
  ring

/-- C97, violated: hence differences of means look like dependence.  For two samples of the same size in which the variables have sample
covariance zero, any covariance of the pooled data is obtained by shifting one of them. -/
theorem C97_pooled_any (s t : Sample 2) (hs : 2 ≤ s.length) (ht : t.length = s.length) (h0 : npCov s 0 1 = 0) (h1 : npCov t 0 1 = 0)
    (r : ℝ) : ∃ a : Fin 2 → ℝ, npCov [s, t.map (fun x i => x i + a i)].flatten 0 1 = r := by
  set n : ℝ := (s.length : ℝ) with hn
  have hn2 : (2 : ℝ) ≤ n := by rw [hn]; exact_mod_cast hs
  set d : Fin 2 → ℝ := fun i => colMean s i - colMean t i with hd
  -- means of the pooled sample for a shift `a`
  have hpool : ∀ a : Fin 2 → ℝ, (2 * n - 1) * npCov [s, t.map (fun x i => x i + a i)].flatten 0 1 = n / 2 * ((a 0 - d 0) * (a 1 - d 1)) := by
    intro a
    have htne : t ≠ [] := by
      rintro rfl
      simp at ht
      omega
    have hp := C97_pooled [s, t.map (fun x i => x i + a i)] (by
      intro u hu
      simp only [List.mem_cons, List.not_mem_nil, or_false] at hu
      rcases hu with rfl | rfl
      · exact hs
      · rw [List.length_map, ht]; exact hs) (by simp) 0 1
    have hm : ∀ i, colMean [s, t.map (fun x i => x i + a i)].flatten i = (colMean s i + (colMean t i + a i)) / 2 := by
      intro i
      have e1 := colMean_map_add t htne a i
      unfold colMean at e1 ⊢
      rw [List.length_map, ht, ← hn] at e1
      rw [sum_flatten_map]
      simp only [List.flatten_cons, List.flatten_nil, List.append_nil, List.length_append, List.length_map, List.map_cons, List.map_nil,
        List.sum_cons, List.sum_nil, add_zero, ht]
      rw [← hn]
      push_cast
      rw [← hn]
      have hn0 : n ≠ 0 := by linarith
      rw [← e1]
      field_simp
      ring
    simp only [List.map_cons, List.map_nil, List.sum_cons, List.sum_nil, add_zero, List.length_map, hm, C97_shift, h0, h1, mul_zero,
      colMean_map_add t htne, zero_add] at hp
    have hl : (([s, t.map (fun x i => x i + a i)].flatten.length : ℕ) : ℝ) = 2 * n := by
      simp only [List.flatten_cons, List.flatten_nil, List.append_nil, List.length_append, List.length_map, ht]
      push_cast
      rw [← hn]
      ring
    rw [hl, ht, ← hn] at hp
    rw [hp]
    simp only [hd]
    ring
  refine ⟨fun i => if i = 0 then d 0 + 1 else d 1 + r * (2 * n - 1) * 2 / n, ?_⟩
  have hn1 : (2 * n - 1) ≠ 0 := by linarith
  have hn0 : n ≠ 0 := by linarith
  have h := hpool (fun i => if i = 0 then d 0 + 1 else d 1 + r * (2 * n - 1) * 2 / n)
  refine mul_left_cancel₀ hn1 (h.trans ?_)
  simp only [if_true, show (1 : Fin 2) ≠ 0 by decide, if_false]
  field_simp
  ring

-- non-vacuity: two uncorrelated samples of four observations
example : npCov ([![1, 1], ![1, -1], ![-1, 1], ![-1, -1]] : Sample 2) 0 1 = 0 := by
  norm_num [npCov, colMean]
example : (npCov ([![1, 1], ![1, -1], ![-1, 1], ![-1, -1]] : Sample 2)).PosDef := by
  refine (C97_posDef_iff _ (by norm_num)).2 fun v hv => ?_
  by_contra hcon
  push Not at hcon
  have e1 := hcon ![1, 1] (by simp) ![1, -1] (by simp)
  have e2 := hcon ![1, 1] (by simp) ![-1, 1] (by simp)
  simp only [combine, Fin.sum_univ_two, Matrix.cons_val_zero, Matrix.cons_val_one] at e1 e2
  exact hv (by ext i; fin_cases i <;> simp <;> linarith)

/-- An environment as in `C97_means_irrelevant`. -/
noncomputable def exEnvCov (p : Nat) : FitEnv p 1 := { exEnv p with cov := npCov }

example (p : Nat) : (exEnvCov p).cov = npCov ∧ ∀ (rs : Int) (k : Nat) (f : (Fin p → ℝ) → (Fin p → ℝ)) (l : Sample p),
    ((exEnvCov p).rng rs k).shuffle (l.map f) = (((exEnvCov p).rng rs k).shuffle l).map f := by
  refine ⟨rfl, fun rs k f l => ?_⟩
  have : (exEnvCov p).rng rs k = if rs = 1 then Rng.back else Rng.front := rfl
  rw [this]
  split_ifs
  · exact List.map_reverse.symm
  · rfl

end Verif
