import Verif.Model.IntTargets
import Verif.Props.LastEnvExamples

/-!
# C161: `score_dag` for targets given as any set of integers
-/

namespace Verif
open Spec Matrix
variable {p l e : Nat}

namespace Spec
/-- The nodes `0, ..., p - 1` that are elements of a set of integers. -/
def nodesIn (p : Nat) (I : Finset Int) : Finset (Fin p) := Finset.univ.filter fun j => (j.val : Int) ∈ I

/-- The caches that calls of `score_dag` lead to, the `n`-th of them with the outcome `fit n` of the computation. -/
inductive CacheAfter {M : Type} (copy : M → Except Err M) (fit : Nat → Adj p → Finset Int → Except Err (M × Flt)) : Nat → List (ZEntry p M) → Prop
  | start : CacheAfter copy fit 0 []
  | call (n : Nat) (c c' : List (ZEntry p M)) (A : Adj p) (I : Finset Int) (r : M × Flt) :
    CacheAfter copy fit n c → zscoreDag copy (fit n) c A I = .ok (r, c') → CacheAfter copy fit (n + 1) c'
end Spec

theorem mem_nodesIn {I : Finset Int} {j : Fin p} : j ∈ nodesIn p I ↔ (j.val : Int) ∈ I := by simp [nodesIn]

variable (it : SetIter p) (svd : Matrix (Fin p) (Fin p) ℝ → Matrix (Fin p) (Fin p) ℝ × (Fin p → ℝ)) (num : NumLib p e)
  (cfg : ScoreCfg) (d : Data p e) (u v : Nat → Fin (p * p) → ℝ)

theorem zcodeSolvers_eq (I : Finset Int) : (zcodeSolvers it num cfg d u v I : Solvers p l e) = codeSolvers it num cfg d u v (nodesIn p I) := by
  unfold zcodeSolvers codeSolvers
  congr 1
  funext m
  unfold zsolveForRest solveForRest
  have : zrestGrad it d I cfg.psiFixed m = restGrad it d (nodesIn p I) cfg.psiFixed m := by
    funext X
    unfold zrestGrad restGrad
    have h : ∀ j : Fin p, (j.val : Int) ∈ (Finset.univ.image fun j : Fin p => (j.val : Int)) \ I ↔ j ∉ nodesIn p I := by
      intro j
      rw [mem_nodesIn, Finset.mem_sdiff]
      simp
    simp only [h, ite_not]
    cases mkModel it m.A m.B m.gamma (toOmegas X) (toPsis X) with
    | error err => rfl
    | ok m' => cases hM : m'.invNoise <;> simp only [hM]
  rw [this]
  cases gradientDescent 2 (Sum.elim (fun _ => 0) (fun _ => 1)) (restLoss it d m) (restGrad it d (nodesIn p I) cfg.psiFixed m)
    (Sum.elim (fun hj => m.omegas hj.1 hj.2) (fun hk => m.psis hk.1 hk.2)) cfg.thresholdScore cfg.learningRate
    (some (restBounds cfg.psiMax)) (1 / 10 ^ 50) <;> rfl

/-- C161: apart from the cache, `score_dag` does for a set of integers what it does for the non-negative nodes in it: negative integers and those
outside the graph are ignored, without an error. -/
theorem C161_fit (A : Adj p) (I : Finset Int) (init : Option (LModel p l e)) :
    zfitCode it svd num cfg d u v A I init = fitCode it svd num cfg d u v A (nodesIn p I) init := by
  have h : (zinitialModel it svd d A I : Except Err (LModel p l e)) = initialModel it svd d A (nodesIn p I) := by
    unfold zinitialModel initialModel zinitializeOmegas initializeOmegas
    simp only [mem_nodesIn]
    rfl
  unfold zfitCode fitCode fitDag
  rw [h, zcodeSolvers_eq]
  rfl

theorem zcacheFind_some {M : Type} {c : List (ZEntry p M)} {A : Adj p} {I : Finset Int} {i : Nat} (h : zcacheFind c A I = .ok (some i)) :
    ∃ en, c[i]? = some en ∧ en.A = A ∧ en.I = I := by
  have hA : ∀ i, i ∈ (List.range c.length).filter (fun i => decide ((c[i]?).map (·.A) = some A)) → ∃ en, c[i]? = some en ∧ en.A = A := by
    intro i hi
    have := of_decide_eq_true (List.mem_filter.1 hi).2
    rwa [Option.map_eq_some_iff] at this
  unfold zcacheFind at h
  split_ifs at h with h0
  · simp at h
  · revert h hA
    generalize (List.range c.length).filter (fun i => decide ((c[i]?).map (·.A) = some A)) = idx
    intro hA h
    split at h
    · simp at h
    · rename_i k
      split_ifs at h with h1
      · simp only [Except.ok.injEq, Option.some.injEq] at h
        subst h
        obtain ⟨en, h2, h3⟩ := hA k (by simp)
        refine ⟨en, h2, h3, ?_⟩
        rw [h2] at h1
        simpa using h1
      · simp at h
    · split at h
      · simp at h
      · rename_i j hj
        rw [Except.ok.injEq] at h
        have h1 : j ∈ [j] := by simp
        rw [← hj] at h1
        have h2 := of_decide_eq_true (List.mem_filter.1 h1).2
        rw [h, Option.bind_some] at h2
        obtain ⟨en, h3, h4⟩ := hA i (List.mem_of_getElem? h)
        refine ⟨en, h3, h4, ?_⟩
        rw [h3] at h2
        simpa using h2
      · simp at h

theorem zscoreDag_ok {M : Type} {copy : M → Except Err M} {fit : Adj p → Finset Int → Except Err (M × Flt)} {c c' : List (ZEntry p M)}
    {A : Adj p} {I : Finset Int} {r : M × Flt} (h : zscoreDag copy fit c A I = .ok (r, c')) :
    (c' = c ∧ ∃ en ∈ c, en.A = A ∧ en.I = I ∧ r = (en.model, en.score)) ∨
      (fit A I = .ok r ∧ ∃ m', copy r.1 = .ok m' ∧ c' = c ++ [⟨A, I, r.2, m'⟩]) := by
  unfold zscoreDag at h
  split at h
  · simp at h
  · rename_i r' hr
    simp only [Except.ok.injEq, Prod.mk.injEq] at h
    obtain ⟨rfl, rfl⟩ := h
    left
    unfold zcacheRead at hr
    split at hr
    · simp at hr
    · simp at hr
    · rename_i i hi
      obtain ⟨en, h1, h2, h3⟩ := zcacheFind_some hi
      rw [h1] at hr
      simp only [Except.ok.injEq, Option.some.injEq] at hr
      exact ⟨rfl, en, List.mem_of_getElem? h1, h2, h3, hr.symm⟩
  · split at h
    · simp at h
    · rename_i m s hf
      split at h
      · simp at h
      · rename_i c'' hw
        simp only [Except.ok.injEq, Prod.mk.injEq] at h
        obtain ⟨rfl, rfl⟩ := h
        right
        refine ⟨hf, ?_⟩
        unfold zcacheWrite at hw
        split at hw
        · simp at hw
        · simp at hw
        · split at hw
          · simp at hw
          · rename_i m' hm
            rw [Except.ok.injEq] at hw
            exact ⟨m', hm, hw.symm⟩

theorem cacheAfter_entries {M : Type} {copy : M → Except Err M} {fit : Nat → Adj p → Finset Int → Except Err (M × Flt)} {n : Nat}
    {c : List (ZEntry p M)} (h : CacheAfter copy fit n c) : ∀ en ∈ c, ∃ k < n, ∃ m, fit k en.A en.I = .ok (m, en.score) ∧ copy m = .ok en.model := by
  induction h with
  | start => simp
  | call n c c' A I r _ hr ih =>
    rcases zscoreDag_ok hr with ⟨rfl, -⟩ | ⟨hf, m', hm, rfl⟩
    · intro en hen
      obtain ⟨k, hk, h⟩ := ih en hen
      exact ⟨k, by omega, h⟩
    · intro en hen
      rcases List.mem_append.1 hen with hen | hen
      · obtain ⟨k, hk, h⟩ := ih en hen
        exact ⟨k, by omega, h⟩
      · rw [List.mem_singleton] at hen
        subst hen
        exact ⟨n, by omega, r.1, hf, hm⟩

/-- C161: after any calls, in a model returned by `score_dag` for a set of integers every variable `j` that is not itself in the set has the same noise
variance in all environments, whether the result is computed or read from the cache.  So a negative integer is no target. -/
theorem C161_non_targets (U V : Nat → Nat → Fin (p * p) → ℝ) (n : Nat) (c c' : List (ZEntry p (LModel p l e))) (A : Adj p) (I : Finset Int)
    (m : LModel p l e) (s : Flt)
    (hc : CacheAfter (LModel.copy it) (fun k A I => zfitCode it svd num cfg d (U k) (V k) A I none) n c)
    (h : zscoreDag (LModel.copy it) (fun A I => zfitCode it svd num cfg d (U n) (V n) A I none) c A I = .ok ((m, s), c'))
    (j : Fin p) (hj : (j.val : Int) ∉ I) (k k' : Fin e) : m.omegas k j = m.omegas k' j := by
  have hfit : ∀ n A I (m : LModel p l e) s, zfitCode it svd num cfg d (U n) (V n) A I none = .ok (m, s) → (j.val : Int) ∉ I → m.omegas k j = m.omegas k' j := by
    intro n A I m s h hj
    rw [C161_fit] at h
    exact C46_non_targets_constant m s h j (fun h => hj (mem_nodesIn.1 h)) k k'
  rcases zscoreDag_ok h with ⟨-, en, hen, rfl, rfl, hr⟩ | ⟨hf, -⟩
  · obtain ⟨k₀, -, m₀, h1, h2⟩ := cacheAfter_entries hc en hen
    have h3 := hfit k₀ _ _ m₀ _ h1 hj
    injection hr with hr1 hr2
    subst hr1
    obtain ⟨-, -, h4⟩ := mkModel_fields h2
    rw [h4]
    exact h3
  · exact hfit n A I m s hf hj

/-- C161: the cache compares the sets as they were given: for a set with the same nodes but other integers the computation is done again and stored
beside the first. -/
theorem C161_fitted_again {M : Type} (copy : M → Except Err M) (fit : Adj p → Finset Int → Except Err (M × Flt)) (A : Adj p) (I J : Finset Int)
    (hIJ : I ≠ J) (m m₁ : M) (s s₁ : Flt) (m' : M) (hf : fit A J = .ok (m, s)) (hm : copy m = .ok m') :
    zscoreDag copy fit [⟨A, I, s₁, m₁⟩] A J = .ok ((m, s), [⟨A, I, s₁, m₁⟩, ⟨A, J, s, m'⟩]) ∧
      zscoreDag copy fit [⟨A, I, s₁, m₁⟩] A I = .ok ((m₁, s₁), [⟨A, I, s₁, m₁⟩]) := by
  have h1 : zcacheFind ([⟨A, I, s₁, m₁⟩] : List (ZEntry p M)) A J = .ok none := by
    simp [zcacheFind, hIJ, List.range_succ]
  have h2 : zcacheFind ([⟨A, I, s₁, m₁⟩] : List (ZEntry p M)) A I = .ok (some 0) := by
    simp [zcacheFind, List.range_succ]
  constructor
  · unfold zscoreDag zcacheRead zcacheWrite
    rw [h1]
    simp only [hf, hm]
    rfl
  · unfold zscoreDag zcacheRead
    rw [h2]
    rfl

/-- An example for `C161_fit` and `C161_non_targets`: -1 names the last of two nodes elsewhere, but here the sets {-1} and {7} have no nodes. -/
example : nodesIn 2 {-1} = ∅ ∧ nodesIn 2 {7} = ∅ ∧ nodesIn 2 {-1, 1} = {1} := by
  unfold nodesIn
  decide

/-- An example for `C161_fitted_again`: the sets {-1} and the empty set. -/
example : zscoreDag (p := 2) (fun m : Nat => .ok m) (fun _ _ => .ok (3, some 0)) [⟨0, ∅, some 1, 2⟩] 0 {-1} =
    .ok ((3, some 0), [⟨0, ∅, some 1, 2⟩, ⟨0, {-1}, some 0, 3⟩]) :=
  (C161_fitted_again _ _ 0 ∅ {-1} (by decide) 3 2 (some 0) (some 1) 3 rfl rfl).1

namespace LastEnvEx

/-- An example for `C161_non_targets`: two environments in which the variance of the last variable changes.  With the set {-1}, `score_dag` returns a model
in which no variance changes. -/
example (svd : Matrix (Fin 2) (Fin 2) ℝ → Matrix (Fin 2) (Fin 2) ℝ × (Fin 2 → ℝ)) (u v : Nat → Fin (2 * 2) → ℝ) :
    ∃ (num : NumLib 2 2) (cfg : ScoreCfg) (m : LModel 2 0 2) (s : Flt) (c : List (ZEntry 2 (LModel 2 0 2))),
      zscoreDag (LModel.copy (SetIter.incr 2)) (fun A I => zfitCode (SetIter.incr 2) svd num cfg ⟨covs, fun _ => 10⟩ u v A I none) [] graph {-1} =
        .ok ((m, s), c) ∧ (∀ j k k', m.omegas k j = m.omegas k' j) ∧ covs 0 1 1 ≠ covs 1 1 1 := by
  obtain ⟨num, hs, hopt⟩ := cvxOptimal_zero_exists (p := 2) (e := 2)
  have hpd : ∀ k, (covs k).PosDef := fun k => entails_pd (det_one_sub_transpose graph_acyclic truth.respects) (Matrix.PosDef.diagonal (truth.pos k)) (truth.entails k)
  have hd : GoodData (⟨covs, fun _ => 10⟩ : Data 2 2) := ⟨hpd, fun _ => by norm_num, by norm_num⟩
  obtain ⟨m, s, h⟩ := C71_score_dag_returns (l := 0) (SetIter.incr 2) svd num ⟨.cvx, none, false, ⟨1000, 1 / 1000, 1 / 100000, 10⟩, 1 / 100000, 10⟩ _ hd u v _
    graph_nonneg graph_acyclic (nodesIn 2 {-1}) (by norm_num) (by norm_num) rfl (cvxFeasible_of_optimal (fun Ms => hopt _ Ms _)) (by norm_num) (by simp)
    (by norm_num) (by norm_num)
  obtain ⟨-, -, m', hm'⟩ := C45_fitted_model (fun h => by cases h) none m (some s) h
  rw [← C161_fit] at h
  have hrun : zscoreDag (LModel.copy (SetIter.incr 2)) (fun A I => zfitCode (SetIter.incr 2) svd num
      ⟨.cvx, none, false, ⟨1000, 1 / 1000, 1 / 100000, 10⟩, 1 / 100000, 10⟩ ⟨covs, fun _ => 10⟩ u v A I none) [] graph {-1} =
        .ok ((m, some s), [⟨graph, {-1}, some s, m'⟩]) := by
    unfold zscoreDag zcacheRead zcacheWrite zcacheFind
    simp only [List.length_nil, if_true, h, hm', List.nil_append]
  refine ⟨num, _, m, some s, _, hrun, fun j k k' => ?_, by norm_num [covs, sd]⟩
  exact C161_non_targets (SetIter.incr 2) svd num _ _ (fun _ => u) (fun _ => v) 0 [] _ graph {-1} m (some s) .start hrun j
    (by rw [Finset.mem_singleton]; omega) k k'

end LastEnvEx

end Verif
