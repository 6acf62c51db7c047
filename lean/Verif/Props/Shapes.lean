import Verif.Model.Shapes
import Verif.Props.ScoreInit

/-!
# C110: inputs of unusual shape
-/

namespace Verif

open Matrix Spec

variable {p q e : Nat}

/-- C110: the shape of the covariances of raw data can be unpacked exactly if there is an environment and the number of variables is not
one. -/
theorem C110_shape (e p : Nat) :
    (0 < e ∧ p ≠ 1 → unpack3 (rawShape e p) = .ok (e, p, p)) ∧ (e = 0 ∨ p = 1 → unpack3 (rawShape e p) = .error .valueError) := by
  constructor
  · rintro ⟨he, hp⟩
    obtain ⟨k, rfl⟩ := Nat.exists_eq_succ_of_ne_zero he.ne'
    simp [rawShape, List.replicate_succ, stackShape, covShape, hp, unpack3]
  · rintro (rfl | rfl)
    · rfl
    · cases e with
      | zero => rfl
      | succ k => simp [rawShape, List.replicate_succ, stackShape, covShape, unpack3]

/-- C110: `score_dag` without `init_model` raises `ValueError` for every graph and all targets if the object was made from raw data with a
single variable or no environment; otherwise the shape plays no role.  A graph
with a cycle raises `ValueError` for every shape. -/
theorem C110_score_dag (it : SetIter p) (fit : Fitter p e) (n : Nat) (A : Adj p) (I : Finset (Fin p)) :
    (e = 0 ∨ p = 1 → shapedFit it (rawShape e p) fit n A I = .error .valueError) ∧
    (0 < e ∧ p ≠ 1 → isDag it A = true → shapedFit it (rawShape e p) fit n A I = fit n A I) ∧
    (isDag it A = true → shapedFit it [e, p, p] fit n A I = fit n A I) ∧
    (Nonneg A → ¬ Acyclic A → ∀ shape, shapedFit it shape fit n A I = .error .valueError) := by
  refine ⟨fun h => ?_, fun h hA => ?_, fun hA => ?_, fun hA hc shape => ?_⟩
  · unfold shapedFit
    rw [(C110_shape e p).2 h]
    split_ifs <;> rfl
  · unfold shapedFit
    rw [(C110_shape e p).1 h]
    simp [hA]
  · simp [shapedFit, unpack3, hA]
  · have : isDag it A = false := Bool.eq_false_iff.2 fun h => hc ((isDag_iff it hA).1 h)
    simp [shapedFit, this]

/-- If every fit fails, `_fit` does not return. -/
theorem fitMain_all_errors (E : FitEnv p e) (h : ∀ d l n A I, ∃ err, E.fit d l n A I = .error err) (data : Fin e → Sample p)
    (known prune : Bool) (nums : Option (List Nat)) (folds : List Rat) (tG tI : Option ℝ) (initial : Option (List (Adj p))) (rs : Int) :
    ∃ err, fitMain E data known nums prune folds tG tI initial rs = .error err := by
  unfold fitMain
  split
  · exact ⟨_, rfl⟩
  · rename_i training testG testI hs
    split
    · exact ⟨_, rfl⟩
    · rename_i graphs hg
      split
      · exact ⟨_, rfl⟩
      · rename_i ns hns
        cases ns with
        | nil => exact ⟨_, rfl⟩
        | cons k ns =>
          cases graphs with
          | nil =>
            cases hc : scoreCtor training known <;> simp [latentLoop, pruneGraphs]
          | cons G Gs =>
            obtain ⟨err, herr⟩ := h (foldData E.cov training e) k 0 G Finset.univ
            cases hc : scoreCtor training known <;>
              simp [latentLoop, pruneGraphs, pruneGraphsLoop, pruneGraph, ScoreObj.scoreDag, scoreDag, cacheRead,
                show cacheFind ([] : List (Entry p (AnyModel p e))) G Finset.univ = .ok none from by rfl, herr]
  · exact ⟨_, rfl⟩

/-- C110: `equivalence_class` and `equivalence_class_w_ges` do not return for data with a single observed variable, whatever the other
arguments. -/
theorem C110_single_variable (E : FitEnv 1 e) (fit : Data 1 e → Nat → Fitter 1 e)
    (hE : ∀ d l, E.fit d l = shapedFit E.it (rawShape e 1) (fit d l)) (data : Fin e → Sample 1) (known : Bool) (nums : Option (List Nat))
    (folds : List Rat) (rs : Int) :
    (∀ candidates prune, ∃ err, equivalenceClass E candidates data known prune nums folds rs = .error err) ∧
      ∃ err, equivalenceClassGes E data known nums folds rs = .error err := by
  have h : ∀ d l n A I, ∃ err, E.fit d l n A I = .error err := fun d l n A I => by
    rw [hE]
    exact ⟨_, (C110_score_dag E.it (fit d l) n A I).1 (Or.inr rfl)⟩
  constructor
  · intro candidates prune
    obtain ⟨err, he⟩ := fitMain_all_errors E h data known prune nums folds none none (some candidates) 42
    exact ⟨err, by simp [equivalenceClass, he, withIcpdag]⟩
  · obtain ⟨err, he⟩ := fitMain_all_errors E h data known true nums folds none none none 42
    exact ⟨err, by simp [equivalenceClassGes, he, withIcpdag]⟩

/-- The loop for graphs of the size of the data fails exactly if the one of the model does. -/
theorem regressSized_same (A : Adj p) (cov : Matrix (Fin p) (Fin p) ℝ) :
    regressSized A cov (List.finRange p) = .ok () ↔ ∃ B, regressAll A cov = .ok B := by
  have hpa : ∀ j : Fin p, (paOfSized A j : Finset (Fin p)) = paOf A j := fun j => by
    ext i
    simp [paOfSized, paOf]
  have h : ∀ js : List (Fin p), regressSized A cov js = .ok () ↔ ∀ j ∈ js, (covPa cov (paOf A j)).det ≠ 0 := by
    intro js
    induction js with
    | nil => simp [regressSized]
    | cons j js ih =>
      have h1 : ¬ ∃ i : Fin p, A i ⟨j, j.isLt⟩ ≠ 0 ∧ p ≤ i.val := by
        rintro ⟨i, -, hi⟩
        exact absurd i.isLt (not_lt.2 hi)
      unfold regressSized
      rw [dif_pos j.isLt, if_neg h1, hpa]
      by_cases hd : (covPa cov (paOf A j)).det = 0
      · simp [hd]
      · simp [hd, ih]
  rw [h]
  unfold regressAll
  split_ifs with hc
  · simpa using hc
  · push Not at hc
    simp [hc]

theorem covPa_det_ne (cov : Matrix (Fin p) (Fin p) ℝ) (h : cov.PosDef) (pa : Finset (Fin p)) : (covPa cov pa).det ≠ 0 :=
  (h.submatrix Subtype.val_injective).det_pos.ne'

/-- C110: a graph with fewer nodes than the data has variables is rejected with `IndexError`.  A graph with more nodes is rejected with
`IndexError` if there is an edge from an extra node to a variable, and otherwise with `ValueError`. -/
theorem C110_size (it : SetIter q) (d : Data p e) (hg : GoodData d) (A : Adj q) (hA : isDag it A = true) :
    (q < p → startSized it d A = .error .indexError) ∧
    (p < q → (∃ i j : Fin q, Edge A i j ∧ p ≤ i.val ∧ j.val < p) → startSized it d A = .error .indexError) ∧
    (p < q → (¬ ∃ i j : Fin q, Edge A i j ∧ p ≤ i.val ∧ j.val < p) → startSized it d A = .error .valueError) := by
  have hd : (avgCov d).PosDef := avgCov_posDef d hg
  have key : ∀ js : List (Fin p),
      ((∃ j ∈ js, q ≤ j.val ∨ ∃ (h : j.val < q), ∃ i : Fin q, A i ⟨j, h⟩ ≠ 0 ∧ p ≤ i.val) → regressSized A (avgCov d) js = .error .indexError) ∧
      ((¬ ∃ j ∈ js, q ≤ j.val ∨ ∃ (h : j.val < q), ∃ i : Fin q, A i ⟨j, h⟩ ≠ 0 ∧ p ≤ i.val) → regressSized A (avgCov d) js = .ok ()) := by
    intro js
    induction js with
    | nil => simp [regressSized]
    | cons j js ih =>
      by_cases h : j.val < q
      · by_cases hi : ∃ i : Fin q, A i ⟨j, h⟩ ≠ 0 ∧ p ≤ i.val
        · have hr : regressSized A (avgCov d) (j :: js) = .error .indexError := by
            unfold regressSized
            rw [dif_pos h, if_pos hi]
          exact ⟨fun _ => hr, fun hc => absurd ⟨j, by simp, Or.inr ⟨h, hi⟩⟩ hc⟩
        · have hr : regressSized A (avgCov d) (j :: js) = regressSized A (avgCov d) js := by
            conv_lhs => unfold regressSized
            rw [dif_pos h, if_neg hi, if_neg (covPa_det_ne _ hd _)]
          rw [hr]
          have hiff : (∃ j' ∈ j :: js, q ≤ j'.val ∨ ∃ (h : j'.val < q), ∃ i : Fin q, A i ⟨j', h⟩ ≠ 0 ∧ p ≤ i.val) ↔
              ∃ j' ∈ js, q ≤ j'.val ∨ ∃ (h : j'.val < q), ∃ i : Fin q, A i ⟨j', h⟩ ≠ 0 ∧ p ≤ i.val := by
            constructor
            · rintro ⟨j', hj, hx⟩
              rcases List.mem_cons.1 hj with rfl | hj
              · rcases hx with hx | ⟨h', hx⟩
                · omega
                · exact absurd hx hi
              · exact ⟨j', hj, hx⟩
            · rintro ⟨j', hj, hx⟩
              exact ⟨j', List.mem_cons_of_mem _ hj, hx⟩
          rw [hiff]
          exact ih
      · have hr : regressSized A (avgCov d) (j :: js) = .error .indexError := by
          unfold regressSized
          rw [dif_neg h]
        exact ⟨fun _ => hr, fun hc => absurd ⟨j, by simp, Or.inl (not_lt.1 h)⟩ hc⟩
  obtain ⟨k1, k2⟩ := key (List.finRange p)
  refine ⟨fun h => ?_, fun h ⟨i, j, he, hi, hj⟩ => ?_, fun h hn => ?_⟩
  · unfold startSized
    simp [hA, initCovariance, k1 ⟨⟨q, h⟩, by simp, Or.inl le_rfl⟩]
  · unfold startSized
    simp [hA, initCovariance, k1 ⟨⟨j, hj⟩, by simp, Or.inr ⟨j.isLt, i, he, hi⟩⟩]
  · have h2 := k2 (by
      rintro ⟨j, -, hj | ⟨hj, i, hi, hpi⟩⟩
      · have := j.isLt
        omega
      · exact hn ⟨i, ⟨j, hj⟩, hi, hpi, j.isLt⟩)
    unfold startSized
    simp [hA, initCovariance, h2, h.ne']

/-- Two environments with uncorrelated variables: graphs with one and three nodes. -/
example : startSized (SetIter.incr 1) (⟨fun _ => 1, fun _ => 5⟩ : Data 2 2) (fun _ _ => 0) = .error .indexError ∧
    startSized (SetIter.incr 3) (⟨fun _ => 1, fun _ => 5⟩ : Data 2 2) ![![0, 1, 1], ![0, 0, 1], ![0, 0, 0]] = .error .valueError ∧
    startSized (SetIter.incr 3) (⟨fun _ => 1, fun _ => 5⟩ : Data 2 2) ![![0, 0, 0], ![0, 0, 0], ![1, 0, 0]] = .error .indexError := by
  have hg : GoodData (⟨fun _ => 1, fun _ => 5⟩ : Data 2 2) := ⟨fun _ => PosDef.one, fun _ => by norm_num, by norm_num⟩
  refine ⟨(C110_size _ _ hg _ (by decide +kernel)).1 (by norm_num), (C110_size _ _ hg _ (by decide +kernel)).2.2 (by norm_num) ?_,
    (C110_size _ _ hg _ (by decide +kernel)).2.1 (by norm_num) ⟨2, 0, by decide, by decide, by decide⟩⟩
  rintro ⟨i, j, h1, h2, h3⟩
  fin_cases i <;> fin_cases j <;> simp_all [Edge]

/-- A fitting function as in the theorem on a single variable, and one for precomputed covariances, which works. -/
example (it : SetIter 1) (fit : Fitter 1 2) : shapedFit it (rawShape 2 1) fit 0 (fun _ _ => 0) Finset.univ = .error .valueError ∧
    shapedFit it [2, 1, 1] fit 0 (fun _ _ => 0) Finset.univ = fit 0 (fun _ _ => 0) Finset.univ :=
  ⟨(C110_score_dag it fit 0 _ _).1 (Or.inr rfl), (C110_score_dag it fit 0 _ _).2.2.1
    ((isDag_iff it (fun _ _ => le_refl _)).2 (acyclic_of_rank (fun _ => 0) (by simp [Edge])))⟩

end Verif
