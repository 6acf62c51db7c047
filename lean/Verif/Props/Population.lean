import Verif.Props.Mixed
import Verif.Props.Nested
import Verif.Props.Proper

/-!
# C95: ties are decided in favour of all targets and of the first candidate

`_prune_I` lists the model with all variables as targets first (main.py:648-688), `_prune_graphs` lists the candidates in the given order
and `_best_scoring` (main.py:591-600) takes the first minimum.  The specification of an exact fit below (`Spec.ExactFit`) is what one expects of
`Score.score_dag` in the limit of infinite samples.
-/

namespace Verif

open Spec Matrix

variable {p e : Nat}

/-! ## Ties in every run -/

/-- C95: in every run that returns, the chosen set of targets is the largest one among those of the chain that have the best score on the
third fold: every larger set has a strictly worse score. -/
theorem C95_larger_targets_worse {E : FitEnv p e} (hfit : ∀ d h, GoodFit (E.fit d h))
    (hlat : ∀ d h n A I m s, E.fit d h n A I = .ok (m, s) → m.1 = h) (harg : ∀ f, IsArgsort f (E.argsort f))
    {data : Fin e → Sample p} {solverKnown : Bool} {numsLatent : Option (List Nat)} {prune : Bool}
    {folds : List Rat} {initial : Option (List (Adj p))} {rs : Int} {m : AnyModel p e} {I : Finset (Fin p)} {s : Flt}
    (h : fitMain E data solverKnown numsLatent prune folds none none initial rs = .ok (m, I, s)) :
    ∃ training testG testI graphs, splitData (E.rng rs) (List.ofFn data) folds = .ok [training, testG, testI] ∧
      initialGraphs E initial training = .ok graphs ∧ ((∀ G ∈ graphs, Nonneg G) →
      ∃ (m0 : AnyModel p e) (s0 : Flt) (order : List (Fin p)) (i : Nat),
        FittedTo E.it (E.fit (foldData E.cov training e) m.1) m.A Finset.univ m0 s0 ∧
        order.Perm (List.finRange p) ∧ order.Pairwise (fun a b => popVar (fun k => m0.omegas k a) ≤ popVar (fun k => m0.omegas k b)) ∧
        i ≤ p ∧ I = Finset.univ \ (order.take i).toFinset ∧ (i = 0 → m = m0) ∧
        (∃ sf, FittedTo E.it (E.fit (foldData E.cov training e) m.1) m.A I m sf) ∧ m.scoreOn (foldData E.cov testI e) = .ok s ∧
        ∀ j < i, ∃ mj sf sj, FittedTo E.it (E.fit (foldData E.cov training e) m.1) m.A (Finset.univ \ (order.take j).toFinset) mj sf ∧
          (j = 0 → mj = m0) ∧ mj.scoreOn (foldData E.cov testI e) = .ok sj ∧ ¬ AtMost sj s) := by
  obtain ⟨training, testG, testI, graphs, ns, results, sc, n, graph, obj, rest, h1, h2, h3, h4, h5, h6⟩ := fitMain_ok h
  refine ⟨training, testG, testI, graphs, h1, h2, fun hG => ?_⟩
  obtain ⟨k1, k2, k3⟩ := latentLoop_spec ns [] results (by simp) (by simp) h4
  obtain ⟨r, k4, k5, -⟩ := sortedM_ok (results.map (fun r => (r.2.1, r.1, r.2.2.1, r.2.2.2))) (by rw [List.map_map]; exact k1)
  rw [h5] at k4
  cases k4
  have hmem : (n, (sc, graph, obj)) ∈ results := by
    have := k5.mem_iff.1 (List.mem_cons_self (a := (sc, n, graph, obj)) (l := rest))
    obtain ⟨r, hr, hre⟩ := List.mem_map.1 this
    simp only [Prod.mk.injEq] at hre
    obtain ⟨e1, e2, e3, e4⟩ := hre
    rw [← e1, ← e2, ← e3, ← e4]
    exact hr
  obtain ⟨models, scores, g1, g2, g3⟩ := k2 _ hmem
  simp only at g1 g2 g3
  obtain ⟨o1, -⟩ := pruneGraphs_spec (hfit _ n) hG (ScoreObj.ok_new E.it _ 0) g1
  obtain ⟨pm, obj', ps, t1, t2, t3⟩ := targetPhase_ok h6
  obtain ⟨m0, s0, order, c1, c2, c3, c4, c5, c6⟩ := C57_nested E.it E.argsort harg _ graph obj obj' o1 pm t1
  obtain ⟨q1, q2⟩ := testScores_spec pm t2
  have hne : ps ≠ [] := List.ne_nil_of_mem (bestScoring_mem t3)
  obtain ⟨i, t, b1, b2, -, b4⟩ := bestScoring_spec hne
  rw [t3] at b1
  cases b1
  have hget : ∀ j : Nat, pm[j]? = ps[j]?.map Prod.snd := fun j => by rw [← q1, List.getElem?_map]
  have hi : pm[i]? = some (m, I) := by rw [hget, b2]; rfl
  have hip : i ≤ p := by
    have := (List.getElem?_eq_some_iff.1 hi).1
    omega
  have hhead : pm[0]? = some (m0, Finset.univ) := by rw [← List.head?_eq_getElem?, c2]
  obtain ⟨mi, sf, c7, c8⟩ := c6 i hip
  rw [hi] at c7
  simp only [Option.some.injEq, Prod.mk.injEq] at c7
  obtain ⟨e1, e2⟩ := c7
  rw [← e2, ← e1] at c8
  have hmA : m.A = graph := (c8.good (hfit _ n)).1
  have hm1 : m.1 = n := by
    obtain ⟨j, mm, f1, f2, -⟩ := c8.fields
    rw [f2]
    exact hlat _ _ _ _ _ _ _ f1
  rw [hmA, hm1]
  refine ⟨m0, s0, order, i, c1, c3, c4, hip, e2, ?_, ⟨sf, c8⟩, q2 _ (bestScoring_mem t3), fun j hj => ?_⟩
  · rintro rfl
    rw [hhead] at hi
    simp only [Option.some.injEq, Prod.mk.injEq] at hi
    exact hi.1.symm
  · obtain ⟨mj, sj, f1, f2⟩ := c6 j (by omega)
    have f1' := f1
    rw [hget] at f1
    obtain ⟨t, ht, hte⟩ := Option.map_eq_some_iff.1 f1
    refine ⟨mj, sj, t.1, f2, ?_, ?_, ?_⟩
    · rintro rfl
      rw [hhead] at f1'
      simp only [Option.some.injEq, Prod.mk.injEq] at f1'
      exact f1'.1.symm
    · have := q2 t (List.mem_of_getElem? ht)
      rw [hte] at this
      exact this
    · rw [← atMost_iff, not_le]
      exact b4 j hj t ht

/-- C95: in every run without `prune_edges` that returns, the chosen graph is the first candidate with the best score on the second fold:
every earlier candidate has a strictly worse score. -/
theorem C95_earlier_candidates_worse {E : FitEnv p e} (hfit : ∀ d h, GoodFit (E.fit d h))
    (hlat : ∀ d h n A I m s, E.fit d h n A I = .ok (m, s) → m.1 = h) (harg : ∀ f, IsArgsort f (E.argsort f))
    {data : Fin e → Sample p} {solverKnown : Bool} {numsLatent : Option (List Nat)}
    {folds : List Rat} {initial : Option (List (Adj p))} {rs : Int} {m : AnyModel p e} {I : Finset (Fin p)} {s : Flt}
    (h : fitMain E data solverKnown numsLatent false folds none none initial rs = .ok (m, I, s)) :
    ∃ training testG testI graphs, splitData (E.rng rs) (List.ofFn data) folds = .ok [training, testG, testI] ∧
      initialGraphs E initial training = .ok graphs ∧ ((∀ G ∈ graphs, Nonneg G) →
      ∃ (i : Nat) (mi : AnyModel p e) (sf sc : Flt), graphs[i]? = some m.A ∧
        FittedTo E.it (E.fit (foldData E.cov training e) m.1) m.A Finset.univ mi sf ∧ mi.scoreOn (foldData E.cov testG e) = .ok sc ∧
        ∀ j G, graphs[j]? = some G → ∃ mj sf sj, FittedTo E.it (E.fit (foldData E.cov training e) m.1) G Finset.univ mj sf ∧
          mj.scoreOn (foldData E.cov testG e) = .ok sj ∧ AtMost sc sj ∧ (j < i → ¬ AtMost sj sc)) := by
  obtain ⟨training, testG, testI, graphs, ns, results, sc, n, graph, obj, rest, h1, h2, h3, h4, h5, h6⟩ := fitMain_ok h
  refine ⟨training, testG, testI, graphs, h1, h2, fun hG => ?_⟩
  obtain ⟨k1, k2, k3⟩ := latentLoop_spec ns [] results (by simp) (by simp) h4
  obtain ⟨r, k4, k5, -⟩ := sortedM_ok (results.map (fun r => (r.2.1, r.1, r.2.2.1, r.2.2.2))) (by rw [List.map_map]; exact k1)
  rw [h5] at k4
  cases k4
  have hmem : (n, (sc, graph, obj)) ∈ results := by
    have := k5.mem_iff.1 (List.mem_cons_self (a := (sc, n, graph, obj)) (l := rest))
    obtain ⟨r, hr, hre⟩ := List.mem_map.1 this
    simp only [Prod.mk.injEq] at hre
    obtain ⟨e1, e2, e3, e4⟩ := hre
    rw [← e1, ← e2, ← e3, ← e4]
    exact hr
  obtain ⟨models, scores, g1, g2, g3⟩ := k2 _ hmem
  simp only at g1 g2 g3
  obtain ⟨o1, -, o3, -, o5⟩ := C55_all_candidates E.it _ (hfit _ n) graphs hG _ _ (ScoreObj.ok_new E.it _ 0) models g1
  obtain ⟨q1, q2⟩ := testScores_spec models g2
  obtain ⟨pm, obj', ps, t1, t2, t3⟩ := targetPhase_ok h6
  obtain ⟨-, -, order, -, -, -, -, c5, c6⟩ := C57_nested E.it E.argsort harg _ graph obj obj' o1 pm t1
  have hinpm : (m, I) ∈ pm := by
    rw [← (testScores_spec pm t2).1]
    exact List.mem_map_of_mem (bestScoring_mem t3)
  obtain ⟨i', hi'⟩ := List.getElem?_of_mem hinpm
  obtain ⟨mi, sf, c7, c8⟩ := c6 i' (by
    have := (List.getElem?_eq_some_iff.1 hi').1
    omega)
  rw [hi'] at c7
  simp only [Option.some.injEq, Prod.mk.injEq] at c7
  obtain ⟨e1, e2⟩ := c7
  rw [← e2, ← e1] at c8
  have hmA : m.A = graph := (c8.good (hfit _ n)).1
  have hm1 : m.1 = n := by
    obtain ⟨j, mm, f1, f2, -⟩ := c8.fields
    rw [f2]
    exact hlat _ _ _ _ _ _ _ f1
  rw [hmA, hm1]
  obtain ⟨i, t, b1, b2, b3, b4⟩ := bestScoring_spec (List.ne_nil_of_mem (bestScoring_mem g3))
  rw [g3] at b1
  cases b1
  rw [List.getElem?_map] at b2
  obtain ⟨x, hx, hxe⟩ := Option.map_eq_some_iff.1 b2
  simp only [Prod.mk.injEq] at hxe
  have hat : ∀ (j : Nat) (y : Flt × AnyModel p e), scores[j]? = some y → graphs[j]? = some y.2.A ∧ y.2 ∈ models := by
    intro j y hy
    constructor
    · rw [← o3, List.getElem?_map, ← q1, List.getElem?_map, hy]; rfl
    · rw [← q1]; exact List.mem_map_of_mem (List.mem_of_getElem? hy)
  obtain ⟨a1, a2⟩ := hat i x hx
  obtain ⟨sfx, a3⟩ := o5 _ a2
  rw [hxe.2] at a1 a3
  refine ⟨i, x.2, sfx, sc, a1, a3, by rw [← hxe.1]; exact q2 x (List.mem_of_getElem? hx), fun j G hj => ?_⟩
  have hjs : ∃ y, scores[j]? = some y := by
    rw [← o3, List.getElem?_map, ← q1, List.getElem?_map] at hj
    obtain ⟨z, hz, -⟩ := Option.map_eq_some_iff.1 hj
    obtain ⟨y, hy, -⟩ := Option.map_eq_some_iff.1 hz
    exact ⟨y, hy⟩
  obtain ⟨y, hy⟩ := hjs
  obtain ⟨d1, d2⟩ := hat j y hy
  rw [hj] at d1
  cases d1
  obtain ⟨sfy, d3⟩ := o5 _ d2
  refine ⟨y.2, sfy, y.1, d3, q2 y (List.mem_of_getElem? hy), ?_, fun hji => ?_⟩
  · exact atMost_iff.1 (b3 (y.1, y.2.A) (List.mem_map_of_mem (f := fun x : Flt × AnyModel p e => (x.1, x.2.A)) (List.mem_of_getElem? hy)))
  · rw [← atMost_iff, not_le]
    exact b4 j hji (y.1, y.2.A) (by rw [List.getElem?_map, hy]; rfl)

/-! ## Exact data and exact fits -/

/-- The covariances `C` are entailed by a valid model over `A` with `l` latents whose noise variances change only at the targets `I`. -/
def Spec.CanEntail (it : SetIter p) (l : Nat) (I : Finset (Fin p)) (A : Adj p) (C : Fin e → Matrix (Fin p) (Fin p) ℝ) : Prop :=
  ∃ (psis : Matrix (Fin e) (Fin l) ℝ) (m : LModel p l e), (∀ k i, 0 ≤ psis k i) ∧ Admissible it I A psis m ∧ m.covariances = .ok C

/-- A valid model, except that the weights `B` may differ from those in the attribute `I_B` that is used for covariances and scores, as in
the models `score_dag` returns (C52). -/
def Spec.ProperUpToB {l : Nat} (it : SetIter p) (m : LModel p l e) : Prop := ∃ B, Proper it { m with B := B }

/-- A fitting procedure that returns such models, also after they are copied. -/
def Spec.ProperFit (it : SetIter p) (fit : Fitter p e) : Prop :=
  ∀ n A I m s, Nonneg A → fit n A I = .ok (m, s) → ProperUpToB it m.2 ∧ ∀ m', m.copy it = .ok m' → ProperUpToB it m'.2

/-- An exact fitting procedure for the covariances `C`: it returns such models, which are valid and entail `C` whenever the graph, the targets
and the number of latents allow it. -/
def Spec.ExactFit (it : SetIter p) (l : Nat) (C : Fin e → Matrix (Fin p) (Fin p) ℝ) (fit : Fitter p e) : Prop :=
  ProperFit it fit ∧ ∀ n A I m s, Nonneg A → fit n A I = .ok (m, s) → CanEntail it l I A C → Proper it m.2 ∧ m.2.covariances = .ok C

/-- As `CanEntail`, with latent variances restricted to those that satisfy `K`. -/
def Spec.CanEntailIn (K : (l : Nat) → Matrix (Fin e) (Fin l) ℝ → Prop) (it : SetIter p) (l : Nat) (I : Finset (Fin p)) (A : Adj p)
    (C : Fin e → Matrix (Fin p) (Fin p) ℝ) : Prop :=
  ∃ (psis : Matrix (Fin e) (Fin l) ℝ) (m : LModel p l e), (∀ k i, 0 ≤ psis k i) ∧ K l psis ∧ Admissible it I A psis m ∧ m.covariances = .ok C

/-- All fitted models have latent variances that satisfy `K`. -/
def Spec.FitsIn (K : (l : Nat) → Matrix (Fin e) (Fin l) ℝ → Prop) (fit : Fitter p e) : Prop :=
  ∀ n A I m s, fit n A I = .ok (m, s) → K m.1 m.2.psis

/-- As `ExactFit`, for fitting procedures that respect the restriction `K` of the latent variances. -/
def Spec.ExactFitIn (K : (l : Nat) → Matrix (Fin e) (Fin l) ℝ → Prop) (it : SetIter p) (l : Nat) (C : Fin e → Matrix (Fin p) (Fin p) ℝ)
    (fit : Fitter p e) : Prop :=
  ProperFit it fit ∧ ∀ n A I m s, Nonneg A → fit n A I = .ok (m, s) → CanEntailIn K it l I A C → Proper it m.2 ∧ m.2.covariances = .ok C

theorem canEntailIn_true {it : SetIter p} {l : Nat} {I : Finset (Fin p)} {A : Adj p} {C : Fin e → Matrix (Fin p) (Fin p) ℝ} :
    CanEntailIn (fun _ _ => True) it l I A C ↔ CanEntail it l I A C :=
  ⟨fun ⟨psis, m, h1, _, h2⟩ => ⟨psis, m, h1, h2⟩, fun ⟨psis, m, h1, h2⟩ => ⟨psis, m, h1, trivial, h2⟩⟩

theorem exactFitIn_true {it : SetIter p} {l : Nat} {C : Fin e → Matrix (Fin p) (Fin p) ℝ} {fit : Fitter p e} :
    ExactFitIn (fun _ _ => True) it l C fit ↔ ExactFit it l C fit := by
  unfold ExactFitIn ExactFit
  simp only [canEntailIn_true]

theorem Spec.Proper.upToB {it : SetIter p} {l : Nat} {m : LModel p l e} (h : Proper it m) : ProperUpToB it m := ⟨m.B, h⟩

theorem proper_copy {it : SetIter p} {l : Nat} {m : LModel p l e} (h : Proper it m) : m.copy it = .ok m := by
  obtain ⟨A, B, gamma, omegas, psis, hA, h1, -, -⟩ := h
  obtain ⟨-, -, rfl⟩ := mkModel_ok hA h1
  exact h1

theorem score_upToB {l : Nat} (m : LModel p l e) (B : Matrix (Fin p) (Fin p) ℝ) : ({ m with B := B } : LModel p l e).score = m.score := by
  funext x y
  unfold LModel.score
  rfl

theorem properFit_fitted {it : SetIter p} {fit : Fitter p e} (hx : ProperFit it fit)
    {A : Adj p} (hA : Nonneg A) {I : Finset (Fin p)} {m : AnyModel p e} {s : Flt} (h : FittedTo it fit A I m s) : ProperUpToB it m.2 := by
  obtain ⟨n, m0, h1, h2⟩ := h
  have h3 := hx _ _ _ _ _ hA h1
  rcases h2 with rfl | h2
  · exact h3.1
  · exact h3.2 _ h2

theorem fitted_latents {it : SetIter p} {fit : Fitter p e} {l : Nat} (hlat : ∀ n A I m s, fit n A I = .ok (m, s) → m.1 = l)
    {A : Adj p} {I : Finset (Fin p)} {m : AnyModel p e} {s : Flt} (h : FittedTo it fit A I m s) : m.1 = l := by
  obtain ⟨n, m0, h1, h2⟩ := h
  have h3 := hlat _ _ _ _ _ h1
  rcases h2 with rfl | h2
  · exact h3
  · unfold AnyModel.copy at h2
    split at h2
    · simp at h2
    · cases h2
      exact h3

theorem fitsIn_fitted {K : (l : Nat) → Matrix (Fin e) (Fin l) ℝ → Prop} {it : SetIter p} {fit : Fitter p e} (hK : FitsIn K fit)
    {A : Adj p} {I : Finset (Fin p)} {m : AnyModel p e} {s : Flt} (h : FittedTo it fit A I m s) : K m.1 m.2.psis := by
  obtain ⟨n, m0, h1, h2⟩ := h
  have h3 := hK _ _ _ _ _ h1
  rcases h2 with rfl | h2
  · exact h3
  · unfold AnyModel.copy at h2
    split at h2
    · simp at h2
    · rename_i m1 hm1
      cases h2
      obtain ⟨-, -, rfl⟩ := mkModel_fields hm1
      exact h3

theorem exactFitIn_fitted {K : (l : Nat) → Matrix (Fin e) (Fin l) ℝ → Prop} {it : SetIter p} {l : Nat} {C : Fin e → Matrix (Fin p) (Fin p) ℝ}
    {fit : Fitter p e} (hx : ExactFitIn K it l C fit) {A : Adj p} (hA : Nonneg A) {I : Finset (Fin p)} {m : AnyModel p e} {s : Flt}
    (h : FittedTo it fit A I m s) :
    ProperUpToB it m.2 ∧ (CanEntailIn K it l I A C → Proper it m.2 ∧ m.2.covariances = .ok C) := by
  refine ⟨properFit_fitted hx.1 hA h, fun hc => ?_⟩
  obtain ⟨n, m0, h1, h2⟩ := h
  obtain ⟨h3, h4⟩ := hx.2 _ _ _ _ _ hA h1 hc
  rcases h2 with rfl | h2
  · exact ⟨h3, h4⟩
  · unfold AnyModel.copy at h2
    rw [proper_copy h3] at h2
    cases h2
    exact ⟨h3, h4⟩

theorem exactFit_fitted {it : SetIter p} {l : Nat} {C : Fin e → Matrix (Fin p) (Fin p) ℝ} {fit : Fitter p e} (hx : ExactFit it l C fit)
    {A : Adj p} (hA : Nonneg A) {I : Finset (Fin p)} {m : AnyModel p e} {s : Flt} (h : FittedTo it fit A I m s) :
    ProperUpToB it m.2 ∧ (CanEntail it l I A C → Proper it m.2 ∧ m.2.covariances = .ok C) := by
  have := exactFitIn_fitted (exactFitIn_true.2 hx) hA h
  rwa [canEntailIn_true] at this

/-- The smallest computed score, for such models: it is only reached when the covariances can be entailed. -/
theorem upToB_score_in (K : (l : Nat) → Matrix (Fin e) (Fin l) ℝ → Prop) {it : SetIter p} {m : AnyModel p e} (hm : ProperUpToB it m.2)
    (hK : K m.1 m.2.psis) (n : Fin e → Nat) (hn : ∀ k, 0 < n k) (he : 0 < e)
    (S : Fin e → Matrix (Fin p) (Fin p) ℝ) (hS : ∀ k, (S k).PosDef) :
    ∃ s, m.2.score (List.ofFn S) (List.ofFn n) = .ok (some s) ∧
      ∑ k, (n k : ℝ) * (Real.log (S k).det + p) / (∑ k, (n k : ℝ)) ^ (e - k.val) ≤ s ∧
      (s = ∑ k, (n k : ℝ) * (Real.log (S k).det + p) / (∑ k, (n k : ℝ)) ^ (e - k.val) → CanEntailIn K it m.1 Finset.univ m.A S) ∧
      (Proper it m.2 → m.2.covariances = .ok S → s = ∑ k, (n k : ℝ) * (Real.log (S k).det + p) / (∑ k, (n k : ℝ)) ^ (e - k.val)) := by
  obtain ⟨l, m⟩ := m
  obtain ⟨B', hB⟩ := hm
  obtain ⟨s, h1, h2, h3⟩ := proper_score hB n hn he S hS
  rw [score_upToB] at h1
  refine ⟨s, h1, h2, fun h => ?_, fun hp hc => ?_⟩
  · obtain ⟨A, B, gamma, omegas, psis, hA, k1, k2, k3⟩ := hB
    obtain ⟨-, -, e1⟩ := mkModel_ok hA k1
    have : m.A = A := congrArg LModel.A e1
    subst this
    have : m.psis = psis := congrArg LModel.psis e1
    subst this
    exact ⟨m.psis, { m with B := B' }, k3, hK, ⟨B, gamma, omegas, k1, k2, fun k k' i hi => absurd (Finset.mem_univ i) hi⟩, h3.1 h⟩
  · obtain ⟨s', k1, -, k3⟩ := proper_score hp n hn he S hS
    rw [h1] at k1
    cases k1
    exact k3.2 hc

theorem upToB_score {it : SetIter p} {m : AnyModel p e} (hm : ProperUpToB it m.2) (n : Fin e → Nat) (hn : ∀ k, 0 < n k) (he : 0 < e)
    (S : Fin e → Matrix (Fin p) (Fin p) ℝ) (hS : ∀ k, (S k).PosDef) :
    ∃ s, m.2.score (List.ofFn S) (List.ofFn n) = .ok (some s) ∧
      ∑ k, (n k : ℝ) * (Real.log (S k).det + p) / (∑ k, (n k : ℝ)) ^ (e - k.val) ≤ s ∧
      (s = ∑ k, (n k : ℝ) * (Real.log (S k).det + p) / (∑ k, (n k : ℝ)) ^ (e - k.val) → CanEntail it m.1 Finset.univ m.A S) ∧
      (Proper it m.2 → m.2.covariances = .ok S → s = ∑ k, (n k : ℝ) * (Real.log (S k).det + p) / (∑ k, (n k : ℝ)) ^ (e - k.val)) := by
  obtain ⟨s, h1, h2, h3, h4⟩ := upToB_score_in (fun _ _ => True) hm trivial n hn he S hS
  exact ⟨s, h1, h2, fun h => canEntailIn_true.1 (h3 h), h4⟩

/-- The models compared in the graph phase include one for every candidate, and all are fitted with all variables as targets. -/
theorem pruneGraphs_models {it : SetIter p} {fit : Fitter p e} (hg : GoodFit fit) {prune : Bool} {graphs : List (Adj p)}
    (hG : ∀ G ∈ graphs, Nonneg G) {obj obj' : ScoreObj p e} (ho : obj.Ok it fit) {ms : List (AnyModel p e)}
    (h : pruneGraphs it fit prune none graphs obj = .ok (ms, obj')) :
    (∀ G ∈ graphs, ∃ m ∈ ms, m.A = G) ∧ ∀ m ∈ ms, Nonneg m.A ∧ ∃ s, FittedTo it fit m.A Finset.univ m s := by
  have hnn : ∀ m ∈ ms, Nonneg m.A := by
    intro m hm
    obtain ⟨-, -, -, h4⟩ := pruneGraphs_spec hg hG ho h
    obtain ⟨-, G, hGm, hs, -⟩ := h4 m hm
    intro a b
    rcases hs a b with hc | hc
    · rw [hc]; exact hG G hGm a b
    · rw [hc]
  cases prune with
  | false =>
    obtain ⟨-, -, h3, -, h5⟩ := C55_all_candidates it fit hg graphs hG obj obj' ho ms h
    refine ⟨fun G hGm => ?_, fun m hm => ⟨hnn m hm, h5 m hm⟩⟩
    rw [← h3] at hGm
    obtain ⟨m, hm, hme⟩ := List.mem_map.1 hGm
    exact ⟨m, hm, hme⟩
  | true =>
    obtain ⟨-, -, blocks, rfl, h4⟩ := C55_all_chains it fit hg graphs hG obj obj' ho ms h
    constructor
    · intro G hGm
      obtain ⟨i, hi⟩ := List.getElem?_of_mem hGm
      have hlen := h4.length_eq
      obtain ⟨hi1, hi2⟩ := List.getElem?_eq_some_iff.1 hi
      have hb := h4.get hi1 (by omega)
      simp only [List.get_eq_getElem, hi2] at hb
      obtain ⟨m, k1, k2⟩ := hb.first
      exact ⟨m, List.mem_flatten.2 ⟨_, List.getElem_mem _, List.mem_of_mem_head? k1⟩, k2⟩
    · intro m hm
      refine ⟨hnn m hm, ?_⟩
      obtain ⟨b, hb, hmb⟩ := List.mem_flatten.1 hm
      obtain ⟨i, hi⟩ := List.getElem?_of_mem hb
      have hlen := h4.length_eq
      obtain ⟨hi1, hi2⟩ := List.getElem?_eq_some_iff.1 hi
      have hc := h4.get (by omega) hi1
      simp only [List.get_eq_getElem, hi2] at hc
      exact hc.fitted m hmb

/-- C95 for fits whose latent variances are restricted to those that satisfy `K`, as with `psi_fixed`: if the covariances of all three folds
are those of some candidate, number of latents and restricted latent variances, and the fits up to this number of latents are exact under the
restriction, then the returned model entails the covariances, all variables are declared targets, and the class is the single graph of the
model. -/
theorem C95_population_in (K : (l : Nat) → Matrix (Fin e) (Fin l) ℝ → Prop) (E : FitEnv p e) (candidates : List (Adj p)) (hG : ∀ G ∈ candidates, Nonneg G) (data : Fin e → Sample p)
    (solverKnown pruneEdges : Bool) (ns : List Nat) (folds : List Rat) (rs : Int) (hfit : ∀ d h, GoodFit (E.fit d h))
    (hlat : ∀ d h n A I m s, E.fit d h n A I = .ok (m, s) → m.1 = h) (harg : ∀ f, IsArgsort f (E.argsort f))
    (C : Fin e → Matrix (Fin p) (Fin p) ℝ) (hC : ∀ k, (C k).PosDef) (he : 0 < e)
    (training testG testI : List (Sample p)) (hsplit : splitData (E.rng 42) (List.ofFn data) folds = .ok [training, testG, testI])
    (hpop : ∀ f ∈ [training, testG, testI], ∀ k : Fin e, E.cov (f.getD k []) = C k ∧ f.getD k [] ≠ [])
    (h0 : Nat) (hproper : ∀ h ∈ ns, ProperFit E.it (E.fit (foldData E.cov training e) h))
    (hK : ∀ h ∈ ns, FitsIn K (E.fit (foldData E.cov training e) h))
    (hexact : ∀ h ∈ ns, h ≤ h0 → ExactFitIn K E.it h C (E.fit (foldData E.cov training e) h))
    (G : Adj p) (hGm : G ∈ candidates) (hh0 : h0 ∈ ns) (hent : CanEntailIn K E.it h0 Finset.univ G C)
    (P : Adj p) (I : Finset (Fin p)) (m : AnyModel p e)
    (h : equivalenceClass E candidates data solverKnown pruneEdges (some ns) folds rs = .ok (P, I, m)) :
    Proper E.it m.2 ∧ m.2.covariances = .ok C ∧ I = Finset.univ ∧ (∀ i j, P i j = if m.A i j ≠ 0 then 1 else 0) ∧
      (∀ H ∈ candidates, ∀ n ∈ ns, CanEntailIn K E.it n Finset.univ H C → m.1 ≤ n) ∧
      (pruneEdges = false → ∃ i : Nat, candidates[i]? = some m.A ∧
        ∀ j < i, ∀ H, candidates[j]? = some H → ¬ CanEntailIn K E.it m.1 Finset.univ H C) := by
  obtain ⟨s, hmain, hP⟩ : ∃ s, fitMain E data solverKnown (some ns) pruneEdges folds none none (some candidates) 42 = .ok (m, I, s) ∧
      dagToIcpdag E.it m.A (E.it.toList I) = .ok P := by
    unfold equivalenceClass withIcpdag at h
    split at h
    · simp at h
    · rename_i m' I' s' hm'
      split at h
      · simp at h
      · rename_i P' hP'
        cases h
        exact ⟨_, hm', hP'⟩
  obtain ⟨t1, t2, t3, graphs, ns', z1, z2, z3, z4⟩ := fitMain_spec hfit hlat harg hmain
  rw [hsplit] at z1
  cases z1
  cases z2
  cases z3
  obtain ⟨q1, ⟨G', g1, g2, -⟩, hac, -, ⟨sc, v1, v2⟩, -⟩ := z4 hG
  have hmA : Nonneg m.A := by
    intro a b
    rcases g2 a b with hc | hc
    · rw [hc]; exact hG G' g1 a b
    · rw [hc]
  have hcov : ∀ f ∈ [training, testG, testI], (foldData E.cov f e).covs = C ∧ ∀ k, 0 < (foldData E.cov f e).nObs k := fun f hf =>
    ⟨funext fun k => (hpop f hf k).1, fun k => List.length_pos_of_ne_nil (hpop f hf k).2⟩
  obtain ⟨d, hd⟩ : ∃ d, d = foldData E.cov training e := ⟨_, rfl⟩
  rw [← hd] at v1 v2 hproper hK hexact
  have hdC : d.covs = C := by rw [hd]; exact (hcov _ (by simp)).1
  -- the smallest score on a fold
  have hbest : ∀ f ∈ [training, testG, testI], ∃ b : ℝ, ∀ m' : AnyModel p e, ProperUpToB E.it m'.2 → K m'.1 m'.2.psis →
      ∃ x, m'.scoreOn (foldData E.cov f e) = .ok (some x) ∧ b ≤ x ∧
        (x = b → CanEntailIn K E.it m'.1 Finset.univ m'.A C) ∧ (Proper E.it m'.2 → m'.2.covariances = .ok C → x = b) := by
    intro f hf
    obtain ⟨f1, f2⟩ := hcov f hf
    refine ⟨∑ k, ((foldData E.cov f e).nObs k : ℝ) * (Real.log (C k).det + p) /
      (∑ k, ((foldData E.cov f e).nObs k : ℝ)) ^ (e - k.val), fun m' hm' hm'K => ?_⟩
    obtain ⟨x, x1, x2, x3⟩ := upToB_score_in K hm' hm'K (foldData E.cov f e).nObs f2 he C hC
    refine ⟨x, ?_, x2, x3⟩
    unfold AnyModel.scoreOn
    rw [f1]
    exact x1
  obtain ⟨b, hb⟩ := hbest testG (by simp)
  -- the graph phase
  have hval : ∀ n ∈ ns, ∀ sc A, Validation E.it (E.fit d n) pruneEdges candidates (foldData E.cov testG e) sc A →
      ∃ x, sc = some x ∧ b ≤ x ∧ (x = b → CanEntailIn K E.it n Finset.univ A C) ∧
        ∀ H ∈ candidates, n ≤ h0 → CanEntailIn K E.it n Finset.univ H C → x = b := by
    rintro n hn sc A ⟨ms, ob, y1, ⟨mm, y2, y3, y4⟩, y5⟩
    obtain ⟨w1, w2⟩ := pruneGraphs_models (hfit d n) hG (ScoreObj.ok_new E.it _ 0) y1
    have hprop : ∀ m' ∈ ms, m'.1 = n ∧ ProperUpToB E.it m'.2 ∧ K m'.1 m'.2.psis := by
      intro m' hm'
      obtain ⟨w3, s', w4⟩ := w2 m' hm'
      exact ⟨fitted_latents (hlat d n) w4, properFit_fitted (hproper n hn) w3 w4, fitsIn_fitted (hK n hn) w4⟩
    obtain ⟨p1, p2, p2K⟩ := hprop mm y2
    obtain ⟨x, x1, x2, x3⟩ := hb mm p2 p2K
    rw [y4] at x1
    cases x1
    refine ⟨x, rfl, x2, fun hx => ?_, fun H hH hn0 hHe => ?_⟩
    · have := x3.1 hx
      rw [p1, y3] at this
      exact this
    · obtain ⟨m', hm', hm'A⟩ := w1 H hH
      obtain ⟨s', l1, l2⟩ := y5 m' hm'
      obtain ⟨w3, s', w4⟩ := w2 m' hm'
      obtain ⟨p3, p4⟩ := exactFitIn_fitted (hexact n hn hn0) w3 w4
      obtain ⟨x', x4, -, -, x6⟩ := hb m' p3 (fitsIn_fitted (hK n hn) w4)
      rw [l1] at x4
      cases x4
      obtain ⟨p5, p6⟩ := p4 (by rw [hm'A]; exact hHe)
      have hx' := x6 p5 p6
      unfold AtMost at l2
      simp only [Option.some.injEq, reduceCtorEq, false_or, exists_and_left, ↓existsAndEq, true_and] at l2
      exact le_antisymm (by rw [← hx']; exact l2) x2
  have hall := v2 (fun n hn sc A hv => by
    obtain ⟨x, rfl, -⟩ := hval n hn sc A hv
    simp)
  obtain ⟨x0, rfl, hx0, hx0e, -⟩ := hval _ q1 _ _ v1
  have hsel : x0 = b := by
    obtain ⟨x, y, A, r1, r2, r3⟩ := hall h0 hh0
    cases r1
    obtain ⟨y', r4, -, -, r5⟩ := hval _ hh0 _ _ r2
    cases r4
    have := r5 G hGm le_rfl hent
    rcases r3 with r3 | ⟨r3, -⟩
    · exact le_antisymm (by rw [← this]; exact r3.le) hx0
    · rw [r3, this]
  have hm1 : m.1 ≤ h0 := by
    obtain ⟨x, y, A, r1, r2, r3⟩ := hall h0 hh0
    cases r1
    obtain ⟨y', r4, -, -, r5⟩ := hval _ hh0 _ _ r2
    cases r4
    have := r5 G hGm le_rfl hent
    rcases r3 with r3 | ⟨-, r3⟩
    · rw [hsel, this] at r3
      exact absurd r3 (lt_irrefl _)
    · exact r3
  have hcan := hx0e hsel
  -- the target phase
  obtain ⟨_, _, _, _, w1, w2, w3⟩ := C95_larger_targets_worse hfit hlat harg hmain
  rw [hsplit] at w1
  cases w1
  cases w2
  obtain ⟨m0, s0, order, i, u1, -, -, -, u5, u6, -, u8, u9⟩ := w3 hG
  rw [← hd] at u1 u9
  obtain ⟨e2, e3⟩ := exactFitIn_fitted (hexact m.1 q1 hm1) hmA u1
  obtain ⟨hm0p, hm0⟩ := e3 hcan
  have hi0 : i = 0 := by
    by_contra hi
    obtain ⟨mj, sf, sj, a1, a2, a3, a4⟩ := u9 0 (by omega)
    obtain rfl := a2 rfl
    obtain ⟨b', hb'⟩ := hbest testI (by simp)
    obtain ⟨x, x1, -, x3⟩ := hb' mj e2 (fitsIn_fitted (hK m.1 q1) u1)
    rw [a3] at x1
    cases x1
    apply a4
    -- the returned model is valid as well, so its score is not smaller
    obtain ⟨-, -, -, -, -, -, -, -, -, -, -, -, ⟨sf', y1⟩, -⟩ := z4 hG
    rw [← hd] at y1
    obtain ⟨y2, -⟩ := exactFitIn_fitted (hexact m.1 q1 hm1) hmA y1
    obtain ⟨x', x4, x5, -⟩ := hb' m y2 (fitsIn_fitted (hK m.1 q1) y1)
    rw [u8] at x4
    cases x4
    exact Or.inr ⟨x, x', rfl, rfl, by rw [x3.2 hm0p hm0]; exact x5⟩
  obtain rfl := u6 hi0
  have hI : I = Finset.univ := by rw [u5, hi0]; simp
  refine ⟨hm0p, hm0, hI, fun a b => ?_, fun H hH n hn hHn => ?_, fun hpr => ?_⟩
  · exact C22_all_targets E.it m.A P hmA hac _ (fun i => (E.it.mem I i).2 (by rw [hI]; exact Finset.mem_univ _)) hP a b
  · rcases le_or_gt n h0 with hn0 | hn0
    swap
    · omega
    obtain ⟨x, y, A, r1, r2, r3⟩ := hall n hn
    cases r1
    obtain ⟨y', r4, -, -, r5⟩ := hval _ hn _ _ r2
    cases r4
    have := r5 H hH hn0 hHn
    rcases r3 with r3 | ⟨-, r3⟩
    · rw [hsel, this] at r3
      exact absurd r3 (lt_irrefl _)
    · exact r3
  · subst hpr
    obtain ⟨_, _, _, _, f1, f2, f3⟩ := C95_earlier_candidates_worse hfit hlat harg hmain
    rw [hsplit] at f1
    cases f1
    cases f2
    obtain ⟨i, mi, sf, sc, o1, o2, o3, o4⟩ := f3 hG
    rw [← hd] at o2 o4
    refine ⟨i, o1, fun j hj H hH hHe => ?_⟩
    obtain ⟨mj, sfj, sj, r1, r2, -, r4⟩ := o4 j H hH
    apply r4 hj
    obtain ⟨k1, k2⟩ := exactFitIn_fitted (hexact m.1 q1 hm1) (hG _ (List.mem_of_getElem? hH)) r1
    obtain ⟨k3, -⟩ := exactFitIn_fitted (hexact m.1 q1 hm1) hmA o2
    obtain ⟨x, x1, -, x3⟩ := hb mj k1 (fitsIn_fitted (hK m.1 q1) r1)
    obtain ⟨x', x4, x5, -⟩ := hb mi k3 (fitsIn_fitted (hK m.1 q1) o2)
    rw [r2] at x1
    rw [o3] at x4
    cases x1
    cases x4
    exact Or.inr ⟨x, x', rfl, rfl, by rw [x3.2 (k2 hHe).1 (k2 hHe).2]; exact x5⟩

/-- C95 (violated): when the covariances of all three folds are those of some candidate and number of latents, and the fits up to this number
of latents are exact, then `equivalence_class` declares every variable a target and returns the single graph of its model, whatever the true targets are.  The model
entails the covariances and has the smallest number of latents with which a candidate can entail them. -/
theorem C95_population (E : FitEnv p e) (candidates : List (Adj p)) (hG : ∀ G ∈ candidates, Nonneg G) (data : Fin e → Sample p)
    (solverKnown pruneEdges : Bool) (ns : List Nat) (folds : List Rat) (rs : Int) (hfit : ∀ d h, GoodFit (E.fit d h))
    (hlat : ∀ d h n A I m s, E.fit d h n A I = .ok (m, s) → m.1 = h) (harg : ∀ f, IsArgsort f (E.argsort f))
    (C : Fin e → Matrix (Fin p) (Fin p) ℝ) (hC : ∀ k, (C k).PosDef) (he : 0 < e)
    (training testG testI : List (Sample p)) (hsplit : splitData (E.rng 42) (List.ofFn data) folds = .ok [training, testG, testI])
    (hpop : ∀ f ∈ [training, testG, testI], ∀ k : Fin e, E.cov (f.getD k []) = C k ∧ f.getD k [] ≠ [])
    (h0 : Nat) (hproper : ∀ h ∈ ns, ProperFit E.it (E.fit (foldData E.cov training e) h))
    (hexact : ∀ h ∈ ns, h ≤ h0 → ExactFit E.it h C (E.fit (foldData E.cov training e) h))
    (G : Adj p) (hGm : G ∈ candidates) (hh0 : h0 ∈ ns) (hent : CanEntail E.it h0 Finset.univ G C)
    (P : Adj p) (I : Finset (Fin p)) (m : AnyModel p e)
    (h : equivalenceClass E candidates data solverKnown pruneEdges (some ns) folds rs = .ok (P, I, m)) :
    Proper E.it m.2 ∧ m.2.covariances = .ok C ∧ I = Finset.univ ∧ (∀ i j, P i j = if m.A i j ≠ 0 then 1 else 0) ∧
      (∀ H ∈ candidates, ∀ n ∈ ns, CanEntail E.it n Finset.univ H C → m.1 ≤ n) ∧
      (pruneEdges = false → ∃ i : Nat, candidates[i]? = some m.A ∧
        ∀ j < i, ∀ H, candidates[j]? = some H → ¬ CanEntail E.it m.1 Finset.univ H C) := by
  have h1 := C95_population_in (fun _ _ => True) E candidates hG data solverKnown pruneEdges ns folds rs hfit hlat harg C hC he training testG testI
    hsplit hpop h0 hproper (fun _ _ _ _ _ _ _ _ => trivial) (fun h hh hle => exactFitIn_true.2 (hexact h hh hle)) G hGm hh0
    (canEntailIn_true.2 hent) P I m h
  simpa only [canEntailIn_true] using h1

/-! ## The violation -/

/-- There is always a valid model: no effects and unit variances. -/
theorem exists_proper (it : SetIter p) {A : Adj p} (hA : Nonneg A) (hac : Acyclic A) (I : Finset (Fin p)) (l : Nat) :
    ∃ m : LModel p l e, Admissible it I A (fun _ _ => 1) m :=
  ⟨_, 0, 0, fun _ _ => 1, mkModel_eq_ok (it := it) hA 0 (fun _ _ => 1) (fun _ _ => 1) hac (fun _ _ _ => rfl), fun _ _ => one_pos,
    fun _ _ _ _ => rfl⟩

open Classical in
/-- An exact fitting procedure for every DAG. -/
noncomputable def exactFit (it : SetIter p) (d : Data p e) (l : Nat) : Fitter p e := fun _ A I =>
  if h : CanEntail it l I A d.covs then
    if Nonneg A ∧ Acyclic A then .ok (⟨l, h.choose_spec.choose⟩, some 0) else .error .valueError
  else if hA : Nonneg A ∧ Acyclic A then .ok (⟨l, (exists_proper (e := e) it hA.1 hA.2 I l).choose⟩, some 0) else .error .valueError

theorem exactFit_ok {it : SetIter p} {d : Data p e} {l n : Nat} {A : Adj p} {I : Finset (Fin p)} {m : AnyModel p e} {s : Flt}
    (h : exactFit it d l n A I = .ok (m, s)) : Nonneg A ∧ Acyclic A ∧ ∃ (m' : LModel p l e) (psis : Matrix (Fin e) (Fin l) ℝ),
      m = ⟨l, m'⟩ ∧ (∀ k i, 0 ≤ psis k i) ∧ Admissible it I A psis m' ∧ (CanEntail it l I A d.covs → m'.covariances = .ok d.covs) := by
  unfold exactFit at h
  split_ifs at h with h1 h2 h2
  · cases h
    exact ⟨h2.1, h2.2, _, _, rfl, h1.choose_spec.choose_spec.1, h1.choose_spec.choose_spec.2.1, fun _ => h1.choose_spec.choose_spec.2.2⟩
  · cases h
    exact ⟨h2.1, h2.2, _, _, rfl, fun _ _ => zero_le_one, (exists_proper (e := e) it h2.1 h2.2 I l).choose_spec, fun hc => absurd hc h1⟩

theorem exactFit_returns (it : SetIter p) (d : Data p e) (l n : Nat) {A : Adj p} (hA : Nonneg A) (hac : Acyclic A) (I : Finset (Fin p)) :
    ∃ m s, exactFit it d l n A I = .ok (m, s) := by
  unfold exactFit
  split_ifs with h1 h2 h2
  · exact ⟨_, _, rfl⟩
  · exact absurd ⟨hA, hac⟩ h2
  · exact ⟨_, _, rfl⟩
  · exact absurd ⟨hA, hac⟩ h2

theorem exactFit_good (it : SetIter p) (d : Data p e) (l : Nat) : GoodFit (exactFit it d l) := by
  intro n A I m s h
  obtain ⟨h1, h2, m', psis, rfl, -, ⟨B, gamma, omegas, h4, -⟩, -⟩ := exactFit_ok h
  obtain ⟨-, h5, rfl⟩ := mkModel_ok h1 h4
  exact ⟨rfl, fun _ => h2, h5⟩

theorem exactFit_exact (it : SetIter p) (d : Data p e) (l : Nat) : ExactFit it l d.covs (exactFit it d l) := by
  have key : ∀ n A I m s, exactFit it d l n A I = .ok (m, s) → Proper it m.2 ∧ (CanEntail it l I A d.covs → m.2.covariances = .ok d.covs) := by
    intro n A I m s h
    obtain ⟨h1, h2, m', psis, rfl, h3, ⟨B, gamma, omegas, h4, h5, -⟩, h6⟩ := exactFit_ok h
    exact ⟨⟨A, B, gamma, omegas, psis, h1, h4, h5, h3⟩, h6⟩
  refine ⟨fun n A I m s _ h => ⟨(key _ _ _ _ _ h).1.upToB, fun m' hm' => ?_⟩, fun n A I m s _ h hc => ⟨(key _ _ _ _ _ h).1, (key _ _ _ _ _ h).2 hc⟩⟩
  unfold AnyModel.copy at hm'
  rw [proper_copy (key _ _ _ _ _ h).1] at hm'
  cases hm'
  exact (key _ _ _ _ _ h).1.upToB

/-- Samples whose covariance is always `S`, and exact fits. -/
noncomputable def popEnv (S : Matrix (Fin p) (Fin p) ℝ) : FitEnv p 2 where
  it := SetIter.incr p
  rng := fun _ _ => Rng.front
  cov := fun _ => S
  argsort := insArgsort
  svals := fun _ => []
  gesFit := fun _ => fun i j => if i = j then 0 else 1
  fit := fun d h => exactFit (SetIter.incr p) d h

theorem popSplit {α : Type} (rng : Nat → Rng) (l : List α) (hl : l.length = 8) : ∃ training testG testI,
    splitData rng (List.ofFn (fun _ : Fin 2 => l)) [1 / 2, 1 / 4, 1 / 4] = .ok [training, testG, testI] ∧
      (∀ s ∈ training, s.length = 4) ∧ ∀ f ∈ [training, testG, testI], ∀ k : Fin 2, f.getD k [] ≠ [] := by
  have hs : ∀ i, ((rng i).shuffle l).length = 8 := fun i => by rw [((rng i).shuffle_perm l).length_eq, hl]
  have r1 : pyRound (4 : Rat) = 4 := pyRound_int 4
  have r2 : pyRound (2 : Rat) = 2 := pyRound_int 2
  have b0 : sliceBound 8 0 = 0 := by decide
  have b1 : sliceBound 8 4 = 4 := by decide
  have b2 : sliceBound 8 6 = 6 := by decide
  have b3 : sliceBound 8 8 = 8 := by decide
  have hr : List.range 3 = [0, 1, 2] := by decide
  refine ⟨[((rng 0).shuffle l).take 4, ((rng 1).shuffle l).take 4], [(((rng 0).shuffle l).drop 4).take 2, (((rng 1).shuffle l).drop 4).take 2],
    [(((rng 0).shuffle l).drop 6).take 2, (((rng 1).shuffle l).drop 6).take 2], ?_, ?_, ?_⟩
  · unfold splitData
    rw [if_neg (by norm_num)]
    simp [splitSample, hs, pySlice, List.zipIdx]
    norm_num [r1, r2, b0, b1, b2, b3, hr, List.drop_take]
  · intro s h
    simp only [List.mem_cons, List.not_mem_nil, or_false] at h
    rcases h with rfl | rfl <;> simp [hs]
  · intro f hf k hc
    have : (f.getD k []).length = 0 := by rw [hc]; rfl
    simp only [List.mem_cons, List.not_mem_nil, or_false] at hf
    rcases hf with rfl | rfl | rfl <;> fin_cases k <;> simp [hs] at this

theorem popEnv_returns (S : Matrix (Fin p) (Fin p) ℝ) (hS : S.PosDef) (candidates : List (Adj p)) (hne : candidates ≠ [])
    (hG : ∀ G ∈ candidates, Nonneg G ∧ Acyclic G) (l : Sample p) (hl : l.length = 8) (ns : List Nat) (hns : ns ≠ []) (rs : Int) :
    ∃ r, equivalenceClass (popEnv S) candidates (fun _ => l) true false (some ns) [1 / 2, 1 / 4, 1 / 4] rs = .ok r := by
  obtain ⟨training, testG, testI, h1, h2, h3⟩ := popSplit ((popEnv S).rng 42) l hl
  refine C72_returns (popEnv S) candidates hne (fun G h => (hG G h).1) _ true false ns hns _ rs training testG testI h1
    (scoreCtor_ok (fun s hs => by rw [h2 s hs]; norm_num)) (fun d h => exactFit_good _ d h)
    (fun d h n A I m s hm => by
      obtain ⟨-, -, m', -, rfl, -⟩ := exactFit_ok (n := n) hm
      rfl) insArgsort_spec ?_ (fun hc => by simp at hc)
  intro n _ G hGm k H I hH hs
  obtain ⟨m, s, hm⟩ := exactFit_returns (SetIter.incr p) (foldData (popEnv S).cov training 2) n k hH (subgraph_acyclic hs (hG G hGm).2) I
  have hx : Proper (popEnv S).it m.2 := by
    obtain ⟨h1, h2, m', psis, rfl, h3, ⟨B, gamma, omegas, h4, h5, -⟩, h6⟩ := exactFit_ok hm
    exact ⟨H, B, gamma, omegas, psis, h1, h4, h5, h3⟩
  have hc : m.copy (popEnv S).it = .ok m := by
    unfold AnyModel.copy
    rw [show m.2.copy (popEnv S).it = .ok m.2 from proper_copy hx]
  refine ⟨m, s, m, hm, hc, fun t ht => ?_⟩
  have : ∃ r, m.scoreOn t = .ok r := by
    have hg : GoodData t := by
      simp only [List.mem_cons, List.not_mem_nil, or_false] at ht
      rcases ht with rfl | rfl
      · exact ⟨fun _ => hS, fun k => List.length_pos_of_ne_nil (h3 testG (by simp) k), by norm_num⟩
      · exact ⟨fun _ => hS, fun k => List.length_pos_of_ne_nil (h3 testI (by simp) k), by norm_num⟩
    obtain ⟨x, hx, -⟩ := proper_score hx t.nObs hg.pos hg.some t.covs hg.posDef
    exact ⟨_, hx⟩
  exact ⟨this, this⟩

/-- C95, the violation: there are no interventions at all and the data come from `0 → 1`, so the class consists of both graphs over the two
variables.  With exact covariances and exact fits the code returns the candidate that is listed first as the only graph, and both variables
as targets. -/
theorem C95_violated (S : Matrix (Fin 2) (Fin 2) ℝ) (hS : S.PosDef) (l : Sample 2) (hl : l.length = 8) (rs : Int) :
    (∀ s, (popEnv S).cov s = S) ∧ (∀ (d : Data 2 2) h, ExactFit (popEnv S).it h d.covs ((popEnv S).fit d h)) ∧
    (∃ m₀ : LModel 2 0 2, Admissible (popEnv S).it ∅ ![![0, 1], ![0, 0]] 0 m₀ ∧ m₀.covariances = .ok (fun _ => S)) ∧
    IEquiv ∅ (![![0, 1], ![0, 0]] : Adj 2) ![![0, 0], ![1, 0]] ∧
    (∃ m, equivalenceClass (popEnv S) [![![0, 0], ![1, 0]], ![![0, 1], ![0, 0]]] (fun _ => l) true false (some [0]) [1 / 2, 1 / 4, 1 / 4] rs =
      .ok (![![0, 0], ![1, 0]], Finset.univ, m)) ∧
    ∃ m, equivalenceClass (popEnv S) [![![0, 1], ![0, 0]], ![![0, 0], ![1, 0]]] (fun _ => l) true false (some [0]) [1 / 2, 1 / 4, 1 / 4] rs =
      .ok (![![0, 1], ![0, 0]], Finset.univ, m) := by
  have hcomp : ∀ A ∈ [(![![0, 0], ![1, 0]] : Adj 2), ![![0, 1], ![0, 0]]], Nonneg A ∧ Acyclic A ∧ (∀ i j, i ≠ j → Edge A i j ∨ Edge A j i) ∧
      ∀ i j, A i j = if A i j ≠ 0 then 1 else 0 := by
    intro A hA
    simp only [List.mem_cons, List.not_mem_nil, or_false] at hA
    have hnn : Nonneg A := by
      rcases hA with rfl | rfl <;> (unfold Nonneg; decide)
    refine ⟨hnn, (isDag_iff (SetIter.incr 2) hnn).1 (by rcases hA with rfl | rfl <;> decide), ?_, ?_⟩
    · rcases hA with rfl | rfl <;> (unfold Edge; decide)
    · rcases hA with rfl | rfl <;> decide
  have hcan : ∀ A ∈ [(![![0, 0], ![1, 0]] : Adj 2), ![![0, 1], ![0, 0]]], CanEntail (popEnv S).it 0 Finset.univ A (fun _ : Fin 2 => S) := by
    intro A hA
    obtain ⟨h1, h2, h3, -⟩ := hcomp A hA
    obtain ⟨m, ⟨B, g, o, k1, k2, -⟩, -, k4⟩ := C91_saturated (l := 0) (e := 2) (popEnv S).it A h1 h2 h3 0 S hS
    exact ⟨0, m, fun _ i => i.elim0, ⟨B, g, o, k1, k2, fun _ _ i hi => absurd (Finset.mem_univ i) hi⟩, k4⟩
  have key : ∀ A A' : Adj 2, A ∈ [(![![0, 0], ![1, 0]] : Adj 2), ![![0, 1], ![0, 0]]] → A' ∈ [(![![0, 0], ![1, 0]] : Adj 2), ![![0, 1], ![0, 0]]] →
      ∃ m, equivalenceClass (popEnv S) [A, A'] (fun _ => l) true false (some [0]) [1 / 2, 1 / 4, 1 / 4] rs = .ok (A, Finset.univ, m) := by
    intro A A' hA hA'
    have hall : ∀ G ∈ [A, A'], Nonneg G ∧ Acyclic G := by
      intro G hG
      simp only [List.mem_cons, List.not_mem_nil, or_false] at hG
      rcases hG with rfl | rfl
      · exact ⟨(hcomp _ hA).1, (hcomp _ hA).2.1⟩
      · exact ⟨(hcomp _ hA').1, (hcomp _ hA').2.1⟩
    obtain ⟨⟨P, I, m⟩, hr⟩ := popEnv_returns S hS [A, A'] (by simp) hall l hl [0] (by simp) rs
    obtain ⟨training, testG, testI, s1, -, s3⟩ := popSplit ((popEnv S).rng 42) l hl
    obtain ⟨-, -, rfl, k3, k4, k5⟩ := C95_population (popEnv S) [A, A'] (fun G h => (hall G h).1) _ true false [0] _ rs
      (fun d h => exactFit_good _ d h) (fun d h n A I m s hm => by
        obtain ⟨-, -, m', -, rfl, -⟩ := exactFit_ok (n := n) hm
        rfl) insArgsort_spec (fun _ => S) (fun _ => hS) (by norm_num) training testG testI s1 (fun f hf k => ⟨rfl, s3 f hf k⟩)
      0 (fun h _ => (exactFit_exact _ _ h).1) (fun h _ _ => exactFit_exact _ _ h) A (by simp) (by simp) (hcan A hA) P I m hr
    obtain ⟨i, i1, i2⟩ := k5 rfl
    have hi : i = 0 := by
      by_contra hi
      have hz : m.1 = 0 := by
        have := k4 A (by simp) 0 (by simp) (hcan A hA)
        omega
      exact i2 0 (by omega) A rfl (by rw [hz]; exact hcan A hA)
    subst hi
    simp only [List.getElem?_cons_zero, Option.some.injEq] at i1
    refine ⟨m, ?_⟩
    rw [hr]
    congr 2
    funext a b
    rw [k3, ← i1]
    exact ((hcomp A hA).2.2.2 a b).symm
  refine ⟨fun _ => rfl, fun d h => exactFit_exact _ d h, ?_, ?_, key _ _ (by simp) (by simp), key _ _ (by simp) (by simp)⟩
  · obtain ⟨h1, h2, h3, -⟩ := hcomp ![![0, 1], ![0, 0]] (by simp)
    obtain ⟨m, k1, -, k4⟩ := C91_saturated (l := 0) (e := 2) (popEnv S).it _ h1 h2 h3 0 S hS
    exact ⟨m, k1, k4⟩
  · refine ⟨?_, fun i hi => by simp at hi⟩
    unfold MarkovEquiv SameSkeleton SameVStructures VStructure Adjacent DirEdge
    decide

/-- Concrete case for `C95_violated`: the covariance of `X₁ = X₀ + N₁` with unit variances. -/
example (rs : Int) : ∃ m, equivalenceClass (popEnv (!![1, 1; 1, 2] : Matrix (Fin 2) (Fin 2) ℝ)) [![![0, 0], ![1, 0]], ![![0, 1], ![0, 0]]]
    (fun _ => List.replicate 8 0) true false (some [0]) [1 / 2, 1 / 4, 1 / 4] rs = .ok (![![0, 0], ![1, 0]], Finset.univ, m) := by
  refine (C95_violated _ ?_ _ (by simp) rs).2.2.2.2.1
  rw [Matrix.posDef_iff_dotProduct_mulVec]
  refine ⟨by ext i j; fin_cases i <;> fin_cases j <;> simp, fun x hx => ?_⟩
  have h : star x ⬝ᵥ (!![1, 1; 1, 2] : Matrix (Fin 2) (Fin 2) ℝ) *ᵥ x = (x 0 + x 1) ^ 2 + x 1 ^ 2 := by
    simp [dotProduct, Matrix.mulVec, Fin.sum_univ_two]
    ring
  rw [h]
  by_cases h1 : x 1 = 0
  · have h0 : x 0 ≠ 0 := fun h0 => hx (by ext i; fin_cases i; exacts [h0, h1])
    rw [h1, add_zero]
    positivity
  · positivity

end Verif
