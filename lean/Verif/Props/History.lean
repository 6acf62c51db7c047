import Verif.Proof.History
import Verif.Props.MainTotal

/-!
# C89: the history returned by `_fit`
-/

namespace Verif

open Spec

variable {p e : Nat}

/-- `_fit` computes the result in the same way whatever `store_history`, and then the history. -/
theorem fitMainH_cases (E : FitEnv p e) (data : Fin e → Sample p) (solverKnown : Bool) (numsLatent : Option (List Nat)) (prune : Bool)
    (folds : List Rat) (tG tI : Option ℝ) (initial : Option (List (Adj p))) (rs : Int) :
    (∃ err, fitMain E data solverKnown numsLatent prune folds tG tI initial rs = .error err ∧
      ∀ store, fitMainH E data solverKnown numsLatent prune folds tG tI initial rs store = .error err) ∨
    ∃ r n graphs pg scores obj, fitMain E data solverKnown numsLatent prune folds tG tI initial rs = .ok r ∧
      ∀ store, fitMainH E data solverKnown numsLatent prune folds tG tI initial rs store =
        match makeHistory store n graphs pg scores obj with
        | .error err => .error err
        | .ok history => .ok (r, history) := by
  unfold fitMainH fitMain
  cases splitData (E.rng rs) (List.ofFn data) folds with
  | error err => exact Or.inl ⟨err, rfl, fun _ => rfl⟩
  | ok l =>
    rcases l with _ | ⟨training, _ | ⟨testG, _ | ⟨testI, _ | ⟨d, l⟩⟩⟩⟩
    · exact Or.inl ⟨_, rfl, fun _ => rfl⟩
    · exact Or.inl ⟨_, rfl, fun _ => rfl⟩
    · exact Or.inl ⟨_, rfl, fun _ => rfl⟩
    · simp only
      cases initialGraphs E initial training with
      | error err => exact Or.inl ⟨err, rfl, fun _ => rfl⟩
      | ok graphs =>
        simp only
        cases latentNumbers E numsLatent training with
        | error err => exact Or.inl ⟨err, rfl, fun _ => rfl⟩
        | ok ns =>
          simp only
          have h4 := latentLoopH_erase E.it (E.fit (foldData E.cov training e)) (scoreCtor training solverKnown) prune tG graphs
            (foldData E.cov testG e) ns []
          rw [List.map_nil] at h4
          rw [← h4]
          cases latentLoopH E.it (E.fit (foldData E.cov training e)) (scoreCtor training solverKnown) prune tG graphs
            (foldData E.cov testG e) ns [] with
          | error err => exact Or.inl ⟨err, rfl, fun _ => rfl⟩
          | ok results =>
            simp only [Except.map]
            have h5 := sortedM_map (fun x : Adj p × List (Flt × Adj p) × ScoreObj p e => (x.1, x.2.2))
              (results.map (fun r => (r.2.1, r.1, r.2.2.1, r.2.2.2.1, r.2.2.2.2)))
            have h6 : (results.map eraseRow).map (fun r => (r.2.1, r.1, r.2.2.1, r.2.2.2)) =
                (results.map (fun r => (r.2.1, r.1, r.2.2.1, r.2.2.2.1, r.2.2.2.2))).map
                  (fun a : Flt × Nat × (Adj p × List (Flt × Adj p) × ScoreObj p e) => (a.1, a.2.1, (a.2.2.1, a.2.2.2.2))) := by
              rw [List.map_map, List.map_map]
              rfl
            rw [h6, ← h5]
            cases sortedM tupleLt (results.map (fun r => (r.2.1, r.1, r.2.2.1, r.2.2.2.1, r.2.2.2.2))) with
            | error err => exact Or.inl ⟨err, rfl, fun _ => rfl⟩
            | ok l =>
              cases l with
              | nil => exact Or.inl ⟨_, rfl, fun _ => rfl⟩
              | cons x rest =>
                obtain ⟨sc, n, graph, pg, obj⟩ := x
                simp only [Except.map, List.map_cons, targetPhase]
                cases pruneI E.it E.argsort (E.fit (foldData E.cov training e) n) tI graph obj with
                | error err => exact Or.inl ⟨err, rfl, fun _ => rfl⟩
                | ok r =>
                  obtain ⟨models, obj'⟩ := r
                  simp only
                  cases testScores (foldData E.cov testI e) Prod.fst models with
                  | error err => exact Or.inl ⟨err, rfl, fun _ => rfl⟩
                  | ok scores =>
                    simp only
                    cases bestScoring scores with
                    | error err => exact Or.inl ⟨err, rfl, fun _ => rfl⟩
                    | ok b =>
                      obtain ⟨s, m, I⟩ := b
                      exact Or.inr ⟨(m, I, s), n, graphs, pg, scores, obj', rfl, fun _ => rfl⟩
    · exact Or.inl ⟨_, rfl, fun _ => rfl⟩

/-- C89: storing a history does not change the result: for every integer `store_history`, the first component of what `_fit` returns
(or the exception it raises) is the same. -/
theorem C89_same_result (E : FitEnv p e) (data : Fin e → Sample p) (solverKnown : Bool) (numsLatent : Option (List Nat)) (prune : Bool)
    (folds : List Rat) (tG tI : Option ℝ) (initial : Option (List (Adj p))) (rs : Int) (k : Int) :
    (fitMainH E data solverKnown numsLatent prune folds tG tI initial rs (some k)).map Prod.fst =
      fitMain E data solverKnown numsLatent prune folds tG tI initial rs := by
  rcases fitMainH_cases E data solverKnown numsLatent prune folds tG tI initial rs with ⟨err, h1, h2⟩ | ⟨r, n, graphs, pg, scores, obj, h1, h2⟩
  · rw [h1, h2]
    rfl
  · rw [h1, h2]
    unfold makeHistory
    simp only
    split_ifs <;> rfl

/-- C89, boundary: with `store_history=None` the algorithm never returns: it raises `UnboundLocalError` after all computations are done
(or whatever the computations raise). -/
theorem C89_none (E : FitEnv p e) (data : Fin e → Sample p) (solverKnown : Bool) (numsLatent : Option (List Nat)) (prune : Bool)
    (folds : List Rat) (tG tI : Option ℝ) (initial : Option (List (Adj p))) (rs : Int) :
    (∀ r, fitMain E data solverKnown numsLatent prune folds tG tI initial rs = .ok r →
      fitMainH E data solverKnown numsLatent prune folds tG tI initial rs none = .error .unboundLocalError) ∧
    ∀ err, fitMain E data solverKnown numsLatent prune folds tG tI initial rs = .error err →
      fitMainH E data solverKnown numsLatent prune folds tG tI initial rs none = .error err := by
  rcases fitMainH_cases E data solverKnown numsLatent prune folds tG tI initial rs with ⟨err, h1, h2⟩ | ⟨r, n, graphs, pg, scores, obj, h1, h2⟩
  · rw [h1, h2]
    exact ⟨fun r hr => by simp at hr, fun err' he => by simpa using he⟩
  · rw [h1, h2]
    exact ⟨fun _ _ => rfl, fun err' he => by simp at he⟩

/-- C89: what the history contains, in every run that returns (with the default thresholds).  It is absent exactly for level 0.  It holds
the number of latents of the returned model and the initial graphs.  From level 2 on it holds test scores on the second fold of graphs that
are acyclic and subgraphs of initial ones; each is the score of a model fitted to that graph with all variables as targets; the graph of the
result is among them, with the best score.  And it holds the `p + 1` models of the target phase with their scores on the third fold, among
them the result with the best score.  From level 3 on it holds the score object, whose cache has every pair at most once, contains copies of
fitted models only, and has one for every model of the target phase. -/
theorem C89_history (E : FitEnv p e) (hfit : ∀ d h, GoodFit (E.fit d h))
    (hlat : ∀ d h n A I m s, E.fit d h n A I = .ok (m, s) → m.1 = h) (harg : ∀ f, IsArgsort f (E.argsort f))
    (data : Fin e → Sample p) (solverKnown : Bool) (numsLatent : Option (List Nat)) (prune : Bool) (folds : List Rat)
    (initial : Option (List (Adj p))) (rs : Int) (k : Int) (m : AnyModel p e) (I : Finset (Fin p)) (s : Flt) (hist : Option (History p e))
    (h : fitMainH E data solverKnown numsLatent prune folds none none initial rs (some k) = .ok ((m, I, s), hist)) :
    ∃ training testG testI graphs, splitData (E.rng rs) (List.ofFn data) folds = .ok [training, testG, testI] ∧
      initialGraphs E initial training = .ok graphs ∧ (hist = none ↔ k = 0) ∧ ((∀ G ∈ graphs, Nonneg G) → ∀ H, hist = some H →
        H.numLatent = m.1 ∧ H.initialGraphs = graphs ∧ (H.prunedGraphs.isSome ↔ 1 < k) ∧ (H.prunedIs.isSome ↔ 1 < k) ∧
        (H.trainCache.isSome ↔ 2 < k) ∧
        (∀ L, H.prunedGraphs = some L → (∃ sc, (sc, m.A) ∈ L ∧ ∀ t ∈ L, AtMost sc t.1) ∧
          (∀ t ∈ L, Acyclic t.2 ∧ (∃ G ∈ graphs, Subgraph t.2 G) ∧ ∃ m' sf,
            FittedTo E.it (E.fit (foldData E.cov training e) m.1) t.2 Finset.univ m' sf ∧ m'.scoreOn (foldData E.cov testG e) = .ok t.1) ∧
          (prune = false → L.map Prod.snd = graphs)) ∧
        (∀ L, H.prunedIs = some L → L.length = p + 1 ∧ (s, m, I) ∈ L ∧ ∀ t ∈ L, t.2.1.1 = m.1 ∧ t.2.1.A = m.A ∧
          t.2.1.scoreOn (foldData E.cov testI e) = .ok t.1 ∧ AtMost s t.1) ∧
        ∀ obj, H.trainCache = some obj → UniqueKeys obj.cache ∧
          (∀ en ∈ obj.cache, ∃ n m0, E.fit (foldData E.cov training e) m.1 n en.A en.I = .ok (m0, en.score) ∧ m0.copy E.it = .ok en.model) ∧
          ∀ L, H.prunedIs = some L → ∀ t ∈ L, ∃ en ∈ obj.cache, en.A = m.A ∧ en.I = t.2.2 ∧ en.model.B = t.2.1.B) := by
  obtain ⟨training, testG, testI, graphs, sc, n, graph, pg, obj, models, obj', scores, h1, h2, hrun, h6, h7, h8, h9⟩ := fitMainH_ok h
  refine ⟨training, testG, testI, graphs, h1, h2, ?_, fun hG H hH => ?_⟩
  · unfold makeHistory at h9
    simp only at h9
    by_cases hk : k = 0
    · rw [if_pos hk] at h9
      cases h9
      exact ⟨fun _ => hk, fun _ => rfl⟩
    · rw [if_neg hk] at h9
      cases h9
      exact ⟨fun hc => by simp at hc, fun hc => absurd hc hk⟩
  subst hH
  obtain ⟨gm, gs, g1, g2, g3, g4⟩ := hrun
  simp only at g1 g2 g3 g4
  obtain ⟨o1, -, -, o4⟩ := pruneGraphs_spec (hfit _ n) hG (ScoreObj.ok_new E.it _ 0) g1
  obtain ⟨-, o5⟩ := pruneGraphs_fitted (hfit _ n) hG (ScoreObj.ok_new E.it _ 0) g1
  obtain ⟨u1, u2⟩ := testScores_spec gm g2
  obtain ⟨m0, s0, order, -, -, -, -, c5, c6⟩ := C57_nested E.it E.argsort harg _ graph obj obj' o1 models h6
  obtain ⟨q1, q2⟩ := testScores_spec models h7
  obtain ⟨z1, -, z3⟩ := pruneI_cached o1 h6
  have hall : ∀ x ∈ models, x.1.1 = n ∧ x.1.A = graph := by
    intro x hx
    obtain ⟨i, hi⟩ := List.getElem?_of_mem hx
    have hip : i ≤ p := by
      have := (List.getElem?_eq_some_iff.1 hi).1
      omega
    obtain ⟨mi, sf, c7, c8⟩ := c6 i hip
    rw [hi] at c7
    simp only [Option.some.injEq] at c7
    subst c7
    refine ⟨?_, (c8.good (hfit _ n)).1⟩
    obtain ⟨j, mm, f1, f2, -⟩ := c8.fields
    rw [f2]
    exact hlat _ _ _ _ _ _ _ f1
  have hscore : ∀ t ∈ scores, t.2 ∈ models := fun t ht => by
    rw [← q1]
    exact List.mem_map_of_mem ht
  have hin := bestScoring_mem h8
  obtain ⟨e1, e2⟩ := hall (m, I) (hscore _ hin)
  simp only at e1 e2
  have hbest : ∀ t ∈ scores, AtMost s t.1 := by
    intro t ht
    obtain ⟨i', t', z1, -, z3, -⟩ := bestScoring_spec (List.ne_nil_of_mem ht)
    rw [h8] at z1
    cases z1
    exact atMost_iff.1 (z3 t ht)
  have hbestG : ∀ t ∈ pg, AtMost sc t.1 := by
    intro t ht
    obtain ⟨i', t', z1, -, z3, -⟩ := bestScoring_spec (List.ne_nil_of_mem ht)
    rw [g4] at z1
    cases z1
    exact atMost_iff.1 (z3 t ht)
  unfold makeHistory at h9
  simp only at h9
  by_cases hk : k = 0
  · rw [if_pos hk] at h9
    cases h9
  rw [if_neg hk] at h9
  cases h9
  rw [e1, e2]
  refine ⟨rfl, rfl, by simp, by simp, by simp, fun L hL => ?_, fun L hL => ?_, fun ob hob => ?_⟩
  · simp only [Option.ite_none_right_eq_some, Option.some.injEq] at hL
    obtain ⟨-, rfl⟩ := hL
    refine ⟨⟨sc, bestScoring_mem g4, hbestG⟩, fun t ht => ?_, fun hp => ?_⟩
    · rw [g3] at ht
      obtain ⟨x, hx, rfl⟩ := List.mem_map.1 ht
      have hxm : x.2 ∈ gm := by
        rw [← u1]
        exact List.mem_map_of_mem hx
      obtain ⟨a1, G, a2, a3, -⟩ := o4 x.2 hxm
      obtain ⟨sf, a4⟩ := o5 x.2 hxm
      exact ⟨a1, ⟨G, a2, a3⟩, x.2, sf, a4, u2 x hx⟩
    · subst hp
      obtain ⟨-, -, a1, -⟩ := C55_all_candidates E.it _ (hfit _ n) graphs hG _ _ (ScoreObj.ok_new E.it _ 0) gm g1
      rw [← a1, ← u1, g3, List.map_map, List.map_map]
      rfl
  · simp only [Option.ite_none_right_eq_some, Option.some.injEq] at hL
    obtain ⟨-, rfl⟩ := hL
    refine ⟨?_, hin, fun t ht => ?_⟩
    · rw [← c5, ← q1, List.length_map]
    · obtain ⟨b1, b2⟩ := hall t.2 (hscore t ht)
      exact ⟨b1, b2, q2 t ht, hbest t ht⟩
  · simp only [Option.ite_none_right_eq_some, Option.some.injEq] at hob
    obtain ⟨-, rfl⟩ := hob
    refine ⟨z1.1, z1.2, fun L hL t ht => ?_⟩
    simp only [Option.ite_none_right_eq_some, Option.some.injEq] at hL
    obtain ⟨-, rfl⟩ := hL
    obtain ⟨en, b1, b2, b3⟩ := z3 t.2 (hscore t ht)
    exact ⟨en, b1, b2.1, b2.2, b3⟩

/-- Concrete case: two candidate DAGs, two numbers of latents, pruning, level 3: the history has all entries. -/
example : ∃ m I s H, fitMainH (exEnv 2) (fun _ => List.replicate 8 0) true (some [1, 2]) true [1 / 2, 1 / 4, 1 / 4] none none
    (some [![![0, 1], ![0, 0]], ![![0, 0], ![1, 0]]]) 42 (some 3) = .ok ((m, I, s), some H) ∧ H.numLatent = m.1 ∧
      H.initialGraphs = [![![0, 1], ![0, 0]], ![![0, 0], ![1, 0]]] ∧ (∃ L, H.prunedGraphs = some L ∧ ∃ sc, (sc, m.A) ∈ L) ∧
      (∃ L, H.prunedIs = some L ∧ L.length = 3 ∧ (s, m, I) ∈ L) ∧ H.trainCache.isSome := by
  have hn : ∀ G ∈ [(![![0, 1], ![0, 0]] : Adj 2), ![![0, 0], ![1, 0]]], Nonneg G ∧ Acyclic G := by
    intro G hG
    simp only [List.mem_cons, List.not_mem_nil, or_false] at hG
    rcases hG with rfl | rfl
    · have : Nonneg (![![0, 1], ![0, 0]] : Adj 2) := by unfold Nonneg; decide
      exact ⟨this, (isDag_iff (SetIter.incr 2) this).1 (by decide)⟩
    · have : Nonneg (![![0, 0], ![1, 0]] : Adj 2) := by unfold Nonneg; decide
      exact ⟨this, (isDag_iff (SetIter.incr 2) this).1 (by decide)⟩
  obtain ⟨⟨m, I, s⟩, h⟩ := exEnv_returns _ (by simp) hn (List.replicate 8 (0 : Fin 2 → ℝ)) (by simp) true [1, 2] (by simp) 42
  have h0 := C89_same_result (exEnv 2) (fun _ => List.replicate 8 (0 : Fin 2 → ℝ)) true (some [1, 2]) true [1 / 2, 1 / 4, 1 / 4] none none
    (some [![![0, 1], ![0, 0]], ![![0, 0], ![1, 0]]]) 42 3
  rw [h] at h0
  cases hf : fitMainH (exEnv 2) (fun _ => List.replicate 8 (0 : Fin 2 → ℝ)) true (some [1, 2]) true [1 / 2, 1 / 4, 1 / 4] none none
    (some [![![0, 1], ![0, 0]], ![![0, 0], ![1, 0]]]) 42 (some 3) with
  | error err => rw [hf] at h0; simp [Except.map] at h0
  | ok r =>
    obtain ⟨r, hist⟩ := r
    rw [hf] at h0
    simp only [Except.map, Except.ok.injEq] at h0
    subst h0
    obtain ⟨training, testG, testI, graphs, h1, h2, h3, h4⟩ := C89_history (exEnv 2) (fun d h => varFit_good _ d h)
      (fun d h n A I m s hm => (varFit_fields (n := n) (I := I) hm).2.1) insArgsort_spec _ _ _ _ _ _ _ _ _ _ _ _ hf
    cases h2
    cases hist with
    | none => exact absurd (h3.1 rfl) (by norm_num)
    | some H =>
      obtain ⟨k1, k2, k3, k4, k5, k6, k7, -⟩ := h4 (fun G hG => (hn G hG).1) H rfl
      obtain ⟨L, hL⟩ := Option.isSome_iff_exists.1 (k3.2 (by norm_num))
      obtain ⟨L', hL'⟩ := Option.isSome_iff_exists.1 (k4.2 (by norm_num))
      obtain ⟨⟨sc, hsc, -⟩, -⟩ := k6 L hL
      obtain ⟨l1, l2, -⟩ := k7 L' hL'
      exact ⟨m, I, s, H, rfl, k1, k2, ⟨L, hL, sc, hsc⟩, ⟨L', hL', l1, l2⟩, k5.2 (by norm_num)⟩

end Verif
