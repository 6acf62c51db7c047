import Verif.Model.Rounded
import Verif.Props.MainTotal
import Mathlib.Analysis.Complex.ExponentialBounds

/-!
# C143: errors in the computed test scores
-/

namespace Verif

open Spec

variable {p e : Nat}

/-- The computed score of `m` on the data is a number within `ε` of the exact one. -/
def Spec.ScoredWithin (sc : Data p e → AnyModel p e → Except Err Flt) (ε : ℝ) (d : Data p e) (m : AnyModel p e) : Prop :=
  ∃ x y : ℝ, m.scoreOn d = .ok (some x) ∧ sc d m = .ok (some y) ∧ |y - x| ≤ ε

/-! ### The parts of a run -/

theorem testScoresR_scoreOn {β : Type} (d : Data p e) (model : β → AnyModel p e) (l : List β) :
    testScoresR (fun d m => m.scoreOn d) d model l = testScores d model l := by
  induction l with
  | nil => rfl
  | cons x l ih => simp only [testScoresR, testScores, ih]; rfl

theorem latentLoopR_scoreOn (it : SetIter p) (fit : Nat → Fitter p e) (ctor : Except Err Unit) (prune : Bool) (threshold : Option ℝ)
    (graphs : List (Adj p)) (test : Data p e) (ns : List Nat) (results : List (Nat × (Flt × Adj p × ScoreObj p e))) :
    latentLoopR (fun d m => m.scoreOn d) it fit ctor prune threshold graphs test ns results =
      latentLoop it fit ctor prune threshold graphs test ns results := by
  induction ns generalizing results with
  | nil => rfl
  | cons n ns ih => simp only [latentLoopR, latentLoop, ih, testScoresR_scoreOn]; rfl

theorem fitMainR_scoreOn (E : FitEnv p e) (data : Fin e → Sample p) (solverKnown : Bool) (numsLatent : Option (List Nat)) (prune : Bool)
    (folds : List Rat) (tG tI : Option ℝ) (initial : Option (List (Adj p))) (rs : Int) :
    fitMainR (fun d m => m.scoreOn d) E data solverKnown numsLatent prune folds tG tI initial rs =
      fitMain E data solverKnown numsLatent prune folds tG tI initial rs := by
  unfold fitMainR fitMain targetPhaseR targetPhase
  simp only [latentLoopR_scoreOn, testScoresR_scoreOn]
  rfl

variable {sc : Data p e → AnyModel p e → Except Err Flt}

theorem testScoresR_spec {β : Type} {d : Data p e} {model : β → AnyModel p e} (l : List β) :
    ∀ {r : List (Flt × β)}, testScoresR sc d model l = .ok r → r.map Prod.snd = l ∧ ∀ t ∈ r, sc d (model t.2) = .ok t.1 := by
  induction l with
  | nil =>
    intro r h
    simp only [testScoresR, Except.ok.injEq] at h
    subst h
    simp
  | cons x l ih =>
    intro r h
    simp only [testScoresR] at h
    split at h
    · simp at h
    · rename_i s hs
      split at h
      · simp at h
      · rename_i r' hr'
        cases h
        obtain ⟨h1, h2⟩ := ih hr'
        refine ⟨by simp [h1], fun t ht => ?_⟩
        rcases List.mem_cons.1 ht with rfl | ht
        · exact hs
        · exact h2 t ht

theorem testScoresR_eq {β : Type} {d : Data p e} {model : β → AnyModel p e} (f : β → Flt) (l : List β)
    (h : ∀ x ∈ l, sc d (model x) = .ok (f x)) : testScoresR sc d model l = .ok (l.map (fun x => (f x, x))) := by
  induction l with
  | nil => rfl
  | cons x l ih =>
    simp only [testScoresR, h x (by simp), ih (fun y hy => h y (by simp [hy])), List.map_cons]

/-- The run of the graph phase for one number of latents. -/
def GraphRunR (sc : Data p e → AnyModel p e → Except Err Flt) (it : SetIter p) (fit : Nat → Fitter p e) (prune : Bool)
    (threshold : Option ℝ) (graphs : List (Adj p)) (test : Data p e) (h : Nat) (v : Flt × Adj p × ScoreObj p e) : Prop :=
  ∃ models scores, pruneGraphs it (fit h) prune threshold graphs { calls := 0, cache := [] } = .ok (models, v.2.2) ∧
    testScoresR sc test id models = .ok scores ∧ bestScoring (scores.map (fun x => (x.1, x.2.A))) = .ok (v.1, v.2.1)

theorem latentLoopR_spec {it : SetIter p} {fit : Nat → Fitter p e} {ctor : Except Err Unit} {prune : Bool} {threshold : Option ℝ}
    {graphs : List (Adj p)} {test : Data p e} (ns : List Nat) :
    ∀ (results results' : List (Nat × (Flt × Adj p × ScoreObj p e))), (results.map Prod.fst).Nodup →
      (∀ r ∈ results, GraphRunR sc it fit prune threshold graphs test r.1 r.2) →
      latentLoopR sc it fit ctor prune threshold graphs test ns results = .ok results' →
      (results'.map Prod.fst).Nodup ∧ (∀ r ∈ results', GraphRunR sc it fit prune threshold graphs test r.1 r.2) ∧
      ∀ k, k ∈ results'.map Prod.fst ↔ k ∈ ns ∨ k ∈ results.map Prod.fst := by
  induction ns with
  | nil =>
    intro results results' h1 h2 h
    simp only [latentLoopR, Except.ok.injEq] at h
    subst h
    exact ⟨h1, h2, fun k => by simp⟩
  | cons n ns ih =>
    intro results results' h1 h2 h
    simp only [latentLoopR] at h
    split at h
    · simp at h
    · split at h
      · simp at h
      · rename_i models obj hm
        split at h
        · simp at h
        · rename_i scores hs
          split at h
          · simp at h
          · rename_i s A hb
            obtain ⟨k1, k2⟩ := dictSet_keys results n (s, A, obj) h1
            obtain ⟨k3, k4, k5⟩ := ih _ _ k1 (fun r hr => by
              rcases mem_dictSet hr with rfl | ⟨hr, -⟩
              · exact ⟨models, scores, hm, hs, hb⟩
              · exact h2 r hr) h
            refine ⟨k3, k4, fun k => ?_⟩
            rw [k5, k2]
            simp only [List.mem_cons]
            tauto

theorem fitMainR_ok {E : FitEnv p e} {data : Fin e → Sample p} {solverKnown : Bool} {numsLatent : Option (List Nat)} {prune : Bool}
    {folds : List Rat} {tG tI : Option ℝ} {initial : Option (List (Adj p))} {rs : Int} {m : AnyModel p e} {I : Finset (Fin p)} {s : Flt}
    (h : fitMainR sc E data solverKnown numsLatent prune folds tG tI initial rs = .ok (m, I, s)) :
    ∃ training testG testI graphs ns results v n graph obj rest,
      splitData (E.rng rs) (List.ofFn data) folds = .ok [training, testG, testI] ∧ initialGraphs E initial training = .ok graphs ∧
      latentNumbers E numsLatent training = .ok ns ∧
      latentLoopR sc E.it (E.fit (foldData E.cov training e)) (scoreCtor training solverKnown) prune tG graphs (foldData E.cov testG e)
        ns [] = .ok results ∧
      sortedM tupleLt (results.map (fun r => (r.2.1, r.1, r.2.2.1, r.2.2.2))) = .ok ((v, n, graph, obj) :: rest) ∧
      targetPhaseR sc E (E.fit (foldData E.cov training e) n) tI (foldData E.cov testI e) graph obj = .ok (m, I, s) := by
  unfold fitMainR at h
  split at h
  · simp at h
  · rename_i training testG testI h1
    split at h
    · simp at h
    · rename_i graphs h2
      split at h
      · simp at h
      · rename_i ns h3
        split at h
        · simp at h
        · rename_i results h4
          split at h
          · simp at h
          · simp at h
          · rename_i v n graph obj rest h5
            exact ⟨training, testG, testI, graphs, ns, results, v, n, graph, obj, rest, h1, h2, h3, h4, h5, h⟩
  · simp at h

theorem targetPhaseR_ok {E : FitEnv p e} {fit : Fitter p e} {tI : Option ℝ} {test : Data p e} {graph : Adj p} {obj : ScoreObj p e}
    {m : AnyModel p e} {I : Finset (Fin p)} {s : Flt} (h : targetPhaseR sc E fit tI test graph obj = .ok (m, I, s)) :
    ∃ models obj' scores, pruneI E.it E.argsort fit tI graph obj = .ok (models, obj') ∧
      testScoresR sc test Prod.fst models = .ok scores ∧ bestScoring scores = .ok (s, m, I) := by
  unfold targetPhaseR at h
  split at h
  · simp at h
  · rename_i models obj' h1
    split at h
    · simp at h
    · rename_i scores h2
      split at h
      · simp at h
      · rename_i s' m' I' h3
        cases h
        exact ⟨models, obj', scores, h1, h2, h3⟩

/-! ### The theorems -/

/-- C143: if no score has an error, this is `_fit` as modelled before. -/
theorem C143_exact (E : FitEnv p e) (data : Fin e → Sample p) (solverKnown : Bool) (numsLatent : Option (List Nat)) (prune : Bool)
    (folds : List Rat) (tG tI : Option ℝ) (initial : Option (List (Adj p))) (rs : Int) :
    fitMainR (fun d m => m.scoreOn d) E data solverKnown numsLatent prune folds tG tI initial rs =
      fitMain E data solverKnown numsLatent prune folds tG tI initial rs :=
  fitMainR_scoreOn E data solverKnown numsLatent prune folds tG tI initial rs

/-- The facts about a run with computed scores that do not depend on how they are computed. -/
theorem fitMainR_spec {E : FitEnv p e} (hfit : ∀ d h, GoodFit (E.fit d h))
    (hlat : ∀ d h n A I m s, E.fit d h n A I = .ok (m, s) → m.1 = h) (harg : ∀ f, IsArgsort f (E.argsort f))
    {data : Fin e → Sample p} {solverKnown : Bool} {numsLatent : Option (List Nat)} {prune : Bool}
    {folds : List Rat} {initial : Option (List (Adj p))} {rs : Int} {m : AnyModel p e} {I : Finset (Fin p)} {s : Flt}
    (h : fitMainR sc E data solverKnown numsLatent prune folds none none initial rs = .ok (m, I, s)) :
    ∃ training testG testI graphs ns,
      splitData (E.rng rs) (List.ofFn data) folds = .ok [training, testG, testI] ∧ initialGraphs E initial training = .ok graphs ∧
      latentNumbers E numsLatent training = .ok ns ∧ ((∀ G ∈ graphs, Nonneg G) →
      m.1 ∈ ns ∧ (∃ G ∈ graphs, Subgraph m.A G ∧ (prune = false → m.A = G)) ∧ Acyclic m.A ∧
      (∃ v : Nat → Flt,
        (∀ n ∈ ns, ∃ models obj, pruneGraphs E.it (E.fit (foldData E.cov training e) n) prune none graphs ⟨0, []⟩ = .ok (models, obj) ∧
          (∃ m1 ∈ models, sc (foldData E.cov testG e) m1 = .ok (v n) ∧ (n = m.1 → m1.A = m.A)) ∧
          ∀ m1 ∈ models, ∃ s1, sc (foldData E.cov testG e) m1 = .ok s1 ∧ AtMost (v n) s1) ∧
        ((∀ n ∈ ns, v n ≠ none) → ∀ n ∈ ns, AtMost (v m.1) (v n))) ∧
      (∃ (m0 : AnyModel p e) (s0 : Flt) (order : List (Fin p)),
        FittedTo E.it (E.fit (foldData E.cov training e) m.1) m.A Finset.univ m0 s0 ∧
        order.Perm (List.finRange p) ∧ order.Pairwise (fun a b => popVar (fun k => m0.omegas k a) ≤ popVar (fun k => m0.omegas k b)) ∧
        (∃ i ≤ p, I = Finset.univ \ (order.take i).toFinset) ∧
        (∃ sf, FittedTo E.it (E.fit (foldData E.cov training e) m.1) m.A I m sf) ∧ sc (foldData E.cov testI e) m = .ok s ∧
        ∀ i ≤ p, ∃ mi sf si, FittedTo E.it (E.fit (foldData E.cov training e) m.1) m.A (Finset.univ \ (order.take i).toFinset) mi sf ∧
          sc (foldData E.cov testI e) mi = .ok si ∧ AtMost s si)) := by
  obtain ⟨training, testG, testI, graphs, ns, results, w, n, graph, obj, rest, h1, h2, h3, h4, h5, h6⟩ := fitMainR_ok h
  refine ⟨training, testG, testI, graphs, ns, h1, h2, h3, fun hG => ?_⟩
  obtain ⟨k1, k2, k3⟩ := latentLoopR_spec ns [] results (by simp) (by simp) h4
  obtain ⟨r, k4, k5, k6⟩ := sortedM_ok (results.map (fun r => (r.2.1, r.1, r.2.2.1, r.2.2.2))) (by rw [List.map_map]; exact k1)
  rw [h5] at k4
  cases k4
  have hmem : (n, (w, graph, obj)) ∈ results := by
    have := k5.mem_iff.1 (List.mem_cons_self (a := (w, n, graph, obj)) (l := rest))
    obtain ⟨r, hr, hre⟩ := List.mem_map.1 this
    simp only [Prod.mk.injEq] at hre
    obtain ⟨e1, e2, e3, e4⟩ := hre
    rw [← e1, ← e2, ← e3, ← e4]
    exact hr
  -- what is known about every entry of the dictionary
  have hval : ∀ r ∈ results, ∃ models obj,
      pruneGraphs E.it (E.fit (foldData E.cov training e) r.1) prune none graphs ⟨0, []⟩ = .ok (models, obj) ∧
      (∃ m1 ∈ models, sc (foldData E.cov testG e) m1 = .ok r.2.1 ∧ m1.A = r.2.2.1) ∧
      ∀ m1 ∈ models, ∃ s1, sc (foldData E.cov testG e) m1 = .ok s1 ∧ AtMost r.2.1 s1 := by
    intro r hr
    obtain ⟨models, scores, g1, g2, g3⟩ := k2 r hr
    obtain ⟨q1, q2⟩ := testScoresR_spec models g2
    refine ⟨models, _, g1, ?_, fun m1 hm1 => ?_⟩
    · obtain ⟨t, ht, hte⟩ := List.mem_map.1 (bestScoring_mem g3)
      simp only [Prod.mk.injEq] at hte
      refine ⟨t.2, ?_, ?_, hte.2⟩
      · rw [← q1]; exact List.mem_map_of_mem ht
      · rw [← hte.1]; exact q2 t ht
    · rw [← q1] at hm1
      obtain ⟨t, ht, rfl⟩ := List.mem_map.1 hm1
      refine ⟨t.1, q2 t ht, ?_⟩
      obtain ⟨i, t', z1, -, z3, -⟩ := bestScoring_spec (tuples := scores.map (fun x => (x.1, x.2.A)))
        (by simp; exact List.ne_nil_of_mem ht)
      rw [g3] at z1
      cases z1
      exact atMost_iff.1 (z3 (t.1, t.2.A) (List.mem_map_of_mem (f := fun x : Flt × AnyModel p e => (x.1, x.2.A)) ht))
  obtain ⟨models, scores, g1, g2, g3⟩ := k2 _ hmem
  simp only at g1 g2 g3
  obtain ⟨o1, o2, o3, o4⟩ := pruneGraphs_spec (hfit _ n) hG (ScoreObj.ok_new E.it _ 0) g1
  have hgraph : Acyclic graph ∧ ∃ G ∈ graphs, Subgraph graph G ∧ (prune = false → graph = G) := by
    obtain ⟨ms, ob, v1, ⟨mm, v2, -, v3⟩, -⟩ := hval _ hmem
    simp only at v1 v2 v3
    rw [g1] at v1
    cases v1
    rw [← v3]
    exact o4 mm v2
  obtain ⟨pm, obj', ps, t1, t2, t3⟩ := targetPhaseR_ok h6
  obtain ⟨m0, s0, order, c1, -, c3, c4, c5, c6⟩ := C57_nested E.it E.argsort harg _ graph obj obj' o1 pm t1
  obtain ⟨q1, q2⟩ := testScoresR_spec pm t2
  have hin := bestScoring_mem t3
  have hinpm : (m, I) ∈ pm := by rw [← q1]; exact List.mem_map_of_mem hin
  obtain ⟨i, hi⟩ := List.getElem?_of_mem hinpm
  have hip : i ≤ p := by
    have := (List.getElem?_eq_some_iff.1 hi).1
    omega
  obtain ⟨mi, sf, c7, c8⟩ := c6 i hip
  rw [hi] at c7
  simp only [Option.some.injEq, Prod.mk.injEq] at c7
  obtain ⟨e1, e2⟩ := c7
  rw [← e2] at c8
  rw [← e1] at c8
  have hmA : m.A = graph := (c8.good (hfit _ n)).1
  have hm1 : m.1 = n := by
    obtain ⟨j, mm, f1, f2, -⟩ := c8.fields
    rw [f2]
    exact hlat _ _ _ _ _ _ _ f1
  have hfun : ∀ r ∈ results, ∀ r' ∈ results, r.1 = r'.1 → r = r' := fun r hr r' hr' hk => List.inj_on_of_nodup_map k1 hr hr' hk
  rw [hmA, hm1]
  refine ⟨?_, hgraph.2, hgraph.1, ?_, m0, s0, order, c1, c3, c4, ⟨i, hip, e2⟩, ⟨sf, c8⟩, q2 _ hin, ?_⟩
  · have := (k3 n).1 (List.mem_map_of_mem (f := Prod.fst) hmem)
    simpa using this
  · classical
    have hex : ∀ n' ∈ ns, ∃ r ∈ results, r.1 = n' := by
      intro n' hn'
      obtain ⟨r, hr, hre⟩ := List.mem_map.1 ((k3 n').2 (Or.inl hn'))
      exact ⟨r, hr, hre⟩
    obtain ⟨v, hv⟩ : ∃ v : Nat → Flt, ∀ r ∈ results, v r.1 = r.2.1 := by
      refine ⟨fun n' => if hc : ∃ r ∈ results, r.1 = n' then (Classical.choose hc).2.1 else none, fun r hr => ?_⟩
      have hc : ∃ r' ∈ results, r'.1 = r.1 := ⟨r, hr, rfl⟩
      simp only [dif_pos hc]
      rw [hfun _ (Classical.choose_spec hc).1 _ hr (Classical.choose_spec hc).2]
    refine ⟨v, fun n' hn' => ?_, fun hnn n' hn' => ?_⟩
    · obtain ⟨r, hr, rfl⟩ := hex n' hn'
      rw [hv r hr]
      obtain ⟨ms, ob, f1, ⟨m1, f2, f3, f4⟩, f5⟩ := hval r hr
      refine ⟨ms, ob, f1, ⟨m1, f2, f3, fun hk => ?_⟩, f5⟩
      rw [f4, hfun r hr _ hmem hk]
    · obtain ⟨r, hr, rfl⟩ := hex n' hn'
      have hsome : ∀ r ∈ results, r.2.1 ≠ none := by
        intro r hr
        rw [← hv r hr]
        exact hnn _ (by simpa using (k3 r.1).1 (List.mem_map_of_mem (f := Prod.fst) hr))
      have hsort := k6 (by
        intro y hy
        obtain ⟨r, hr, rfl⟩ := List.mem_map.1 hy
        exact hsome r hr)
      rw [hv r hr]
      have hvn : v n = w := hv _ hmem
      rw [hvn]
      have hr' := k5.mem_iff.2 (List.mem_map_of_mem (f := fun r : Nat × (Flt × Adj p × ScoreObj p e) => (r.2.1, r.1, r.2.2.1, r.2.2.2)) hr)
      obtain ⟨x, hx⟩ := Option.ne_none_iff_exists'.1 (hsome _ hmem)
      simp only at hx
      rcases List.mem_cons.1 hr' with hc | hc
      · simp only [Prod.mk.injEq] at hc
        exact Or.inr ⟨x, x, hx, by rw [hc.1, hx], le_refl _⟩
      · obtain ⟨x', y', f1, f2, f3⟩ := List.rel_of_pairwise_cons hsort hc
        simp only at f1 f2 f3
        refine Or.inr ⟨x', y', f1, f2, ?_⟩
        rcases f3 with f3 | ⟨f3, -⟩ <;> linarith
  · intro j hj
    obtain ⟨mj, sj, f1, f2⟩ := c6 j hj
    have hjm := List.mem_of_getElem? f1
    rw [← q1] at hjm
    obtain ⟨t, ht, hte⟩ := List.mem_map.1 hjm
    refine ⟨mj, sj, t.1, f2, ?_, ?_⟩
    · have := q2 t ht
      rw [hte] at this
      exact this
    · obtain ⟨i', t', z1, -, z3, -⟩ := bestScoring_spec (List.ne_nil_of_mem ht)
      rw [t3] at z1
      cases z1
      exact atMost_iff.1 (z3 t ht)

/-- C143: however the test scores are computed, the result has the documented shape: the number of latents is one of those tried, the
graph is acyclic and comes from a candidate by removing edges (none without pruning), the model is the one fitted to this graph and to the
returned targets, and these are the variables but those with the smallest variance across environments. -/
theorem C143_any_scores (E : FitEnv p e) (hfit : ∀ d h, GoodFit (E.fit d h))
    (hlat : ∀ d h n A I m s, E.fit d h n A I = .ok (m, s) → m.1 = h) (harg : ∀ f, IsArgsort f (E.argsort f))
    (data : Fin e → Sample p) (solverKnown : Bool) (numsLatent : Option (List Nat)) (prune : Bool)
    (folds : List Rat) (initial : Option (List (Adj p))) (rs : Int) (training testG testI : List (Sample p)) (graphs : List (Adj p))
    (ns : List Nat) (h1 : splitData (E.rng rs) (List.ofFn data) folds = .ok [training, testG, testI])
    (h2 : initialGraphs E initial training = .ok graphs) (h3 : latentNumbers E numsLatent training = .ok ns)
    (hG : ∀ G ∈ graphs, Nonneg G) (m : AnyModel p e) (I : Finset (Fin p)) (s : Flt)
    (h : fitMainR sc E data solverKnown numsLatent prune folds none none initial rs = .ok (m, I, s)) :
    m.1 ∈ ns ∧ Acyclic m.A ∧ (∃ G ∈ graphs, Subgraph m.A G ∧ (prune = false → m.A = G)) ∧
      (∃ sf, FittedTo E.it (E.fit (foldData E.cov training e) m.1) m.A I m sf) ∧
      ∃ (m0 : AnyModel p e) (s0 : Flt), FittedTo E.it (E.fit (foldData E.cov training e) m.1) m.A Finset.univ m0 s0 ∧
        ∀ i ∈ I, ∀ j ∉ I, popVar (fun k => m0.omegas k j) ≤ popVar (fun k => m0.omegas k i) := by
  obtain ⟨tr, tg, ti, gs, ns', k1, k2, k3, k4⟩ := fitMainR_spec hfit hlat harg h
  rw [h1] at k1
  cases k1
  rw [h2] at k2
  cases k2
  rw [h3] at k3
  cases k3
  obtain ⟨q1, q2, q3, -, m0, s0, order, q4, q5, q6, ⟨c, hc, rfl⟩, q7, -, -⟩ := k4 hG
  refine ⟨q1, q3, q2, q7, m0, s0, q4, fun i hi j hj => ?_⟩
  simp only [Finset.mem_sdiff, Finset.mem_univ, true_and, List.mem_toFinset, not_not] at hi hj
  have hi' : i ∈ order.drop c := by
    have : i ∈ order.take c ++ order.drop c := by rw [List.take_append_drop]; exact q5.mem_iff.2 (List.mem_finRange i)
    rcases List.mem_append.1 this with hh | hh
    · exact absurd hh hi
    · exact hh
  rw [← List.take_append_drop c order, List.pairwise_append] at q6
  exact q6.2.2 j hj i hi'

/-- C143, errors of at most `ε`: the exact validation score of the returned number of latents and graph is within `2ε` of the best one over all
numbers of latents and models, and the exact test score of the returned model within `2ε` of that of the model for each other set of
targets.  The returned score is within `ε` of the exact one of the returned model. -/
theorem C143_near_best (ε : ℝ) (E : FitEnv p e) (hfit : ∀ d h, GoodFit (E.fit d h))
    (hlat : ∀ d h n A I m s, E.fit d h n A I = .ok (m, s) → m.1 = h) (harg : ∀ f, IsArgsort f (E.argsort f))
    (data : Fin e → Sample p) (solverKnown : Bool) (numsLatent : Option (List Nat)) (prune : Bool)
    (folds : List Rat) (initial : Option (List (Adj p))) (rs : Int) (training testG testI : List (Sample p)) (graphs : List (Adj p))
    (ns : List Nat) (h1 : splitData (E.rng rs) (List.ofFn data) folds = .ok [training, testG, testI])
    (h2 : initialGraphs E initial training = .ok graphs) (h3 : latentNumbers E numsLatent training = .ok ns)
    (hG : ∀ G ∈ graphs, Nonneg G)
    (hsG : ∀ n ∈ ns, ∀ G ∈ graphs, ∀ A, Subgraph A G → ∀ m s,
      FittedTo E.it (E.fit (foldData E.cov training e) n) A Finset.univ m s → ScoredWithin sc ε (foldData E.cov testG e) m)
    (hsI : ∀ n ∈ ns, ∀ G ∈ graphs, ∀ A, Subgraph A G → ∀ I m s,
      FittedTo E.it (E.fit (foldData E.cov training e) n) A I m s → ScoredWithin sc ε (foldData E.cov testI e) m)
    (m : AnyModel p e) (I : Finset (Fin p)) (s : Flt)
    (h : fitMainR sc E data solverKnown numsLatent prune folds none none initial rs = .ok (m, I, s)) :
    (∃ m1 s1 x1, FittedTo E.it (E.fit (foldData E.cov training e) m.1) m.A Finset.univ m1 s1 ∧
      m1.scoreOn (foldData E.cov testG e) = .ok (some x1) ∧
      ∀ n ∈ ns, ∃ models obj, pruneGraphs E.it (E.fit (foldData E.cov training e) n) prune none graphs ⟨0, []⟩ = .ok (models, obj) ∧
        ∀ m2 ∈ models, ∃ x2, m2.scoreOn (foldData E.cov testG e) = .ok (some x2) ∧ x1 ≤ x2 + 2 * ε) ∧
    (∃ x y, m.scoreOn (foldData E.cov testI e) = .ok (some x) ∧ s = some y ∧ |y - x| ≤ ε ∧
      ∃ (m0 : AnyModel p e) (s0 : Flt) (order : List (Fin p)),
        FittedTo E.it (E.fit (foldData E.cov training e) m.1) m.A Finset.univ m0 s0 ∧ order.Perm (List.finRange p) ∧
        order.Pairwise (fun a b => popVar (fun k => m0.omegas k a) ≤ popVar (fun k => m0.omegas k b)) ∧
        ∀ i ≤ p, ∃ mi sf xi,
          FittedTo E.it (E.fit (foldData E.cov training e) m.1) m.A (Finset.univ \ (order.take i).toFinset) mi sf ∧
          mi.scoreOn (foldData E.cov testI e) = .ok (some xi) ∧ x ≤ xi + 2 * ε) := by
  obtain ⟨tr, tg, ti, gs, ns', k1, k2, k3, k4⟩ := fitMainR_spec hfit hlat harg h
  rw [h1] at k1
  cases k1
  rw [h2] at k2
  cases k2
  rw [h3] at k3
  cases k3
  obtain ⟨q1, ⟨G, hGm, q2, -⟩, q3, ⟨v, v1, v2⟩, m0, s0, order, q4, q5, q6, -, ⟨sf, q7⟩, q8, q9⟩ := k4 hG
  have hw : ∀ n ∈ ns, ∀ models obj, pruneGraphs E.it (E.fit (foldData E.cov training e) n) prune none graphs ⟨0, []⟩ = .ok (models, obj) →
      ∀ m1 ∈ models, (∃ s1, FittedTo E.it (E.fit (foldData E.cov training e) n) m1.A Finset.univ m1 s1) ∧
        ScoredWithin sc ε (foldData E.cov testG e) m1 := by
    intro n hn models obj hp m1 hm1
    obtain ⟨s1, hs1⟩ := (pruneGraphs_fitted (hfit _ n) hG (ScoreObj.ok_new E.it _ 0) hp).2 m1 hm1
    obtain ⟨-, -, -, o4⟩ := pruneGraphs_spec (hfit _ n) hG (ScoreObj.ok_new E.it _ 0) hp
    obtain ⟨-, G', hG', o5, -⟩ := o4 m1 hm1
    exact ⟨⟨s1, hs1⟩, hsG n hn G' hG' _ o5 _ _ hs1⟩
  constructor
  · obtain ⟨models, obj, u1, ⟨m1, u2, u3, u4⟩, u5⟩ := v1 m.1 q1
    obtain ⟨⟨s1, f1⟩, x1, y1, f2, f3, f4⟩ := hw _ q1 _ _ u1 m1 u2
    rw [u4 rfl] at f1
    refine ⟨m1, s1, x1, f1, f2, fun n hn => ?_⟩
    have hv : ∀ n ∈ ns, v n ≠ none := by
      intro n hn hc
      obtain ⟨ms, ob, w1, ⟨m2, w2, w3, -⟩, -⟩ := v1 n hn
      obtain ⟨-, x2, y2, -, g3, -⟩ := hw _ hn _ _ w1 m2 w2
      rw [w3, hc] at g3
      cases g3
    obtain ⟨ms, ob, w1, -, w5⟩ := v1 n hn
    refine ⟨ms, ob, w1, fun m2 hm2 => ?_⟩
    obtain ⟨-, x2, y2, g2, g3, g4⟩ := hw _ hn _ _ w1 m2 hm2
    refine ⟨x2, g2, ?_⟩
    obtain ⟨t, ht, hat⟩ := w5 m2 hm2
    rw [g3] at ht
    cases ht
    rw [f3] at u3
    have hvm : v m.1 = some y1 := (Except.ok.inj u3).symm
    rcases hat with hat | ⟨a, b, a1, a2, a3⟩
    · exact absurd hat (hv n hn)
    · rcases v2 hv n hn with hat' | ⟨a', b', a4, a5, a6⟩
      · rw [hvm] at hat'; cases hat'
      · rw [hvm] at a4
        rw [a1] at a5
        cases a4
        cases a5
        cases a2
        have := abs_le.1 f4
        have := abs_le.1 g4
        linarith
  · obtain ⟨x, y, f2, f3, f4⟩ := hsI _ q1 G hGm _ q2 _ _ _ q7
    rw [q8] at f3
    have hs : s = some y := by cases f3; rfl
    refine ⟨x, y, f2, hs, f4, m0, s0, order, q4, q5, q6, fun i hi => ?_⟩
    obtain ⟨mi, si, ti, g1, g2, g3⟩ := q9 i hi
    obtain ⟨xi, yi, g4, g5, g6⟩ := hsI _ q1 G hGm _ q2 _ _ _ g1
    refine ⟨mi, si, xi, g1, g4, ?_⟩
    rw [g2] at g5
    cases g5
    rcases g3 with g3 | ⟨a, b, a1, a2, a3⟩
    · rw [hs] at g3; cases g3
    · rw [hs] at a1
      cases a1
      cases a2
      have := abs_le.1 f4
      have := abs_le.1 g6
      linarith

/-! ### The same result -/

theorem best_close {β γ : Type} {ε : ℝ} {f g : β → ℝ} {κ : β → γ} {l : List β} (hne : l ≠ []) (hfg : ∀ x ∈ l, |g x - f x| ≤ ε)
    (hsep : ∀ x ∈ l, ∀ y ∈ l, κ x ≠ κ y → 2 * ε < |f x - f y|) :
    ∃ a b k, bestScoring (l.map (fun x => ((some (f x) : Flt), κ x))) = .ok (some a, k) ∧
      bestScoring (l.map (fun x => ((some (g x) : Flt), κ x))) = .ok (some b, k) ∧ |b - a| ≤ ε ∧
      (∃ x ∈ l, κ x = k ∧ f x = a) ∧ ∀ x ∈ l, a ≤ f x := by
  obtain ⟨i, a, k, h1, h2, h3, -⟩ := C54_first_minimum (l.map (fun x => ((some (f x) : Flt), κ x))) (by simpa using hne) (by simp)
  obtain ⟨i', b, k', h1', h2', h3', -⟩ := C54_first_minimum (l.map (fun x => ((some (g x) : Flt), κ x))) (by simpa using hne) (by simp)
  obtain ⟨x, hx, hxe⟩ := List.mem_map.1 (List.mem_of_getElem? h2)
  obtain ⟨x', hx', hxe'⟩ := List.mem_map.1 (List.mem_of_getElem? h2')
  simp only [Prod.mk.injEq, Option.some.injEq] at hxe hxe'
  have r1 : a ≤ f x' := h3 _ _ (List.mem_map_of_mem (f := fun x => ((some (f x) : Flt), κ x)) hx')
  have r2 : b ≤ g x := h3' _ _ (List.mem_map_of_mem (f := fun x => ((some (g x) : Flt), κ x)) hx)
  have r3 := abs_le.1 (hfg x hx)
  have r4 := abs_le.1 (hfg x' hx')
  have hab : |b - a| ≤ ε := by
    rw [abs_le]
    constructor <;> linarith
  have hk : k' = k := by
    by_contra hc
    have := hsep x hx x' hx' (by rw [hxe.2, hxe'.2]; exact fun hh => hc hh.symm)
    rcases abs_cases (f x - f x') with ⟨q1, q2⟩ | ⟨q1, q2⟩ <;> linarith
  subst hk
  exact ⟨a, b, k', h1, h1', hab, ⟨x, hx, hxe.2, hxe.1⟩, fun y hy => h3 _ _ (List.mem_map_of_mem (f := fun x => ((some (f x) : Flt), κ x)) hy)⟩

/-- Two entries of the dictionary of results that differ in the score only, by at most `ε`. -/
def CloseEntry (ε : ℝ) (r r' : Nat × (Flt × Adj p × ScoreObj p e)) : Prop :=
  r'.1 = r.1 ∧ r'.2.2 = r.2.2 ∧ ∃ a b, r.2.1 = some a ∧ r'.2.1 = some b ∧ |b - a| ≤ ε

theorem dictSet_close {ε : ℝ} {l l' : List (Nat × (Flt × Adj p × ScoreObj p e))} (h : List.Forall₂ (CloseEntry ε) l l') {n : Nat}
    {v v' : Flt × Adj p × ScoreObj p e} (hv : CloseEntry ε (n, v) (n, v')) :
    List.Forall₂ (CloseEntry ε) (dictSet l n v) (dictSet l' n v') := by
  have hany : l.any (fun x => x.1 == n) = l'.any (fun x => x.1 == n) := by
    induction h with
    | nil => rfl
    | cons hh _ ih => rw [List.any_cons, List.any_cons, ih, hh.1]
  unfold dictSet
  rw [hany]
  split_ifs with hc
  · clear hany hc
    induction h with
    | nil => exact List.Forall₂.nil
    | cons hh _ ih =>
      rw [List.map_cons, List.map_cons, hh.1]
      refine List.Forall₂.cons ?_ ih
      split_ifs
      · exact hv
      · exact hh
  · exact List.rel_append h (List.Forall₂.cons hv List.Forall₂.nil)

theorem latentLoopR_close {ε : ℝ} {it : SetIter p} {fit : Nat → Fitter p e} {ctor : Except Err Unit} {prune : Bool}
    {graphs : List (Adj p)} {test : Data p e} (hfit : ∀ h, GoodFit (fit h)) (hG : ∀ G ∈ graphs, Nonneg G) (ns : List Nat)
    (hs : ∀ n ∈ ns, ∀ G ∈ graphs, ∀ A, Subgraph A G → ∀ m s, FittedTo it (fit n) A Finset.univ m s → ScoredWithin sc ε test m)
    (hsep : ∀ n ∈ ns, ∀ G ∈ graphs, ∀ G' ∈ graphs, ∀ A A', Subgraph A G → Subgraph A' G' → A ≠ A' → ∀ m s m' s' x x',
      FittedTo it (fit n) A Finset.univ m s → FittedTo it (fit n) A' Finset.univ m' s' → m.scoreOn test = .ok (some x) →
      m'.scoreOn test = .ok (some x') → 2 * ε < |x - x'|) :
    ∀ (results results' : List (Nat × (Flt × Adj p × ScoreObj p e))) (l : List (Nat × (Flt × Adj p × ScoreObj p e))),
      List.Forall₂ (CloseEntry ε) results l → latentLoop it fit ctor prune none graphs test ns results = .ok results' →
      ∃ l', latentLoopR sc it fit ctor prune none graphs test ns l = .ok l' ∧ List.Forall₂ (CloseEntry ε) results' l' := by
  induction ns with
  | nil =>
    intro results results' l hl h
    simp only [latentLoop, Except.ok.injEq] at h
    subst h
    exact ⟨l, rfl, hl⟩
  | cons n ns ih =>
    intro results results' l hl h
    simp only [latentLoop] at h
    simp only [latentLoopR]
    split at h
    · simp at h
    · simp only
      split at h
      · simp at h
      · rename_i models obj hm
        simp only [hm]
        obtain ⟨hne, hft⟩ := pruneGraphs_fitted (hfit n) hG (ScoreObj.ok_new it _ 0) hm
        obtain ⟨-, -, -, o4⟩ := pruneGraphs_spec (hfit n) hG (ScoreObj.ok_new it _ 0) hm
        have hw : ∀ m1 ∈ models, ScoredWithin sc ε test m1 := by
          intro m1 hm1
          obtain ⟨s1, f1⟩ := hft m1 hm1
          obtain ⟨-, G, hGm, o5, -⟩ := o4 m1 hm1
          exact hs n (by simp) G hGm _ o5 _ _ f1
        classical
        obtain ⟨f, g, hf, hg, hfg⟩ : ∃ f g : AnyModel p e → ℝ, (∀ m1 ∈ models, m1.scoreOn test = .ok (some (f m1))) ∧
            (∀ m1 ∈ models, sc test m1 = .ok (some (g m1))) ∧ ∀ m1 ∈ models, |g m1 - f m1| ≤ ε := by
          refine ⟨fun m1 => if hc : ScoredWithin sc ε test m1 then hc.choose else 0,
            fun m1 => if hc : ScoredWithin sc ε test m1 then hc.choose_spec.choose else 0, ?_, ?_, ?_⟩ <;>
          · intro m1 hm1
            simp only [dif_pos (hw m1 hm1)]
            have := (hw m1 hm1).choose_spec.choose_spec
            first | exact this.1 | exact this.2.1 | exact this.2.2
        have t1 : testScores test id models = .ok (models.map (fun x => ((some (f x) : Flt), x))) := by
          rw [← testScoresR_scoreOn]
          exact testScoresR_eq (fun x => some (f x)) models hf
        have t2 : testScoresR sc test id models = .ok (models.map (fun x => ((some (g x) : Flt), x))) :=
          testScoresR_eq (fun x => some (g x)) models hg
        simp only [t1] at h
        simp only [t2, List.map_map]
        simp only [List.map_map] at h
        obtain ⟨a, b, k, b1, b2, b3, -, -⟩ := best_close (κ := fun x : AnyModel p e => x.A) hne hfg (fun x hx y hy hxy => by
          obtain ⟨s1, f1⟩ := hft x hx
          obtain ⟨s2, f2⟩ := hft y hy
          obtain ⟨-, G, hGm, o5, -⟩ := o4 x hx
          obtain ⟨-, G', hGm', o5', -⟩ := o4 y hy
          exact hsep n (by simp) G hGm G' hGm' _ _ o5 o5' hxy _ _ _ _ _ _ f1 f2 (hf x hx) (hf y hy))
        have c1 : ((fun x : Flt × AnyModel p e => (x.1, x.2.A)) ∘ fun x => ((some (f x) : Flt), x)) = fun x => ((some (f x) : Flt), x.A) := rfl
        have c2 : ((fun x : Flt × AnyModel p e => (x.1, x.2.A)) ∘ fun x => ((some (g x) : Flt), x)) = fun x => ((some (g x) : Flt), x.A) := rfl
        rw [c1, b1] at h
        rw [c2, b2]
        simp only at h ⊢
        exact ih (fun n' hn' => hs n' (by simp [hn'])) (fun n' hn' => hsep n' (by simp [hn'])) _ _ _
          (dictSet_close (v := (some a, k, obj)) (v' := (some b, k, obj)) hl ⟨rfl, rfl, a, b, rfl, rfl, b3⟩) h

/-- C143, errors smaller than half of the differences: if the exact scores of the models for different numbers of latents or graphs, and those
of the models for different targets, differ by more than `2ε`, then errors of at most `ε` change neither the model nor the targets
that are returned, and the returned score by at most `ε`. -/
theorem C143_same (ε : ℝ) (E : FitEnv p e) (hfit : ∀ d h, GoodFit (E.fit d h)) (harg : ∀ f, IsArgsort f (E.argsort f))
    (data : Fin e → Sample p) (solverKnown : Bool) (numsLatent : Option (List Nat)) (prune : Bool)
    (folds : List Rat) (initial : Option (List (Adj p))) (rs : Int) (training testG testI : List (Sample p)) (graphs : List (Adj p))
    (ns : List Nat) (h1 : splitData (E.rng rs) (List.ofFn data) folds = .ok [training, testG, testI])
    (h2 : initialGraphs E initial training = .ok graphs) (h3 : latentNumbers E numsLatent training = .ok ns)
    (hG : ∀ G ∈ graphs, Nonneg G)
    (hsG : ∀ n ∈ ns, ∀ G ∈ graphs, ∀ A, Subgraph A G → ∀ m s,
      FittedTo E.it (E.fit (foldData E.cov training e) n) A Finset.univ m s → ScoredWithin sc ε (foldData E.cov testG e) m)
    (hsI : ∀ n ∈ ns, ∀ G ∈ graphs, ∀ A, Subgraph A G → ∀ I m s,
      FittedTo E.it (E.fit (foldData E.cov training e) n) A I m s → ScoredWithin sc ε (foldData E.cov testI e) m)
    (hdG : ∀ n ∈ ns, ∀ n' ∈ ns, ∀ G ∈ graphs, ∀ G' ∈ graphs, ∀ A A', Subgraph A G → Subgraph A' G' → (n, A) ≠ (n', A') →
      ∀ m s m' s' x x', FittedTo E.it (E.fit (foldData E.cov training e) n) A Finset.univ m s →
      FittedTo E.it (E.fit (foldData E.cov training e) n') A' Finset.univ m' s' → m.scoreOn (foldData E.cov testG e) = .ok (some x) →
      m'.scoreOn (foldData E.cov testG e) = .ok (some x') → 2 * ε < |x - x'|)
    (hdI : ∀ n ∈ ns, ∀ G ∈ graphs, ∀ A, Subgraph A G → ∀ I I', I ≠ I' → ∀ m s m' s' x x',
      FittedTo E.it (E.fit (foldData E.cov training e) n) A I m s → FittedTo E.it (E.fit (foldData E.cov training e) n) A I' m' s' →
      m.scoreOn (foldData E.cov testI e) = .ok (some x) → m'.scoreOn (foldData E.cov testI e) = .ok (some x') → 2 * ε < |x - x'|)
    (m : AnyModel p e) (I : Finset (Fin p)) (s : Flt)
    (h : fitMain E data solverKnown numsLatent prune folds none none initial rs = .ok (m, I, s)) :
    ∃ x y, s = some x ∧ |y - x| ≤ ε ∧ fitMainR sc E data solverKnown numsLatent prune folds none none initial rs = .ok (m, I, some y) := by
  obtain ⟨tr, tg, ti, gs, ns', results, w, n, graph, obj, rest, k1, k2, k3, k4, k5, k6⟩ := fitMain_ok h
  rw [h1] at k1
  cases k1
  rw [h2] at k2
  cases k2
  rw [h3] at k3
  cases k3
  obtain ⟨l, l1, l2⟩ := latentLoopR_close (sc := sc) (hfit _) hG ns hsG (fun n hn G hG G' hG' A A' hA hA' hne =>
    hdG n hn n hn G hG G' hG' A A' hA hA' (fun hc => hne (congrArg Prod.snd hc))) [] results [] List.Forall₂.nil k4
  obtain ⟨r1, r2, r3⟩ := latentLoop_spec ns [] results (by simp) (by simp) k4
  obtain ⟨r, q1, q2, q3⟩ := sortedM_ok (results.map (fun r => (r.2.1, r.1, r.2.2.1, r.2.2.2))) (by rw [List.map_map]; exact r1)
  rw [k5] at q1
  cases q1
  have hmem : (n, (w, graph, obj)) ∈ results := by
    have := q2.mem_iff.1 (List.mem_cons_self (a := (w, n, graph, obj)) (l := rest))
    obtain ⟨r, hr, hre⟩ := List.mem_map.1 this
    simp only [Prod.mk.injEq] at hre
    obtain ⟨e1, e2, e3, e4⟩ := hre
    rw [← e1, ← e2, ← e3, ← e4]
    exact hr
  have hkeys : l.map Prod.fst = results.map Prod.fst := by
    clear l1 r1 r2 r3 q2 q3 hmem k4 k5
    induction l2 with
    | nil => rfl
    | cons hh _ ih => rw [List.map_cons, List.map_cons, ih, hh.1]
  have hnd : (l.map Prod.fst).Nodup := by rw [hkeys]; exact r1
  obtain ⟨r', q4, q5, q6⟩ := sortedM_ok (l.map (fun r => (r.2.1, r.1, r.2.2.1, r.2.2.2))) (by rw [List.map_map]; exact hnd)
  have hsome : ∀ y ∈ results.map (fun r => (r.2.1, r.1, r.2.2.1, r.2.2.2)), y.1 ≠ none := by
    intro y hy
    obtain ⟨r, hr, rfl⟩ := List.mem_map.1 hy
    obtain ⟨i, hi⟩ := List.getElem?_of_mem hr
    obtain ⟨hil, rfl⟩ := List.getElem?_eq_some_iff.1 hi
    obtain ⟨-, -, a, b, ha, -⟩ := l2.get hil (by rw [← l2.length_eq]; exact hil)
    simp only [List.get_eq_getElem] at ha
    rw [ha]
    simp
  have hsome' : ∀ y ∈ l.map (fun r => (r.2.1, r.1, r.2.2.1, r.2.2.2)), y.1 ≠ none := by
    intro y hy
    obtain ⟨r, hr, rfl⟩ := List.mem_map.1 hy
    obtain ⟨i, hi⟩ := List.getElem?_of_mem hr
    obtain ⟨hil, rfl⟩ := List.getElem?_eq_some_iff.1 hi
    obtain ⟨-, -, a, b, -, hb, -⟩ := l2.get (by rw [l2.length_eq]; exact hil) hil
    simp only [List.get_eq_getElem] at hb
    rw [hb]
    simp
  have hleast : ∀ {β : Type} {a : Flt × Nat × β} {t : List (Flt × Nat × β)}, (a :: t).Pairwise LexLt → ∀ b ∈ a :: t, ∀ x y, a.1 = some x →
      b.1 = some y → x ≤ y := by
    intro β a t hp b hb x y hx hy
    rcases List.mem_cons.1 hb with rfl | hb
    · rw [hx] at hy; cases hy; exact le_refl _
    · obtain ⟨x', y', f1, f2, f3⟩ := List.rel_of_pairwise_cons hp hb
      rw [hx] at f1
      rw [hy] at f2
      cases f1
      cases f2
      rcases f3 with f3 | ⟨f3, -⟩ <;> linarith
  -- the first of the sorted list with errors
  obtain ⟨⟨w', n', graph', obj'⟩, rest', rfl⟩ : ∃ c t, r' = c :: t := by
    cases r' with
    | nil =>
      have := q5.length_eq
      simp only [List.length_nil, List.length_map] at this
      rw [← l2.length_eq] at this
      have := List.length_pos_of_mem hmem
      omega
    | cons c t => exact ⟨c, t, rfl⟩
  obtain ⟨⟨n1, w1, graph1, obj1⟩, hr1, hre1⟩ := List.mem_map.1 (q5.mem_iff.1 (List.mem_cons_self (a := (w', n', graph', obj')) (l := rest')))
  simp only [Prod.mk.injEq] at hre1
  obtain ⟨rfl, rfl, rfl, rfl⟩ := hre1
  obtain ⟨i, hi⟩ := List.getElem?_of_mem hr1
  obtain ⟨hil, hie⟩ := List.getElem?_eq_some_iff.1 hi
  have hil' : i < results.length := by rw [l2.length_eq]; exact hil
  have hcl := l2.get hil' hil
  simp only [List.get_eq_getElem, hie] at hcl
  obtain ⟨c1, c2, a1, b1, c3, c4, c5⟩ := hcl
  simp only at c1 c2 c3 c4
  obtain ⟨j, hj⟩ := List.getElem?_of_mem hmem
  obtain ⟨hjl, hje⟩ := List.getElem?_eq_some_iff.1 hj
  have hjl' : j < l.length := by rw [← l2.length_eq]; exact hjl
  have hcl' := l2.get hjl hjl'
  simp only [List.get_eq_getElem, hje] at hcl'
  obtain ⟨d1, d2, a2, b2, d3, d4, d5⟩ := hcl'
  simp only at d1 d2 d3 d4
  have hri : results[i] ∈ results := List.getElem_mem hil'
  have hrj : l[j] ∈ l := List.getElem_mem hjl'
  -- the number of latents is the same
  have e1 : a2 ≤ a1 := hleast (q3 hsome) _ (q2.mem_iff.2 (List.mem_map_of_mem (f := fun r : Nat × (Flt × Adj p × ScoreObj p e) => (r.2.1, r.1, r.2.2.1, r.2.2.2)) hri)) _ _ d3 c3
  have e2 : b1 ≤ b2 := hleast (q6 hsome') _ (q5.mem_iff.2 (List.mem_map_of_mem (f := fun r : Nat × (Flt × Adj p × ScoreObj p e) => (r.2.1, r.1, r.2.2.1, r.2.2.2)) hrj)) _ _ c4 d4
  have hatt : ∀ r ∈ results, ∀ a, r.2.1 = some a → r.1 ∈ ns ∧ ∃ m1 s1, (∃ G ∈ graphs, Subgraph r.2.2.1 G) ∧
      FittedTo E.it (E.fit (foldData E.cov training e) r.1) r.2.2.1 Finset.univ m1 s1 ∧ m1.scoreOn (foldData E.cov testG e) = .ok (some a) := by
    intro r hr a ha
    refine ⟨by simpa using (r3 r.1).1 (List.mem_map_of_mem (f := Prod.fst) hr), ?_⟩
    obtain ⟨ms, ob, v1, ⟨m1, v2, v3, v4⟩, -⟩ := graphRun_validation (r2 r hr)
    obtain ⟨s1, f1⟩ := (pruneGraphs_fitted (hfit _ _) hG (ScoreObj.ok_new E.it _ 0) v1).2 m1 v2
    obtain ⟨-, -, -, o4⟩ := pruneGraphs_spec (hfit _ _) hG (ScoreObj.ok_new E.it _ 0) v1
    obtain ⟨-, G, hGm, o5, -⟩ := o4 m1 v2
    rw [v3] at f1 o5
    rw [ha] at v4
    exact ⟨m1, s1, ⟨G, hGm, o5⟩, f1, v4⟩
  obtain ⟨hns, m1, s1, ⟨G1, hG1, f1⟩, f2, f3⟩ := hatt _ hmem a2 d3
  obtain ⟨hns', m2, s2, ⟨G2, hG2, g1⟩, g2, g3⟩ := hatt _ hri a1 c3
  simp only at hns f1 f2
  have hn : results[i].1 = n := by
    by_contra hc
    have := hdG n hns _ hns' G1 hG1 G2 hG2 _ _ f1 g1 (fun hh => hc (congrArg Prod.fst hh).symm) _ _ _ _ _ _ f2 g2 f3 g3
    have := abs_le.1 c5
    have := abs_le.1 d5
    rcases abs_cases (a2 - a1) with ⟨z1, z2⟩ | ⟨z1, z2⟩ <;> linarith
  have hrr : results[i] = (n, (w, graph, obj)) := List.inj_on_of_nodup_map r1 hri hmem hn
  rw [hrr] at c1 c2
  simp only [Prod.mk.injEq] at c1 c2
  obtain ⟨c6, c7⟩ := c2
  -- the targets
  obtain ⟨models, scores, g4, -, -⟩ := r2 _ hmem
  simp only at g4
  obtain ⟨o1, -⟩ := pruneGraphs_spec (hfit _ n) hG (ScoreObj.ok_new E.it _ 0) g4
  obtain ⟨pm, ob, ps, t1, t2, t3⟩ := targetPhase_ok k6
  obtain ⟨m0, s0, order, -, -, u1, -, u2, u3⟩ := C57_nested E.it E.argsort harg _ graph obj ob o1 pm t1
  have hpm : ∀ (j : Nat) (x : AnyModel p e × Finset (Fin p)), pm[j]? = some x → j ≤ p ∧ x.2 = Finset.univ \ (order.take j).toFinset ∧
      ∃ sf, FittedTo E.it (E.fit (foldData E.cov training e) n) graph x.2 x.1 sf := by
    intro j x hx
    have hjp : j ≤ p := by
      have := (List.getElem?_eq_some_iff.1 hx).1
      omega
    obtain ⟨mj, sj, z1, z2⟩ := u3 j hjp
    rw [hx] at z1
    simp only [Option.some.injEq] at z1
    subst z1
    exact ⟨hjp, rfl, sj, z2⟩
  have hw : ∀ x ∈ pm, ScoredWithin sc ε (foldData E.cov testI e) x.1 := by
    intro x hx
    obtain ⟨j, hj⟩ := List.getElem?_of_mem hx
    obtain ⟨-, -, sf, z⟩ := hpm j x hj
    exact hsI n hns G1 hG1 _ f1 _ _ _ z
  classical
  obtain ⟨f, g, hf, hg, hfg⟩ : ∃ f g : AnyModel p e × Finset (Fin p) → ℝ,
      (∀ x ∈ pm, x.1.scoreOn (foldData E.cov testI e) = .ok (some (f x))) ∧
      (∀ x ∈ pm, sc (foldData E.cov testI e) x.1 = .ok (some (g x))) ∧ ∀ x ∈ pm, |g x - f x| ≤ ε := by
    refine ⟨fun x => if hc : ScoredWithin sc ε (foldData E.cov testI e) x.1 then hc.choose else 0,
      fun x => if hc : ScoredWithin sc ε (foldData E.cov testI e) x.1 then hc.choose_spec.choose else 0, ?_, ?_, ?_⟩ <;>
    · intro x hx
      simp only [dif_pos (hw x hx)]
      have := (hw x hx).choose_spec.choose_spec
      first | exact this.1 | exact this.2.1 | exact this.2.2
  have hne : pm ≠ [] := by
    intro hc
    rw [hc] at u2
    simp at u2
  obtain ⟨a, b, k, v1, v2, v3, -, -⟩ := best_close (κ := id) hne hfg (fun x hx y hy hxy => by
    obtain ⟨jx, hjx⟩ := List.getElem?_of_mem hx
    obtain ⟨jy, hjy⟩ := List.getElem?_of_mem hy
    obtain ⟨x1, x2, sx, x3⟩ := hpm jx x hjx
    obtain ⟨y1, y2, sy, y3⟩ := hpm jy y hjy
    refine hdI n hns G1 hG1 _ f1 x.2 y.2 (fun hc => hxy ?_) _ _ _ _ _ _ x3 y3 (hf x hx) (hf y hy)
    have hcard : x.2.card = y.2.card := by rw [hc]
    rw [x2, y2, (C57_sizes order u1 jx x1).1, (C57_sizes order u1 jy y1).1] at hcard
    have : jx = jy := by omega
    rw [this, hjy] at hjx
    exact (Option.some.inj hjx).symm)
  have t2' : testScores (foldData E.cov testI e) Prod.fst pm = .ok (pm.map (fun x => ((some (f x) : Flt), x))) := by
    rw [← testScoresR_scoreOn]
    exact testScoresR_eq (fun x => some (f x)) pm hf
  have t4 : testScoresR sc (foldData E.cov testI e) Prod.fst pm = .ok (pm.map (fun x => ((some (g x) : Flt), x))) :=
    testScoresR_eq (fun x => some (g x)) pm hg
  rw [t2'] at t2
  cases t2
  simp only [id] at v1 v2
  rw [v1] at t3
  cases t3
  refine ⟨a, b, rfl, v3, ?_⟩
  unfold fitMainR
  simp only [h1, h2, h3, l1, q4]
  subst c1
  subst c6
  subst c7
  unfold targetPhaseR
  simp only [t1, t4, v2]

/-! ### Runs that return, and ties -/

theorem testScoresR_returns {β : Type} {d : Data p e} {model : β → AnyModel p e} (l : List β)
    (h : ∀ x ∈ l, ∃ s, sc d (model x) = .ok s) : ∃ r, testScoresR sc d model l = .ok r := by
  induction l with
  | nil => exact ⟨[], rfl⟩
  | cons x l ih =>
    obtain ⟨s, hs⟩ := h x (by simp)
    obtain ⟨r, hr⟩ := ih (fun y hy => h y (by simp [hy]))
    simp only [testScoresR, hs, hr]
    exact ⟨_, rfl⟩

/-- The fits of all subgraphs of `G` return, can be stored, and the computed scores of their results and of the stored copies on
the test data are numbers or `nan`. -/
def Spec.FitsAndScoresR (sc : Data p e → AnyModel p e → Except Err Flt) (it : SetIter p) (fit : Fitter p e) (tests : List (Data p e))
    (G : Adj p) : Prop :=
  ∀ n H I, Nonneg H → Subgraph H G → ∃ m s m', fit n H I = .ok (m, s) ∧ m.copy it = .ok m' ∧
    ∀ d ∈ tests, (∃ t, sc d m = .ok t) ∧ ∃ t, sc d m' = .ok t

theorem fitted_scoresR {it : SetIter p} {fit : Fitter p e} {tests : List (Data p e)} {G H : Adj p} (hf : FitsAndScoresR sc it fit tests G)
    (hH : Nonneg H) (hs : Subgraph H G) {I : Finset (Fin p)} {m : AnyModel p e} {s : Flt} (hm : FittedTo it fit H I m s)
    {d : Data p e} (hd : d ∈ tests) : ∃ t, sc d m = .ok t := by
  obtain ⟨n, m0, h1, h2⟩ := hm
  obtain ⟨m1, s1, m2, k1, k2, k3⟩ := hf n H I hH hs
  rw [h1] at k1
  cases k1
  rcases h2 with rfl | h2
  · exact (k3 d hd).1
  · rw [k2] at h2
    cases h2
    exact (k3 d hd).2

theorem latentLoopR_returns {it : SetIter p} {fit : Nat → Fitter p e} {prune : Bool} {graphs : List (Adj p)} {test : Data p e}
    (hne : graphs ≠ []) (hG : ∀ G ∈ graphs, Nonneg G) (ns : List Nat) (hg : ∀ n ∈ ns, GoodFit (fit n))
    (hf : ∀ n ∈ ns, ∀ G ∈ graphs, FitsAndScoresR sc it (fit n) [test] G)
    (hB : prune = true → ∀ h ∈ ns, ∀ G ∈ graphs, KeepsWeights (fit h) G) :
    ∀ results, ∃ r, latentLoopR sc it fit (.ok ()) prune none graphs test ns results = .ok r := by
  induction ns with
  | nil => intro results; exact ⟨_, rfl⟩
  | cons n ns ih =>
    intro results
    have hgn := hg n (by simp)
    obtain ⟨⟨ms, obj⟩, h1⟩ := pruneGraphsLoop_returns (it := it) hgn (prune := prune) graphs ⟨0, []⟩ (ScoreObj.ok_new it _ 0)
      (fun G hm => ⟨hG G hm, fun k H hH hs => by
        obtain ⟨m, s, m', k1, k2, -⟩ := hf n (by simp) G hm k H Finset.univ hH hs
        exact ⟨m, s, m', k1, k2⟩⟩) (fun hp => hB hp n (by simp))
    have h1' : pruneGraphs it (fit n) prune none graphs ⟨0, []⟩ = .ok (ms, obj) := by
      unfold pruneGraphs
      rw [if_neg (by simpa using hne), h1]
    obtain ⟨g1, g2⟩ := pruneGraphs_fitted hgn hG (ScoreObj.ok_new it _ 0) h1'
    obtain ⟨-, -, -, g4⟩ := pruneGraphs_spec hgn hG (ScoreObj.ok_new it _ 0) h1'
    obtain ⟨scores, h2⟩ := testScoresR_returns (sc := sc) (d := test) (model := id) ms (fun m hm => by
      obtain ⟨s, hs⟩ := g2 m hm
      obtain ⟨-, G, hGm, hsub, -⟩ := g4 m hm
      refine fitted_scoresR (hf n (by simp) G hGm) ?_ hsub hs (by simp)
      intro a b
      rcases hsub a b with hc | hc
      · rw [hc]; exact hG G hGm a b
      · rw [hc])
    have hsne : scores ≠ [] := by
      intro hc
      have := (testScoresR_spec ms h2).1
      rw [hc] at this
      exact g1 this.symm
    obtain ⟨i, t, h3, -⟩ := bestScoring_spec (tuples := scores.map (fun x => (x.1, x.2.A))) (by simpa using hsne)
    obtain ⟨s, A⟩ := t
    rw [latentLoopR]
    simp only [h1', h2, h3]
    exact ih (fun k hk => hg k (by simp [hk])) (fun k hk => hf k (by simp [hk])) (fun hp k hk => hB hp k (by simp [hk])) _

/-- C143: with any computed scores the call returns under the conditions of `C72_returns`, read for the computed scores. -/
theorem C143_returns (E : FitEnv p e) (candidates : List (Adj p)) (hne : candidates ≠ []) (hG : ∀ G ∈ candidates, Nonneg G)
    (data : Fin e → Sample p) (solverKnown pruneEdges : Bool) (ns : List Nat) (hns : ns ≠ []) (folds : List Rat) (rs : Int)
    (training testG testI : List (Sample p)) (hsplit : splitData (E.rng rs) (List.ofFn data) folds = .ok [training, testG, testI])
    (hctor : scoreCtor training solverKnown = .ok ()) (hfit : ∀ d h, GoodFit (E.fit d h))
    (harg : ∀ f, IsArgsort f (E.argsort f))
    (hf : ∀ n ∈ ns, ∀ G ∈ candidates,
      FitsAndScoresR sc E.it (E.fit (foldData E.cov training e) n) [foldData E.cov testG e, foldData E.cov testI e] G)
    (hB : pruneEdges = true → ∀ h ∈ ns, ∀ G ∈ candidates, KeepsWeights (E.fit (foldData E.cov training e) h) G) :
    ∃ r, fitMainR sc E data solverKnown (some ns) pruneEdges folds none none (some candidates) rs = .ok r := by
  obtain ⟨results, h1⟩ := latentLoopR_returns (sc := sc) (it := E.it) (fit := E.fit (foldData E.cov training e)) (prune := pruneEdges) hne hG
    (test := foldData E.cov testG e) ns (fun n _ => hfit _ n) (fun n hn G hGm k H I hH hs => by
      obtain ⟨m, s, m', k1, k2, k3⟩ := hf n hn G hGm k H I hH hs
      exact ⟨m, s, m', k1, k2, fun d hd => k3 d (by simp at hd; simp [hd])⟩) hB []
  obtain ⟨k1, k2, k3⟩ := latentLoopR_spec ns [] results (by simp) (by simp) h1
  obtain ⟨r, h2, h3, -⟩ := sortedM_ok (results.map (fun r => (r.2.1, r.1, r.2.2.1, r.2.2.2))) (by rw [List.map_map]; exact k1)
  cases r with
  | nil =>
    exfalso
    obtain ⟨n, hn⟩ := List.exists_mem_of_ne_nil _ hns
    obtain ⟨x, hx, -⟩ := List.mem_map.1 ((k3 n).2 (Or.inl hn))
    have := h3.length_eq
    simp only [List.length_nil, List.length_map] at this
    rw [List.eq_nil_of_length_eq_zero this.symm] at hx
    simp at hx
  | cons t rest =>
    obtain ⟨w, n, graph, obj⟩ := t
    have hmem : (n, (w, graph, obj)) ∈ results := by
      have := h3.mem_iff.1 (List.mem_cons_self (a := (w, n, graph, obj)) (l := rest))
      obtain ⟨r, hr, hre⟩ := List.mem_map.1 this
      simp only [Prod.mk.injEq] at hre
      obtain ⟨e1, e2, e3, e4⟩ := hre
      rw [← e1, ← e2, ← e3, ← e4]
      exact hr
    have hn : n ∈ ns := by simpa using (k3 n).1 (List.mem_map_of_mem (f := Prod.fst) hmem)
    obtain ⟨models, scores, g1, g2, g3⟩ := k2 _ hmem
    simp only at g1 g2 g3
    obtain ⟨o1, -, -, o4⟩ := pruneGraphs_spec (hfit _ n) hG (ScoreObj.ok_new E.it _ 0) g1
    have hgraph : ∃ G ∈ candidates, Subgraph graph G := by
      obtain ⟨t, ht, hte⟩ := List.mem_map.1 (bestScoring_mem g3)
      simp only [Prod.mk.injEq] at hte
      rw [← hte.2]
      obtain ⟨-, G, q1, q2, -⟩ := o4 t.2 (by rw [← (testScoresR_spec models g2).1]; exact List.mem_map_of_mem ht)
      exact ⟨G, q1, q2⟩
    obtain ⟨G, hGm, hsub⟩ := hgraph
    have hnn : Nonneg graph := by
      intro a b
      rcases hsub a b with hc | hc
      · rw [hc]; exact hG G hGm a b
      · rw [hc]
    obtain ⟨⟨pm, obj'⟩, t1⟩ := C57_returns E.it E.argsort (E.fit (foldData E.cov training e) n) graph obj o1 (fun k I => by
      obtain ⟨m, s, m', k1, k2, -⟩ := hf n hn G hGm k graph I hnn hsub
      exact ⟨m, s, m', k1, k2⟩)
    obtain ⟨m0, s0, order, -, -, -, -, c5, c6⟩ := C57_nested E.it E.argsort harg _ graph obj obj' o1 pm t1
    obtain ⟨ts, t2⟩ := testScoresR_returns (sc := sc) (d := foldData E.cov testI e) (model := Prod.fst) pm (fun x hx => by
      obtain ⟨i, hi⟩ := List.getElem?_of_mem hx
      have hip : i ≤ p := by
        have := (List.getElem?_eq_some_iff.1 hi).1
        omega
      obtain ⟨mi, sf, c7, c8⟩ := c6 i hip
      rw [hi] at c7
      cases c7
      exact fitted_scoresR (hf n hn G hGm) hnn hsub c8 (by simp))
    have htne : ts ≠ [] := by
      intro hc
      have := (testScoresR_spec pm t2).1
      rw [hc] at this
      simp only [List.map_nil] at this
      rw [← this] at c5
      simp at c5
    obtain ⟨i, t, t3, -⟩ := bestScoring_spec htne
    obtain ⟨s, m, I⟩ := t
    refine ⟨(m, I, s), ?_⟩
    unfold fitMainR
    simp only [hsplit, initialGraphs, latentNumbers, hctor, h1, h2, targetPhaseR, t1, t2, t3]

section Example

/-- A fitting procedure for one variable: the variance of the noise is one plus the number of targets. -/
noncomputable def sizeFit (h : Nat) : Fitter 1 1 := fun _ A I =>
  match mkModel (SetIter.incr 1) A 0 (0 : Matrix (Fin h) (Fin 1) ℝ) (Matrix.of (fun _ _ => 1 + (I.card : ℝ))) 0 with
  | .error err => .error err
  | .ok m => .ok (⟨h, m⟩, some 0)

noncomputable def sizeModel (h : Nat) (I : Finset (Fin 1)) : AnyModel 1 1 :=
  ⟨h, ⟨0, 0, 0, Matrix.of (fun _ _ => 1 + (I.card : ℝ)), 0, 1 - (0 : Matrix (Fin 1) (Fin 1) ℝ).transpose⟩⟩

theorem zero_acyclic : Acyclic (0 : Adj 1) :=
  (isDag_iff (SetIter.incr 1) (fun _ _ => le_refl _)).1 (by decide +kernel)

theorem sizeFit_zero (h n : Nat) (I : Finset (Fin 1)) : sizeFit h n 0 I = .ok (sizeModel h I, some 0) := by
  have h1 := mkModel_eq_ok (it := SetIter.incr 1) (A := 0) (fun _ _ => le_refl _) (B := 0) (0 : Matrix (Fin h) (Fin 1) ℝ)
    (Matrix.of (fun (_ : Fin 1) (_ : Fin 1) => 1 + (I.card : ℝ))) 0 zero_acyclic (fun _ _ _ => rfl)
  unfold sizeFit
  rw [h1]
  rfl

theorem sizeModel_copy (h : Nat) (I : Finset (Fin 1)) : (sizeModel h I).copy (SetIter.incr 1) = .ok (sizeModel h I) := by
  have h1 := mkModel_eq_ok (it := SetIter.incr 1) (A := 0) (fun _ _ => le_refl _) (B := 0) (0 : Matrix (Fin h) (Fin 1) ℝ)
    (Matrix.of (fun (_ : Fin 1) (_ : Fin 1) => 1 + (I.card : ℝ))) 0 zero_acyclic (fun _ _ _ => rfl)
  unfold AnyModel.copy LModel.copy sizeModel
  simp only [h1]

theorem sizeFit_good (h : Nat) : GoodFit (sizeFit h) := by
  intro n A I m s hm
  unfold sizeFit at hm
  split at hm
  · simp at hm
  · rename_i m0 h0
    cases hm
    obtain ⟨h1, -, rfl⟩ := mkModel_fields h0
    exact ⟨rfl, fun hA => (isDag_iff _ hA).1 h1, fun a b _ => rfl⟩

theorem sub_zero_eq {A : Adj 1} (h : Subgraph A 0) : A = 0 := by
  funext a b
  rcases h a b with hc | hc <;> exact hc

theorem sizeFit_fitted {h : Nat} {A : Adj 1} (hA : Subgraph A 0) {I : Finset (Fin 1)} {m : AnyModel 1 1} {s : Flt}
    (hm : FittedTo (SetIter.incr 1) (sizeFit h) A I m s) : m = sizeModel h I := by
  rw [sub_zero_eq hA] at hm
  obtain ⟨n, m0, h1, h2⟩ := hm
  rw [sizeFit_zero] at h1
  cases h1
  rcases h2 with h2 | h2
  · exact h2
  · rw [sizeModel_copy] at h2
    exact (Except.ok.inj h2).symm

theorem sizeModel_score (h : Nat) (I : Finset (Fin 1)) (d : Data 1 1) (hd : GoodData d) (hc : d.covs 0 = 1) :
    (sizeModel h I).scoreOn d = .ok (some (Real.log (1 + I.card) + 1 / (1 + I.card))) := by
  have hpos : (0 : ℝ) < 1 + I.card := by positivity
  have h1 := scoreOn_ok d hd (sizeModel h I).2 (fun k i => by simpa [sizeModel] using hpos) (fun k i => le_refl _)
  have hn : (sizeModel h I).2.noise 0 = (1 + (I.card : ℝ)) • (1 : Matrix (Fin 1) (Fin 1) ℝ) := by
    have h0 : (sizeModel h I).2.noise 0 = (0 : Matrix (Fin h) (Fin 1) ℝ).transpose * Matrix.diagonal 0 * (0 : Matrix (Fin h) (Fin 1) ℝ) +
      Matrix.diagonal (fun _ : Fin 1 => 1 + (I.card : ℝ)) := rfl
    rw [h0, Matrix.mul_zero, zero_add, Matrix.smul_one_eq_diagonal]
  have hinv : ((1 + (I.card : ℝ)) • (1 : Matrix (Fin 1) (Fin 1) ℝ))⁻¹ = (1 + (I.card : ℝ))⁻¹ • (1 : Matrix (Fin 1) (Fin 1) ℝ) := by
    refine Matrix.inv_eq_left_inv ?_
    rw [Matrix.smul_mul, Matrix.mul_smul, smul_smul, inv_mul_cancel₀ hpos.ne', one_smul, one_mul]
  have hN : (d.nObs 0 : ℝ) ≠ 0 := by
    have := hd.pos 0
    positivity
  refine h1.trans ?_
  simp only [Fin.sum_univ_one, hn, hinv, hc, Except.ok.injEq, Option.some.injEq]
  simp [sizeModel, Matrix.trace]
  field_simp

theorem sizeData (n : Nat) (hn : n ≠ 0) : GoodData (foldData (p := 1) exCov [List.replicate n 0] 1) ∧
    (foldData (p := 1) exCov [List.replicate n 0] 1).covs 0 = 1 := by
  constructor
  · refine exEnv_data _ _ rfl ?_
    simpa using hn
  · obtain ⟨k, rfl⟩ := Nat.exists_eq_succ_of_ne_zero hn
    simp [foldData, exCov, List.replicate_succ]

/-- The environment of the examples. -/
noncomputable def sizeEnv : FitEnv 1 1 := { exEnv 1 with fit := fun _ h => sizeFit h }

theorem sizeSplit : splitData (sizeEnv.rng 0) (List.ofFn (fun _ : Fin 1 => List.replicate 8 (0 : Fin 1 → ℝ))) [1 / 2, 1 / 4, 1 / 4] =
    .ok [[List.replicate 4 0], [List.replicate 2 0], [List.replicate 2 0]] :=
  exSplit _ _ (by simp)

theorem sizeEnv_fits (sc : Data 1 1 → AnyModel 1 1 → Except Err Flt)
    (hsc : ∀ h I d, GoodData d → d.covs 0 = 1 → ∃ t, sc d (sizeModel h I) = .ok t) (n : Nat) :
    FitsAndScoresR sc (SetIter.incr 1) (sizeFit n) [foldData exCov [List.replicate 2 0] 1, foldData exCov [List.replicate 2 0] 1] 0 := by
  intro k H I _ hs
  rw [sub_zero_eq hs]
  refine ⟨_, _, _, sizeFit_zero n k I, sizeModel_copy n I, fun d hd => ?_⟩
  have hd : d = foldData exCov [List.replicate 2 0] 1 := by simpa using hd
  obtain ⟨h1, h2⟩ := sizeData 2 (by simp)
  rw [hd]
  exact ⟨hsc n I _ h1 h2, hsc n I _ h1 h2⟩

theorem sizeEnv_returns (sc : Data 1 1 → AnyModel 1 1 → Except Err Flt)
    (hsc : ∀ h I d, GoodData d → d.covs 0 = 1 → ∃ t, sc d (sizeModel h I) = .ok t) (ns : List Nat) (hns : ns ≠ []) :
    ∃ r, fitMainR sc sizeEnv (fun _ => List.replicate 8 0) true (some ns) false [1 / 2, 1 / 4, 1 / 4] none none (some [0]) 0 = .ok r := by
  refine C143_returns sizeEnv [0] (by simp) (by simp [Nonneg]) _ true false ns hns _ 0 _ _ _ sizeSplit (scoreCtor_ok (by simp))
    (fun _ h => sizeFit_good h) insArgsort_spec (fun n _ G hG => ?_) (by simp)
  rw [List.mem_singleton] at hG
  subst hG
  exact sizeEnv_fits sc hsc n

/-- C143, ties: the condition on the differences cannot be dropped.  Errors of at most any given positive size can change the number of
latents that is returned, when two numbers give the same score. -/
theorem C143_ties (ε : ℝ) (hε : 0 < ε) : ∃ (E : FitEnv 1 1) (graphs : List (Adj 1)) (data : Fin 1 → Sample 1) (ns : List Nat)
    (folds : List Rat) (sc : Data 1 1 → AnyModel 1 1 → Except Err Flt) (m m' : AnyModel 1 1) (I I' : Finset (Fin 1)) (s s' : Flt),
    (∀ d m x, AnyModel.scoreOn d m = .ok (some x) → ScoredWithin sc ε d m) ∧
    fitMain E data true (some ns) false folds none none (some graphs) 0 = .ok (m, I, s) ∧
    fitMainR sc E data true (some ns) false folds none none (some graphs) 0 = .ok (m', I', s') ∧ m.1 ≠ m'.1 := by
  classical
  obtain ⟨⟨m, I, s⟩, h1⟩ := sizeEnv_returns (fun d m => m.scoreOn d) (fun h I d hd hc => ⟨_, sizeModel_score h I d hd hc⟩) [1, 2] (by simp)
  obtain ⟨sc, hsc⟩ : ∃ sc : Data 1 1 → AnyModel 1 1 → Except Err Flt, sc = fun d m' =>
      match m'.scoreOn d with
      | .ok (some x) => .ok (some (if m'.1 = m.1 then x + ε else x))
      | r => r := ⟨_, rfl⟩
  have hsome : ∀ d m' x, AnyModel.scoreOn d m' = .ok (some x) → sc d m' = .ok (some (if m'.1 = m.1 then x + ε else x)) := by
    intro d m x hx
    rw [hsc]
    simp only [hx]
  obtain ⟨⟨m', I', s'⟩, h2⟩ := sizeEnv_returns sc (fun h I d hd hc => ⟨_, hsome _ _ _ (sizeModel_score h I d hd hc)⟩) [1, 2] (by simp)
  have hlat : ∀ (d : Data 1 1) h n A I m s, sizeEnv.fit d h n A I = .ok (m, s) → m.1 = h := by
    intro d h n A I m s hm
    simp only [sizeEnv, sizeFit] at hm
    split at hm
    · simp at hm
    · cases hm
      rfl
  obtain ⟨tr, tg, ti, gs, ns', k1, k2, k3, k4⟩ := fitMainR_spec (E := sizeEnv) (fun _ h => sizeFit_good h) hlat insArgsort_spec h1
  obtain ⟨tr', tg', ti', gs', ns'', q1, q2, q3, q4⟩ := fitMainR_spec (E := sizeEnv) (fun _ h => sizeFit_good h) hlat insArgsort_spec h2
  rw [fitMainR_scoreOn] at h1
  refine ⟨sizeEnv, [0], _, [1, 2], _, sc, m, m', I, I', s, s', ?_, h1, h2, ?_⟩
  · intro d m x hx
    refine ⟨x, _, hx, hsome d m x hx, ?_⟩
    split_ifs
    · rw [add_sub_cancel_left, abs_of_pos hε]
    · rw [sub_self, abs_zero]; exact hε.le
  · rw [sizeSplit] at k1 q1
    cases k1
    cases q1
    cases k2
    cases q2
    cases k3
    cases q3
    obtain ⟨j1, -⟩ := k4 (by simp [Nonneg])
    obtain ⟨-, -, -, ⟨v, v1, v2⟩, -⟩ := q4 (by simp [Nonneg])
    obtain ⟨g1, g2⟩ := sizeData 2 (by simp)
    obtain ⟨X, hX⟩ : ∃ X, X = Real.log (1 + ((Finset.univ : Finset (Fin 1)).card : ℝ)) + 1 / (1 + ((Finset.univ : Finset (Fin 1)).card : ℝ)) := ⟨_, rfl⟩
    have hv : ∀ n ∈ [1, 2], v n = some (if n = m.1 then X + ε else X) := by
      intro n hn
      obtain ⟨ms, ob, w1, ⟨m1, w2, w3, -⟩, -⟩ := v1 n hn
      obtain ⟨s1, f1⟩ := (pruneGraphs_fitted (sizeFit_good n) (by simp [Nonneg]) (ScoreObj.ok_new _ _ 0) w1).2 m1 w2
      obtain ⟨-, -, -, o4⟩ := pruneGraphs_spec (sizeFit_good n) (by simp [Nonneg]) (ScoreObj.ok_new _ _ 0) w1
      obtain ⟨-, G, hG, o5, -⟩ := o4 m1 w2
      rw [List.mem_singleton.1 hG] at o5
      rw [sizeFit_fitted o5 f1] at w3
      rw [hX]
      exact (Except.ok.inj ((hsome _ _ _ (sizeModel_score n Finset.univ _ g1 g2)).symm.trans w3)).symm
    intro hc
    have hle := v2 (fun n hn => by rw [hv n hn]; simp) (3 - m.1) (by
      simp only [List.mem_cons, List.not_mem_nil, or_false] at j1
      rcases j1 with j1 | j1 <;> rw [j1] <;> simp)
    have hne : 3 - m.1 ≠ m.1 := by omega
    have hin : 3 - m.1 ∈ [1, 2] := by
      simp only [List.mem_cons, List.not_mem_nil, or_false] at j1
      rcases j1 with j1 | j1 <;> rw [j1] <;> simp
    rw [← hc, hv m.1 j1, hv _ hin, if_pos rfl, if_neg hne] at hle
    rcases hle with hle | ⟨a, b, a1, a2, a3⟩
    · cases hle
    · cases a1
      cases a2
      linarith

/-- The hypotheses of `C143_same` and `C143_near_best` can be met: two sets of targets, whose scores differ by more than 0.1, and errors of 0.05. -/
example : ∃ x y I m, |y - x| ≤ 1 / 20 ∧
    fitMain sizeEnv (fun _ => List.replicate 8 0) true (some [3]) false [1 / 2, 1 / 4, 1 / 4] none none (some [0]) 0 = .ok (m, I, some x) ∧
    fitMainR (fun d m => (m.scoreOn d).map (Option.map (fun x => x - 1 / 20))) sizeEnv (fun _ => List.replicate 8 0) true (some [3]) false
      [1 / 2, 1 / 4, 1 / 4] none none (some [0]) 0 = .ok (m, I, some y) := by
  obtain ⟨⟨m, I, s⟩, h1⟩ := sizeEnv_returns (fun d m => m.scoreOn d) (fun h I d hd hc => ⟨_, sizeModel_score h I d hd hc⟩) [3] (by simp)
  rw [fitMainR_scoreOn] at h1
  obtain ⟨g1, g2⟩ := sizeData 2 (by simp)
  have hw : ∀ h I, ScoredWithin (fun d m => (m.scoreOn d).map (Option.map (fun x => x - 1 / 20))) (1 / 20)
      (foldData exCov [List.replicate 2 0] 1) (sizeModel h I) := by
    intro h I
    refine ⟨_, _, sizeModel_score h I _ g1 g2, by simp only [sizeModel_score h I _ g1 g2]; rfl, ?_⟩
    rw [abs_le]
    constructor <;> linarith
  have hz : ∀ G ∈ [(0 : Adj 1)], G = 0 := fun G hG => List.mem_singleton.1 hG
  obtain ⟨x, y, rfl, k1, k2⟩ := C143_same (sc := fun d m => (m.scoreOn d).map (Option.map (fun x => x - 1 / 20))) (1 / 20) sizeEnv
    (fun _ h => sizeFit_good h) insArgsort_spec _ true (some [3]) false _ (some [0]) 0 _ _ _ [0] [3] sizeSplit rfl rfl (by simp [Nonneg])
    (fun n hn G hG A hA m s hm => by
      rw [hz G hG] at hA
      rw [sizeFit_fitted hA hm]
      exact hw n _)
    (fun n hn G hG A hA I m s hm => by
      rw [hz G hG] at hA
      rw [sizeFit_fitted hA hm]
      exact hw n _)
    (fun n hn n' hn' G hG G' hG' A A' hA hA' hne => by
      rw [hz G hG] at hA
      rw [hz G' hG'] at hA'
      rw [List.mem_singleton] at hn hn'
      exact absurd (by rw [hn, hn', sub_zero_eq hA, sub_zero_eq hA']) hne)
    (fun n hn G hG A hA J J' hJ m s m' s' x x' hm hm' hx hx' => by
      rw [hz G hG] at hA
      rw [sizeFit_fitted hA hm] at hx
      rw [sizeFit_fitted hA hm'] at hx'
      have hx : _ = _ := (sizeModel_score n J _ g1 g2).symm.trans hx
      have hx' : _ = _ := (sizeModel_score n J' _ g1 g2).symm.trans hx'
      simp only [Except.ok.injEq, Option.some.injEq] at hx hx'
      rw [← hx, ← hx']
      have hl := Real.log_two_gt_d9
      have hJs : ∀ J : Finset (Fin 1), J = ∅ ∨ J = Finset.univ := by decide
      have two : (1 : ℝ) + 1 = 2 := by norm_num
      rcases hJs J with rfl | rfl <;> rcases hJs J' with rfl | rfl
      · exact absurd rfl hJ
      · simp [two]
        rw [abs_of_neg (by linarith)]
        linarith
      · simp [two]
        rw [abs_of_pos (by linarith)]
        linarith
      · exact absurd rfl hJ) m I s h1
  exact ⟨x, y, I, m, k1, h1, k2⟩

end Example

end Verif
