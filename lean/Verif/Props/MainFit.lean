import Verif.Proof.MainFit
import Verif.Props.MainPrune
import Verif.Props.Meek
import Verif.Props.Enum
import Verif.Props.ListUtils

/-!
# C58–C61: the selection of the number of latents and the functions of the API
-/

namespace Verif

open Spec

variable {p e : Nat}

/-! ## C58 -/

/-- The score `s` is preferred to `s'` or equal to it: a `nan` is preferred to everything. -/
def Spec.AtMost (s s' : Flt) : Prop := s = none ∨ ∃ x y : ℝ, s = some x ∧ s' = some y ∧ x ≤ y

theorem atMost_iff {s s' : Flt} : fltKey s ≤ fltKey s' ↔ AtMost s s' := by
  unfold AtMost
  cases s with
  | none => simp [fltKey_none_le]
  | some x =>
    cases s' with
    | none =>
      rw [fltKey_le_none]
      simp
    | some y =>
      rw [fltKey_le_some]
      simp

/-- `s` is the best score that the models fitted for the candidates have on the test data, and `A` the graph of a model with
this score. -/
def Spec.Validation (it : SetIter p) (fit : Fitter p e) (prune : Bool) (graphs : List (Adj p)) (test : Data p e) (s : Flt)
    (A : Adj p) : Prop :=
  ∃ models obj, pruneGraphs it fit prune none graphs ⟨0, []⟩ = .ok (models, obj) ∧
    (∃ m ∈ models, m.A = A ∧ m.scoreOn test = .ok s) ∧ ∀ m ∈ models, ∃ s', m.scoreOn test = .ok s' ∧ AtMost s s'

theorem graphRun_validation {it : SetIter p} {fit : Nat → Fitter p e} {prune : Bool} {graphs : List (Adj p)} {test : Data p e}
    {h : Nat} {v : Flt × Adj p × ScoreObj p e} (hr : GraphRun it fit prune none graphs test h v) :
    Validation it (fit h) prune graphs test v.1 v.2.1 := by
  obtain ⟨models, scores, h1, h2, h3⟩ := hr
  obtain ⟨k1, k2⟩ := testScores_spec models h2
  refine ⟨models, _, h1, ?_, ?_⟩
  · have := bestScoring_mem h3
    obtain ⟨t, ht, hte⟩ := List.mem_map.1 this
    simp only [Prod.mk.injEq] at hte
    refine ⟨t.2, ?_, hte.2, ?_⟩
    · rw [← k1]; exact List.mem_map_of_mem ht
    · rw [← hte.1]; exact k2 t ht
  · intro m hm
    rw [← k1] at hm
    obtain ⟨t, ht, rfl⟩ := List.mem_map.1 hm
    refine ⟨t.1, k2 t ht, ?_⟩
    obtain ⟨i, t', g1, -, g3, -⟩ := bestScoring_spec (tuples := scores.map (fun x => (x.1, x.2.A)))
      (by simp; exact List.ne_nil_of_mem ht)
    rw [h3] at g1
    cases g1
    exact atMost_iff.1 (g3 (t.1, t.2.A) (List.mem_map_of_mem (f := fun x : Flt × AnyModel p e => (x.1, x.2.A)) ht))

theorem validation_unique {it : SetIter p} {fit : Fitter p e} {prune : Bool} {graphs : List (Adj p)} {test : Data p e}
    {s s' : Flt} {A A' : Adj p} (h : Validation it fit prune graphs test s A) (h' : Validation it fit prune graphs test s' A') :
    s = s' := by
  obtain ⟨ms, obj, h1, ⟨m, hm, -, h3⟩, h4⟩ := h
  obtain ⟨ms', obj', h1', ⟨m', hm', -, h3'⟩, h4'⟩ := h'
  rw [h1] at h1'
  cases h1'
  obtain ⟨t, k1, k2⟩ := h4 m' hm'
  obtain ⟨t', k1', k2'⟩ := h4' m hm
  rw [h3'] at k1
  rw [h3] at k1'
  cases k1
  cases k1'
  exact le_antisymm (α := WithBot ℝ) (atMost_iff.2 k2) (atMost_iff.2 k2')

/-- C58: sorting the results of the graph phase never compares arrays: it does not raise, whatever the scores. -/
theorem C58_never_compares_arrays (it : SetIter p) (fit : Nat → Fitter p e) (ctor : Except Err Unit) (prune : Bool)
    (threshold : Option ℝ) (graphs : List (Adj p)) (test : Data p e) (ns : List Nat)
    (results : List (Nat × (Flt × Adj p × ScoreObj p e)))
    (h : latentLoop it fit ctor prune threshold graphs test ns [] = .ok results) :
    ∃ r, sortedM tupleLt (results.map (fun r => (r.2.1, r.1, r.2.2.1, r.2.2.2))) = .ok r ∧
      r.Perm (results.map (fun r => (r.2.1, r.1, r.2.2.1, r.2.2.2))) := by
  obtain ⟨h1, -, -⟩ := latentLoop_spec ns [] results (by simp) (by simp) h
  obtain ⟨r, k1, k2, -⟩ := sortedM_ok (results.map (fun r => (r.2.1, r.1, r.2.2.1, r.2.2.2))) (by
    rw [List.map_map]; exact h1)
  exact ⟨r, k1, k2⟩

/-- What `_prune_graphs` guarantees in both modes. -/
theorem pruneGraphs_spec {it : SetIter p} {fit : Fitter p e} (hg : GoodFit fit) {prune : Bool} {graphs : List (Adj p)}
    (hG : ∀ G ∈ graphs, Nonneg G) {obj obj' : ScoreObj p e} (ho : obj.Ok it fit) {ms : List (AnyModel p e)}
    (h : pruneGraphs it fit prune none graphs obj = .ok (ms, obj')) :
    obj'.Ok it fit ∧ graphs ≠ [] ∧ (∀ G ∈ graphs, Acyclic G) ∧ ∀ m ∈ ms, Acyclic m.A ∧ ∃ G ∈ graphs, Subgraph m.A G ∧ (prune = false → m.A = G) := by
  cases prune with
  | false =>
    obtain ⟨h1, h2, h3, h4, -⟩ := C55_all_candidates it fit hg graphs hG obj obj' ho ms h
    refine ⟨h1, h2, h4, fun m hm => ?_⟩
    have hmem : m.A ∈ graphs := by rw [← h3]; exact List.mem_map_of_mem (f := fun m : AnyModel p e => m.A) hm
    exact ⟨h4 _ hmem, m.A, hmem, fun a b => Or.inl rfl, fun _ => rfl⟩
  | true =>
    obtain ⟨h1, h2, blocks, rfl, h4⟩ := C55_all_chains it fit hg graphs hG obj obj' ho ms h
    refine ⟨h1, h2, ?_, ?_⟩
    · intro G hG'
      obtain ⟨i, hi⟩ := List.getElem?_of_mem hG'
      obtain ⟨hil, rfl⟩ := List.getElem?_eq_some_iff.1 hi
      have hb := h4.get hil (by rw [← h4.length_eq]; exact hil)
      simp only [List.get_eq_getElem] at hb
      obtain ⟨m, k1, k2⟩ := hb.first
      rw [← k2]
      exact ((C55_graphs it fit hg _ (hG _ hG') _ hb).1 m (List.mem_of_head? k1)).1
    · intro m hm
      obtain ⟨b, hb, hmb⟩ := List.mem_flatten.1 hm
      obtain ⟨i, hi⟩ := List.getElem?_of_mem hb
      obtain ⟨hil, rfl⟩ := List.getElem?_eq_some_iff.1 hi
      have hil' : i < graphs.length := by rw [h4.length_eq]; exact hil
      have hb' := h4.get hil' hil
      simp only [List.get_eq_getElem] at hb'
      have hmem : graphs[i] ∈ graphs := List.getElem_mem hil'
      obtain ⟨k1, k2⟩ := (C55_graphs it fit hg _ (hG _ hmem) _ hb').1 m hmb
      exact ⟨k1, graphs[i], hmem, k2, by simp⟩

/-- The facts about a run of `_fit` with the default thresholds. -/
theorem fitMain_spec {E : FitEnv p e} (hfit : ∀ d h, GoodFit (E.fit d h))
    (hlat : ∀ d h n A I m s, E.fit d h n A I = .ok (m, s) → m.1 = h) (harg : ∀ f, IsArgsort f (E.argsort f))
    {data : Fin e → Sample p} {solverKnown : Bool} {numsLatent : Option (List Nat)} {prune : Bool}
    {folds : List Rat} {initial : Option (List (Adj p))} {rs : Int} {m : AnyModel p e} {I : Finset (Fin p)} {s : Flt}
    (h : fitMain E data solverKnown numsLatent prune folds none none initial rs = .ok (m, I, s)) :
    ∃ training testG testI graphs ns,
      splitData (E.rng rs) (List.ofFn data) folds = .ok [training, testG, testI] ∧ initialGraphs E initial training = .ok graphs ∧
      latentNumbers E numsLatent training = .ok ns ∧ ((∀ G ∈ graphs, Nonneg G) →
      m.1 ∈ ns ∧ (∃ G ∈ graphs, Subgraph m.A G ∧ (prune = false → m.A = G)) ∧ Acyclic m.A ∧ (∀ G ∈ graphs, Acyclic G) ∧
      (∃ sc, Validation E.it (E.fit (foldData E.cov training e) m.1) prune graphs (foldData E.cov testG e) sc m.A ∧
        ((∀ n ∈ ns, ∀ sc A, Validation E.it (E.fit (foldData E.cov training e) n) prune graphs (foldData E.cov testG e) sc A → sc ≠ none) →
          ∀ n ∈ ns, ∃ (x y : ℝ) (A : Adj p), sc = some x ∧
            Validation E.it (E.fit (foldData E.cov training e) n) prune graphs (foldData E.cov testG e) (some y) A ∧
            (x < y ∨ (x = y ∧ m.1 ≤ n)))) ∧
      (∃ (m0 : AnyModel p e) (s0 : Flt) (order : List (Fin p)),
        FittedTo E.it (E.fit (foldData E.cov training e) m.1) m.A Finset.univ m0 s0 ∧
        order.Perm (List.finRange p) ∧ order.Pairwise (fun a b => popVar (fun k => m0.omegas k a) ≤ popVar (fun k => m0.omegas k b)) ∧
        (∃ i ≤ p, I = Finset.univ \ (order.take i).toFinset) ∧
        (∃ sf, FittedTo E.it (E.fit (foldData E.cov training e) m.1) m.A I m sf) ∧ m.scoreOn (foldData E.cov testI e) = .ok s ∧
        ∀ i ≤ p, ∃ mi sf si, FittedTo E.it (E.fit (foldData E.cov training e) m.1) m.A (Finset.univ \ (order.take i).toFinset) mi sf ∧
          mi.scoreOn (foldData E.cov testI e) = .ok si ∧ AtMost s si)) := by
  obtain ⟨training, testG, testI, graphs, ns, results, sc, n, graph, obj, rest, h1, h2, h3, h4, h5, h6⟩ := fitMain_ok h
  refine ⟨training, testG, testI, graphs, ns, h1, h2, h3, fun hG => ?_⟩
  obtain ⟨k1, k2, k3⟩ := latentLoop_spec ns [] results (by simp) (by simp) h4
  obtain ⟨r, k4, k5, k6⟩ := sortedM_ok (results.map (fun r => (r.2.1, r.1, r.2.2.1, r.2.2.2))) (by rw [List.map_map]; exact k1)
  rw [h5] at k4
  cases k4
  have hmem : (n, (sc, graph, obj)) ∈ results := by
    have := k5.mem_iff.1 (List.mem_cons_self (a := (sc, n, graph, obj)) (l := rest))
    obtain ⟨r, hr, hre⟩ := List.mem_map.1 this
    simp only [Prod.mk.injEq] at hre
    obtain ⟨e1, e2, e3, e4⟩ := hre
    rw [← e1, ← e2, ← e3, ← e4]
    exact hr
  have hrun := k2 _ hmem
  have hval := graphRun_validation hrun
  simp only at hval
  have hrun' := hrun
  obtain ⟨models, scores, g1, g2, g3⟩ := hrun
  simp only at g1 g2 g3
  obtain ⟨o1, o2, o3, o4⟩ := pruneGraphs_spec (hfit _ n) hG (ScoreObj.ok_new E.it _ 0) g1
  have hgraph : Acyclic graph ∧ ∃ G ∈ graphs, Subgraph graph G ∧ (prune = false → graph = G) := by
    obtain ⟨ms, ob, v1, ⟨mm, v2, v3, -⟩, -⟩ := hval
    rw [g1] at v1
    cases v1
    rw [← v3]
    exact o4 mm v2
  obtain ⟨pm, obj', ps, t1, t2, t3⟩ := targetPhase_ok h6
  obtain ⟨m0, s0, order, c1, -, c3, c4, c5, c6⟩ := C57_nested E.it E.argsort harg _ graph obj obj' o1 pm t1
  obtain ⟨q1, q2⟩ := testScores_spec pm t2
  have hin := bestScoring_mem t3
  have hinpm : (m, I) ∈ pm := by rw [← q1]; exact List.mem_map_of_mem hin
  obtain ⟨i, hi⟩ := List.getElem?_of_mem hinpm
  have hip : i ≤ p := by
    have := (List.getElem?_eq_some_iff.1 hi).1
    omega
  obtain ⟨mi, sf, c7, c8⟩ := c6 i hip
  rw [hi] at c7
  simp only [Option.some.injEq, Prod.mk.injEq] at c7
  obtain ⟨e1, e2⟩ := c7
  rw [← e2] at c8
  rw [← e1] at c8
  have hmA : m.A = graph := (c8.good (hfit _ n)).1
  have hm1 : m.1 = n := by
    obtain ⟨j, mm, f1, f2, -⟩ := c8.fields
    rw [f2]
    exact hlat _ _ _ _ _ _ _ f1
  rw [hmA, hm1]
  refine ⟨?_, hgraph.2, hgraph.1, o3, ⟨sc, hval, ?_⟩, m0, s0, order, c1, c3, c4, ⟨i, hip, e2⟩, ⟨sf, c8⟩, q2 _ hin, ?_⟩
  · have := (k3 n).1 (List.mem_map_of_mem (f := Prod.fst) hmem)
    simpa using this
  · intro hnn
    have hsome : ∀ r ∈ results, r.2.1 ≠ none := by
      intro r hr
      have hns : r.1 ∈ ns := by simpa using (k3 r.1).1 (List.mem_map_of_mem (f := Prod.fst) hr)
      exact hnn _ hns _ _ (graphRun_validation (k2 r hr))
    have hsort := k6 (by
      intro y hy
      obtain ⟨r, hr, rfl⟩ := List.mem_map.1 hy
      exact hsome r hr)
    intro n' hn'
    obtain ⟨r, hr, rfl⟩ := List.mem_map.1 ((k3 n').2 (Or.inl hn'))
    obtain ⟨x, hx⟩ := Option.ne_none_iff_exists'.1 (hsome _ hmem)
    obtain ⟨y, hy⟩ := Option.ne_none_iff_exists'.1 (hsome r hr)
    simp only at hx
    have hv := graphRun_validation (k2 r hr)
    rw [hy] at hv
    refine ⟨x, y, r.2.2.1, hx, hv, ?_⟩
    have hr' := k5.mem_iff.2 (List.mem_map_of_mem (f := fun r : Nat × (Flt × Adj p × ScoreObj p e) => (r.2.1, r.1, r.2.2.1, r.2.2.2)) hr)
    rcases List.mem_cons.1 hr' with hc | hc
    · simp only [Prod.mk.injEq] at hc
      rw [hc.1, hx] at hy
      cases hy
      exact Or.inr ⟨rfl, by omega⟩
    · obtain ⟨x', y', f1, f2, f3⟩ := List.rel_of_pairwise_cons hsort hc
      simp only at f1 f2 f3
      rw [hx] at f1
      rw [hy] at f2
      cases f1
      cases f2
      rcases f3 with f3 | ⟨f3, f4⟩
      · exact Or.inl f3
      · exact Or.inr ⟨f3, f4.le⟩
  · intro j hj
    obtain ⟨mj, sj, f1, f2⟩ := c6 j hj
    have hjm := List.mem_of_getElem? f1
    rw [← q1] at hjm
    obtain ⟨t, ht, hte⟩ := List.mem_map.1 hjm
    refine ⟨mj, sj, t.1, f2, ?_, ?_⟩
    · have := q2 t ht
      rw [hte] at this
      exact this
    · obtain ⟨i', t', z1, -, z3, -⟩ := bestScoring_spec (List.ne_nil_of_mem ht)
      rw [t3] at z1
      cases z1
      exact atMost_iff.1 (z3 t ht)

/-- C58: in every run of the algorithm that returns (with the default settings of the API for the thresholds) the number of latents of
the returned model is one of the candidates; if no validation score is `nan`, its validation score is the smallest, and among the
numbers with this score it is the smallest. -/
theorem C58_selection (E : FitEnv p e) (hfit : ∀ d h, GoodFit (E.fit d h))
    (hlat : ∀ d h n A I m s, E.fit d h n A I = .ok (m, s) → m.1 = h) (harg : ∀ f, IsArgsort f (E.argsort f))
    (data : Fin e → Sample p) (solverKnown : Bool) (ns : List Nat) (prune : Bool) (folds : List Rat) (graphs : List (Adj p))
    (hG : ∀ G ∈ graphs, Nonneg G) (rs : Int) (m : AnyModel p e) (I : Finset (Fin p)) (s : Flt)
    (h : fitMain E data solverKnown (some ns) prune folds none none (some graphs) rs = .ok (m, I, s)) :
    ∃ training testG testI, splitData (E.rng rs) (List.ofFn data) folds = .ok [training, testG, testI] ∧ m.1 ∈ ns ∧
      ∃ sc, Validation E.it (E.fit (foldData E.cov training e) m.1) prune graphs (foldData E.cov testG e) sc m.A ∧
        ((∀ n ∈ ns, ∀ sc A, Validation E.it (E.fit (foldData E.cov training e) n) prune graphs (foldData E.cov testG e) sc A → sc ≠ none) →
          ∀ n ∈ ns, ∃ (x y : ℝ) (A : Adj p), sc = some x ∧
            Validation E.it (E.fit (foldData E.cov training e) n) prune graphs (foldData E.cov testG e) (some y) A ∧
            (x < y ∨ (x = y ∧ m.1 ≤ n))) := by
  obtain ⟨training, testG, testI, graphs', ns', h1, h2, h3, h4⟩ := fitMain_spec hfit hlat harg h
  cases h2
  cases h3
  obtain ⟨k1, -, -, -, k5, -⟩ := h4 hG
  exact ⟨training, testG, testI, h1, k1, k5⟩

/-- C58: with no candidate number of latents, the algorithm raises `IndexError` (if the data can be split into three folds). -/
theorem C58_no_candidates (E : FitEnv p e) (data : Fin e → Sample p) (solverKnown : Bool) (prune : Bool) (folds : List Rat)
    (tG tI : Option ℝ) (graphs : List (Adj p)) (rs : Int) (training testG testI : List (Sample p))
    (h : splitData (E.rng rs) (List.ofFn data) folds = .ok [training, testG, testI]) :
    fitMain E data solverKnown (some []) prune folds tG tI (some graphs) rs = .error .indexError := by
  unfold fitMain
  rw [h]
  rfl

/-! ## C59 -/

/-- C59: the output of `equivalence_class` is coherent.  The graph of the model is a DAG and one of the candidates or (with
`prune_edges`) a subgraph of one; the weights respect it; the number of latents is one of the given ones; the first component is the
interventional essential graph of the model's graph and the returned targets, of which the graph is a consistent extension; and all
candidates were DAGs. -/
theorem C59_coherent (E : FitEnv p e) (hfit : ∀ d h, GoodFit (E.fit d h))
    (hlat : ∀ d h n A I m s, E.fit d h n A I = .ok (m, s) → m.1 = h) (harg : ∀ f, IsArgsort f (E.argsort f))
    (candidates : List (Adj p)) (hG : ∀ G ∈ candidates, Nonneg G) (data : Fin e → Sample p) (solverKnown pruneEdges : Bool)
    (ns : List Nat) (folds : List Rat) (rs : Int) (P : Adj p) (I : Finset (Fin p)) (m : AnyModel p e)
    (h : equivalenceClass E candidates data solverKnown pruneEdges (some ns) folds rs = .ok (P, I, m)) :
    (∃ G ∈ candidates, Subgraph m.A G ∧ (pruneEdges = false → m.A = G)) ∧ Acyclic m.A ∧ (∀ a b, m.A a b = 0 → m.B a b = 0) ∧
      m.1 ∈ ns ∧ (∀ i j, (P i j = 1 ↔ ∃ H, Acyclic H ∧ IEquiv I m.A H ∧ Edge H i j) ∧
        (P i j = 0 ↔ ¬ ∃ H, Acyclic H ∧ IEquiv I m.A H ∧ Edge H i j)) ∧
      (∀ H, IsExtension H P ↔ Acyclic H ∧ IEquiv I m.A H) ∧ IsExtension m.A P ∧ ∀ G ∈ candidates, Acyclic G := by
  unfold equivalenceClass withIcpdag at h
  split at h
  · simp at h
  · rename_i m' I' s hm
    split at h
    · simp at h
    · rename_i P' hP
      cases h
      obtain ⟨training, testG, testI, graphs', ns', h1, h2, h3, h4⟩ := fitMain_spec hfit hlat harg hm
      cases h2
      cases h3
      obtain ⟨k1, ⟨G, hGm, hsub, hno⟩, k3, k4, -, m0, s0, order, -, -, -, -, ⟨sf, k7⟩, -⟩ := h4 hG
      have hnn : Nonneg m.A := by
        intro a b
        rcases hsub a b with hc | hc
        · rw [hc]; exact hG G hGm a b
        · rw [hc]
      have hI : (E.it.toList I).toFinset = I := by
        ext x
        rw [List.mem_toFinset, E.it.mem]
      obtain ⟨P'', p1, p2⟩ := C21_interventional_essential_graph E.it m.A hnn k3 (E.it.toList I)
      rw [hP] at p1
      cases p1
      have hext := C21_extensions E.it m.A P hnn k3 (E.it.toList I) hP
      rw [hI] at p2 hext
      refine ⟨⟨G, hGm, hsub, hno⟩, k3, ?_, k1, p2, hext, (hext m.A).2 ⟨k3, MarkovEquiv.refl _, fun _ _ _ => Iff.rfl⟩, k4⟩
      intro a b hab
      exact (k7.good (hfit _ _)).2.2 a b hab

/-- C59: the returned targets are the best ones on the third fold: among the `p + 1` sets obtained from all variables by removing
those whose noise variances vary least across environments, the models fitted with the other sets do not score better. -/
theorem C59_targets (E : FitEnv p e) (hfit : ∀ d h, GoodFit (E.fit d h))
    (hlat : ∀ d h n A I m s, E.fit d h n A I = .ok (m, s) → m.1 = h) (harg : ∀ f, IsArgsort f (E.argsort f))
    (candidates : List (Adj p)) (hG : ∀ G ∈ candidates, Nonneg G) (data : Fin e → Sample p) (solverKnown pruneEdges : Bool)
    (ns : List Nat) (folds : List Rat) (rs : Int) (P : Adj p) (I : Finset (Fin p)) (m : AnyModel p e)
    (h : equivalenceClass E candidates data solverKnown pruneEdges (some ns) folds rs = .ok (P, I, m)) :
    ∃ training testG testI s, splitData (E.rng 42) (List.ofFn data) folds = .ok [training, testG, testI] ∧
      ∃ (m0 : AnyModel p e) (s0 : Flt) (order : List (Fin p)),
        FittedTo E.it (E.fit (foldData E.cov training e) m.1) m.A Finset.univ m0 s0 ∧
        order.Perm (List.finRange p) ∧ order.Pairwise (fun a b => popVar (fun k => m0.omegas k a) ≤ popVar (fun k => m0.omegas k b)) ∧
        (∃ i ≤ p, I = Finset.univ \ (order.take i).toFinset) ∧
        (∃ sf, FittedTo E.it (E.fit (foldData E.cov training e) m.1) m.A I m sf) ∧ m.scoreOn (foldData E.cov testI e) = .ok s ∧
        ∀ i ≤ p, ∃ mi sf si, FittedTo E.it (E.fit (foldData E.cov training e) m.1) m.A (Finset.univ \ (order.take i).toFinset) mi sf ∧
          mi.scoreOn (foldData E.cov testI e) = .ok si ∧ AtMost s si := by
  unfold equivalenceClass withIcpdag at h
  split at h
  · simp at h
  · rename_i m' I' s hm
    split at h
    · simp at h
    · rename_i P' hP
      cases h
      obtain ⟨training, testG, testI, graphs', ns', h1, h2, h3, h4⟩ := fitMain_spec hfit hlat harg hm
      cases h2
      cases h3
      obtain ⟨-, -, -, -, -, k6⟩ := h4 hG
      exact ⟨training, testG, testI, s, h1, k6⟩

/-! ## C60 -/

/-- C60: the argument `random_state` has no effect: two calls that differ in it only return the same. -/
theorem C60_ignored (E : FitEnv p e) (candidates : List (Adj p)) (data : Fin e → Sample p) (solverKnown pruneEdges : Bool)
    (ns : Option (List Nat)) (folds : List Rat) (rs rs' : Int) :
    equivalenceClass E candidates data solverKnown pruneEdges ns folds rs =
      equivalenceClass E candidates data solverKnown pruneEdges ns folds rs' ∧
    equivalenceClassGes E data solverKnown ns folds rs = equivalenceClassGes E data solverKnown ns folds rs' := ⟨rfl, rfl⟩

/-! ## C61 -/

/-- C61: `equivalence_class_w_ges` returns what `equivalence_class` with `prune_edges` returns for the list of consistent extensions of
the CPDAG that GES finds on the pooled training data. -/
theorem C61_ges (E : FitEnv p e) (he : 0 < e) (data : Fin e → Sample p) (solverKnown : Bool) (ns : Option (List Nat))
    (folds : List Rat) (rs : Int) (training testG testI : List (Sample p))
    (h : splitData (E.rng 42) (List.ofFn data) folds = .ok [training, testG, testI])
    (hz : ZeroOne (E.gesFit training.flatten)) (hl : NoLoops (E.gesFit training.flatten))
    (hc : (∃ i j, UndEdge (E.gesFit training.flatten) i j) ∨ Acyclic (E.gesFit training.flatten)) :
    ∃ D : List (Adj p), D.Nodup ∧ (∀ H, H ∈ D ↔ ZeroOne H ∧ IsExtension H (E.gesFit training.flatten)) ∧
      equivalenceClassGes E data solverKnown ns folds rs = equivalenceClass E D data solverKnown true ns folds rs := by
  obtain ⟨D, h1, h2, h3⟩ := C23_all_dags E.it _ hz hl hc
  refine ⟨D, h2, h3, ?_⟩
  have hlen : training.length ≠ 0 := by
    have : training.length = (List.ofFn data).length := by
      unfold splitData at h
      by_cases g1 : folds.sum ≠ 1
      · rw [if_pos g1] at h; simp at h
      · rw [if_neg g1] at h
        simp only at h
        split at h
        · simp at h
        · split at h
          · simp at h
          · rename_i g3
            simp only [Except.ok.injEq] at h
            rw [h] at g3
            simpa using g3
    rw [this, List.length_ofFn]
    omega
  unfold equivalenceClassGes equivalenceClass fitMain
  rw [h]
  simp only [initialGraphs, fitGes, if_neg hlen, h1]

/-- C61: in particular every graph that `equivalence_class_w_ges` returns is a subgraph of a consistent extension of the CPDAG found
by GES. -/
theorem C61_subgraph (E : FitEnv p e) (he : 0 < e) (hfit : ∀ d h, GoodFit (E.fit d h))
    (hlat : ∀ d h n A I m s, E.fit d h n A I = .ok (m, s) → m.1 = h) (harg : ∀ f, IsArgsort f (E.argsort f))
    (data : Fin e → Sample p) (solverKnown : Bool) (ns : List Nat) (folds : List Rat) (rs : Int)
    (training testG testI : List (Sample p)) (h : splitData (E.rng 42) (List.ofFn data) folds = .ok [training, testG, testI])
    (hz : ZeroOne (E.gesFit training.flatten)) (hl : NoLoops (E.gesFit training.flatten))
    (hc : (∃ i j, UndEdge (E.gesFit training.flatten) i j) ∨ Acyclic (E.gesFit training.flatten))
    (P : Adj p) (I : Finset (Fin p)) (m : AnyModel p e)
    (hr : equivalenceClassGes E data solverKnown (some ns) folds rs = .ok (P, I, m)) :
    ∃ G, IsExtension G (E.gesFit training.flatten) ∧ Subgraph m.A G ∧ Acyclic m.A ∧ IsExtension m.A P := by
  obtain ⟨D, -, h2, h3⟩ := C61_ges E he data solverKnown (some ns) folds rs training testG testI h hz hl hc
  rw [h3] at hr
  obtain ⟨⟨G, k1, k2, -⟩, k3, -, -, -, -, k4, -⟩ := C59_coherent E hfit hlat harg D (fun G hG i j => by
    rcases ((h2 G).1 hG).1 i j with hh | hh <;> simp [hh]) data solverKnown true ns folds rs P I m hr
  exact ⟨G, ((h2 G).1 k1).2, k2, k3, k4⟩

end Verif
