import Verif.Props.MainTotal
import Verif.Props.OrderAny

/-!
# C150: candidates with weights of any sign in `equivalence_class`

The documentation of `candidate_dags` says that `A[i, j] != 0` is an edge (`/repo/utlvce/main.py:70-72`), so that a candidate can be a matrix of
weights.  Nothing is assumed about signs here.
-/

namespace Verif
open Spec
variable {p e : Nat}

/-- the interventional essential graph of `A` and `I` -/
def Spec.IEssential (A : Adj p) (I : Finset (Fin p)) (P : Adj p) : Prop :=
  ZeroOne P ∧ ∀ i j, Edge P i j ↔ ∃ H, Acyclic H ∧ IEquiv I A H ∧ Edge H i j

theorem pruneGraph_any {it : SetIter p} {fit : Fitter p e} (hg : GoodFit fit) {prune : Bool} {obj obj' : ScoreObj p e} (ho : obj.Ok it fit)
    {G : Adj p} {ms : List (AnyModel p e)} (h : pruneGraph it fit prune none obj G = .ok (ms, obj')) :
    obj'.Ok it fit ∧ ∀ m ∈ ms, Subgraph m.A G ∧ (prune = false → m.A = G) := by
  cases prune with
  | false =>
    obtain ⟨k1, m, s, rfl, k3, -⟩ := C55_no_pruning it fit hg none obj obj' ho G ms h
    refine ⟨k1, fun m' hm' => ?_⟩
    rw [List.mem_singleton] at hm'
    subst hm'
    exact ⟨fun a b => .inl (by rw [k3]), fun _ => k3⟩
  | true =>
    unfold pruneGraph at h
    split at h
    · cases h
    · rename_i m0 s0 obj1 h1
      obtain ⟨g1, g2, -⟩ := scoreObj_spec ho h1
      obtain ⟨g4, -, -⟩ := g2.good hg
      simp only [Bool.not_true, Bool.false_eq_true, if_false] at h
      split at h
      · cases h
      · rename_i s hs
        have key := runLoop_ok (step := pruneStep it fit)
          (fun s : PruneState p e => s.obj.Ok it fit ∧ Subgraph s.dag G ∧ ∀ m ∈ s.models, Subgraph m.A G)
          (fun s : PruneState p e => s.obj.Ok it fit ∧ Subgraph s.dag G ∧ ∀ m ∈ s.models, Subgraph m.A G) (by
            rintro s s' ⟨q1, q2, q3⟩ hs
            unfold pruneStep at hs
            split at hs
            · split at hs
              · cases hs
              · rename_i a b _
                dsimp only at hs
                split at hs
                · cases hs
                · rename_i m sc ob hob
                  cases hs
                  obtain ⟨r1, r2, -⟩ := scoreObj_spec q1 hob
                  obtain ⟨r4, -, -⟩ := r2.good hg
                  have hsub : Subgraph (setEntry s.dag a b 0) G := by
                    intro c d
                    unfold setEntry
                    split
                    · exact .inr rfl
                    · exact q2 c d
                  refine ⟨r1, hsub, fun m' hm' => ?_⟩
                  rcases List.mem_append.1 hm' with hm' | hm'
                  · exact q3 m' hm'
                  · rw [List.mem_singleton] at hm'
                    subst hm'
                    rw [r4]
                    exact hsub
            · cases hs) (by
            rintro s r hq hs
            unfold pruneStep at hs
            split at hs
            · split at hs
              · cases hs
              · dsimp only at hs
                split at hs <;> cases hs
            · cases hs
              exact hq) (s := { dag := G, model := m0, obj := obj1, models := [m0] })
          ⟨g1, fun a b => .inl rfl, fun m hm => by
            rw [List.mem_singleton] at hm
            subst hm
            exact fun a b => .inl (by rw [g4])⟩ hs
        cases h
        exact ⟨key.1, fun m hm => ⟨key.2.2 m hm, by simp⟩⟩

theorem pruneGraphs_any {it : SetIter p} {fit : Fitter p e} (hg : GoodFit fit) {prune : Bool} {graphs : List (Adj p)}
    {obj obj' : ScoreObj p e} (ho : obj.Ok it fit) {ms : List (AnyModel p e)}
    (h : pruneGraphs it fit prune none graphs obj = .ok (ms, obj')) :
    obj'.Ok it fit ∧ ∀ m ∈ ms, ∃ G ∈ graphs, Subgraph m.A G ∧ (prune = false → m.A = G) := by
  unfold pruneGraphs at h
  split_ifs at h with h0
  clear h0
  induction graphs generalizing obj obj' ms with
  | nil =>
    simp only [pruneGraphsLoop, Except.ok.injEq, Prod.mk.injEq] at h
    obtain ⟨rfl, rfl⟩ := h
    exact ⟨ho, by simp⟩
  | cons G gs ih =>
    unfold pruneGraphsLoop at h
    split at h
    · cases h
    · rename_i ms1 obj1 h1
      obtain ⟨k1, k2⟩ := pruneGraph_any hg ho h1
      split at h
      · cases h
      · rename_i ms2 obj2 h2
        cases h
        obtain ⟨k3, k4⟩ := ih k1 h2
        refine ⟨k3, fun m hm => ?_⟩
        rcases List.mem_append.1 hm with hm | hm
        · exact ⟨G, by simp, k2 m hm⟩
        · obtain ⟨G', hG', h'⟩ := k4 m hm
          exact ⟨G', by simp [hG'], h'⟩

theorem fitMain_any {E : FitEnv p e} (hfit : ∀ d h, GoodFit (E.fit d h))
    (hlat : ∀ d h n A I m s, E.fit d h n A I = .ok (m, s) → m.1 = h) (harg : ∀ f, IsArgsort f (E.argsort f))
    {data : Fin e → Sample p} {solverKnown : Bool} {numsLatent : Option (List Nat)} {prune : Bool}
    {folds : List Rat} {initial : Option (List (Adj p))} {rs : Int} {m : AnyModel p e} {I : Finset (Fin p)} {s : Flt}
    (h : fitMain E data solverKnown numsLatent prune folds none none initial rs = .ok (m, I, s)) :
    ∃ training testG testI graphs ns, splitData (E.rng rs) (List.ofFn data) folds = .ok [training, testG, testI] ∧
      initialGraphs E initial training = .ok graphs ∧ latentNumbers E numsLatent training = .ok ns ∧
      m.1 ∈ ns ∧ (∃ G ∈ graphs, Subgraph m.A G ∧ (prune = false → m.A = G)) ∧ (∀ a b, m.A a b = 0 → m.B a b = 0) ∧
      ∃ (m0 : AnyModel p e) (s0 : Flt) (order : List (Fin p)),
        FittedTo E.it (E.fit (foldData E.cov training e) m.1) m.A Finset.univ m0 s0 ∧
        order.Perm (List.finRange p) ∧ order.Pairwise (fun a b => popVar (fun k => m0.omegas k a) ≤ popVar (fun k => m0.omegas k b)) ∧
        (∃ i ≤ p, I = Finset.univ \ (order.take i).toFinset) ∧
        (∃ sf, FittedTo E.it (E.fit (foldData E.cov training e) m.1) m.A I m sf) ∧ m.scoreOn (foldData E.cov testI e) = .ok s ∧
        ∀ i ≤ p, ∃ mi sf si, FittedTo E.it (E.fit (foldData E.cov training e) m.1) m.A (Finset.univ \ (order.take i).toFinset) mi sf ∧
          mi.scoreOn (foldData E.cov testI e) = .ok si ∧ AtMost s si := by
  obtain ⟨training, testG, testI, graphs, ns, results, sc, n, graph, obj, rest, h1, h2, h3, h4, h5, h6⟩ := fitMain_ok h
  refine ⟨training, testG, testI, graphs, ns, h1, h2, h3, ?_⟩
  obtain ⟨k1, k2, k3⟩ := latentLoop_spec ns [] results (by simp) (by simp) h4
  obtain ⟨r, k4, k5, k6⟩ := sortedM_ok (results.map (fun r => (r.2.1, r.1, r.2.2.1, r.2.2.2))) (by rw [List.map_map]; exact k1)
  rw [h5] at k4
  cases k4
  have hmem : (n, (sc, graph, obj)) ∈ results := by
    have := k5.mem_iff.1 (List.mem_cons_self (a := (sc, n, graph, obj)) (l := rest))
    obtain ⟨r, hr, hre⟩ := List.mem_map.1 this
    simp only [Prod.mk.injEq] at hre
    obtain ⟨e1, e2, e3, e4⟩ := hre
    rw [← e1, ← e2, ← e3, ← e4]
    exact hr
  have hrun := k2 _ hmem
  have hval := graphRun_validation hrun
  simp only at hval
  obtain ⟨models, scores, g1, g2, g3⟩ := hrun
  simp only at g1 g2 g3
  obtain ⟨o1, o4⟩ := pruneGraphs_any (hfit _ n) (ScoreObj.ok_new E.it _ 0) g1
  have hgraph : ∃ G ∈ graphs, Subgraph graph G ∧ (prune = false → graph = G) := by
    obtain ⟨ms, ob, v1, ⟨mm, v2, v3, -⟩, -⟩ := hval
    rw [g1] at v1
    cases v1
    rw [← v3]
    exact o4 mm v2
  obtain ⟨pm, obj', ps, t1, t2, t3⟩ := targetPhase_ok h6
  obtain ⟨m0, s0, order, c1, -, c3, c4, c5, c6⟩ := C57_nested E.it E.argsort harg _ graph obj obj' o1 pm t1
  obtain ⟨q1, q2⟩ := testScores_spec pm t2
  have hin := bestScoring_mem t3
  have hinpm : (m, I) ∈ pm := by rw [← q1]; exact List.mem_map_of_mem hin
  obtain ⟨i, hi⟩ := List.getElem?_of_mem hinpm
  have hip : i ≤ p := by
    have := (List.getElem?_eq_some_iff.1 hi).1
    omega
  obtain ⟨mi, sf, c7, c8⟩ := c6 i hip
  rw [hi] at c7
  simp only [Option.some.injEq, Prod.mk.injEq] at c7
  obtain ⟨e1, e2⟩ := c7
  rw [← e2] at c8
  rw [← e1] at c8
  have hmA : m.A = graph := (c8.good (hfit _ n)).1
  have hm1 : m.1 = n := by
    obtain ⟨j, mm, f1, f2, -⟩ := c8.fields
    rw [f2]
    exact hlat _ _ _ _ _ _ _ f1
  rw [hmA, hm1]
  refine ⟨?_, hgraph, (c8.good (hfit _ n)).2.2, m0, s0, order, c1, c3, c4, ⟨i, hip, e2⟩, ⟨sf, c8⟩, q2 _ hin, ?_⟩
  · have := (k3 n).1 (List.mem_map_of_mem (f := Prod.fst) hmem)
    simpa using this
  · intro j hj
    obtain ⟨mj, sj, f1, f2⟩ := c6 j hj
    have hjm := List.mem_of_getElem? f1
    rw [← q1] at hjm
    obtain ⟨t, ht, hte⟩ := List.mem_map.1 hjm
    refine ⟨mj, sj, t.1, f2, ?_, ?_⟩
    · have := q2 t ht
      rw [hte] at this
      exact this
    · obtain ⟨i', t', z1, -, z3, -⟩ := bestScoring_spec (List.ne_nil_of_mem ht)
      rw [t3] at z1
      cases z1
      exact atMost_iff.1 (z3 t ht)

theorem equivalenceClass_ok {E : FitEnv p e} {candidates : List (Adj p)} {data : Fin e → Sample p} {solverKnown pruneEdges : Bool}
    {ns : Option (List Nat)} {folds : List Rat} {rs : Int} {P : Adj p} {I : Finset (Fin p)} {m : AnyModel p e}
    (h : equivalenceClass E candidates data solverKnown pruneEdges ns folds rs = .ok (P, I, m)) :
    ∃ s, fitMain E data solverKnown ns pruneEdges folds none none (some candidates) 42 = .ok (m, I, s) ∧
      dagToIcpdag E.it m.A (E.it.toList I) = .ok P := by
  unfold equivalenceClass withIcpdag at h
  split at h
  · cases h
  · rename_i m' I' s hm
    split at h
    · cases h
    · rename_i P' hP
      cases h
      exact ⟨s, hm, hP⟩

theorem toList_toFinset (it : SetIter p) (I : Finset (Fin p)) : (it.toList I).toFinset = I := by
  ext x
  rw [List.mem_toFinset, it.mem]

/-- C150: whatever the signs of the weights of the candidate DAGs, if `equivalence_class` returns, the graph of the model is a candidate or (with
`prune_edges`) a subgraph of one, with the same weights; its coefficients respect the graph; the number of latents is one of the given ones; and
every edge goes forward in the list of `topological_ordering`, by first occurrences.  The graph that is returned is the interventional essential
graph if every edge also goes forward by last occurrences, in particular if no column with an edge adds up to zero. -/
theorem C150_coherent (E : FitEnv p e) (hfit : ∀ d h, GoodFit (E.fit d h))
    (hlat : ∀ d h n A I m s, E.fit d h n A I = .ok (m, s) → m.1 = h) (harg : ∀ f, IsArgsort f (E.argsort f))
    (candidates : List (Adj p)) (hG : ∀ G ∈ candidates, Acyclic G) (data : Fin e → Sample p) (solverKnown pruneEdges : Bool)
    (ns : List Nat) (folds : List Rat) (rs : Int) (P : Adj p) (I : Finset (Fin p)) (m : AnyModel p e)
    (h : equivalenceClass E candidates data solverKnown pruneEdges (some ns) folds rs = .ok (P, I, m)) :
    (∃ G ∈ candidates, Subgraph m.A G ∧ (pruneEdges = false → m.A = G)) ∧ Acyclic m.A ∧ (∀ a b, m.A a b = 0 → m.B a b = 0) ∧ m.1 ∈ ns ∧
      (∃ order, topologicalOrdering E.it m.A = .ok order ∧ (∀ a b, Edge m.A a b → order.idxOf a < order.idxOf b) ∧
        ((∀ a b, Edge m.A a b → order.reverse.idxOf b < order.reverse.idxOf a) → IEssential m.A I P)) ∧
      (NoZeroSums m.A → IEssential m.A I P) := by
  obtain ⟨s, hm, hP⟩ := equivalenceClass_ok h
  obtain ⟨training, testG, testI, graphs, ns', -, k1, k2, k3, k4, k5, -⟩ := fitMain_any hfit hlat harg hm
  cases k1
  cases k2
  obtain ⟨G, hGm, hsub, hno⟩ := k4
  have hac : Acyclic m.A := subgraph_acyclic hsub (hG G hGm)
  obtain ⟨-, order, ho, hall, -⟩ := C146_dag_accepted E.it m.A hac
  obtain ⟨d1, d2⟩ := C149_returns_iff E.it m.A hac order ho
  have hf : ∀ a b, Edge m.A a b → order.idxOf a < order.idxOf b := by
    intro a b hab
    by_contra hc
    rcases Nat.lt_or_ge (order.idxOf b) (order.idxOf a) with hlt | hge
    · have := (d2 ⟨a, b, hab, hlt⟩).2.2.1 (E.it.toList I)
      rw [hP] at this
      cases this
    · have hba : a = b := (List.idxOf_inj (hall a)).1 (by omega)
      subst hba
      exact hab (hac.noLoops a)
  refine ⟨⟨G, hGm, hsub, hno⟩, hac, k5, k3, ⟨order, ho, hf, fun hb => ?_⟩, fun hn => ?_⟩
  · obtain ⟨-, h2, -⟩ := C149_correct E.it m.A hac order ho hf hb false (.inr rfl)
    obtain ⟨P', p1, p2, p3⟩ := h2 (E.it.toList I)
    rw [hP] at p1
    cases p1
    rw [toList_toFinset] at p3
    exact ⟨p2, p3⟩
  · obtain ⟨P', p1, p2⟩ := (C146_essential E.it m.A hac hn).2.2 (E.it.toList I)
    rw [hP] at p1
    cases p1
    rw [toList_toFinset] at p2
    refine ⟨fun i j => (p2 i j).2, fun i j => ?_⟩
    rw [← (p2 i j).1]
    rcases (p2 i j).2 with h | h <;> unfold Edge <;> rw [h] <;> simp

/-- C150: the returned targets are the best ones on the third fold, as in `C59_targets`, whatever the signs of the weights of the candidates. -/
theorem C150_targets (E : FitEnv p e) (hfit : ∀ d h, GoodFit (E.fit d h))
    (hlat : ∀ d h n A I m s, E.fit d h n A I = .ok (m, s) → m.1 = h) (harg : ∀ f, IsArgsort f (E.argsort f))
    (candidates : List (Adj p)) (data : Fin e → Sample p) (solverKnown pruneEdges : Bool)
    (ns : List Nat) (folds : List Rat) (rs : Int) (P : Adj p) (I : Finset (Fin p)) (m : AnyModel p e)
    (h : equivalenceClass E candidates data solverKnown pruneEdges (some ns) folds rs = .ok (P, I, m)) :
    ∃ training testG testI s, splitData (E.rng 42) (List.ofFn data) folds = .ok [training, testG, testI] ∧
      ∃ (m0 : AnyModel p e) (s0 : Flt) (order : List (Fin p)),
        FittedTo E.it (E.fit (foldData E.cov training e) m.1) m.A Finset.univ m0 s0 ∧
        order.Perm (List.finRange p) ∧ order.Pairwise (fun a b => popVar (fun k => m0.omegas k a) ≤ popVar (fun k => m0.omegas k b)) ∧
        (∃ i ≤ p, I = Finset.univ \ (order.take i).toFinset) ∧
        (∃ sf, FittedTo E.it (E.fit (foldData E.cov training e) m.1) m.A I m sf) ∧ m.scoreOn (foldData E.cov testI e) = .ok s ∧
        ∀ i ≤ p, ∃ mi sf si, FittedTo E.it (E.fit (foldData E.cov training e) m.1) m.A (Finset.univ \ (order.take i).toFinset) mi sf ∧
          mi.scoreOn (foldData E.cov testI e) = .ok si ∧ AtMost s si := by
  obtain ⟨s, hm, -⟩ := equivalenceClass_ok h
  obtain ⟨training, testG, testI, graphs, ns', h1, -, -, -, -, -, h2⟩ := fitMain_any hfit hlat harg hm
  exact ⟨training, testG, testI, s, h1, h2⟩

/-- All weights of a column have the same sign. -/
def Spec.SameSigns (A : Adj p) : Prop := ∀ v, (∀ u, 0 ≤ A u v) ∨ ∀ u, A u v ≤ 0

theorem sameSigns_noZeroSums {A H : Adj p} (h : SameSigns A) (hs : Subgraph H A) : NoZeroSums H := by
  rintro v ⟨u, hu⟩ hc
  rcases h v with h | h
  · have : ∀ u, 0 ≤ H u v := fun u => by rcases hs u v with h1 | h1 <;> rw [h1]; exact h u
    exact hu ((Finset.sum_eq_zero_iff_of_nonneg fun u _ => this u).1 hc u (Finset.mem_univ u))
  · have : ∀ u, H u v ≤ 0 := fun u => by rcases hs u v with h1 | h1 <;> rw [h1]; exact h u
    exact hu ((Finset.sum_eq_zero_iff_of_nonpos fun u _ => this u).1 hc u (Finset.mem_univ u))

/-- C150: `equivalence_class` returns the interventional essential graph of the model's graph if, for every candidate, no column with an edge adds
up to zero and edges are not pruned, or all weights of a column have the same sign. -/
theorem C150_essential (E : FitEnv p e) (hfit : ∀ d h, GoodFit (E.fit d h))
    (hlat : ∀ d h n A I m s, E.fit d h n A I = .ok (m, s) → m.1 = h) (harg : ∀ f, IsArgsort f (E.argsort f))
    (candidates : List (Adj p)) (hG : ∀ G ∈ candidates, Acyclic G) (data : Fin e → Sample p) (solverKnown pruneEdges : Bool)
    (hs : ∀ G ∈ candidates, pruneEdges = false ∧ NoZeroSums G ∨ SameSigns G)
    (ns : List Nat) (folds : List Rat) (rs : Int) (P : Adj p) (I : Finset (Fin p)) (m : AnyModel p e)
    (h : equivalenceClass E candidates data solverKnown pruneEdges (some ns) folds rs = .ok (P, I, m)) : IEssential m.A I P := by
  obtain ⟨⟨G, hGm, hsub, hno⟩, -, -, -, -, h6⟩ := C150_coherent E hfit hlat harg candidates hG data solverKnown pruneEdges ns folds rs P I m h
  apply h6
  rcases hs G hGm with ⟨h1, h2⟩ | h1
  · rw [hno h1]
    exact h2
  · exact sameSigns_noZeroSums h1 hsub

/-- C150: if the graph of the selected model has an edge that goes backward, `equivalence_class` raises an `IndexError`, after all models have
been fitted. -/
theorem C150_index_error (E : FitEnv p e) (candidates : List (Adj p)) (data : Fin e → Sample p) (solverKnown pruneEdges : Bool)
    (ns : Option (List Nat)) (folds : List Rat) (rs : Int) (I : Finset (Fin p)) (m : AnyModel p e) (s : Flt)
    (hm : fitMain E data solverKnown ns pruneEdges folds none none (some candidates) 42 = .ok (m, I, s)) (hac : Acyclic m.A)
    (order : List (Fin p)) (ho : topologicalOrdering E.it m.A = .ok order) (hb : ∃ a b, Edge m.A a b ∧ order.idxOf b < order.idxOf a) :
    equivalenceClass E candidates data solverKnown pruneEdges ns folds rs = .error .indexError := by
  unfold equivalenceClass withIcpdag
  rw [hm]
  dsimp only
  rw [((C149_returns_iff E.it m.A hac order ho).2 hb).2.2.1]

/-- C150: for the single candidate 0 → 2 ← 1 with the weights 1 and -1, `equivalence_class` never returns, whatever the data, the fits and the
other arguments; if all models are fitted, it raises an `IndexError`. -/
theorem C150_collider (E : FitEnv 3 e) (hfit : ∀ d h, GoodFit (E.fit d h))
    (hlat : ∀ d h n A I m s, E.fit d h n A I = .ok (m, s) → m.1 = h) (harg : ∀ f, IsArgsort f (E.argsort f))
    (data : Fin e → Sample 3) (solverKnown : Bool) (ns : List Nat) (folds : List Rat) (rs : Int) :
    (∃ err, equivalenceClass E [colliderA] data solverKnown false (some ns) folds rs = .error err) ∧
    ((∃ r, fitMain E data solverKnown (some ns) false folds none none (some [colliderA]) 42 = .ok r) →
      equivalenceClass E [colliderA] data solverKnown false (some ns) folds rs = .error .indexError) := by
  have key : (∃ r, fitMain E data solverKnown (some ns) false folds none none (some [colliderA]) 42 = .ok r) →
      equivalenceClass E [colliderA] data solverKnown false (some ns) folds rs = .error .indexError := by
    rintro ⟨⟨m, I, s⟩, hm⟩
    obtain ⟨training, testG, testI, graphs, ns', -, k1, k2, k3, ⟨G, hG, -, hno⟩, -⟩ := fitMain_any hfit hlat harg hm
    cases k1
    rw [List.mem_singleton] at hG
    have hA : m.A = colliderA := by rw [hno rfl, hG]
    refine C150_index_error E [colliderA] data solverKnown false (some ns) folds rs I m s hm (hA ▸ colliderA_acyclic) [2, 1, 0, 2]
      (by rw [hA]; exact colliderA_ordering E.it) ⟨0, 2, by rw [hA]; decide +kernel, by decide +kernel⟩
  refine ⟨?_, key⟩
  cases h : equivalenceClass E [colliderA] data solverKnown false (some ns) folds rs with
  | error err => exact ⟨err, rfl⟩
  | ok r =>
    obtain ⟨P, I, m⟩ := r
    obtain ⟨s, hm, -⟩ := equivalenceClass_ok h
    rw [key ⟨_, hm⟩] at h
    cases h

/-- C150: for the single candidate of `C149_wrong_graph`, whenever `equivalence_class` returns without targets, the graph it returns directs two
edges that are reversible. -/
theorem C150_wrong_graph (E : FitEnv 5 e) (hfit : ∀ d h, GoodFit (E.fit d h))
    (hlat : ∀ d h n A I m s, E.fit d h n A I = .ok (m, s) → m.1 = h) (harg : ∀ f, IsArgsort f (E.argsort f))
    (data : Fin e → Sample 5) (solverKnown : Bool) (ns : List Nat) (folds : List Rat) (rs : Int) (P : Adj 5) (m : AnyModel 5 e)
    (h : equivalenceClass E [twoTriangles] data solverKnown false (some ns) folds rs = .ok (P, ∅, m)) :
    m.A = twoTriangles ∧ P = twoTrianglesOut ∧ ¬ IEssential m.A ∅ P := by
  obtain ⟨s, hm, hP⟩ := equivalenceClass_ok h
  obtain ⟨training, testG, testI, graphs, ns', -, k1, k2, k3, ⟨G, hG, -, hno⟩, -⟩ := fitMain_any hfit hlat harg hm
  cases k1
  rw [List.mem_singleton] at hG
  have hA : m.A = twoTriangles := by rw [hno rfl, hG]
  have hPo : P = twoTrianglesOut := by
    rw [hA, toList_empty] at hP
    unfold dagToIcpdag at hP
    rw [twoTriangles_cpdag] at hP
    simp only [targetEdges, List.flatMap_nil, List.reverse_nil, icpdagLoop] at hP
    split at hP
    · cases hP
    · injection hP with hP
      exact hP.symm
    · cases hP
  refine ⟨hA, hPo, fun hc => ?_⟩
  obtain ⟨h1, -, h3⟩ := twoTriangles_equiv
  have := (hc.2 4 0).2 ⟨twoTrianglesH, h1, hA ▸ ⟨h3, fun i hi => absurd hi (Finset.notMem_empty i)⟩, by decide +kernel⟩
  rw [hPo] at this
  revert this
  decide +kernel

/-- C150: `_prune_graphs` stops as soon as the sum of the weights is not positive: a graph whose weights add up to zero or less is not pruned at
all. -/
theorem C150_not_pruned (it : SetIter p) (fit : Fitter p e) (obj : ScoreObj p e) (G : Adj p) (h : ∑ i, ∑ j, G i j ≤ 0) :
    pruneGraph it fit true none obj G = pruneGraph it fit false none obj G := by
  unfold pruneGraph
  split
  · rfl
  · rename_i m s obj1 h1
    have hr : runLoop (pruneStep it fit) { dag := G, model := m, obj := obj1, models := [m] } =
        .ok { dag := G, model := m, obj := obj1, models := [m] } := by
      refine runLoop_of_iter (n := 1) ?_
      rw [iterLoop]
      have : pruneStep it fit { dag := G, model := m, obj := obj1, models := [m] } = .ok (.inr { dag := G, model := m, obj := obj1, models := [m] }) := by
        unfold pruneStep
        rw [if_neg]
        unfold sumAll
        exact not_lt.2 h
      rw [this]
    simp [hr]


/-! ## The calls return -/

/-- Fitting `G` works for all targets: it returns models that can be copied, and they have a score on the test data. -/
def Spec.FitsGraph (it : SetIter p) (fit : Fitter p e) (tests : List (Data p e)) (G : Adj p) : Prop :=
  ∀ n I, ∃ m s m', fit n G I = .ok (m, s) ∧ m.copy it = .ok m' ∧ ∀ d ∈ tests, (∃ t, m.scoreOn d = .ok t) ∧ ∃ t, m'.scoreOn d = .ok t

theorem FitsGraph_scores {it : SetIter p} {fit : Fitter p e} {tests : List (Data p e)} {G : Adj p} (hf : FitsGraph it fit tests G)
    {I : Finset (Fin p)} {m : AnyModel p e} {s : Flt} (hm : FittedTo it fit G I m s)
    {d : Data p e} (hd : d ∈ tests) : ∃ t, m.scoreOn d = .ok t := by
  obtain ⟨n, m0, h1, h2⟩ := hm
  obtain ⟨m1, s1, m2, k1, k2, k3⟩ := hf n I
  rw [h1] at k1
  cases k1
  rcases h2 with rfl | h2
  · exact (k3 d hd).1
  · rw [k2] at h2
    cases h2
    exact (k3 d hd).2

theorem pruneGraphs_unpruned {it : SetIter p} {fit : Fitter p e} (hg : GoodFit fit) {tests : List (Data p e)} (graphs : List (Adj p))
    (hf : ∀ G ∈ graphs, FitsGraph it fit tests G) : ∀ obj : ScoreObj p e, obj.Ok it fit →
      ∃ ms obj', pruneGraphsLoop it fit false none graphs obj = .ok (ms, obj') ∧ ms.length = graphs.length ∧ obj'.Ok it fit ∧
        ∀ m ∈ ms, ∃ G ∈ graphs, m.A = G ∧ ∃ s, FittedTo it fit G Finset.univ m s := by
  induction graphs with
  | nil => exact fun obj ho => ⟨_, _, rfl, rfl, ho, by simp⟩
  | cons G graphs ih =>
    intro obj ho
    obtain ⟨⟨m, s⟩, obj1, h1⟩ := scoreObj_returns (A := G) (I := Finset.univ) ho (fun n => by
      obtain ⟨m, s, m', k1, k2, -⟩ := hf G (by simp) n Finset.univ
      exact ⟨m, s, m', k1, k2⟩)
    obtain ⟨g1, g2, -⟩ := scoreObj_spec ho h1
    obtain ⟨ms, obj2, h2, h3, h4, h5⟩ := ih (fun G' hG' => hf G' (by simp [hG'])) obj1 g1
    have hp : pruneGraph it fit false none obj G = .ok ([m], obj1) := by
      unfold pruneGraph
      rw [h1]
      rfl
    refine ⟨[m] ++ ms, obj2, ?_, by simp [h3], h4, fun m' hm' => ?_⟩
    · rw [pruneGraphsLoop, hp]
      simp only [h2]
    · rcases List.mem_append.1 hm' with hm' | hm'
      · rw [List.mem_singleton] at hm'
        subst hm'
        exact ⟨G, by simp, (g2.good hg).1, s, g2⟩
      · obtain ⟨G', hG', h'⟩ := h5 m' hm'
        exact ⟨G', by simp [hG'], h'⟩

theorem latentLoop_unpruned {it : SetIter p} {fit : Nat → Fitter p e} {graphs : List (Adj p)} {test : Data p e}
    (hne : graphs ≠ []) (ns : List Nat) (hg : ∀ n ∈ ns, GoodFit (fit n)) (hf : ∀ n ∈ ns, ∀ G ∈ graphs, FitsGraph it (fit n) [test] G) :
    ∀ results, ∃ r, latentLoop it fit (.ok ()) false none graphs test ns results = .ok r := by
  induction ns with
  | nil => intro results; exact ⟨_, rfl⟩
  | cons n ns ih =>
    intro results
    obtain ⟨ms, obj, h1, hlen, -, g2⟩ := pruneGraphs_unpruned (hg n (by simp)) graphs (hf n (by simp)) ⟨0, []⟩ (ScoreObj.ok_new it _ 0)
    have h1' : pruneGraphs it (fit n) false none graphs ⟨0, []⟩ = .ok (ms, obj) := by
      unfold pruneGraphs
      rw [if_neg (by simpa using hne), h1]
    obtain ⟨scores, h2⟩ := testScores_returns (d := test) (model := id) ms (fun m hm => by
      obtain ⟨G, hGm, -, s, hs⟩ := g2 m hm
      exact FitsGraph_scores (hf n (by simp) G hGm) hs (by simp))
    have hsne : scores ≠ [] := by
      intro hc
      have := (testScores_spec ms h2).1
      rw [hc] at this
      rw [← this] at hlen
      exact hne (List.eq_nil_of_length_eq_zero hlen.symm)
    obtain ⟨i, t, h3, -⟩ := bestScoring_spec (tuples := scores.map (fun x => (x.1, x.2.A))) (by simpa using hsne)
    obtain ⟨s, A⟩ := t
    rw [latentLoop]
    simp only [h1', h2, h3]
    exact ih (fun k hk => hg k (by simp [hk])) (fun k hk => hf k (by simp [hk])) _

theorem fitMain_unpruned (E : FitEnv p e) (candidates : List (Adj p)) (hne : candidates ≠ [])
    (data : Fin e → Sample p) (solverKnown : Bool) (ns : List Nat) (hns : ns ≠ []) (folds : List Rat) (rs : Int)
    (training testG testI : List (Sample p)) (hsplit : splitData (E.rng rs) (List.ofFn data) folds = .ok [training, testG, testI])
    (hctor : scoreCtor training solverKnown = .ok ()) (hfit : ∀ d h, GoodFit (E.fit d h)) (harg : ∀ f, IsArgsort f (E.argsort f))
    (hf : ∀ n ∈ ns, ∀ G ∈ candidates,
      FitsGraph E.it (E.fit (foldData E.cov training e) n) [foldData E.cov testG e, foldData E.cov testI e] G) :
    ∃ r, fitMain E data solverKnown (some ns) false folds none none (some candidates) rs = .ok r := by
  obtain ⟨results, h1⟩ := latentLoop_unpruned (it := E.it) (fit := E.fit (foldData E.cov training e)) hne
    (test := foldData E.cov testG e) ns (fun n _ => hfit _ n) (fun n hn G hGm k I => by
      obtain ⟨m, s, m', k1, k2, k3⟩ := hf n hn G hGm k I
      exact ⟨m, s, m', k1, k2, fun d hd => k3 d (by simp at hd; simp [hd])⟩) []
  obtain ⟨k1, k2, k3⟩ := latentLoop_spec ns [] results (by simp) (by simp) h1
  obtain ⟨r, h2, h3, -⟩ := sortedM_ok (results.map (fun r => (r.2.1, r.1, r.2.2.1, r.2.2.2))) (by rw [List.map_map]; exact k1)
  cases r with
  | nil =>
    exfalso
    obtain ⟨n, hn⟩ := List.exists_mem_of_ne_nil _ hns
    obtain ⟨x, hx, -⟩ := List.mem_map.1 ((k3 n).2 (Or.inl hn))
    have := h3.length_eq
    simp only [List.length_nil, List.length_map] at this
    rw [List.eq_nil_of_length_eq_zero this.symm] at hx
    simp at hx
  | cons t rest =>
    obtain ⟨sc, n, graph, obj⟩ := t
    have hmem : (n, (sc, graph, obj)) ∈ results := by
      have := h3.mem_iff.1 (List.mem_cons_self (a := (sc, n, graph, obj)) (l := rest))
      obtain ⟨r, hr, hre⟩ := List.mem_map.1 this
      simp only [Prod.mk.injEq] at hre
      obtain ⟨e1, e2, e3, e4⟩ := hre
      rw [← e1, ← e2, ← e3, ← e4]
      exact hr
    have hn : n ∈ ns := by simpa using (k3 n).1 (List.mem_map_of_mem (f := Prod.fst) hmem)
    have hval := graphRun_validation (k2 _ hmem)
    obtain ⟨models, scores, g1, g2, g3⟩ := k2 _ hmem
    simp only at g1 g2 g3 hval
    obtain ⟨o1, o4⟩ := pruneGraphs_any (hfit _ n) (ScoreObj.ok_new E.it _ 0) g1
    have hgraph : graph ∈ candidates := by
      obtain ⟨ms, ob, v1, ⟨mm, v2, v3, -⟩, -⟩ := hval
      rw [g1] at v1
      cases v1
      obtain ⟨G, q1, -, q2⟩ := o4 mm v2
      rw [← v3, q2 rfl]
      exact q1
    obtain ⟨⟨pm, obj'⟩, t1⟩ := C57_returns E.it E.argsort (E.fit (foldData E.cov training e) n) graph obj o1 (fun k I => by
      obtain ⟨m, s, m', k1, k2, -⟩ := hf n hn graph hgraph k I
      exact ⟨m, s, m', k1, k2⟩)
    obtain ⟨m0, s0, order, -, -, -, -, c5, c6⟩ := C57_nested E.it E.argsort harg _ graph obj obj' o1 pm t1
    obtain ⟨ts, t2⟩ := testScores_returns (d := foldData E.cov testI e) (model := Prod.fst) pm (fun x hx => by
      obtain ⟨i, hi⟩ := List.getElem?_of_mem hx
      have hip : i ≤ p := by
        have := (List.getElem?_eq_some_iff.1 hi).1
        omega
      obtain ⟨mi, sf, c7, c8⟩ := c6 i hip
      rw [hi] at c7
      cases c7
      exact FitsGraph_scores (hf n hn graph hgraph) c8 (by simp))
    have htne : ts ≠ [] := by
      intro hc
      have := (testScores_spec pm t2).1
      rw [hc] at this
      simp only [List.map_nil] at this
      rw [← this] at c5
      simp at c5
    obtain ⟨i, t, t3, -⟩ := bestScoring_spec htne
    obtain ⟨s, m, I⟩ := t
    refine ⟨(m, I, s), ?_⟩
    unfold fitMain
    simp only [hsplit, initialGraphs, latentNumbers, hctor, h1, h2, targetPhase, t1, t2, t3]

/-- C150: `equivalence_class` without pruning returns, for acyclic candidates with weights of any sign of which no column with an edge adds up to
zero, if the data can be split into three folds that `Score` accepts, there are a candidate and a number of latents, and every fit returns and its
model has a score on the test folds. -/
theorem C150_returns (E : FitEnv p e) (candidates : List (Adj p)) (hne : candidates ≠ []) (hG : ∀ G ∈ candidates, Acyclic G ∧ NoZeroSums G)
    (data : Fin e → Sample p) (solverKnown : Bool) (ns : List Nat) (hns : ns ≠ []) (folds : List Rat) (rs : Int)
    (training testG testI : List (Sample p)) (hsplit : splitData (E.rng 42) (List.ofFn data) folds = .ok [training, testG, testI])
    (hctor : scoreCtor training solverKnown = .ok ()) (hfit : ∀ d h, GoodFit (E.fit d h))
    (hlat : ∀ d h n A I m s, E.fit d h n A I = .ok (m, s) → m.1 = h) (harg : ∀ f, IsArgsort f (E.argsort f))
    (hf : ∀ n ∈ ns, ∀ G ∈ candidates,
      FitsGraph E.it (E.fit (foldData E.cov training e) n) [foldData E.cov testG e, foldData E.cov testI e] G) :
    ∃ r, equivalenceClass E candidates data solverKnown false (some ns) folds rs = .ok r := by
  obtain ⟨⟨m, I, s⟩, hmain⟩ := fitMain_unpruned E candidates hne data solverKnown ns hns folds 42 training testG testI hsplit
    hctor hfit harg hf
  obtain ⟨_, _, _, graphs, ns', -, k1, -, -, ⟨G, hGm, -, hno⟩, -⟩ := fitMain_any hfit hlat harg hmain
  cases k1
  have hA := hno rfl
  obtain ⟨P, hP, -⟩ := (C146_essential E.it m.A (hA ▸ (hG G hGm).1) (hA ▸ (hG G hGm).2)).2.2 (E.it.toList I)
  unfold equivalenceClass withIcpdag
  simp only [hmain, hP]
  exact ⟨_, rfl⟩

/-! ## Examples -/

/-- A fitting procedure that takes zero weights and noise variances that depend on whether there are targets. -/
noncomputable def targetFit (it : SetIter p) (h : Nat) : Fitter p 1 := fun _ A I =>
  match mkModel it A 0 (0 : Matrix (Fin h) (Fin p) ℝ) (Matrix.of (fun _ _ => if I = ∅ then 1 else 2)) 0 with
  | .error err => .error err
  | .ok m => .ok (⟨h, m⟩, some 0)

noncomputable def targetEnv (p : Nat) : FitEnv p 1 where
  it := SetIter.incr p
  rng := fun _ _ => Rng.front
  cov := fun _ => 1
  argsort := insArgsort
  svals := fun _ => []
  gesFit := fun _ => 0
  fit := fun _ h => targetFit (SetIter.incr p) h

theorem mkModel_dag {l : Nat} {it : SetIter p} {A : Adj p} (hac : Acyclic A) {B : Matrix (Fin p) (Fin p) ℝ}
    (gamma : Matrix (Fin l) (Fin p) ℝ) (omegas : Matrix (Fin e) (Fin p) ℝ) (psis : Matrix (Fin e) (Fin l) ℝ) (hB : Respects A B) :
    mkModel it A B gamma omegas psis = .ok ⟨A, B, gamma, omegas, psis, 1 - B.transpose⟩ := by
  unfold mkModel
  rw [if_neg (by simpa using (C146_dag_accepted it A hac).1), if_neg]
  push Not
  exact hB

theorem targetFit_eq (it : SetIter p) (h n : Nat) {A : Adj p} (hac : Acyclic A) (I : Finset (Fin p)) :
    targetFit it h n A I = .ok (⟨h, ⟨A, 0, 0, Matrix.of (fun _ _ => if I = ∅ then 1 else 2), 0, 1 - (0 : Matrix (Fin p) (Fin p) ℝ).transpose⟩⟩, some 0) := by
  unfold targetFit
  rw [mkModel_dag (B := 0) hac _ _ _ (fun _ _ _ => rfl)]

theorem targetFit_fields {it : SetIter p} {h n : Nat} {A : Adj p} {I : Finset (Fin p)} {m : AnyModel p 1} {s : Flt}
    (hm : targetFit it h n A I = .ok (m, s)) : isDag it A = true ∧ m.1 = h ∧ m.A = A ∧ m.B = 0 := by
  unfold targetFit at hm
  split at hm
  · simp at hm
  · rename_i m0 h0
    cases hm
    obtain ⟨h1, -, rfl⟩ := mkModel_fields h0
    exact ⟨h1, rfl, rfl, rfl⟩

theorem targetFit_good (it : SetIter p) (h : Nat) : GoodFit (targetFit it h) := by
  intro n A I m s hm
  obtain ⟨h1, -, h2, h3⟩ := targetFit_fields hm
  refine ⟨h2, fun hA => (isDag_iff it hA).1 h1, fun a b hab => ?_⟩
  rw [h3]
  rfl

theorem targetEnv_data (f : List (Sample p)) (s : Sample p) (hf : f = [s]) (hs : s.length ≠ 0) : GoodData (foldData (targetEnv p).cov f 1) := by
  refine ⟨fun k => Matrix.PosDef.one, fun k => ?_, by norm_num⟩
  subst hf
  have : k.val = 0 := by omega
  simp only [foldData, this, List.getD_cons_zero]
  omega

theorem targetFit_score {h : Nat} {A : Adj p} {x : ℝ} (hx : 0 < x) {d : Data p 1} (hd : GoodData d) (hc : ∀ k, d.covs k = 1) :
    (⟨A, 0, 0, Matrix.of (fun _ _ => x), 0, 1 - (0 : Matrix (Fin p) (Fin p) ℝ).transpose⟩ : LModel p h 1).scoreOn d =
      .ok (some (p * (Real.log x + x⁻¹))) := by
  rw [scoreOn_ok d hd _ (fun _ _ => hx) (fun _ _ => le_refl _)]
  have hn : (⟨A, 0, 0, Matrix.of (fun _ _ => x), 0, 1 - (0 : Matrix (Fin p) (Fin p) ℝ).transpose⟩ : LModel p h 1).noise 0 =
      Matrix.diagonal (fun _ => x) := by
    unfold LModel.noise
    simp
  have hpos : (0 : ℝ) < d.nObs 0 := by
    have := hd.pos 0
    exact_mod_cast this
  simp only [Fin.sum_univ_one, hn, Matrix.det_diagonal, Finset.prod_const, Finset.card_univ, Fintype.card_fin, hc]
  have hi : (Matrix.diagonal (fun _ : Fin p => x))⁻¹ = Matrix.diagonal (fun _ => x⁻¹) := Matrix.inv_eq_right_inv (by
    rw [Matrix.diagonal_mul_diagonal]
    simp [hx.ne'])
  rw [hi]
  simp only [Matrix.transpose_zero, sub_zero, Matrix.transpose_one, mul_one, Matrix.trace_diagonal, Real.log_pow, Finset.sum_const,
    Finset.card_univ, Fintype.card_fin, nsmul_eq_mul]
  have : (1 : Nat) - ((0 : Fin 1) : Nat) = 1 := rfl
  rw [this, pow_one, mul_div_right_comm, div_self hpos.ne', one_mul, mul_add]

/-- The model of this procedure. -/
noncomputable def targetModel (h : Nat) (A : Adj p) (I : Finset (Fin p)) : AnyModel p 1 :=
  ⟨h, ⟨A, 0, 0, Matrix.of (fun _ _ => if I = ∅ then 1 else 2), 0, 1 - (0 : Matrix (Fin p) (Fin p) ℝ).transpose⟩⟩

theorem targetModel_score (h : Nat) (A : Adj p) (I : Finset (Fin p)) {d : Data p 1} (hd : GoodData d) (hc : ∀ k, d.covs k = 1) :
    (targetModel h A I).scoreOn d = .ok (some (if I = ∅ then (p : ℝ) else p * (Real.log 2 + 2⁻¹))) := by
  unfold targetModel
  split_ifs with hI
  · have := targetFit_score (h := h) (A := A) one_pos hd hc
    rw [Real.log_one, inv_one, zero_add, mul_one] at this
    exact this
  · exact targetFit_score (h := h) (A := A) two_pos hd hc

theorem targetModel_copy (it : SetIter p) (h : Nat) {A : Adj p} (hac : Acyclic A) (I : Finset (Fin p)) :
    (targetModel h A I).copy it = .ok (targetModel h A I) := by
  unfold targetModel AnyModel.copy LModel.copy
  simp only [mkModel_dag (B := 0) hac _ _ _ (fun _ _ _ => rfl)]

theorem targetFit_fitted {it : SetIter p} {h : Nat} {A : Adj p} (hac : Acyclic A) {I : Finset (Fin p)} {m : AnyModel p 1} {s : Flt}
    (hf : FittedTo it (targetFit it h) A I m s) : m = targetModel h A I := by
  obtain ⟨n, m0, h1, h2⟩ := hf
  rw [targetFit_eq it h n hac I] at h1
  injection h1 with h1
  injection h1 with h1
  have h1' : m0 = targetModel h A I := h1.symm
  rcases h2 with h2 | h2
  · rw [h2, h1']
  · rw [h1', targetModel_copy it h hac I] at h2
    injection h2 with h2
    exact h2.symm

theorem targetEnv_fits (h : Nat) {G : Adj p} (hac : Acyclic G) (d : Data p 1) (tests : List (Data p 1))
    (ht : ∀ t ∈ tests, GoodData t ∧ ∀ k, t.covs k = 1) : FitsGraph (targetEnv p).it ((targetEnv p).fit d h) tests G := by
  intro n I
  have hsc : ∀ t ∈ tests, ∃ r, (targetModel h G I).scoreOn t = .ok r := fun t htt => ⟨_, targetModel_score h G I (ht t htt).1 (ht t htt).2⟩
  exact ⟨_, _, _, targetFit_eq _ h n hac I, targetModel_copy _ h hac I, fun t htt => ⟨hsc t htt, hsc t htt⟩⟩

theorem targetEnv_main (candidates : List (Adj p)) (hne : candidates ≠ []) (hG : ∀ G ∈ candidates, Acyclic G) {l : Sample p}
    (hl : l.length = 8) (ns : List Nat) (hns : ns ≠ []) (rs : Int) :
    ∃ m s, fitMain (targetEnv p) (fun _ => l) true (some ns) false [1 / 2, 1 / 4, 1 / 4] none none (some candidates) rs = .ok (m, ∅, s) := by
  have h1 : splitData ((targetEnv p).rng rs) (List.ofFn (fun _ : Fin 1 => l)) [1 / 2, 1 / 4, 1 / 4] =
      .ok [[((Rng.front).shuffle l).take 4], [(((Rng.front).shuffle l).drop 4).take 2], [(((Rng.front).shuffle l).drop 6).take 2]] := exSplit _ l hl
  have hs : ((Rng.front).shuffle l).length = 8 := by rw [((Rng.front).shuffle_perm l).length_eq, hl]
  have h2 : GoodData (foldData (targetEnv p).cov [(((Rng.front).shuffle l).drop 4).take 2] 1) := targetEnv_data _ _ rfl (by simp [hs])
  have h3 : GoodData (foldData (targetEnv p).cov [(((Rng.front).shuffle l).drop 6).take 2] 1) := targetEnv_data _ _ rfl (by simp [hs])
  obtain ⟨⟨m, I, s⟩, hm⟩ := fitMain_unpruned (targetEnv p) candidates hne (fun _ => l) true ns hns _ rs _ _ _ h1 (scoreCtor_ok (by simp [hs]))
    (fun d h => targetFit_good _ h) insArgsort_spec (fun n _ G hGm => targetEnv_fits n (hG G hGm) _ _ (by
      intro t ht
      simp only [List.mem_cons, List.not_mem_nil, or_false] at ht
      rcases ht with rfl | rfl
      · exact ⟨h2, fun _ => rfl⟩
      · exact ⟨h3, fun _ => rfl⟩))
  obtain ⟨_, _, _, graphs, ns', k0, k1, -, -, ⟨G, hGm, -, hno⟩, -, m0, s0, order, -, hperm, -, -, ⟨sf, hfit⟩, hs, hall⟩ :=
    fitMain_any (fun d h => targetFit_good _ h) (fun d h n A I m s hm => (targetFit_fields (n := n) (I := I) hm).2.1) insArgsort_spec hm
  rw [h1] at k0
  cases k0
  cases k1
  have hac : Acyclic m.A := (hno rfl) ▸ hG G hGm
  have hu : Finset.univ \ (order.take p).toFinset = ∅ := by
    rw [List.take_of_length_le (by simpa using hperm.length_eq.le)]
    ext x
    simpa using hperm.mem_iff.2 (List.mem_finRange x)
  obtain ⟨mi, sf', si, hfi, g3, g4⟩ := hall p le_rfl
  rw [hu] at hfi
  suffices hI : I = ∅ by
    subst hI
    exact ⟨m, s, hm⟩
  by_contra hI
  obtain ⟨x, hx⟩ := Finset.nonempty_iff_ne_empty.2 hI
  have hp : (0 : ℝ) < p := by exact_mod_cast x.pos
  rw [targetFit_fitted hac hfi, targetModel_score _ _ _ h3 (fun _ => rfl), if_pos rfl] at g3
  rw [targetFit_fitted hac hfit, targetModel_score _ _ _ h3 (fun _ => rfl), if_neg hI] at hs
  injection g3 with g3
  injection hs with hs
  rw [← g3, ← hs] at g4
  rcases g4 with g4 | ⟨a, b, ga, gb, gab⟩
  · cases g4
  · injection ga with ga
    injection gb with gb
    rw [← ga, ← gb] at gab
    have := Real.log_lt_sub_one_of_pos (x := 2⁻¹) (by norm_num) (by norm_num)
    rw [Real.log_inv] at this
    nlinarith

/-- C150: the `IndexError` of `C150_collider` does occur: there are fits that succeed for all graphs and targets, for which the search is
completed and no result is returned. -/
theorem C150_collider_occurs (l : Sample 3) (hl : l.length = 8) :
    equivalenceClass (targetEnv 3) [colliderA] (fun _ => l) true false (some [0, 1]) [1 / 2, 1 / 4, 1 / 4] 42 = .error .indexError := by
  obtain ⟨m, s, hm⟩ := targetEnv_main [colliderA] (by simp) (by simpa using colliderA_acyclic) hl [0, 1] (by simp) 42
  exact (C150_collider (targetEnv 3) (fun d h => targetFit_good _ h) (fun d h n A I m s hm => (targetFit_fields (n := n) (I := I) hm).2.1)
    insArgsort_spec (fun _ => l) true [0, 1] _ 42).2 ⟨_, hm⟩

/-- C150: the wrong graph of `C150_wrong_graph` is returned for some fits, without an error. -/
theorem C150_wrong_graph_occurs (l : Sample 5) (hl : l.length = 8) :
    ∃ m, equivalenceClass (targetEnv 5) [twoTriangles] (fun _ => l) true false (some [0, 1]) [1 / 2, 1 / 4, 1 / 4] 42 =
      .ok (twoTrianglesOut, ∅, m) ∧ m.A = twoTriangles ∧ ¬ IEssential m.A ∅ twoTrianglesOut := by
  obtain ⟨m, s, hm⟩ := targetEnv_main [twoTriangles] (by simp) (by simpa using twoTriangles_acyclic) hl [0, 1] (by simp) 42
  obtain ⟨_, _, _, graphs, ns', -, k1, -, -, ⟨G, hG, -, hno⟩, -⟩ := fitMain_any (fun d h => targetFit_good _ h)
    (fun d h n A I m s hm => (targetFit_fields (n := n) (I := I) hm).2.1) insArgsort_spec hm
  cases k1
  rw [List.mem_singleton] at hG
  have hA : m.A = twoTriangles := by rw [hno rfl, hG]
  have hP : ∃ P, dagToIcpdag (targetEnv 5).it twoTriangles [] = .ok P := by
    unfold dagToIcpdag
    rw [twoTriangles_cpdag]
    simp only [targetEdges, List.flatMap_nil, List.reverse_nil, icpdagLoop]
    have hs : support twoTriangles = fun a b => ![![0, 0, 0, 1, 1], ![1, 0, 1, 0, 0], ![1, 0, 0, 0, 0], ![0, 0, 0, 0, 1], ![0, 0, 0, 0, 0]] a b := by
      funext a b
      revert a b
      decide +kernel
    obtain ⟨b, hb, hb'⟩ := C12_exact (targetEnv 5).it (support twoTriangles) twoTrianglesOut (by rw [hs]; unfold Nonneg; decide +kernel)
      (by unfold Nonneg; decide +kernel) (support_acyclic twoTriangles_acyclic)
    rw [isConsistentExtension_dag (targetEnv 5).it twoTriangles_acyclic twoTrianglesOut, hb, hb'.2 ⟨support_acyclic twoTriangles_acyclic, ?_, ?_, ?_⟩]
    · exact ⟨_, rfl⟩
    · rw [hs]
      unfold SameSkeleton Adjacent
      decide +kernel
    · rw [hs]
      unfold SameVStructures VStructure Adjacent
      decide +kernel
    · rw [hs]
      decide +kernel
  obtain ⟨P, hP⟩ := hP
  have he : equivalenceClass (targetEnv 5) [twoTriangles] (fun _ => l) true false (some [0, 1]) [1 / 2, 1 / 4, 1 / 4] 42 = .ok (P, ∅, m) := by
    unfold equivalenceClass withIcpdag
    rw [hm]
    dsimp only
    rw [hA, toList_empty, hP]
  obtain ⟨-, h2, h3⟩ := C150_wrong_graph (targetEnv 5) (fun d h => targetFit_good _ h)
    (fun d h n A I m s hm => (targetFit_fields (n := n) (I := I) hm).2.1) insArgsort_spec _ _ _ _ _ _ _ he
  exact ⟨m, h2 ▸ he, hA, h2 ▸ h3⟩

/-- The hypotheses of `C150_returns` and `C150_essential` are met by this procedure and the candidates 0 → 1 with weight -1 and 0 → 2 ← 1 with
weights 2 and -1. -/
example (l : Sample 3) (hl : l.length = 8) : ∃ P I m,
    equivalenceClass (targetEnv 3) [![![0, -1, 0], ![0, 0, 0], ![0, 0, 0]], ![![0, 0, 2], ![0, 0, -1], ![0, 0, 0]]] (fun _ => l) true false
      (some [0, 1]) [1 / 2, 1 / 4, 1 / 4] 42 = .ok (P, I, m) ∧ IEssential m.A I P := by
  have hG : ∀ G ∈ [(![![0, -1, 0], ![0, 0, 0], ![0, 0, 0]] : Adj 3), ![![0, 0, 2], ![0, 0, -1], ![0, 0, 0]]], Acyclic G ∧ NoZeroSums G := by
    intro G hG
    simp only [List.mem_cons, List.not_mem_nil, or_false] at hG
    rcases hG with rfl | rfl
    · refine ⟨acyclic_of_rank (fun i => i.val) (by unfold Edge; decide +kernel), by unfold NoZeroSums Edge; decide +kernel⟩
    · refine ⟨acyclic_of_rank (fun i => i.val) (by unfold Edge; decide +kernel), by unfold NoZeroSums Edge; decide +kernel⟩
  have h1 : splitData ((targetEnv 3).rng 42) (List.ofFn (fun _ : Fin 1 => l)) [1 / 2, 1 / 4, 1 / 4] =
      .ok [[((Rng.front).shuffle l).take 4], [(((Rng.front).shuffle l).drop 4).take 2], [(((Rng.front).shuffle l).drop 6).take 2]] := exSplit _ l hl
  have hs : ((Rng.front).shuffle l).length = 8 := by rw [((Rng.front).shuffle_perm l).length_eq, hl]
  have h2 : GoodData (foldData (targetEnv 3).cov [(((Rng.front).shuffle l).drop 4).take 2] 1) := targetEnv_data _ _ rfl (by simp [hs])
  have h3 : GoodData (foldData (targetEnv 3).cov [(((Rng.front).shuffle l).drop 6).take 2] 1) := targetEnv_data _ _ rfl (by simp [hs])
  obtain ⟨⟨P, I, m⟩, h⟩ := C150_returns (targetEnv 3) _ (by simp) hG (fun _ => l) true [0, 1] (by simp) _ 42 _ _ _ h1 (scoreCtor_ok (by simp [hs]))
    (fun d h => targetFit_good _ h) (fun d h n A I m s hm => (targetFit_fields (n := n) (I := I) hm).2.1) insArgsort_spec
    (fun n _ G hGm => targetEnv_fits n (hG G hGm).1 _ _ (by
      intro t ht
      simp only [List.mem_cons, List.not_mem_nil, or_false] at ht
      rcases ht with rfl | rfl
      · exact ⟨h2, fun _ => rfl⟩
      · exact ⟨h3, fun _ => rfl⟩))
  exact ⟨P, I, m, h, C150_essential (targetEnv 3) (fun d h => targetFit_good _ h)
    (fun d h n A I m s hm => (targetFit_fields (n := n) (I := I) hm).2.1) insArgsort_spec _ (fun G hGm => (hG G hGm).1) _ _ _
    (fun G hGm => .inl ⟨rfl, (hG G hGm).2⟩) _ _ _ _ _ _ h⟩

-- a graph as in `C150_not_pruned`
example : ∑ i, ∑ j, colliderA i j ≤ 0 := by decide +kernel

end Verif
