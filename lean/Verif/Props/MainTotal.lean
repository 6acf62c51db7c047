import Verif.Props.MainFit
import Verif.Props.ScoreCtor

/-!
# C72: `equivalence_class` returns

and examples for C58–C61.
-/

namespace Verif

open Spec Matrix

variable {p e : Nat}

/-- Fitting works for all subgraphs of `G` and all targets: it returns models that can be copied, and they have a score on the test
data. -/
def Spec.FitsAndScores (it : SetIter p) (fit : Fitter p e) (tests : List (Data p e)) (G : Adj p) : Prop :=
  ∀ n H I, Nonneg H → Subgraph H G → ∃ m s m', fit n H I = .ok (m, s) ∧ m.copy it = .ok m' ∧
    ∀ d ∈ tests, (∃ t, m.scoreOn d = .ok t) ∧ ∃ t, m'.scoreOn d = .ok t

theorem fitted_scores {it : SetIter p} {fit : Fitter p e} {tests : List (Data p e)} {G H : Adj p} (hf : FitsAndScores it fit tests G)
    (hH : Nonneg H) (hs : Subgraph H G) {I : Finset (Fin p)} {m : AnyModel p e} {s : Flt} (hm : FittedTo it fit H I m s)
    {d : Data p e} (hd : d ∈ tests) : ∃ t, m.scoreOn d = .ok t := by
  obtain ⟨n, m0, h1, h2⟩ := hm
  obtain ⟨m1, s1, m2, k1, k2, k3⟩ := hf n H I hH hs
  rw [h1] at k1
  cases k1
  rcases h2 with rfl | h2
  · exact (k3 d hd).1
  · rw [k2] at h2
    cases h2
    exact (k3 d hd).2

theorem pruneGraphsLoop_returns {it : SetIter p} {fit : Fitter p e} (hg : GoodFit fit) {prune : Bool} (graphs : List (Adj p)) :
    ∀ obj : ScoreObj p e, obj.Ok it fit → (∀ G ∈ graphs, Nonneg G ∧ FitsReturn it fit G) →
      (prune = true → ∀ G ∈ graphs, KeepsWeights fit G) →
      ∃ r, pruneGraphsLoop it fit prune none graphs obj = .ok r := by
  induction graphs with
  | nil => intro obj _ _ _; exact ⟨_, rfl⟩
  | cons G graphs ih =>
    intro obj ho hG hB
    obtain ⟨hn, hf⟩ := hG G (by simp)
    have h1 : ∃ ms obj', pruneGraph it fit prune none obj G = .ok (ms, obj') ∧ obj'.Ok it fit := by
      cases prune with
      | false =>
        obtain ⟨⟨m, s⟩, obj', h1⟩ := scoreObj_returns (A := G) (I := Finset.univ) ho (fun n => hf n G hn (fun a b => Or.inl rfl))
        refine ⟨[m], obj', ?_, (scoreObj_spec ho h1).1⟩
        unfold pruneGraph
        rw [h1]
        rfl
      | true =>
        obtain ⟨⟨ms, obj'⟩, h1⟩ := C55_returns it fit hg obj ho G hn hf (hB rfl G (by simp))
        exact ⟨ms, obj', h1, (C55_chain it fit hg obj obj' ho G hn ms h1).2⟩
    obtain ⟨ms, obj', h1, h2⟩ := h1
    obtain ⟨⟨ms', obj''⟩, h3⟩ := ih obj' h2 (fun G' hG' => hG G' (by simp [hG'])) (fun hp G' hG' => hB hp G' (by simp [hG']))
    rw [pruneGraphsLoop, h1]
    simp only [h3]
    exact ⟨_, rfl⟩

theorem pruneGraphs_fitted {it : SetIter p} {fit : Fitter p e} (hg : GoodFit fit) {prune : Bool} {graphs : List (Adj p)}
    (hG : ∀ G ∈ graphs, Nonneg G) {obj obj' : ScoreObj p e} (ho : obj.Ok it fit) {ms : List (AnyModel p e)}
    (h : pruneGraphs it fit prune none graphs obj = .ok (ms, obj')) : ms ≠ [] ∧ ∀ m ∈ ms, ∃ s, FittedTo it fit m.A Finset.univ m s := by
  cases prune with
  | false =>
    obtain ⟨-, h2, h3, -, h5⟩ := C55_all_candidates it fit hg graphs hG obj obj' ho ms h
    exact ⟨fun hc => h2 (by rw [← h3, hc]; rfl), h5⟩
  | true =>
    obtain ⟨-, h2, blocks, rfl, h4⟩ := C55_all_chains it fit hg graphs hG obj obj' ho ms h
    constructor
    · intro hc
      cases h4 with
      | nil => exact h2 rfl
      | cons hb _ =>
        obtain ⟨m, k1, -⟩ := hb.first
        simp only [List.flatten_cons, List.append_eq_nil_iff] at hc
        rw [hc.1] at k1
        simp at k1
    · intro m hm
      obtain ⟨b, hb, hmb⟩ := List.mem_flatten.1 hm
      obtain ⟨i, hi⟩ := List.getElem?_of_mem hb
      obtain ⟨hil, rfl⟩ := List.getElem?_eq_some_iff.1 hi
      have hb' := h4.get (by rw [h4.length_eq]; exact hil) hil
      simp only [List.get_eq_getElem] at hb'
      exact hb'.fitted m hmb

theorem latentLoop_returns {it : SetIter p} {fit : Nat → Fitter p e} {prune : Bool} {graphs : List (Adj p)} {test : Data p e}
    (hne : graphs ≠ []) (hG : ∀ G ∈ graphs, Nonneg G) (ns : List Nat) (hg : ∀ n ∈ ns, GoodFit (fit n))
    (hf : ∀ n ∈ ns, ∀ G ∈ graphs, FitsAndScores it (fit n) [test] G)
    (hB : prune = true → ∀ h ∈ ns, ∀ G ∈ graphs, KeepsWeights (fit h) G) :
    ∀ results, ∃ r, latentLoop it fit (.ok ()) prune none graphs test ns results = .ok r := by
  induction ns with
  | nil => intro results; exact ⟨_, rfl⟩
  | cons n ns ih =>
    intro results
    have hgn := hg n (by simp)
    obtain ⟨⟨ms, obj⟩, h1⟩ := pruneGraphsLoop_returns (it := it) hgn (prune := prune) graphs ⟨0, []⟩ (ScoreObj.ok_new it _ 0)
      (fun G hm => ⟨hG G hm, fun k H hH hs => by
        obtain ⟨m, s, m', k1, k2, -⟩ := hf n (by simp) G hm k H Finset.univ hH hs
        exact ⟨m, s, m', k1, k2⟩⟩) (fun hp => hB hp n (by simp))
    have h1' : pruneGraphs it (fit n) prune none graphs ⟨0, []⟩ = .ok (ms, obj) := by
      unfold pruneGraphs
      rw [if_neg (by simpa using hne), h1]
    obtain ⟨g1, g2⟩ := pruneGraphs_fitted hgn hG (ScoreObj.ok_new it _ 0) h1'
    obtain ⟨-, -, -, g4⟩ := pruneGraphs_spec hgn hG (ScoreObj.ok_new it _ 0) h1'
    obtain ⟨scores, h2⟩ := testScores_returns (d := test) (model := id) ms (fun m hm => by
      obtain ⟨s, hs⟩ := g2 m hm
      obtain ⟨-, G, hGm, hsub, -⟩ := g4 m hm
      refine fitted_scores (hf n (by simp) G hGm) ?_ hsub hs (by simp)
      intro a b
      rcases hsub a b with hc | hc
      · rw [hc]; exact hG G hGm a b
      · rw [hc])
    have hsne : scores ≠ [] := by
      intro hc
      have := (testScores_spec ms h2).1
      rw [hc] at this
      exact g1 this.symm
    obtain ⟨i, t, h3, -⟩ := bestScoring_spec (tuples := scores.map (fun x => (x.1, x.2.A))) (by simpa using hsne)
    obtain ⟨s, A⟩ := t
    rw [latentLoop]
    simp only [h1', h2, h3]
    exact ih (fun k hk => hg k (by simp [hk])) (fun k hk => hf k (by simp [hk])) (fun hp k hk => hB hp k (by simp [hk])) _

theorem fitMain_returns (E : FitEnv p e) (candidates : List (Adj p)) (hne : candidates ≠ []) (hG : ∀ G ∈ candidates, Nonneg G)
    (data : Fin e → Sample p) (solverKnown pruneEdges : Bool) (ns : List Nat) (hns : ns ≠ []) (folds : List Rat) (rs : Int)
    (training testG testI : List (Sample p)) (hsplit : splitData (E.rng rs) (List.ofFn data) folds = .ok [training, testG, testI])
    (hctor : scoreCtor training solverKnown = .ok ()) (hfit : ∀ d h, GoodFit (E.fit d h))
    (harg : ∀ f, IsArgsort f (E.argsort f))
    (hf : ∀ n ∈ ns, ∀ G ∈ candidates,
      FitsAndScores E.it (E.fit (foldData E.cov training e) n) [foldData E.cov testG e, foldData E.cov testI e] G)
    (hB : pruneEdges = true → ∀ h ∈ ns, ∀ G ∈ candidates, KeepsWeights (E.fit (foldData E.cov training e) h) G) :
    ∃ r, fitMain E data solverKnown (some ns) pruneEdges folds none none (some candidates) rs = .ok r := by
  obtain ⟨results, h1⟩ := latentLoop_returns (it := E.it) (fit := E.fit (foldData E.cov training e)) (prune := pruneEdges) hne hG
    (test := foldData E.cov testG e) ns (fun n _ => hfit _ n) (fun n hn G hGm k H I hH hs => by
      obtain ⟨m, s, m', k1, k2, k3⟩ := hf n hn G hGm k H I hH hs
      exact ⟨m, s, m', k1, k2, fun d hd => k3 d (by simp at hd; simp [hd])⟩) hB []
  obtain ⟨k1, k2, k3⟩ := latentLoop_spec ns [] results (by simp) (by simp) h1
  obtain ⟨r, h2, h3, -⟩ := sortedM_ok (results.map (fun r => (r.2.1, r.1, r.2.2.1, r.2.2.2))) (by rw [List.map_map]; exact k1)
  cases r with
  | nil =>
    exfalso
    obtain ⟨n, hn⟩ := List.exists_mem_of_ne_nil _ hns
    obtain ⟨x, hx, -⟩ := List.mem_map.1 ((k3 n).2 (Or.inl hn))
    have := h3.length_eq
    simp only [List.length_nil, List.length_map] at this
    rw [List.eq_nil_of_length_eq_zero this.symm] at hx
    simp at hx
  | cons t rest =>
    obtain ⟨sc, n, graph, obj⟩ := t
    have hmem : (n, (sc, graph, obj)) ∈ results := by
      have := h3.mem_iff.1 (List.mem_cons_self (a := (sc, n, graph, obj)) (l := rest))
      obtain ⟨r, hr, hre⟩ := List.mem_map.1 this
      simp only [Prod.mk.injEq] at hre
      obtain ⟨e1, e2, e3, e4⟩ := hre
      rw [← e1, ← e2, ← e3, ← e4]
      exact hr
    have hn : n ∈ ns := by simpa using (k3 n).1 (List.mem_map_of_mem (f := Prod.fst) hmem)
    have hval := graphRun_validation (k2 _ hmem)
    obtain ⟨models, scores, g1, g2, g3⟩ := k2 _ hmem
    simp only at g1 g2 g3 hval
    obtain ⟨o1, -, -, o4⟩ := pruneGraphs_spec (hfit _ n) hG (ScoreObj.ok_new E.it _ 0) g1
    have hgraph : ∃ G ∈ candidates, Subgraph graph G := by
      obtain ⟨ms, ob, v1, ⟨mm, v2, v3, -⟩, -⟩ := hval
      rw [g1] at v1
      cases v1
      rw [← v3]
      obtain ⟨-, G, q1, q2, -⟩ := o4 mm v2
      exact ⟨G, q1, q2⟩
    obtain ⟨G, hGm, hsub⟩ := hgraph
    have hnn : Nonneg graph := by
      intro a b
      rcases hsub a b with hc | hc
      · rw [hc]; exact hG G hGm a b
      · rw [hc]
    obtain ⟨⟨pm, obj'⟩, t1⟩ := C57_returns E.it E.argsort (E.fit (foldData E.cov training e) n) graph obj o1 (fun k I => by
      obtain ⟨m, s, m', k1, k2, -⟩ := hf n hn G hGm k graph I hnn hsub
      exact ⟨m, s, m', k1, k2⟩)
    obtain ⟨m0, s0, order, -, -, -, -, c5, c6⟩ := C57_nested E.it E.argsort harg _ graph obj obj' o1 pm t1
    obtain ⟨ts, t2⟩ := testScores_returns (d := foldData E.cov testI e) (model := Prod.fst) pm (fun x hx => by
      obtain ⟨i, hi⟩ := List.getElem?_of_mem hx
      have hip : i ≤ p := by
        have := (List.getElem?_eq_some_iff.1 hi).1
        omega
      obtain ⟨mi, sf, c7, c8⟩ := c6 i hip
      rw [hi] at c7
      cases c7
      exact fitted_scores (hf n hn G hGm) hnn hsub c8 (by simp))
    have htne : ts ≠ [] := by
      intro hc
      have := (testScores_spec pm t2).1
      rw [hc] at this
      simp only [List.map_nil] at this
      rw [← this] at c5
      simp at c5
    obtain ⟨i, t, t3, -⟩ := bestScoring_spec htne
    obtain ⟨s, m, I⟩ := t
    refine ⟨(m, I, s), ?_⟩
    unfold fitMain
    simp only [hsplit, initialGraphs, latentNumbers, hctor, h1, h2, targetPhase, t1, t2, t3]

/-- C72, the general form: if the data can be split into three folds that `Score` accepts, there is a candidate DAG and a candidate
number of latents, every fit returns and its model has a score on the test folds, and (with `prune_edges`) no fit of a graph with edges
gives zero weights, then `equivalence_class` returns. -/
theorem C72_returns (E : FitEnv p e) (candidates : List (Adj p)) (hne : candidates ≠ []) (hG : ∀ G ∈ candidates, Nonneg G)
    (data : Fin e → Sample p) (solverKnown pruneEdges : Bool) (ns : List Nat) (hns : ns ≠ []) (folds : List Rat) (rs : Int)
    (training testG testI : List (Sample p)) (hsplit : splitData (E.rng 42) (List.ofFn data) folds = .ok [training, testG, testI])
    (hctor : scoreCtor training solverKnown = .ok ()) (hfit : ∀ d h, GoodFit (E.fit d h))
    (hlat : ∀ d h n A I m s, E.fit d h n A I = .ok (m, s) → m.1 = h) (harg : ∀ f, IsArgsort f (E.argsort f))
    (hf : ∀ n ∈ ns, ∀ G ∈ candidates,
      FitsAndScores E.it (E.fit (foldData E.cov training e) n) [foldData E.cov testG e, foldData E.cov testI e] G)
    (hB : pruneEdges = true → ∀ h ∈ ns, ∀ G ∈ candidates, KeepsWeights (E.fit (foldData E.cov training e) h) G) :
    ∃ r, equivalenceClass E candidates data solverKnown pruneEdges (some ns) folds rs = .ok r := by
  obtain ⟨⟨m, I, s⟩, hmain⟩ := fitMain_returns E candidates hne hG data solverKnown pruneEdges ns hns folds 42 training testG testI hsplit
    hctor hfit harg hf hB
  obtain ⟨training', testG', testI', graphs', ns', z1, z2, z3, z4⟩ := fitMain_spec hfit hlat harg hmain
  cases z2
  obtain ⟨-, ⟨G', q1, q2, -⟩, q3, -⟩ := z4 hG
  have hnn' : Nonneg m.A := by
    intro a b
    rcases q2 a b with hc | hc
    · rw [hc]; exact hG G' q1 a b
    · rw [hc]
  obtain ⟨P, hP, -⟩ := C21_interventional_essential_graph E.it m.A hnn' q3 (E.it.toList I)
  unfold equivalenceClass withIcpdag
  simp only [hmain, hP]
  exact ⟨_, rfl⟩

theorem scoreCtor_ok {training : List (Sample p)} (h : ∀ s ∈ training, s.length ≠ 1) : scoreCtor training true = .ok () := by
  have := C67_valid (.list ((training.map (fun s => (s.length, ([] : List Nat)))).map (fun x => .arr (x.1 :: p :: x.2)))) true _
    (.list (training.map (fun s => (s.length, []))) p (by
      intro x hx
      obtain ⟨s, hs, rfl⟩ := List.mem_map.1 hx
      exact h s hs))
  rw [List.map_map] at this
  unfold scoreCtor
  have h2 : (fun s : Sample p => PyItem.arr [s.length, p]) =
      (fun x : Nat × List Nat => PyItem.arr (x.1 :: p :: x.2)) ∘ (fun s : Sample p => (s.length, ([] : List Nat))) := rfl
  rw [h2, this]
  rfl

/-- The fits of the code with the solver `cvx` return models that have scores on all test data. -/
theorem codeFit_fits (it : SetIter p) (svd : Matrix (Fin p) (Fin p) ℝ → Matrix (Fin p) (Fin p) ℝ × (Fin p → ℝ)) (num : NumLib p e)
    (cfg : ScoreCfg) (u v : Nat → Nat → Nat → Fin (p * p) → ℝ) (d : Data p e) (hd : GoodData d) (h : Nat) (hh : h ≤ p) (hp : p ≠ 0)
    (hcvx : cfg.solver = .cvx) (hnum : ∀ A, CvxFeasible num A d) (hthr : 0 < cfg.thresholdScore)
    (hpsi : ∀ x, cfg.psiMax = some x → 1 < x) (hit : 0 < cfg.stop.maxIter) (hfl : 0 < cfg.stop.maxFluctuations)
    (tests : List (Data p e)) (ht : ∀ t ∈ tests, GoodData t) (G : Adj p) (hac : Acyclic G) :
    FitsAndScores it (codeFit it svd num cfg u v d h) tests G := by
  intro n H I hH hs
  obtain ⟨m, s, h1⟩ := C71_score_dag_returns (l := h) it svd num cfg d hd (u h n) (v h n) H hH (subgraph_acyclic hs hac) I hp hh hcvx
    (hnum H) hthr hpsi hit hfl
  have h2 : codeFit it svd num cfg u v d h n H I = .ok (⟨h, m⟩, some s) := by
    have h1' := h1
    unfold fitCode at h1'
    unfold codeFit
    rw [h1']
  obtain ⟨b1, b2, -⟩ := C47_within_bounds none m _ h1
  obtain ⟨-, -, m', hm'⟩ := C45_fitted_model (fun hc => by rw [hcvx] at hc; simp at hc) none m _ h1
  refine ⟨⟨h, m⟩, some s, ⟨h, m'⟩, h2, ?_, ?_⟩
  · unfold AnyModel.copy
    rw [hm']
  · intro t htt
    have e1 := scoreOn_ok t (ht t htt) m b1 (fun k i => (b2 k i).le)
    obtain ⟨-, -, rfl⟩ := mkModel_fields hm'
    exact ⟨⟨_, e1⟩, ⟨_, scoreOn_ok t (ht t htt) ⟨m.A, m.B, m.gamma, m.omegas, m.psis, 1 - m.Bᵀ⟩ b1 (fun k i => (b2 k i).le)⟩⟩

/-- C72: with the solver `cvx` and without `prune_edges`, `equivalence_class` returns for all non-empty lists of candidate DAGs over at
least one variable, all non-empty lists of numbers of latents between zero and `p`, if the sample covariances of all environments are
positive definite in all three folds (and the other parameters as in C71).  With `prune_edges` it returns if no fitted weight matrix of
a graph with edges is zero (by C56 it runs forever otherwise). -/
theorem C72_cvx (E : FitEnv p e) (svd : Matrix (Fin p) (Fin p) ℝ → Matrix (Fin p) (Fin p) ℝ × (Fin p → ℝ)) (num : NumLib p e)
    (cfg : ScoreCfg) (u v : Nat → Nat → Nat → Fin (p * p) → ℝ) (hE : E.fit = codeFit E.it svd num cfg u v) (hp : p ≠ 0)
    (candidates : List (Adj p)) (hne : candidates ≠ []) (hG : ∀ G ∈ candidates, Nonneg G ∧ Acyclic G)
    (data : Fin e → Sample p) (pruneEdges : Bool) (ns : List Nat) (hns : ns ≠ []) (hnp : ∀ n ∈ ns, n ≤ p) (folds : List Rat) (rs : Int)
    (training testG testI : List (Sample p)) (hsplit : splitData (E.rng 42) (List.ofFn data) folds = .ok [training, testG, testI])
    (hsize : ∀ s ∈ training, s.length ≠ 1) (hgood : ∀ f ∈ [training, testG, testI], GoodData (foldData E.cov f e))
    (harg : ∀ f, IsArgsort f (E.argsort f)) (hcvx : cfg.solver = .cvx) (hnum : ∀ A, CvxFeasible num A (foldData E.cov training e))
    (hthr : 0 < cfg.thresholdScore) (hpsi : ∀ x, cfg.psiMax = some x → 1 < x) (hit : 0 < cfg.stop.maxIter)
    (hfl : 0 < cfg.stop.maxFluctuations)
    (hB : pruneEdges = true → ∀ h ∈ ns, ∀ G ∈ candidates, KeepsWeights (E.fit (foldData E.cov training e) h) G) :
    ∃ r, equivalenceClass E candidates data true pruneEdges (some ns) folds rs = .ok r := by
  refine C72_returns E candidates hne (fun G h => (hG G h).1) data true pruneEdges ns hns folds rs training testG testI hsplit
    (scoreCtor_ok hsize) ?_ ?_ harg ?_ hB
  · intro d h
    rw [hE]
    exact codeFit_good _ _ _ _ _ _ _ _ (fun hc => by rw [hcvx] at hc; simp at hc)
  · intro d h n A I m s hm
    rw [hE] at hm
    exact codeFit_latents hm
  · intro n hn G hGm
    rw [hE]
    exact codeFit_fits E.it svd num cfg u v _ (hgood _ (by simp)) n (hnp n hn) hp hcvx hnum hthr hpsi hit hfl _ (by
      intro t ht
      simp only [List.mem_cons, List.not_mem_nil, or_false] at ht
      rcases ht with rfl | rfl <;> exact hgood _ (by simp)) G (hG G hGm).2

section Example

theorem pyRound_int (n : Int) : pyRound (n : Rat) = n := by
  unfold pyRound
  simp

theorem exSplit {α : Type} (rng : Nat → Rng) (l : List α) (hl : l.length = 8) :
    splitData rng (List.ofFn (fun _ : Fin 1 => l)) [1 / 2, 1 / 4, 1 / 4] =
      .ok [[((rng 0).shuffle l).take 4], [(((rng 0).shuffle l).drop 4).take 2], [(((rng 0).shuffle l).drop 6).take 2]] := by
  have hs : ((rng 0).shuffle l).length = 8 := by rw [((rng 0).shuffle_perm l).length_eq, hl]
  have r1 : pyRound (4 : Rat) = 4 := pyRound_int 4
  have r2 : pyRound (2 : Rat) = 2 := pyRound_int 2
  have b0 : sliceBound 8 0 = 0 := by decide
  have b1 : sliceBound 8 4 = 4 := by decide
  have b2 : sliceBound 8 6 = 6 := by decide
  have b3 : sliceBound 8 8 = 8 := by decide
  have hr : List.range 3 = [0, 1, 2] := by decide
  unfold splitData
  rw [if_neg (by norm_num)]
  simp [splitSample, hs, pySlice, List.zipIdx]
  norm_num [r1, r2, b0, b1, b2, b3, hr, List.drop_take]

/-- A fitting procedure that takes the graph as weights and the sample variances as variances of the noise. -/
noncomputable def varFit (it : SetIter p) (d : Data p e) (h : Nat) : Fitter p e := fun _ A _ =>
  match mkModel it A (Matrix.of (fun i j => (A i j : ℝ))) (0 : Matrix (Fin h) (Fin p) ℝ) (Matrix.of (fun k i => d.covs k i i)) 0 with
  | .error err => .error err
  | .ok m => .ok (⟨h, m⟩, some 0)

theorem varFit_fields {it : SetIter p} {d : Data p e} {h n : Nat} {A : Adj p} {I : Finset (Fin p)} {m : AnyModel p e} {s : Flt}
    (hm : varFit it d h n A I = .ok (m, s)) : isDag it A = true ∧ m.1 = h ∧ m.A = A ∧ m.B = Matrix.of (fun i j => (A i j : ℝ)) ∧
      m.omegas = Matrix.of (fun k i => d.covs k i i) := by
  unfold varFit at hm
  split at hm
  · simp at hm
  · rename_i m0 h0
    cases hm
    obtain ⟨h1, -, rfl⟩ := mkModel_fields h0
    exact ⟨h1, rfl, rfl, rfl, rfl⟩

theorem varFit_good (it : SetIter p) (d : Data p e) (h : Nat) : GoodFit (varFit it d h) := by
  intro n A I m s hm
  obtain ⟨h1, -, h2, h3, -⟩ := varFit_fields hm
  refine ⟨h2, fun hA => (isDag_iff it hA).1 h1, fun a b hab => ?_⟩
  rw [h3]
  simp [hab]

theorem varFit_fits (it : SetIter p) (d : Data p e) (hd : GoodData d) (h : Nat) (tests : List (Data p e))
    (ht : ∀ t ∈ tests, GoodData t) (G : Adj p) (hac : Acyclic G) : FitsAndScores it (varFit it d h) tests G := by
  intro n A I hA hs
  have h1 := mkModel_eq_ok (it := it) hA (B := Matrix.of (fun i j => (A i j : ℝ))) (0 : Matrix (Fin h) (Fin p) ℝ)
    (Matrix.of (fun (k : Fin e) i => d.covs k i i)) 0 (subgraph_acyclic hs hac) (by intro a b hab; simp [hab])
  obtain ⟨m, hm⟩ : ∃ m, m = (⟨A, Matrix.of (fun i j => (A i j : ℝ)), (0 : Matrix (Fin h) (Fin p) ℝ),
    Matrix.of (fun (k : Fin e) i => d.covs k i i), 0, 1 - (Matrix.of (fun i j => (A i j : ℝ))).transpose⟩ : LModel p h e) := ⟨_, rfl⟩
  have hsc : ∀ t ∈ tests, ∃ r, m.scoreOn t = .ok r := fun t htt => ⟨_, scoreOn_ok t (ht t htt) m
    (fun k i => by rw [hm]; exact (hd.posDef k).diag_pos) (fun k i => by rw [hm]; exact le_refl _)⟩
  refine ⟨⟨h, m⟩, some 0, ⟨h, m⟩, by unfold varFit; rw [h1, hm], ?_, fun t htt => ⟨hsc t htt, hsc t htt⟩⟩
  unfold AnyModel.copy LModel.copy
  rw [hm]
  simp only [h1]

/-- The covariance oracle of the examples: it depends on the first row. -/
noncomputable def exCov (s : Sample p) : Matrix (Fin p) (Fin p) ℝ :=
  open Classical in if s.head? = some 0 then 1 else (2 : ℝ) • (1 : Matrix (Fin p) (Fin p) ℝ)

theorem exCov_posDef (s : Sample p) : (exCov s).PosDef := by
  unfold exCov
  split
  · exact Matrix.PosDef.one
  · exact Matrix.PosDef.one.smul (by norm_num)

noncomputable def exEnv (p : Nat) : FitEnv p 1 where
  it := SetIter.incr p
  rng := fun rs _ => if rs = 1 then Rng.back else Rng.front
  cov := exCov
  argsort := insArgsort
  svals := fun _ => []
  gesFit := fun _ => fun i j => if i = j then 0 else 1
  fit := fun d h => varFit (SetIter.incr p) d h

theorem exEnv_data (f : List (Sample p)) (s : Sample p) (hf : f = [s]) (hs : s.length ≠ 0) : GoodData (foldData (exEnv p).cov f 1) := by
  refine ⟨fun k => exCov_posDef _, fun k => ?_, by norm_num⟩
  subst hf
  have : k.val = 0 := by omega
  simp only [foldData, this, List.getD_cons_zero]
  omega

/-- Every candidate list of DAGs over `p` variables and every list of numbers of latents are treated without error in this
environment, with pruning: an example for the hypotheses of C58, C59 and `C72_returns`. -/
theorem exEnv_returns (candidates : List (Adj p)) (hne : candidates ≠ []) (hG : ∀ G ∈ candidates, Nonneg G ∧ Acyclic G)
    (l : Sample p) (hl : l.length = 8) (pruneEdges : Bool) (ns : List Nat) (hns : ns ≠ []) (rs : Int) :
    ∃ r, fitMain (exEnv p) (fun _ => l) true (some ns) pruneEdges [1 / 2, 1 / 4, 1 / 4] none none (some candidates) rs = .ok r := by
  have hs : (((exEnv p).rng rs 0).shuffle l).length = 8 := by rw [(((exEnv p).rng rs 0).shuffle_perm l).length_eq, hl]
  have g1 := exEnv_data [(((exEnv p).rng rs 0).shuffle l).take 4] _ rfl (by simp [hs])
  have g2 := exEnv_data [((((exEnv p).rng rs 0).shuffle l).drop 4).take 2] _ rfl (by simp [hs])
  have g3 := exEnv_data [((((exEnv p).rng rs 0).shuffle l).drop 6).take 2] _ rfl (by simp [hs])
  refine fitMain_returns (exEnv p) candidates hne (fun G h => (hG G h).1) _ true pruneEdges ns hns _ rs _ _ _
    (exSplit ((exEnv p).rng rs) l hl) (scoreCtor_ok (by simp [hs])) (fun d h => varFit_good _ d h) insArgsort_spec ?_ ?_
  · intro n _ G hGm
    refine varFit_fits _ _ g1 n _ ?_ G (hG G hGm).2
    intro t ht
    simp only [List.mem_cons, List.not_mem_nil, or_false] at ht
    rcases ht with rfl | rfl
    · exact g2
    · exact g3
  · rintro - h _ G _ n H m s - - hm ⟨a, b, hab⟩ h0
    rw [(varFit_fields (n := n) (I := Finset.univ) hm).2.2.2.1] at h0
    have := congrFun (congrFun h0 a) b
    simp at this
    exact hab this

/-- The weights, the number of latents and the variances of the result in this environment. -/
theorem exEnv_omegas {candidates : List (Adj p)} (hG : ∀ G ∈ candidates, Nonneg G)
    {l : Sample p} (hl : l.length = 8) {pruneEdges : Bool} {ns : List Nat} {rs : Int} {m : AnyModel p 1} {I : Finset (Fin p)} {s : Flt}
    (h : fitMain (exEnv p) (fun _ => l) true (some ns) pruneEdges [1 / 2, 1 / 4, 1 / 4] none none (some candidates) rs = .ok (m, I, s)) :
    m.omegas = Matrix.of (fun _ i => exCov ((((exEnv p).rng rs 0).shuffle l).take 4) i i) := by
  obtain ⟨training, testG, testI, graphs, ns', h1, h2, h3, h4⟩ := fitMain_spec (E := exEnv p) (fun d h => varFit_good _ d h)
    (fun d h n A I m s hm => (varFit_fields (n := n) (I := I) hm).2.1) insArgsort_spec h
  rw [exSplit ((exEnv p).rng rs) l hl] at h1
  cases h1
  cases h2
  obtain ⟨-, -, -, -, -, m0, s0, order, -, -, -, -, ⟨sf, k7⟩, -⟩ := h4 hG
  obtain ⟨n, m1, f1, -, -, -, f2⟩ := k7.fields
  rw [f2, (varFit_fields (n := n) (I := I) f1).2.2.2.2]
  ext k i
  have : k.val = 0 := by omega
  simp only [Matrix.of_apply, foldData, this, List.getD_cons_zero]
  rfl

/-- C60: the algorithm itself does depend on the random state (through the split of the data): for other values than the hard-coded
one it may return something else. -/
theorem C60_would_matter : ∃ (E : FitEnv 2 1) (candidates : List (Adj 2)) (data : Fin 1 → Sample 2) (ns : List Nat) (folds : List Rat)
    (rs rs' : Int) (r r' : AnyModel 2 1 × Finset (Fin 2) × Flt),
    fitMain E data true (some ns) true folds none none (some candidates) rs = .ok r ∧
    fitMain E data true (some ns) true folds none none (some candidates) rs' = .ok r' ∧ r.1.omegas ≠ r'.1.omegas := by
  have hn : Nonneg (![![0, 1], ![0, 0]] : Adj 2) := by unfold Nonneg; decide
  have hac : Acyclic (![![0, 1], ![0, 0]] : Adj 2) := (isDag_iff (SetIter.incr 2) hn).1 (by decide)
  have hG : ∀ G ∈ [(![![0, 1], ![0, 0]] : Adj 2)], Nonneg G ∧ Acyclic G := by
    intro G hG; rw [List.mem_singleton] at hG; subst hG; exact ⟨hn, hac⟩
  obtain ⟨l, hl⟩ : ∃ l : Sample 2, l = [0, 0, 0, 0, 0, 0, 0, 1] := ⟨_, rfl⟩
  have hll : l.length = 8 := by rw [hl]; rfl
  obtain ⟨⟨m, I, s⟩, h1⟩ := exEnv_returns [(![![0, 1], ![0, 0]] : Adj 2)] (by simp) hG l hll true [1, 2] (by simp) 0
  obtain ⟨⟨m', I', s'⟩, h2⟩ := exEnv_returns [(![![0, 1], ![0, 0]] : Adj 2)] (by simp) hG l hll true [1, 2] (by simp) 1
  refine ⟨exEnv 2, _, fun _ => l, [1, 2], _, 0, 1, _, _, h1, h2, ?_⟩
  simp only
  rw [exEnv_omegas (fun G h => (hG G h).1) hll h1, exEnv_omegas (fun G h => (hG G h).1) hll h2]
  intro hc
  have := congrFun (congrFun hc 0) 0
  have h01 : (0 : Fin 2 → ℝ) ≠ 1 := fun hc => by simpa using congrFun hc 0
  simp [exEnv, Rng.front, Rng.back, hl, exCov, h01.symm] at this

/-- An example for `C58_selection`, `C59_coherent` and `C59_targets`: two candidate DAGs, two numbers of latents, pruning. -/
example : ∃ P I m, equivalenceClass (exEnv 2) [![![0, 1], ![0, 0]], ![![0, 0], ![1, 0]]] (fun _ => List.replicate 8 0) true true
    (some [1, 2]) [1 / 2, 1 / 4, 1 / 4] 0 = .ok (P, I, m) ∧ Acyclic m.A ∧ m.1 ∈ [1, 2] := by
  have hn : ∀ G ∈ [(![![0, 1], ![0, 0]] : Adj 2), ![![0, 0], ![1, 0]]], Nonneg G ∧ Acyclic G := by
    intro G hG
    simp only [List.mem_cons, List.not_mem_nil, or_false] at hG
    rcases hG with rfl | rfl
    · have : Nonneg (![![0, 1], ![0, 0]] : Adj 2) := by unfold Nonneg; decide
      exact ⟨this, (isDag_iff (SetIter.incr 2) this).1 (by decide)⟩
    · have : Nonneg (![![0, 0], ![1, 0]] : Adj 2) := by unfold Nonneg; decide
      exact ⟨this, (isDag_iff (SetIter.incr 2) this).1 (by decide)⟩
  obtain ⟨⟨m, I, s⟩, h⟩ := exEnv_returns _ (by simp) hn (List.replicate 8 (0 : Fin 2 → ℝ)) (by simp) true [1, 2] (by simp) 42
  obtain ⟨training, testG, testI, graphs, ns', h1, h2, h3, h4⟩ := fitMain_spec (E := exEnv 2) (fun d h => varFit_good _ d h)
    (fun d h n A I m s hm => (varFit_fields (n := n) (I := I) hm).2.1) insArgsort_spec h
  cases h2
  cases h3
  obtain ⟨k1, ⟨G', q1, q2, -⟩, k3, -⟩ := h4 (fun G h => (hn G h).1)
  have hnn' : Nonneg m.A := by
    intro a b
    rcases q2 a b with hc | hc
    · rw [hc]; exact (hn G' q1).1 a b
    · rw [hc]
  obtain ⟨P, hP, -⟩ := C21_interventional_essential_graph (exEnv 2).it m.A hnn' k3 ((exEnv 2).it.toList I)
  refine ⟨P, I, m, ?_, k3, k1⟩
  unfold equivalenceClass withIcpdag
  simp only [h, hP]

/-- The hypotheses of `C72_cvx` can be met: a solver library that returns the weights zero, uncorrelated samples. -/
example (svd : Matrix (Fin 2) (Fin 2) ℝ → Matrix (Fin 2) (Fin 2) ℝ × (Fin 2 → ℝ)) (u v : Nat → Nat → Nat → Fin (2 * 2) → ℝ) :
    ∃ (E : FitEnv 2 1) (r : Adj 2 × Finset (Fin 2) × AnyModel 2 1),
      equivalenceClass E [![![0, 1], ![0, 0]]] (fun _ => List.replicate 8 0) true false (some [0, 1, 2]) [1 / 2, 1 / 4, 1 / 4] 0 = .ok r := by
  obtain ⟨num, hnum⟩ : ∃ num : NumLib 2 1, ∀ A Ms d, num.cvx A Ms d = some 0 := ⟨⟨id, fun _ => true, fun x => x / 2, fun _ _ _ => some 0⟩, fun _ _ _ => rfl⟩
  obtain ⟨cfg, hc⟩ : ∃ cfg : ScoreCfg, cfg = ⟨.cvx, none, false, ⟨1000, 1 / 1000, 1 / 100000, 10⟩, 1 / 100000, 10⟩ := ⟨_, rfl⟩
  have hn : Nonneg (![![0, 1], ![0, 0]] : Adj 2) := by unfold Nonneg; decide
  refine ⟨{ exEnv 2 with fit := codeFit (exEnv 2).it svd num cfg u v }, ?_⟩
  refine C72_cvx { exEnv 2 with fit := codeFit (exEnv 2).it svd num cfg u v } svd num cfg u v rfl (by norm_num) _ (by simp) ?_ _ false
    [0, 1, 2] (by simp) (by simp) _ 0 _ _ _ (exSplit _ (List.replicate 8 (0 : Fin 2 → ℝ)) (by simp)) ?_ ?_ insArgsort_spec (by rw [hc]) ?_ (by rw [hc]; norm_num)
    (by rw [hc]; simp) (by rw [hc]; simp) (by rw [hc]; simp) (by simp)
  · intro G hG
    rw [List.mem_singleton] at hG
    subst hG
    exact ⟨hn, (isDag_iff (SetIter.incr 2) hn).1 (by decide)⟩
  · simp [exEnv, Rng.front]
  · intro f hf
    simp only [List.mem_cons, List.not_mem_nil, or_false] at hf
    rcases hf with rfl | rfl | rfl <;> exact exEnv_data _ _ rfl (by simp [exEnv, Rng.front])
  · intro A Ms
    exact ⟨0, hnum _ _ _, by intro i j _; norm_num⟩

/-- The hypotheses of C61 are met: GES finds the undirected edge `0 - 1`. -/
example (rs : Int) : ∃ D : List (Adj 2), D.Nodup ∧ (∀ H, H ∈ D ↔ ZeroOne H ∧ IsExtension H (![![0, 1], ![1, 0]] : Adj 2)) ∧
    equivalenceClassGes (exEnv 2) (fun _ => List.replicate 8 0) true (some [1]) [1 / 2, 1 / 4, 1 / 4] rs =
      equivalenceClass (exEnv 2) D (fun _ => List.replicate 8 0) true true (some [1]) [1 / 2, 1 / 4, 1 / 4] rs := by
  have hg : ∀ x, (exEnv 2).gesFit x = (![![0, 1], ![1, 0]] : Adj 2) := by
    intro x
    funext i j
    fin_cases i <;> fin_cases j <;> rfl
  have := C61_ges (exEnv 2) (by norm_num) (fun _ => List.replicate 8 (0 : Fin 2 → ℝ)) true (some [1]) [1 / 2, 1 / 4, 1 / 4] rs _ _ _
    (exSplit _ _ (by simp)) (by rw [hg]; unfold ZeroOne; decide) (by rw [hg]; unfold NoLoops; decide)
    (Or.inl ⟨0, 1, by rw [hg]; unfold UndEdge; decide⟩)
  rwa [hg] at this

end Example

end Verif
