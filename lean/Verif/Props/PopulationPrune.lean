import Verif.Props.PopulationCode

/-!
# C104: what `prune_edges` does on exact covariances without latents

`_weakest_edge` counts a weight that is exactly zero as infinite (C55, C56).  On the exact covariances of a model without latents the weights of
superfluous edges are exactly zero, so pruning removes the other edges first.
-/

namespace Verif

open Spec Matrix

variable {p e : Nat}

/-- Without latents the weights are determined by the graph and the covariance of one environment. -/
theorem entailed_weights_unique {A : Adj p} (hac : Acyclic A) {B B' C : Matrix (Fin p) (Fin p) ℝ} (hB : Respects A B) (hB' : Respects A B')
    {w w' : Fin p → ℝ} (hC : C.PosDef) (h : Entails B (Matrix.diagonal w) C) (h' : Entails B' (Matrix.diagonal w') C) : B = B' :=
  normal_unique hC hB hB' (C103_regression hac hB h) (C103_regression hac hB' h')

/-- A larger graph entails the same covariances. -/
theorem entailedBy_mono {I : Finset (Fin p)} {H G : Adj p} (hs : Subgraph H G) {C : Fin e → Matrix (Fin p) (Fin p) ℝ} (h : EntailedBy I H C) :
    EntailedBy I G C := by
  obtain ⟨B, w, h1, h2⟩ := h
  refine ⟨B, w, fun i j hij => h1 i j ?_, h2⟩
  rcases hs i j with hc | hc
  · rw [hc, hij]
  · exact hc

/-- The chain of graphs shrinks. -/
theorem Spec.PruningChain.subgraph {it : SetIter p} {fit : Fitter p e} {G : Adj p} {ms : List (AnyModel p e)} (h : PruningChain it fit G ms)
    {i j : Nat} {m m' : AnyModel p e} (hi : ms[i]? = some m) (hj : ms[j]? = some m') (hij : i ≤ j) : Subgraph m'.A m.A := by
  obtain ⟨k, rfl⟩ := Nat.exists_eq_add_of_le hij
  clear hij
  induction k generalizing m' with
  | zero =>
    rw [Nat.add_zero, hi] at hj
    cases hj
    exact fun a b => Or.inl rfl
  | succ k ih =>
    have hl := (List.getElem?_eq_some_iff.1 hj).1
    have hm : ms[i + k]? = some ms[i + k] := List.getElem?_eq_getElem (by omega)
    have h1 := ih hm
    obtain ⟨a, b, -, -, h4, h5⟩ := h.steps (i + k) _ _ hm hj
    intro c d
    by_cases hcd : c = a ∧ d = b
    · obtain ⟨rfl, rfl⟩ := hcd
      exact Or.inr h4
    · rw [h5 c d hcd]
      exact h1 c d

/-- A fitted model that entails the covariances has the weights that do so. -/
theorem exact_weights {it : SetIter p} {A : Adj p} (hA : Nonneg A) (hac : Acyclic A) {m : AnyModel p e} (hl : m.1 = 0) (hmA : m.A = A)
    (hm : Proper it m.2) {C : Fin e → Matrix (Fin p) (Fin p) ℝ} (hmC : m.2.covariances = .ok C) (k : Fin e) (hC : (C k).PosDef)
    {B : Matrix (Fin p) (Fin p) ℝ} (hB : Respects A B) {w : Fin p → ℝ} (hent : Entails B (Matrix.diagonal w) (C k)) : m.B = B := by
  obtain ⟨l, m⟩ := m
  change l = 0 at hl
  subst hl
  obtain ⟨A', B', gamma, omegas, psis, hA', k1, -, -⟩ := hm
  obtain ⟨-, hB', e1⟩ := mkModel_ok hA' k1
  have h1 : m.A = A' := congrArg LModel.A e1
  have h2 : m.B = B' := congrArg LModel.B e1
  change m.A = A at hmA
  rw [h1] at hmA
  subst hmA
  obtain ⟨-, C', hC', hent'⟩ := C35_covariances it A' hA' B' gamma omegas psis m k1
  rw [hmC] at hC'
  cases hC'
  have h3 := (hent' k).1
  rw [noiseCov_zero] at h3
  show m.B = B
  rw [h2]
  exact entailed_weights_unique hac hB' hB hC h3 hent

/-- The models on a chain of pruned graphs, for an exact fitting procedure. -/
theorem chain_exact {it : SetIter p} {fit : Fitter p e} (hg : GoodFit fit) (hlat : ∀ n A I m s, fit n A I = .ok (m, s) → m.1 = 0)
    {C : Fin e → Matrix (Fin p) (Fin p) ℝ} (hC : ∀ k, (C k).PosDef) (he : 0 < e) (hx : ExactFit it 0 C fit) {G : Adj p} (hG : Nonneg G)
    {ms : List (AnyModel p e)} (hc : PruningChain it fit G ms) {i : Nat} {m : AnyModel p e} (hm : ms[i]? = some m)
    (hent : EntailedBy Finset.univ m.A C) : i = 0 ∧ m.A = G := by
  obtain ⟨m0, f1, f2⟩ := hc.first
  rw [List.head?_eq_getElem?] at f1
  rcases Nat.eq_zero_or_pos i with rfl | hi
  · rw [f1] at hm
    cases hm
    exact ⟨rfl, f2⟩
  exfalso
  have hl := (List.getElem?_eq_some_iff.1 hm).1
  have h1 : ms[0 + 1]? = some ms[0 + 1] := List.getElem?_eq_getElem (by omega)
  obtain ⟨a, b, ⟨w1, -⟩, -, r2, -⟩ := hc.steps 0 _ _ f1 h1
  have hsub := hc.subgraph h1 hm (by omega)
  have hsub0 := hc.subgraph f1 hm (by omega)
  rw [f2] at hsub0
  obtain ⟨s0, hf0⟩ := hc.fitted m0 (List.mem_of_getElem? f1)
  rw [f2] at hf0
  have hac : Acyclic G := (hf0.good hg).2.1 hG
  have hentG := entailedBy_mono hsub0 hent
  obtain ⟨x1, x2⟩ := exactFit_fitted hx hG hf0
  obtain ⟨mm, mm1, mm2⟩ := (admissible_iff it Finset.univ hG hac 0 C).2 hentG
  obtain ⟨x3, x4⟩ := x2 ⟨0, mm, fun _ i => i.elim0, mm1, mm2⟩
  obtain ⟨B, w, b1, -, -, b4⟩ := hent
  have hBG : Respects G B := fun c d hcd => b1 c d (by
    rcases hsub0 c d with hh | hh
    · rw [hh, hcd]
    · exact hh)
  have hB := exact_weights hG hac (fitted_latents hlat hf0) f2 x3 x4 ⟨0, he⟩ (hC _) hBG (b4 _)
  apply w1
  rw [hB]
  refine b1 a b ?_
  rcases hsub a b with hh | hh
  · rw [hh, r2]
  · exact hh

/-- C104: on exact covariances without latents, no graph reached by pruning a candidate entails them, except the candidate itself: the first
edge removed has a non-zero weight, since the superfluous edges count as infinitely strong. -/
theorem C104_prune_chain (it : SetIter p) (fit : Fitter p e) (hg : GoodFit fit) (hlat : ∀ n A I m s, fit n A I = .ok (m, s) → m.1 = 0)
    (C : Fin e → Matrix (Fin p) (Fin p) ℝ) (hC : ∀ k, (C k).PosDef) (he : 0 < e) (hx : ExactFit it 0 C fit) (G : Adj p) (hG : Nonneg G)
    (obj obj' : ScoreObj p e) (ho : obj.Ok it fit) (ms : List (AnyModel p e)) (h : pruneGraph it fit true none obj G = .ok (ms, obj'))
    (i : Nat) (m : AnyModel p e) (hm : ms[i]? = some m) (hent : EntailedBy Finset.univ m.A C) : i = 0 ∧ m.A = G :=
  chain_exact hg hlat hC he hx hG (C55_chain it fit hg obj obj' ho G hG ms h).1 hm hent

/-- The position of an element of a concatenation. -/
theorem flatten_position {α : Type} : ∀ (blocks : List (List α)) (k : Nat) (x : α), blocks.flatten[k]? = some x →
    ∃ (i j : Nat) (b : List α), blocks[i]? = some b ∧ b[j]? = some x ∧
      ∀ i' < i, ∀ b', blocks[i']? = some b' → ∀ y ∈ b', ∃ k' < k, blocks.flatten[k']? = some y
  | [], k, x, h => by simp at h
  | b :: blocks, k, x, h => by
    rw [List.flatten_cons] at h ⊢
    by_cases hk : k < b.length
    · rw [List.getElem?_append_left hk] at h
      exact ⟨0, k, b, rfl, h, fun i' hi' => by omega⟩
    · rw [List.getElem?_append_right (by omega)] at h
      obtain ⟨i, j, c, h1, h2, h3⟩ := flatten_position blocks _ x h
      refine ⟨i + 1, j, c, by simpa using h1, h2, fun i' hi' b' hb' y hy => ?_⟩
      cases i' with
      | zero =>
        simp only [List.getElem?_cons_zero, Option.some.injEq] at hb'
        subst hb'
        obtain ⟨k', hk', hke⟩ := List.getElem_of_mem hy
        exact ⟨k', by omega, by rw [List.getElem?_append_left hk', List.getElem?_eq_getElem hk', hke]⟩
      | succ i' =>
        simp only [List.getElem?_cons_succ] at hb'
        obtain ⟨k', h4, h5⟩ := h3 i' (by omega) b' hb' y hy
        exact ⟨k' + b.length, by omega, by rw [List.getElem?_append_right (by omega)]; simpa using h5⟩

/-- C95, with `prune_edges`: in every run that returns, the chosen graph is the first one with the best score on the second fold in the
concatenation of the chains. -/
theorem C95_first_pruned {E : FitEnv p e} (hfit : ∀ d h, GoodFit (E.fit d h))
    (hlat : ∀ d h n A I m s, E.fit d h n A I = .ok (m, s) → m.1 = h) (harg : ∀ f, IsArgsort f (E.argsort f))
    {data : Fin e → Sample p} {solverKnown : Bool} {numsLatent : Option (List Nat)}
    {folds : List Rat} {initial : Option (List (Adj p))} {rs : Int} {m : AnyModel p e} {I : Finset (Fin p)} {s : Flt}
    (h : fitMain E data solverKnown numsLatent true folds none none initial rs = .ok (m, I, s)) :
    ∃ training testG testI graphs, splitData (E.rng rs) (List.ofFn data) folds = .ok [training, testG, testI] ∧
      initialGraphs E initial training = .ok graphs ∧ ((∀ G ∈ graphs, Nonneg G) →
      ∃ (models : List (AnyModel p e)) (obj : ScoreObj p e) (k : Nat) (mk : AnyModel p e) (sc : Flt),
        pruneGraphs E.it (E.fit (foldData E.cov training e) m.1) true none graphs ⟨0, []⟩ = .ok (models, obj) ∧
        models[k]? = some mk ∧ mk.A = m.A ∧ mk.scoreOn (foldData E.cov testG e) = .ok sc ∧
        ∀ j mj, models[j]? = some mj → ∃ sj, mj.scoreOn (foldData E.cov testG e) = .ok sj ∧ AtMost sc sj ∧ (j < k → ¬ AtMost sj sc)) := by
  obtain ⟨training, testG, testI, graphs, ns, results, sc, n, graph, obj, rest, h1, h2, h3, h4, h5, h6⟩ := fitMain_ok h
  refine ⟨training, testG, testI, graphs, h1, h2, fun hG => ?_⟩
  obtain ⟨k1, k2, k3⟩ := latentLoop_spec ns [] results (by simp) (by simp) h4
  obtain ⟨r, k4, k5, -⟩ := sortedM_ok (results.map (fun r => (r.2.1, r.1, r.2.2.1, r.2.2.2))) (by rw [List.map_map]; exact k1)
  rw [h5] at k4
  cases k4
  have hmem : (n, (sc, graph, obj)) ∈ results := by
    have := k5.mem_iff.1 (List.mem_cons_self (a := (sc, n, graph, obj)) (l := rest))
    obtain ⟨r, hr, hre⟩ := List.mem_map.1 this
    simp only [Prod.mk.injEq] at hre
    obtain ⟨e1, e2, e3, e4⟩ := hre
    rw [← e1, ← e2, ← e3, ← e4]
    exact hr
  obtain ⟨models, scores, g1, g2, g3⟩ := k2 _ hmem
  simp only at g1 g2 g3
  obtain ⟨o1, -⟩ := pruneGraphs_spec (hfit _ n) hG (ScoreObj.ok_new E.it _ 0) g1
  obtain ⟨q1, q2⟩ := testScores_spec models g2
  obtain ⟨pm, obj', ps, t1, t2, t3⟩ := targetPhase_ok h6
  obtain ⟨-, -, order, -, -, -, -, c5, c6⟩ := C57_nested E.it E.argsort harg _ graph obj obj' o1 pm t1
  have hinpm : (m, I) ∈ pm := by
    rw [← (testScores_spec pm t2).1]
    exact List.mem_map_of_mem (bestScoring_mem t3)
  obtain ⟨i', hi'⟩ := List.getElem?_of_mem hinpm
  obtain ⟨mi, sf, c7, c8⟩ := c6 i' (by
    have := (List.getElem?_eq_some_iff.1 hi').1
    omega)
  rw [hi'] at c7
  simp only [Option.some.injEq, Prod.mk.injEq] at c7
  obtain ⟨e1, e2⟩ := c7
  rw [← e2, ← e1] at c8
  have hmA : m.A = graph := (c8.good (hfit _ n)).1
  have hm1 : m.1 = n := fitted_latents (hlat _ _) c8
  rw [hmA, hm1]
  obtain ⟨i, t, b1, b2, b3, b4⟩ := bestScoring_spec (List.ne_nil_of_mem (bestScoring_mem g3))
  rw [g3] at b1
  cases b1
  rw [List.getElem?_map] at b2
  obtain ⟨x, hx, hxe⟩ := Option.map_eq_some_iff.1 b2
  simp only [Prod.mk.injEq] at hxe
  refine ⟨models, obj, i, x.2, sc, g1, by rw [← q1, List.getElem?_map, hx]; rfl, hxe.2,
    by rw [← hxe.1]; exact q2 x (List.mem_of_getElem? hx), fun j mj hj => ?_⟩
  rw [← q1, List.getElem?_map] at hj
  obtain ⟨y, hy, rfl⟩ := Option.map_eq_some_iff.1 hj
  refine ⟨y.1, q2 y (List.mem_of_getElem? hy), ?_, fun hji => ?_⟩
  · exact atMost_iff.1 (b3 (y.1, y.2.A) (List.mem_map_of_mem (f := fun x : Flt × AnyModel p e => (x.1, x.2.A)) (List.mem_of_getElem? hy)))
  · rw [← atMost_iff, not_le]
    exact b4 j hji (y.1, y.2.A) (by rw [List.getElem?_map, hy]; rfl)

/-- C104, with `prune_edges`: under the hypotheses of `C104_no_latents`, whenever the call returns, the model is over one of the candidates,
the same one as without `prune_edges`: no edge is removed from it, however many of its edges are superfluous. -/
theorem C104_prune (E : FitEnv p e) (svd : Matrix (Fin p) (Fin p) ℝ → Matrix (Fin p) (Fin p) ℝ × (Fin p → ℝ)) (num : NumLib p e)
    (hs : GoodSqrt num.sqrtm) (cfg : ScoreCfg) (u v : Nat → Nat → Nat → Fin (p * p) → ℝ) (hE : E.fit = codeFit E.it svd num cfg u v)
    (hp0 : p ≠ 0) (he : 0 < e) (hcvx : cfg.solver = .cvx) (hthr : 0 < cfg.thresholdScore) (hpsi : ∀ x, cfg.psiMax = some x → 0 ≤ x)
    (hit : 0 < cfg.stop.maxIter) (hfl : 0 < cfg.stop.maxFluctuations) (hdist : 0 ≤ cfg.stop.thresholdDistB)
    (harg : ∀ f, IsArgsort f (E.argsort f)) (candidates : List (Adj p)) (hG : ∀ G ∈ candidates, Nonneg G ∧ Acyclic G)
    (data : Fin e → Sample p) (ns : List Nat) (h0 : 0 ∈ ns) (folds : List Rat) (rs : Int)
    (training testG testI : List (Sample p)) (hsplit : splitData (E.rng 42) (List.ofFn data) folds = .ok [training, testG, testI])
    (C : Fin e → Matrix (Fin p) (Fin p) ℝ)
    (hpop : ∀ f ∈ [training, testG, testI], ∀ k : Fin e, E.cov (f.getD k []) = C k ∧ f.getD k [] ≠ [])
    (hopt : ∀ A Ms, CvxOptimal num A Ms (foldData E.cov training e) 0)
    (G : Adj p) (hGm : G ∈ candidates) (hC : EntailedBy Finset.univ G C) (solverKnown : Bool) (P : Adj p) (I : Finset (Fin p)) (m : AnyModel p e)
    (h : equivalenceClass E candidates data solverKnown true (some ns) folds rs = .ok (P, I, m)) :
    m.1 = 0 ∧ I = Finset.univ ∧ m.2.covariances = .ok C ∧ (∀ i j, P i j = if m.A i j ≠ 0 then 1 else 0) ∧
      ∃ i : Nat, candidates[i]? = some m.A ∧ EntailedBy Finset.univ m.A C ∧
        ∀ j < i, ∀ H, candidates[j]? = some H → ¬ EntailedBy Finset.univ H C := by
  have hcan : ∀ H, Nonneg H → Acyclic H → (CanEntail E.it 0 Finset.univ H C ↔ EntailedBy Finset.univ H C) := by
    intro H hH hHa
    constructor
    · rintro ⟨psis, m, -, h1, h2⟩
      exact (admissible_iff E.it Finset.univ hH hHa psis C).1 ⟨m, h1, h2⟩
    · intro h
      obtain ⟨m, h1, h2⟩ := (admissible_iff E.it Finset.univ hH hHa 0 C).2 h
      exact ⟨0, m, fun _ i => i.elim0, h1, h2⟩
  have hCp : ∀ k, (C k).PosDef := by
    obtain ⟨m, ⟨B, gamma, omegas, h1, h2, -⟩, h3⟩ := (admissible_iff E.it Finset.univ (hG G hGm).1 (hG G hGm).2 0 C).2 hC
    obtain ⟨-, ⟨C', hC', hpd⟩, -⟩ := C36_posDef E.it G (hG G hGm).1 B gamma omegas 0 m h1 h2 (fun _ i => i.elim0)
    rw [h3] at hC'
    cases hC'
    exact fun k => (hpd k).1
  have hcovs : (foldData E.cov training e).covs = C := funext fun k => (hpop training (by simp) k).1
  have hgf : ∀ d h, GoodFit (E.fit d h) := fun d h => by
    rw [hE]
    exact codeFit_good _ _ _ _ _ _ _ _ (fun hc => by rw [hcvx] at hc; simp at hc)
  have hlat : ∀ d h n A I m s, E.fit d h n A I = .ok (m, s) → m.1 = h := by
    intro d h n A I m s hm
    rw [hE] at hm
    exact codeFit_latents hm
  have hprop : ∀ d h, ProperFit E.it (E.fit d h) := fun d h => by
    rw [hE]
    exact codeFit_proper _ _ _ _ _ _ _ _ (fun hc => by rw [hcvx] at hc; simp at hc)
  have hex : ExactFit E.it 0 C (E.fit (foldData E.cov training e) 0) := by
    rw [hE, ← hcovs]
    exact C104_exact E.it svd num hs cfg hcvx hthr hpsi hit hfl hdist hp0 _ he
      (fun k => List.length_pos_of_ne_nil (hpop training (by simp) k).2) u v hopt
  obtain ⟨k0, k1, rfl, k3, k4, -⟩ := C95_population E candidates (fun G h => (hG G h).1) data solverKnown true ns folds rs hgf hlat harg C hCp he
    training testG testI hsplit hpop 0 (fun h _ => hprop _ h) (fun h _ hh => by
      obtain rfl : h = 0 := by omega
      exact hex) G hGm h0 ((hcan G (hG G hGm).1 (hG G hGm).2).2 hC) P I m h
  have hm0 : m.1 = 0 := by
    have := k4 G hGm 0 h0 ((hcan G (hG G hGm).1 (hG G hGm).2).2 hC)
    omega
  refine ⟨hm0, rfl, k1, k3, ?_⟩
  obtain ⟨s, hmain⟩ : ∃ s, fitMain E data solverKnown (some ns) true folds none none (some candidates) 42 = .ok (m, Finset.univ, s) := by
    unfold equivalenceClass withIcpdag at h
    split at h
    · simp at h
    · rename_i m' I' s' hm'
      split at h
      · simp at h
      · rename_i P' hP'
        cases h
        exact ⟨_, hm'⟩
  obtain ⟨_, _, _, _, z1, z2, z3⟩ := C95_first_pruned hgf hlat harg hmain
  rw [hsplit] at z1
  cases z1
  cases z2
  obtain ⟨models, obj, k, mk, sc, y1, y2, y3, y4, y5⟩ := z3 (fun G h => (hG G h).1)
  rw [hm0] at y1
  obtain ⟨-, -, blocks, rfl, hbl⟩ := C55_all_chains E.it _ (hgf _ 0) candidates (fun G h => (hG G h).1) _ _ (ScoreObj.ok_new E.it _ 0) models y1
  obtain ⟨i, j, b, p1, p2, p3⟩ := flatten_position blocks k mk y2
  have hlen := hbl.length_eq
  have hchain : ∀ (i : Nat) b, blocks[i]? = some b → ∃ H, candidates[i]? = some H ∧ PruningChain E.it (E.fit (foldData E.cov training e) 0) H b := by
    intro i b hb
    obtain ⟨hi1, hi2⟩ := List.getElem?_eq_some_iff.1 hb
    have hc := hbl.get (by omega) hi1
    simp only [List.get_eq_getElem, hi2] at hc
    exact ⟨_, List.getElem?_eq_getElem (by omega), hc⟩
  obtain ⟨H, hH, hHc⟩ := hchain i b p1
  have hHm := hG H (List.mem_of_getElem? hH)
  -- the graph of the returned model entails the covariances
  obtain ⟨hnn, hacm⟩ : Nonneg m.A ∧ Acyclic m.A := by
    obtain ⟨q1, -, -⟩ := C55_graphs E.it _ (hgf _ 0) H hHm.1 b hHc
    obtain ⟨q2, q3⟩ := q1 mk (List.mem_of_getElem? p2)
    rw [← y3]
    refine ⟨fun a c => ?_, q2⟩
    rcases q3 a c with hc | hc
    · rw [hc]; exact hHm.1 a c
    · rw [hc]
  have hent : EntailedBy Finset.univ m.A C := by
    obtain ⟨l, m⟩ := m
    change l = 0 at hm0
    subst hm0
    obtain ⟨A, B, gamma, omegas, psis, hA, q1, q2, q3⟩ := k0
    obtain ⟨-, -, e1⟩ := mkModel_ok hA q1
    have hmA : m.A = A := congrArg LModel.A e1
    subst hmA
    exact (admissible_iff E.it Finset.univ hA hacm psis C).1
      ⟨m, ⟨B, gamma, omegas, q1, q2, fun k k' i hi => absurd (Finset.mem_univ i) hi⟩, k1⟩
  obtain ⟨-, hmkH⟩ := chain_exact (hgf _ 0) (hlat _ 0) hCp he hex hHm.1 hHc p2 (by rw [y3]; exact hent)
  rw [y3] at hmkH
  refine ⟨i, by rw [hmkH]; exact hH, hent, fun i' hi' H' hH' hent' => ?_⟩
  -- an earlier candidate that fits would have been chosen
  have hb' : blocks[i']? = some (blocks[i']'(by have := (List.getElem?_eq_some_iff.1 hH').1; omega)) := List.getElem?_eq_getElem _
  obtain ⟨H'', e1, hc'⟩ := hchain i' _ hb'
  rw [hH'] at e1
  cases e1
  have hHm' := hG H' (List.mem_of_getElem? hH')
  obtain ⟨m', f1, f2⟩ := hc'.first
  obtain ⟨k', hk', hke⟩ := p3 i' hi' _ hb' m' (List.mem_of_mem_head? f1)
  obtain ⟨sj, s1, -, s3⟩ := y5 k' m' hke
  apply s3 hk'
  obtain ⟨sf, hf⟩ := hc'.fitted m' (List.mem_of_mem_head? f1)
  rw [f2] at hf
  obtain ⟨x1, x2⟩ := exactFit_fitted hex hHm'.1 hf
  obtain ⟨x3, x4⟩ := x2 ((hcan H' hHm'.1 hHm'.2).2 hent')
  obtain ⟨sf', hf'⟩ := hHc.fitted mk (List.mem_of_getElem? p2)
  have x5 := properFit_fitted (hprop (foldData E.cov training e) 0) (by rw [y3]; exact hnn) hf'
  have hcovT : (foldData E.cov testG e).covs = C := funext fun k => (hpop testG (by simp) k).1
  have hnT : ∀ k, 0 < (foldData E.cov testG e).nObs k := fun k => List.length_pos_of_ne_nil (hpop testG (by simp) k).2
  obtain ⟨a, a1, -, -, a4⟩ := upToB_score x1 (foldData E.cov testG e).nObs hnT he C hCp
  obtain ⟨c, c1, c2, -⟩ := upToB_score x5 (foldData E.cov testG e).nObs hnT he C hCp
  unfold AnyModel.scoreOn at s1 y4
  rw [hcovT] at s1 y4
  rw [a1] at s1
  rw [c1] at y4
  cases s1
  cases y4
  exact Or.inr ⟨a, c, rfl, rfl, by rw [a4 x3 x4]; exact c2⟩

/-! ## An example with data -/

theorem exBlock_split_same : splitData (fun _ => Rng.front) (List.ofFn ![exBlock 1 ++ exBlock 1 ++ exBlock 1, exBlock 1 ++ exBlock 1 ++ exBlock 1])
    [1 / 3, 1 / 3, 1 / 3] = .ok [[exBlock 1, exBlock 1], [exBlock 1, exBlock 1], [exBlock 1, exBlock 1]] := by
  have r1 : pyRound (4 : Rat) = 4 := pyRound_int 4
  have b0 : sliceBound 12 0 = 0 := by decide
  have b1 : sliceBound 12 4 = 4 := by decide
  have b2 : sliceBound 12 8 = 8 := by decide
  have b3 : sliceBound 12 12 = 12 := by decide
  have hr : List.range 3 = [0, 1, 2] := by decide
  unfold splitData
  rw [if_neg (by norm_num)]
  simp [splitSample, pySlice, List.zipIdx, Rng.front, exBlock]
  norm_num [r1, b0, b1, b2, b3, hr]

/-- Every DAG with an edge over two variables entails a positive definite covariance. -/
theorem two_entails {H : Adj 2} (hac : Acyclic H) (hne : ∃ a b, H a b ≠ 0) {C : Matrix (Fin 2) (Fin 2) ℝ} (hC : C.PosDef) :
    EntailedBy (e := 2) Finset.univ H (fun _ => C) := by
  have hnn : Nonneg (fun i j => if H i j ≠ 0 then 1 else 0 : Adj 2) := fun i j => by dsimp only; split_ifs <;> norm_num
  have hac' : Acyclic (fun i j => if H i j ≠ 0 then 1 else 0 : Adj 2) := by
    refine hac.mono fun i j hij => ?_
    unfold Edge at hij ⊢
    simpa using hij
  have hcomp : ∀ i j : Fin 2, i ≠ j → Edge (fun i j => if H i j ≠ 0 then 1 else 0 : Adj 2) i j ∨ Edge (fun i j => if H i j ≠ 0 then 1 else 0 : Adj 2) j i := by
    obtain ⟨a, b, hab⟩ := hne
    have hab' : a ≠ b := fun h => hac b (Relation.TransGen.single (by rw [h] at hab; exact hab))
    intro i j hij
    unfold Edge
    simp only [ne_eq, ite_eq_right_iff, one_ne_zero, imp_false, not_not]
    have : (i = a ∧ j = b) ∨ (i = b ∧ j = a) := by omega
    rcases this with ⟨rfl, rfl⟩ | ⟨rfl, rfl⟩
    · exact Or.inl hab
    · exact Or.inr hab
  obtain ⟨m, ⟨B, g, o, k1, k2, -⟩, -, k4⟩ := C91_saturated (l := 0) (e := 2) (SetIter.incr 2) _ hnn hac' hcomp 0 C hC
  obtain ⟨B, w, q1, q2, q3, q4⟩ := (admissible_iff (SetIter.incr 2) Finset.univ hnn hac' 0 (fun _ => C)).1
    ⟨m, ⟨B, g, o, k1, k2, fun _ _ i hi => absurd (Finset.mem_univ i) hi⟩, k4⟩
  exact ⟨B, w, fun i j hij => q1 i j (by simp [hij]), q2, q3, q4⟩

/-- The hypotheses of `C104_prune` can be met by a call that returns: both environments have the same covariance, and the candidates are the
two graphs over two variables; with `prune_edges` the result is the first one. -/
theorem C104_prune_example (svd : Matrix (Fin 2) (Fin 2) ℝ → Matrix (Fin 2) (Fin 2) ℝ × (Fin 2 → ℝ)) (u v : Nat → Nat → Nat → Fin (2 * 2) → ℝ) :
    ∃ num : NumLib 2 2, ∃ m : AnyModel 2 2,
      equivalenceClass ⟨SetIter.incr 2, fun _ _ => Rng.front, npCov, insArgsort, fun _ => [], fun _ => fun i j => if i = j then 0 else 1,
        codeFit (SetIter.incr 2) svd num ⟨.cvx, none, false, ⟨1000, 1 / 1000, 1 / 100000, 5⟩, 1 / 100000, 1⟩ u v⟩
        [![![0, 0], ![1, 0]], ![![0, 1], ![0, 0]]] ![exBlock 1 ++ exBlock 1 ++ exBlock 1, exBlock 1 ++ exBlock 1 ++ exBlock 1] true true
        (some [0]) [1 / 3, 1 / 3, 1 / 3] 42 = .ok (![![0, 0], ![1, 0]], Finset.univ, m) ∧ m.A = ![![0, 0], ![1, 0]] := by
  obtain ⟨num, hs, hopt⟩ := cvxOptimal_zero_exists (p := 2) (e := 2)
  have hn1 : Nonneg (![![0, 0], ![1, 0]] : Adj 2) := by unfold Nonneg; decide
  have hn2 : Nonneg (![![0, 1], ![0, 0]] : Adj 2) := by unfold Nonneg; decide
  have ha1 : Acyclic (![![0, 0], ![1, 0]] : Adj 2) := (isDag_iff (SetIter.incr 2) hn1).1 (by decide)
  have ha2 : Acyclic (![![0, 1], ![0, 0]] : Adj 2) := (isDag_iff (SetIter.incr 2) hn2).1 (by decide)
  have hG : ∀ G ∈ [(![![0, 0], ![1, 0]] : Adj 2), ![![0, 1], ![0, 0]]], Nonneg G ∧ Acyclic G := by
    intro G hG
    simp only [List.mem_cons, List.not_mem_nil, or_false] at hG
    rcases hG with rfl | rfl
    exacts [⟨hn1, ha1⟩, ⟨hn2, ha2⟩]
  obtain ⟨C, hC⟩ : ∃ C, C = npCov (exBlock 1) := ⟨_, rfl⟩
  have hCe : ∀ i j, C i j = (!![2 / 3, 2 / 3; 2 / 3, 4 / 3] : Matrix (Fin 2) (Fin 2) ℝ) i j := by
    intro i j
    rw [hC, exBlock_cov]
    fin_cases i <;> fin_cases j <;> norm_num
  have hCp : C.PosDef := by
    refine Matrix.PosDef.of_dotProduct_mulVec_pos ?_ fun x hx => ?_
    · ext i j
      rw [Matrix.conjTranspose_apply, star_trivial, hCe, hCe]
      fin_cases i <;> fin_cases j <;> rfl
    · have hne : x 0 ≠ 0 ∨ x 1 ≠ 0 := by
        by_contra hc
        push Not at hc
        exact hx (by ext i; fin_cases i; exacts [hc.1, hc.2])
      simp only [star_trivial, dotProduct, Matrix.mulVec, Fin.sum_univ_two, hCe]
      simp
      rcases hne with h | h
      · nlinarith [sq_nonneg (x 0 + 2 * x 1), sq_nonneg (x 0 + x 1), sq_pos_of_ne_zero h, sq_nonneg (x 1)]
      · nlinarith [sq_nonneg (x 0 + x 1), sq_pos_of_ne_zero h]
  obtain ⟨E, hEd⟩ : ∃ E : FitEnv 2 2, E = ⟨SetIter.incr 2, fun _ _ => Rng.front, npCov, insArgsort, fun _ => [],
    fun _ => fun i j => if i = j then 0 else 1,
    codeFit (SetIter.incr 2) svd num ⟨.cvx, none, false, ⟨1000, 1 / 1000, 1 / 100000, 5⟩, 1 / 100000, 1⟩ u v⟩ := ⟨_, rfl⟩
  have hpop : ∀ f ∈ [[exBlock 1, exBlock 1], [exBlock 1, exBlock 1], [exBlock 1, exBlock 1]], ∀ k : Fin 2,
      E.cov (f.getD k []) = C ∧ f.getD k [] ≠ [] := by
    intro f hf k
    have : f = [exBlock 1, exBlock 1] := by simpa using hf
    subst this
    rw [hEd, hC]
    fin_cases k <;> simp [exBlock]
  have hgood : ∀ f ∈ [[exBlock 1, exBlock 1], [exBlock 1, exBlock 1], [exBlock 1, exBlock 1]], GoodData (foldData E.cov f 2) := fun f hf =>
    ⟨fun k => by
      have := hCp
      rw [← (hpop f hf k).1] at this
      exact this, fun k => List.length_pos_of_ne_nil (hpop f hf k).2, by norm_num⟩
  have hcovs : (foldData E.cov [exBlock 1, exBlock 1] 2).covs = fun _ => C := funext fun k => (hpop _ (by simp) k).1
  have hE : E.fit = codeFit E.it svd num ⟨.cvx, none, false, ⟨1000, 1 / 1000, 1 / 100000, 5⟩, 1 / 100000, 1⟩ u v := by rw [hEd]
  have hsplit : splitData (E.rng 42) (List.ofFn ![exBlock 1 ++ exBlock 1 ++ exBlock 1, exBlock 1 ++ exBlock 1 ++ exBlock 1])
      [1 / 3, 1 / 3, 1 / 3] = .ok [[exBlock 1, exBlock 1], [exBlock 1, exBlock 1], [exBlock 1, exBlock 1]] := by
    rw [hEd]
    exact exBlock_split_same
  have harg : ∀ f, IsArgsort f (E.argsort f) := by rw [hEd]; exact insArgsort_spec
  have hex : ExactFit E.it 0 (fun _ => C) (E.fit (foldData E.cov [exBlock 1, exBlock 1] 2) 0) := by
    rw [hE, ← hcovs]
    exact C104_exact E.it svd num hs _ rfl (by norm_num) (by simp) (by norm_num) (by norm_num) (by norm_num) (by norm_num) _ (by norm_num)
      (fun k => List.length_pos_of_ne_nil (hpop _ (by simp) k).2) u v (fun A Ms => hopt A Ms _)
  have hgf : ∀ d h, GoodFit (E.fit d h) := fun d h => by
    rw [hE]
    exact codeFit_good _ _ _ _ _ _ _ _ (by simp)
  obtain ⟨⟨P, I, m⟩, hr⟩ := C72_cvx E svd num _ u v hE (by norm_num) [![![0, 0], ![1, 0]], ![![0, 1], ![0, 0]]] (by simp) hG
    ![exBlock 1 ++ exBlock 1 ++ exBlock 1, exBlock 1 ++ exBlock 1 ++ exBlock 1] true [0] (by simp) (by simp) [1 / 3, 1 / 3, 1 / 3] 42
    [exBlock 1, exBlock 1] [exBlock 1, exBlock 1] [exBlock 1, exBlock 1] hsplit (by simp [exBlock]) hgood harg rfl
    (fun A => cvxFeasible_of_optimal (fun Ms => hopt A Ms _)) (by norm_num) (by simp) (by norm_num) (by norm_num) (by
      intro _ h hh G hGm n H m s hH hsub hm hne hB0
      obtain rfl : h = 0 := by simpa using hh
      have hac : Acyclic H := (hgf _ _ _ _ _ _ _ hm).2.1 hH
      obtain ⟨mm, mm1, mm2⟩ := (admissible_iff E.it Finset.univ hH hac 0 (fun _ => C)).2 (two_entails hac hne hCp)
      obtain ⟨x1, x2⟩ := hex.2 _ _ _ _ _ hH hm ⟨0, mm, fun _ i => i.elim0, mm1, mm2⟩
      have hl : m.1 = 0 := by
        rw [hE] at hm
        exact codeFit_latents hm
      obtain ⟨B, w, b1, -, -, b4⟩ := two_entails hac hne hCp
      have hBB := exact_weights hH hac hl (hgf _ _ _ _ _ _ _ hm).1 x1 x2 0 hCp b1 (b4 0)
      rw [hB0] at hBB
      subst hBB
      have h4 := b4 0
      unfold Entails at h4
      have := congrFun (congrFun h4 0) 1
      simp [hCe] at this)
  refine ⟨num, m, ?_⟩
  obtain ⟨-, rfl, -, k4, i, k5, k6, k7⟩ := C104_prune E svd num hs _ u v hE (by norm_num) (by norm_num) rfl (by norm_num) (by simp) (by norm_num)
    (by norm_num) (by norm_num) harg [![![0, 0], ![1, 0]], ![![0, 1], ![0, 0]]] hG _ [0] (by simp) _ 42 _ _ _ hsplit (fun _ => C) hpop
    (fun A Ms => hopt A Ms _) ![![0, 0], ![1, 0]] (by simp) (two_entails ha1 ⟨1, 0, by decide⟩ hCp) true P I m hr
  have hi : i = 0 := by
    by_contra hi
    exact k7 0 (by omega) _ rfl (two_entails ha1 ⟨1, 0, by decide⟩ hCp)
  subst hi
  have hA : m.A = ![![0, 0], ![1, 0]] := by simpa using k5.symm
  have hP : P = ![![0, 0], ![1, 0]] := by
    funext a b
    rw [k4, hA]
    fin_cases a <;> fin_cases b <;> rfl
  rw [hP] at hr
  rw [← hEd]
  exact ⟨hr, hA⟩

end Verif
