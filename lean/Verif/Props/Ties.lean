import Verif.Props.FalseEdges
import Verif.Props.Faithful
import Verif.Props.PopulationPrune

/-!
# C126: with one environment the order of the candidates decides within a Markov equivalence class
-/

namespace Verif

open Spec Matrix

variable {p : Nat}

theorem entailedBy_markov {G H : Adj p} (hG : Acyclic G) (hH : Acyclic H) (hE : MarkovEquiv G H) {C : Fin 1 → Matrix (Fin p) (Fin p) ℝ}
    (h : EntailedBy Finset.univ G C) : EntailedBy Finset.univ H C := by
  obtain ⟨B, w, h1, h2, -, h4⟩ := h
  have h0 : EntailedBy ∅ G C := ⟨B, w, h1, h2, fun k k' i _ => by rw [Subsingleton.elim k k'], h4⟩
  obtain ⟨B', w', k1, k2, -, k4⟩ := entailedBy_iequiv hG hH ⟨hE, fun i hi => by simp at hi⟩ h0
  exact ⟨B', w', k1, k2, fun k k' i _ => by rw [Subsingleton.elim k k'], k4⟩

theorem regressions_entailed {A : Adj p} {S : Matrix (Fin p) (Fin p) ℝ} {m : LModel p 0 1} (h : Regressions A S m)
    {C : Fin 1 → Matrix (Fin p) (Fin p) ℝ} (hC : Entails m.B (Matrix.diagonal (m.omegas 0)) (C 0)) : EntailedBy Finset.univ A C := by
  refine ⟨m.B, m.omegas, h.respects, fun k i => ?_, fun k k' i _ => by rw [Subsingleton.elim k k'], fun k => ?_⟩
  · rw [Subsingleton.elim k 0]
    exact h.pos i
  · rw [Subsingleton.elim k 0]
    exact hC

/-- The regressions of Markov equivalent graphs entail the same covariances. -/
theorem regressions_same {G H : Adj p} (hG : Acyclic G) (hH : Acyclic H) (hE : MarkovEquiv G H) {S : Matrix (Fin p) (Fin p) ℝ} (hS : S.PosDef)
    {mG mH : LModel p 0 1} (rG : Regressions G S mG) (rH : Regressions H S mH) :
    ∃ C, mG.covariances = .ok C ∧ mH.covariances = .ok C ∧ Entails mG.B (Matrix.diagonal (mG.omegas 0)) (C 0) ∧
      Entails mH.B (Matrix.diagonal (mH.omegas 0)) (C 0) := by
  obtain ⟨C, c1, c2, c3⟩ := regressions_mle hG hS rG
  obtain ⟨D, d1, d2, d3⟩ := regressions_mle hH hS rH
  have hE' : MarkovEquiv H G := ⟨fun i j => (hE.1 i j).symm, fun i c j => (hE.2 i c j).symm⟩
  have k1 := c3 D (entailedBy_markov hH hG hE' (regressions_entailed rH d2))
  have k2 := d3 C (entailedBy_markov hG hH hE (regressions_entailed rG c2))
  have := k1.2 (le_antisymm k2.1 k1.1)
  subst this
  exact ⟨_, c1, d1, c2, d2⟩

/-- The score on test data is the same as well. -/
theorem regressions_same_score {G H : Adj p} (hG : Acyclic G) (hH : Acyclic H) (hE : MarkovEquiv G H) {S : Matrix (Fin p) (Fin p) ℝ} (hS : S.PosDef)
    {mG mH : LModel p 0 1} (rG : Regressions G S mG) (rH : Regressions H S mH) {T : Matrix (Fin p) (Fin p) ℝ} (hT : ∀ a b, T a b = T b a) :
    regScore T mG = regScore T mH := by
  obtain ⟨C, -, -, c3, c4⟩ := regressions_same hG hH hE hS rG rH
  have h1 := gaussNLL_diagonal hG rG.respects hT rG.pos c3
  have h2 := gaussNLL_diagonal hH rH.respects hT rH.pos c4
  exact h1.symm.trans h2

/-- C126, one environment and no latents: models fitted to Markov equivalent graphs on the same data entail the same covariances and have
the same score on all test data. -/
theorem C126_same_score (E : FitEnv p 1) (hE : CodeEnv E) (d : Data p 1) (hd : GoodData d) (G H : Adj p) (hG : Nonneg G) (hH : Nonneg H)
    (hGH : MarkovEquiv G H) (I J : Finset (Fin p)) (mG mH : AnyModel p 1) (sG sH : Flt) (fG : FittedTo E.it (E.fit d 0) G I mG sG)
    (fH : FittedTo E.it (E.fit d 0) H J mH sH) :
    (∃ C, mG.2.covariances = .ok C ∧ mH.2.covariances = .ok C) ∧
      ∀ t : Data p 1, GoodData t → ∃ s, mG.scoreOn t = .ok s ∧ mH.scoreOn t = .ok s := by
  obtain ⟨-, -, svd, num, cfg, u, v, hfit, hlib, -⟩ := hE
  rw [hfit] at fG fH
  obtain ⟨aG, m1, rfl, r1, i1⟩ := fitted_regressions hG hd (hlib d) fG
  obtain ⟨aH, m2, rfl, r2, i2⟩ := fitted_regressions hH hd (hlib d) fH
  obtain ⟨C, c1, c2, -⟩ := regressions_same aG aH hGH (hd.posDef 0) r1 r2
  refine ⟨⟨C, c1, c2⟩, fun t ht => ⟨_, regressions_score (it := E.it) hG aG (hd.posDef 0) r1 i1 ht, ?_⟩⟩
  rw [regressions_same_score aG aH hGH (hd.posDef 0) r1 r2 (fun a b => (congrFun (congrFun (ht.posDef 0).1 a) b).symm)]
  exact regressions_score (it := E.it) hH aH (hd.posDef 0) r2 i2 ht

/-- What `CodeEnv` says of the fitting function. -/
theorem codeEnv_good {E : FitEnv p 1} (hE : CodeEnv E) : (∀ d h, GoodFit (E.fit d h)) ∧
    (∀ d h n A I m s, E.fit d h n A I = .ok (m, s) → m.1 = h) ∧ ∀ f, IsArgsort f (E.argsort f) := by
  obtain ⟨-, harg, svd, num, cfg, u, v, hfit, hlib, -⟩ := hE
  refine ⟨fun d h => ?_, fun d h n A I m s hm => ?_, harg⟩
  · rw [hfit]
    exact codeFit_good _ _ _ _ _ _ _ _ (fun hc => by rw [(hlib d).cvx] at hc; simp at hc)
  · rw [hfit] at hm
    exact codeFit_latents hm

/-- The latents of a run without latents. -/
theorem run_latents {E : FitEnv p 1} (hE : CodeEnv E) {data : Fin 1 → Sample p} {known prune : Bool} {folds : List Rat}
    {initial : Option (List (Adj p))} {m : AnyModel p 1} {I : Finset (Fin p)} {s : Flt}
    (h : fitMain E data known (some [0]) prune folds none none initial 42 = .ok (m, I, s))
    (hG : ∀ training graphs, initialGraphs E initial training = .ok graphs → ∀ G ∈ graphs, Nonneg G) : m.1 = 0 := by
  obtain ⟨k1, k2, k3⟩ := codeEnv_good hE
  obtain ⟨tr, _, _, graphs, ns', z1, z2, z3, z4⟩ := fitMain_spec k1 k2 k3 h
  cases z3
  obtain ⟨q1, -⟩ := z4 (hG _ _ z2)
  exact List.mem_singleton.1 q1

/-- C126, without `prune_edges`: no candidate listed before the returned one is Markov equivalent to it. -/
theorem C126_first (E : FitEnv p 1) (hE : CodeEnv E) (candidates : List (Adj p)) (hG : ∀ G ∈ candidates, Nonneg G)
    (data : Fin 1 → Sample p) (known : Bool) (folds : List Rat) (rs : Int) (training testG testI : List (Sample p))
    (hsplit : splitData (E.rng 42) (List.ofFn data) folds = .ok [training, testG, testI]) (hd : GoodData (foldData E.cov training 1))
    (ht : GoodData (foldData E.cov testG 1)) (P : Adj p) (I : Finset (Fin p)) (m : AnyModel p 1)
    (h : equivalenceClass E candidates data known false (some [0]) folds rs = .ok (P, I, m)) :
    ∃ i : Nat, candidates[i]? = some m.A ∧ ∀ j < i, ∀ G, candidates[j]? = some G → ¬ MarkovEquiv G m.A := by
  obtain ⟨s, hmain⟩ : ∃ s, fitMain E data known (some [0]) false folds none none (some candidates) 42 = .ok (m, I, s) := by
    unfold equivalenceClass withIcpdag at h
    split at h
    · simp at h
    · rename_i m' I' s' hm'
      split at h
      · simp at h
      · cases h
        exact ⟨_, hm'⟩
  have hm0 := run_latents hE hmain (fun _ _ hc => by cases hc; exact hG)
  obtain ⟨k1, k2, k3⟩ := codeEnv_good hE
  obtain ⟨_, _, _, graphs, z1, z2, z3⟩ := C95_earlier_candidates_worse k1 k2 k3 hmain
  rw [hsplit] at z1
  cases z1
  cases z2
  obtain ⟨i, mi, sf, sc, y1, y2, y3, y4⟩ := z3 hG
  refine ⟨i, y1, fun j hj G hGj hme => ?_⟩
  obtain ⟨mj, sf', sj, x1, x2, x3, x4⟩ := y4 j G hGj
  rw [hm0] at x1 y2
  obtain ⟨-, hs⟩ := C126_same_score E hE _ hd G m.A (hG _ (List.mem_of_getElem? hGj)) (hG _ (List.mem_of_getElem? y1)) hme _ _ _ _ _ _ x1 y2
  obtain ⟨s', h1, h2⟩ := hs _ ht
  rw [x2] at h1
  rw [y3] at h2
  cases h1
  cases h2
  exact x4 hj x3

/-- The run with pruning. -/
theorem pruned_first {E : FitEnv p 1} (hE : CodeEnv E) {initial : Option (List (Adj p))} {data : Fin 1 → Sample p} {known : Bool} {folds : List Rat}
    {training testG testI : List (Sample p)} (hsplit : splitData (E.rng 42) (List.ofFn data) folds = .ok [training, testG, testI])
    {graphs : List (Adj p)} (hinit : initialGraphs E initial training = .ok graphs) (hG : ∀ G ∈ graphs, Nonneg G)
    (hd : GoodData (foldData E.cov training 1)) (ht : GoodData (foldData E.cov testG 1)) {m : AnyModel p 1} {I : Finset (Fin p)} {s : Flt}
    (hmain : fitMain E data known (some [0]) true folds none none initial 42 = .ok (m, I, s)) :
    ∃ (i : Nat) (Gi : Adj p), graphs[i]? = some Gi ∧ Subgraph m.A Gi ∧ ∀ j < i, ∀ G, graphs[j]? = some G → ¬ MarkovEquiv G m.A := by
  obtain ⟨k1, k2, k3⟩ := codeEnv_good hE
  have hm0 : m.1 = 0 := by
    obtain ⟨tr, _, _, graphs', ns', z1, z2, z3, z4⟩ := fitMain_spec k1 k2 k3 hmain
    rw [hsplit] at z1
    cases z1
    rw [hinit] at z2
    cases z2
    cases z3
    obtain ⟨q1, -⟩ := z4 hG
    exact List.mem_singleton.1 q1
  obtain ⟨_, _, _, graphs', z1, z2, z3⟩ := C95_first_pruned k1 k2 k3 hmain
  rw [hsplit] at z1
  cases z1
  rw [hinit] at z2
  cases z2
  obtain ⟨models, obj, k, mk, sc, y1, y2, y3, y4, y5⟩ := z3 hG
  rw [hm0] at y1
  have hmods := (pruneGraphs_models (k1 _ 0) hG (ScoreObj.ok_new E.it _ 0) y1).2
  obtain ⟨-, -, blocks, rfl, hbl⟩ := C55_all_chains E.it _ (k1 _ 0) graphs hG _ _ (ScoreObj.ok_new E.it _ 0) models y1
  obtain ⟨i, j, b, p1, p2, p3⟩ := flatten_position blocks k mk y2
  have hlen := hbl.length_eq
  have hgi : ∀ (i : Nat) b, blocks[i]? = some b → ∃ Gi, graphs[i]? = some Gi ∧ PruningChain E.it (E.fit (foldData E.cov training 1) 0) Gi b := by
    intro i b hb
    obtain ⟨hl, he⟩ := List.getElem?_eq_some_iff.1 hb
    refine ⟨graphs[i]'(by omega), List.getElem?_eq_getElem (by omega), ?_⟩
    have := hbl.get (i := i) (by omega) hl
    simp only [List.get_eq_getElem] at this
    rw [he] at this
    exact this
  obtain ⟨Gi, g1, g2⟩ := hgi i b p1
  obtain ⟨mf, f1, f2⟩ := g2.first
  rw [List.head?_eq_getElem?] at f1
  refine ⟨i, Gi, g1, ?_, fun j' hj' G hGj hme => ?_⟩
  · have := g2.subgraph f1 p2 (by omega)
    rwa [y3, f2] at this
  · obtain ⟨hl, he⟩ := List.getElem?_eq_some_iff.1 hGj
    have hb' : blocks[j']? = some (blocks[j']'(by omega)) := List.getElem?_eq_getElem (by omega)
    obtain ⟨Gj, g3, g4⟩ := hgi j' _ hb'
    rw [hGj] at g3
    cases g3
    obtain ⟨mj, e1, e2⟩ := g4.first
    obtain ⟨k', hk', e3⟩ := p3 j' hj' _ hb' mj (List.mem_of_mem_head? e1)
    obtain ⟨sj, x1, x2, x3⟩ := y5 k' mj e3
    obtain ⟨n1, s1, t1⟩ := hmods mj (List.mem_of_getElem? e3)
    obtain ⟨n2, s2, t2⟩ := hmods mk (List.mem_of_getElem? y2)
    obtain ⟨-, hs⟩ := C126_same_score E hE _ hd mj.A mk.A n1 n2 (by rw [e2, y3]; exact hme) _ _ _ _ _ _ t1 t2
    obtain ⟨s', h1, h2⟩ := hs _ ht
    rw [x1] at h1
    rw [y4] at h2
    cases h1
    cases h2
    exact x3 hk' x2

/-- C126, with `prune_edges`: the returned graph is obtained from a candidate such that no candidate listed before it is Markov equivalent to the
returned graph. -/
theorem C126_pruned (E : FitEnv p 1) (hE : CodeEnv E) (candidates : List (Adj p)) (hG : ∀ G ∈ candidates, Nonneg G)
    (data : Fin 1 → Sample p) (known : Bool) (folds : List Rat) (rs : Int) (training testG testI : List (Sample p))
    (hsplit : splitData (E.rng 42) (List.ofFn data) folds = .ok [training, testG, testI]) (hd : GoodData (foldData E.cov training 1))
    (ht : GoodData (foldData E.cov testG 1)) (P : Adj p) (I : Finset (Fin p)) (m : AnyModel p 1)
    (h : equivalenceClass E candidates data known true (some [0]) folds rs = .ok (P, I, m)) :
    ∃ (i : Nat) (Gi : Adj p), candidates[i]? = some Gi ∧ Subgraph m.A Gi ∧ ∀ j < i, ∀ G, candidates[j]? = some G → ¬ MarkovEquiv G m.A := by
  obtain ⟨s, hmain⟩ : ∃ s, fitMain E data known (some [0]) true folds none none (some candidates) 42 = .ok (m, I, s) := by
    unfold equivalenceClass withIcpdag at h
    split at h
    · simp at h
    · rename_i m' I' s' hm'
      split at h
      · simp at h
      · cases h
        exact ⟨_, hm'⟩
  exact pruned_first hE hsplit rfl hG hd ht hmain

theorem subgraph_markov {G H : Adj p} (hs : Subgraph H G) (hm : MarkovEquiv H G) (hac : Acyclic G) : H = G := by
  funext i j
  rcases hs i j with hc | hc
  · exact hc
  · by_contra hne
    have hE : Edge G i j := fun h0 => hne (by rw [hc, h0])
    have hk := (hm.1 i j).2 (Or.inl hE)
    rcases hk with hk | hk
    · exact hk hc
    · have : Edge G j i := by
        rcases hs j i with h' | h'
        · rw [h'] at hk
          exact hk
        · exact absurd h' hk
      exact hac i (.head hE (.single this))

/-- C126, candidates of one Markov equivalence class: whatever the data, no candidate but the first one is returned. -/
theorem C126_class (E : FitEnv p 1) (hE : CodeEnv E) (candidates : List (Adj p)) (hG : ∀ G ∈ candidates, Nonneg G ∧ Acyclic G)
    (hclass : ∀ G ∈ candidates, ∀ H ∈ candidates, MarkovEquiv G H) (data : Fin 1 → Sample p) (known prune : Bool) (folds : List Rat) (rs : Int)
    (training testG testI : List (Sample p)) (hsplit : splitData (E.rng 42) (List.ofFn data) folds = .ok [training, testG, testI])
    (hd : GoodData (foldData E.cov training 1)) (ht : GoodData (foldData E.cov testG 1)) (P : Adj p) (I : Finset (Fin p)) (m : AnyModel p 1)
    (h : equivalenceClass E candidates data known prune (some [0]) folds rs = .ok (P, I, m)) :
    (prune = false → candidates.head? = some m.A) ∧ (m.A ∈ candidates → candidates.head? = some m.A) := by
  have hnn : ∀ G ∈ candidates, Nonneg G := fun G h => (hG G h).1
  have h0 : ∀ i Gi, candidates[i]? = some Gi → 0 < candidates.length := fun i Gi hi => by
    have := (List.getElem?_eq_some_iff.1 hi).1
    omega
  cases prune with
  | false =>
    obtain ⟨i, h1, h2⟩ := C126_first E hE candidates hnn data known folds rs training testG testI hsplit hd ht P I m h
    have hz : i = 0 := by
      by_contra hne
      exact h2 0 (by omega) _ (List.getElem?_eq_getElem (h0 _ _ h1)) (hclass _ (List.getElem_mem _) _ (List.mem_of_getElem? h1))
    subst hz
    rw [List.head?_eq_getElem?]
    exact ⟨fun _ => h1, fun _ => h1⟩
  | true =>
    refine ⟨fun hc => by simp at hc, fun hmem => ?_⟩
    obtain ⟨i, Gi, h1, h2, h3⟩ := C126_pruned E hE candidates hnn data known folds rs training testG testI hsplit hd ht P I m h
    have hz : i = 0 := by
      by_contra hne
      exact h3 0 (by omega) _ (List.getElem?_eq_getElem (h0 _ _ h1)) (hclass _ (List.getElem_mem _) _ hmem)
    subst hz
    have hGi := List.mem_of_getElem? h1
    rw [List.head?_eq_getElem?, h1, subgraph_markov h2 (hclass _ hmem _ hGi) (hG _ hGi).2]

/-- C126, `equivalence_class_w_ges`: unless edges were pruned, the returned graph is the first one in the enumeration of the class found by GES. -/
theorem C126_ges (E : FitEnv p 1) (hE : CodeEnv E) (data : Fin 1 → Sample p) (known : Bool) (folds : List Rat) (rs : Int)
    (training testG testI : List (Sample p)) (hsplit : splitData (E.rng 42) (List.ofFn data) folds = .ok [training, testG, testI])
    (hd : GoodData (foldData E.cov training 1)) (ht : GoodData (foldData E.cov testG 1)) (hges : ZeroOne (E.gesFit training.flatten))
    (hext : ∃ D, IsExtension D (E.gesFit training.flatten)) (P : Adj p) (I : Finset (Fin p)) (m : AnyModel p 1)
    (h : equivalenceClassGes E data known (some [0]) folds rs = .ok (P, I, m)) :
    ∃ graphs, allDags E.it (E.gesFit training.flatten) = .ok graphs ∧ (∃ G ∈ graphs, Subgraph m.A G) ∧
      (m.A ∈ graphs → graphs.head? = some m.A) := by
  obtain ⟨s, hmain⟩ : ∃ s, fitMain E data known (some [0]) true folds none none none 42 = .ok (m, I, s) := by
    unfold equivalenceClassGes withIcpdag at h
    split at h
    · simp at h
    · rename_i m' I' s' hm'
      split at h
      · simp at h
      · cases h
        exact ⟨_, hm'⟩
  obtain ⟨graphs, g1, g2, g3⟩ := allDags_ext E.it hges hext
  have hnn : ∀ G ∈ graphs, Nonneg G := fun G hGm i j => by
    rcases ((g3 G).1 hGm).1 i j with hc | hc <;> rw [hc]; norm_num
  have hlen : training.length ≠ 0 := by
    intro hc
    have h0 : training = [] := List.length_eq_zero_iff.1 hc
    obtain ⟨tr, _, _, gs, z1, z2, -⟩ := C95_first_pruned (codeEnv_good hE).1 (codeEnv_good hE).2.1 (codeEnv_good hE).2.2 hmain
    rw [hsplit] at z1
    cases z1
    rw [h0] at z2
    simp [initialGraphs, fitGes] at z2
  have hinit : initialGraphs E none training = .ok graphs := by
    unfold initialGraphs fitGes
    simp [hlen, g1]
  obtain ⟨i, Gi, h1, h2, h3⟩ := pruned_first hE hsplit hinit hnn hd ht hmain
  have hGi := List.mem_of_getElem? h1
  refine ⟨graphs, g1, ⟨Gi, hGi, h2⟩, fun hmem => ?_⟩
  have hme : ∀ G ∈ graphs, ∀ H ∈ graphs, MarkovEquiv G H := by
    intro G hGm H hHm
    have a := ((g3 G).1 hGm).2
    have b := ((g3 H).1 hHm).2
    exact ⟨fun i j => (a.2.1 i j).trans (b.2.1 i j).symm, fun i c j => (a.2.2.1 i c j).trans (b.2.2.1 i c j).symm⟩
  have hz : i = 0 := by
    by_contra hne
    have hl : 0 < graphs.length := List.length_pos_of_mem hmem
    exact h3 0 (by omega) _ (List.getElem?_eq_getElem hl) (hme _ (List.getElem_mem _) _ hmem)
  subst hz
  rw [List.head?_eq_getElem?, h1, subgraph_markov h2 (hme _ hmem _ hGi) ((g3 Gi).1 hGi).2.1]

end Verif
