import Verif.Props.MainFit

/-!
# C111: the number of fits

Fitting a model is the expensive part of the procedure.  A call of `score_dag` fits at most once, and its cache has one entry per fit, so the
number of fits of a `Score` object is the length of its cache.
-/

namespace Verif

open Spec

variable {p e : Nat}

/-- The pairs of graphs and targets that an object has fitted. -/
def Spec.fittedPairs (obj : ScoreObj p e) : Finset (Adj p × Finset (Fin p)) := (obj.cache.map (fun en => (en.A, en.I))).toFinset

theorem mem_fittedPairs {obj : ScoreObj p e} {A : Adj p} {I : Finset (Fin p)} :
    (A, I) ∈ fittedPairs obj ↔ ∃ en ∈ obj.cache, IsKey A I en := by
  simp [fittedPairs, IsKey]

theorem fittedPairs_card {it : SetIter p} {fit : Fitter p e} {obj : ScoreObj p e} (ho : obj.Ok it fit) :
    obj.cache.length = (fittedPairs obj).card := by
  unfold fittedPairs
  rw [List.toFinset_card_of_nodup, List.length_map]
  rw [List.nodup_iff_getElem?_ne_getElem?]
  intro i j hij hj heq
  rw [List.length_map] at hj
  have hi : i < obj.cache.length := hij.trans hj
  simp only [List.getElem?_map, List.getElem?_eq_getElem hi, List.getElem?_eq_getElem hj, Option.map_some, Option.some.injEq,
    Prod.mk.injEq] at heq
  have := ho.1 i j _ _ (List.getElem?_eq_getElem hi) (List.getElem?_eq_getElem hj) heq.1 heq.2
  omega

/-- C111: a call of `score_dag` fits exactly if the pair has not been fitted before, and every fit adds one entry to the cache. -/
theorem C111_call (it : SetIter p) (fit : Fitter p e) (obj obj' : ScoreObj p e) (ho : obj.Ok it fit) (A : Adj p) (I : Finset (Fin p))
    (r : AnyModel p e × Flt) (h : obj.scoreDag it fit A I = .ok (r, obj')) :
    obj'.calls = obj.calls + 1 ∧ fittedPairs obj' = insert (A, I) (fittedPairs obj) ∧
    ((A, I) ∈ fittedPairs obj → obj'.cache = obj.cache ∧ ∀ fit' : Fitter p e, obj.scoreDag it fit' A I = .ok (r, obj')) ∧
    ((A, I) ∉ fittedPairs obj → obj'.cache.length = obj.cache.length + 1 ∧ fit obj.calls A I = .ok r) := by
  obtain ⟨hu, he⟩ := ho
  have h0 := h
  unfold ScoreObj.scoreDag at h
  split at h
  · simp at h
  · rename_i r' c hr
    simp only [Except.ok.injEq, Prod.mk.injEq] at h
    obtain ⟨rfl, rfl⟩ := h
    have hr0 := hr
    unfold Verif.scoreDag at hr
    simp only [cacheRead_spec _ hu] at hr
    cases hf : obj.cache.find? (fun en => decide (IsKey A I en)) with
    | some en =>
      rw [hf] at hr
      simp only [Option.map_some, Except.ok.injEq, Prod.mk.injEq] at hr
      obtain ⟨rfl, rfl⟩ := hr
      have hmem := List.mem_of_find?_eq_some hf
      have hk : IsKey A I en := by simpa using List.find?_some hf
      have hin : (A, I) ∈ fittedPairs obj := mem_fittedPairs.2 ⟨en, hmem, hk⟩
      refine ⟨rfl, ?_, fun _ => ⟨rfl, fun fit' => ?_⟩, fun hn => absurd hin hn⟩
      · rw [Finset.insert_eq_of_mem hin]
        rfl
      · unfold ScoreObj.scoreDag Verif.scoreDag
        simp only [cacheRead_spec _ hu, hf, Option.map_some]
    | none =>
      rw [hf] at hr
      simp only [Option.map_none] at hr
      have hno : ∀ en ∈ obj.cache, ¬ IsKey A I en := by simpa using List.find?_eq_none.1 hf
      have hnin : (A, I) ∉ fittedPairs obj := fun hc => by
        obtain ⟨en, h1, h2⟩ := mem_fittedPairs.1 hc
        exact hno en h1 h2
      cases hfit : fit obj.calls A I with
      | error err => rw [hfit] at hr; simp at hr
      | ok r =>
        obtain ⟨m0, s0⟩ := r
        rw [hfit] at hr
        simp only [] at hr
        rw [(cacheWrite_spec (AnyModel.copy it) obj.cache hu A I m0 s0).2 hno] at hr
        cases hc : m0.copy it with
        | error err => rw [hc] at hr; simp at hr
        | ok m1 =>
          rw [hc] at hr
          simp only [Except.ok.injEq, Prod.mk.injEq] at hr
          obtain ⟨rfl, rfl⟩ := hr
          refine ⟨rfl, ?_, fun hc => absurd hc hnin, fun _ => ⟨by simp, rfl⟩⟩
          ext ⟨A', I'⟩
          simp only [fittedPairs, Option.getD_some, List.map_append, List.map_cons, List.map_nil, List.mem_toFinset, List.mem_append,
            List.mem_singleton, Finset.mem_insert]
          tauto

/-- One block of the loop over the candidates. -/
theorem pruneGraph_pairs {it : SetIter p} {fit : Fitter p e} (hg : GoodFit fit) {prune : Bool} {obj obj' : ScoreObj p e}
    (ho : obj.Ok it fit) {G : Adj p} (hG : Nonneg G) {ms : List (AnyModel p e)} (h : pruneGraph it fit prune none obj G = .ok (ms, obj')) :
    obj'.Ok it fit ∧ obj'.calls = obj.calls + ms.length ∧ ms.length = (if prune then nnz G + 1 else 1) ∧
      fittedPairs obj' = fittedPairs obj ∪ (ms.map (fun m => (m.A, Finset.univ))).toFinset := by
  cases prune with
  | false =>
    obtain ⟨k1, m, s, k2, k3, k4⟩ := C55_no_pruning it fit hg none obj obj' ho G ms h
    unfold pruneGraph at h
    split at h
    · simp at h
    · rename_i m' s' obj1 h1
      simp only [Bool.not_false, if_true, Except.ok.injEq, Prod.mk.injEq] at h
      obtain ⟨rfl, rfl⟩ := h
      obtain ⟨c1, c2, -, -⟩ := C111_call it fit obj obj1 ho G Finset.univ _ h1
      have hm : m' = m := by simpa using k2
      subst hm
      refine ⟨k1, by simpa using c1, by simp, ?_⟩
      rw [c2]
      ext x
      simp [k3, or_comm]
  | true =>
    obtain ⟨k1, k2⟩ := C55_chain it fit hg obj obj' ho G hG ms h
    have hlen := k1.length
    unfold pruneGraph at h
    split at h
    · simp at h
    · rename_i m s obj1 h1
      simp only [Bool.not_true, Bool.false_eq_true, if_false] at h
      split at h
      · simp at h
      · rename_i r hr
        cases h
        obtain ⟨c1, c2, -, -⟩ := C111_call it fit obj obj1 ho G Finset.univ _ h1
        obtain ⟨g1, g2, -⟩ := scoreObj_spec ho h1
        have hmA : m.A = G := (g2.good hg).1
        have key := runLoop_ok (step := pruneStep it fit)
          (P := fun s => s.obj.Ok it fit ∧ s.obj.calls = obj.calls + s.models.length ∧
            fittedPairs s.obj = fittedPairs obj ∪ (s.models.map (fun m => (m.A, Finset.univ))).toFinset)
          (Q := fun s => s.obj.Ok it fit ∧ s.obj.calls = obj.calls + s.models.length ∧
            fittedPairs s.obj = fittedPairs obj ∪ (s.models.map (fun m => (m.A, Finset.univ))).toFinset)
          (fun s s' ⟨a1, a2, a3⟩ hst => by
            unfold pruneStep at hst
            split_ifs at hst with h0
            · split at hst
              · simp at hst
              · simp only at hst
                split at hst
                · simp at hst
                · rename_i a b hab m' sc obj2 h2
                  cases hst
                  obtain ⟨c1, c2, -, -⟩ := C111_call it fit s.obj obj2 a1 _ Finset.univ _ h2
                  obtain ⟨g1, g2, -⟩ := scoreObj_spec a1 h2
                  have hmA : m'.A = _ := (g2.good hg).1
                  refine ⟨g1, by simp [c1, a2]; omega, ?_⟩
                  rw [c2, a3]
                  ext x
                  simp [hmA]
            · simp at hst)
          (fun s r' hs hst => by
            unfold pruneStep at hst
            split_ifs at hst with h0
            · split at hst
              · simp at hst
              · simp only at hst
                split at hst <;> simp at hst
            · simp only [Except.ok.injEq, Sum.inr.injEq] at hst
              subst hst
              exact hs)
          (s := { dag := G, model := m, obj := obj1, models := [m] })
          ⟨g1, by simp [c1], by rw [c2]; ext x; simp [hmA, or_comm]⟩ hr
        exact ⟨key.1, key.2.1, by simpa using hlen, key.2.2⟩

theorem pruneGraphsLoop_pairs {it : SetIter p} {fit : Fitter p e} (hg : GoodFit fit) {prune : Bool} :
    ∀ (graphs : List (Adj p)) (obj obj' : ScoreObj p e) (ms : List (AnyModel p e)), (∀ G ∈ graphs, Nonneg G) → obj.Ok it fit →
      pruneGraphsLoop it fit prune none graphs obj = .ok (ms, obj') →
      obj'.Ok it fit ∧ obj'.calls = obj.calls + ms.length ∧ ms.length = (graphs.map (fun G => if prune then nnz G + 1 else 1)).sum ∧
        fittedPairs obj' = fittedPairs obj ∪ (ms.map (fun m => (m.A, Finset.univ))).toFinset := by
  intro graphs
  induction graphs with
  | nil =>
    intro obj obj' ms _ ho h
    simp only [pruneGraphsLoop, Except.ok.injEq, Prod.mk.injEq] at h
    obtain ⟨rfl, rfl⟩ := h
    exact ⟨ho, by simp, by simp, by simp⟩
  | cons G Gs ih =>
    intro obj obj' ms hG ho h
    simp only [pruneGraphsLoop] at h
    split at h
    · simp at h
    · rename_i ms1 obj1 h1
      split at h
      · simp at h
      · rename_i ms2 obj2 h2
        cases h
        obtain ⟨a1, a2, a3, a4⟩ := pruneGraph_pairs hg ho (hG G (by simp)) h1
        obtain ⟨b1, b2, b3, b4⟩ := ih obj1 obj' ms2 (fun G hG' => hG G (by simp [hG'])) a1 h2
        refine ⟨b1, ?_, ?_, ?_⟩
        · rw [b2, a2, List.length_append]
          omega
        · rw [List.length_append, a3, b3, List.map_cons, List.sum_cons]
        · rw [b4, a4, List.map_append, List.toFinset_append, Finset.union_assoc]

/-- C111: without pruning, each number of latents costs one fit per different candidate. -/
theorem C111_candidates (it : SetIter p) (fit : Fitter p e) (hg : GoodFit fit) (graphs : List (Adj p)) (hG : ∀ G ∈ graphs, Nonneg G)
    (obj' : ScoreObj p e) (ms : List (AnyModel p e)) (h : pruneGraphs it fit false none graphs ⟨0, []⟩ = .ok (ms, obj')) :
    obj'.calls = graphs.length ∧ obj'.cache.length = graphs.toFinset.card := by
  obtain ⟨-, -, k3, -, -⟩ := C55_all_candidates it fit hg graphs hG _ _ (ScoreObj.ok_new it fit 0) ms h
  unfold pruneGraphs at h
  split_ifs at h
  obtain ⟨a1, a2, a3, a4⟩ := pruneGraphsLoop_pairs hg graphs _ _ ms hG (ScoreObj.ok_new it fit 0) h
  refine ⟨by rw [a2, a3]; simp, ?_⟩
  rw [fittedPairs_card a1, a4]
  have h1 : (ms.map (fun m => (m.A, (Finset.univ : Finset (Fin p))))).toFinset = graphs.toFinset.image (fun G => (G, Finset.univ)) := by
    rw [← k3]
    ext x
    simp
  rw [h1]
  have h2 : fittedPairs (⟨0, []⟩ : ScoreObj p e) = ∅ := rfl
  rw [h2, Finset.empty_union, Finset.card_image_of_injective _ (fun a b hab => (Prod.mk.inj hab).1)]

/-- C111: with pruning, `score_dag` is called once per candidate and once per edge of a candidate; there is one fit per different graph on
the chains. -/
theorem C111_pruned (it : SetIter p) (fit : Fitter p e) (hg : GoodFit fit) (graphs : List (Adj p)) (hG : ∀ G ∈ graphs, Nonneg G)
    (obj' : ScoreObj p e) (ms : List (AnyModel p e)) (h : pruneGraphs it fit true none graphs ⟨0, []⟩ = .ok (ms, obj')) :
    obj'.calls = (graphs.map (fun G => nnz G + 1)).sum ∧ obj'.cache.length = (ms.map (fun m => m.A)).toFinset.card ∧
      obj'.cache.length ≤ (graphs.map (fun G => nnz G + 1)).sum := by
  unfold pruneGraphs at h
  split_ifs at h
  obtain ⟨a1, a2, a3, a4⟩ := pruneGraphsLoop_pairs hg graphs _ _ ms hG (ScoreObj.ok_new it fit 0) h
  have hc : obj'.cache.length = (ms.map (fun m => m.A)).toFinset.card := by
    rw [fittedPairs_card a1, a4]
    have h1 : (ms.map (fun m => (m.A, (Finset.univ : Finset (Fin p))))).toFinset =
        (ms.map (fun m => m.A)).toFinset.image (fun G => (G, Finset.univ)) := by
      ext x
      simp
    have h2 : fittedPairs (⟨0, []⟩ : ScoreObj p e) = ∅ := rfl
    rw [h1, h2, Finset.empty_union, Finset.card_image_of_injective _ (fun a b hab => (Prod.mk.inj hab).1)]
  simp only [if_true] at a3
  refine ⟨by rw [a2, a3]; simp, hc, ?_⟩
  rw [hc, ← a3]
  exact (List.toFinset_card_le _).trans (by simp)

/-- C111: pruning a single candidate fits one model more than it has edges. -/
theorem C111_one_candidate (it : SetIter p) (fit : Fitter p e) (hg : GoodFit fit) (G : Adj p) (hG : Nonneg G)
    (obj' : ScoreObj p e) (ms : List (AnyModel p e)) (h : pruneGraphs it fit true none [G] ⟨0, []⟩ = .ok (ms, obj')) :
    obj'.cache.length = nnz G + 1 := by
  have hG' : ∀ G' ∈ [G], Nonneg G' := by simpa using hG
  obtain ⟨-, h2, -⟩ := C111_pruned it fit hg [G] hG' obj' ms h
  obtain ⟨-, -, blocks, rfl, k⟩ := C55_all_chains it fit hg [G] hG' _ _ (ScoreObj.ok_new it fit 0) ms h
  obtain ⟨b, bs, hb, hbs, rfl⟩ := List.forall₂_cons_left_iff.1 k
  rw [List.forall₂_nil_left_iff] at hbs
  subst hbs
  simp only [List.flatten_cons, List.flatten_nil, List.append_nil] at h2
  rw [h2, List.toFinset_card_of_nodup (C55_graphs it fit hg G hG b hb).2.2, List.length_map, hb.length]

/-- The loop over the targets. -/
theorem pruneILoop_pairs {it : SetIter p} {fit : Fitter p e} {graph : Adj p} :
    ∀ (order : List (Fin p)) (I : Finset (Fin p)) (obj obj' : ScoreObj p e) (ms : List (AnyModel p e × Finset (Fin p))),
      obj.Ok it fit → order.Nodup → (∀ j ∈ order, j ∈ I) → (∀ J, (graph, J) ∈ fittedPairs obj → I ⊆ J) →
      pruneILoop it fit graph order I obj = .ok (ms, obj') →
      obj'.Ok it fit ∧ obj'.calls = obj.calls + order.length ∧ obj'.cache.length = obj.cache.length + order.length := by
  intro order
  induction order with
  | nil =>
    intro I obj obj' ms ho _ _ _ h
    simp only [pruneILoop, Except.ok.injEq, Prod.mk.injEq] at h
    obtain ⟨rfl, rfl⟩ := h
    exact ⟨ho, by simp, by simp⟩
  | cons j order ih =>
    intro I obj obj' ms ho hnd hsub hJ h
    simp only [pruneILoop] at h
    split at h
    · simp at h
    · rename_i m s obj1 h1
      split at h
      · simp at h
      · rename_i ms2 obj2 h2
        cases h
        obtain ⟨c1, c2, -, c4⟩ := C111_call it fit obj obj1 ho graph (I.erase j) _ h1
        have hnew : (graph, I.erase j) ∉ fittedPairs obj := fun hc => by
          have := hJ _ hc (hsub j (by simp))
          simp at this
        obtain ⟨hj, hnd'⟩ := List.nodup_cons.1 hnd
        obtain ⟨a1, a2, a3⟩ := ih (I.erase j) obj1 obj' ms2 (scoreObj_spec ho h1).1 hnd'
          (fun k hk => Finset.mem_erase.2 ⟨fun hc => hj (hc ▸ hk), hsub k (by simp [hk])⟩)
          (fun J hJ' => by
            rw [c2, Finset.mem_insert] at hJ'
            rcases hJ' with hJ' | hJ'
            · cases hJ'
              exact Finset.Subset.refl _
            · exact (Finset.erase_subset _ _).trans (hJ J hJ')) h2
        refine ⟨a1, by rw [a2, c1, List.length_cons]; omega, by rw [a3, (c4 hnew).1, List.length_cons]; omega⟩

/-- C111: the selection of the targets costs one fit per variable, if the graph has only been fitted with all variables as targets (as after
the selection of the graph). -/
theorem C111_targets (it : SetIter p) (argsort : (Fin p → ℝ) → List (Fin p)) (harg : ∀ f, IsArgsort f (argsort f)) (fit : Fitter p e)
    (graph : Adj p) (obj obj' : ScoreObj p e) (ho : obj.Ok it fit) (hin : (graph, Finset.univ) ∈ fittedPairs obj)
    (hJ : ∀ J, (graph, J) ∈ fittedPairs obj → J = Finset.univ) (ms : List (AnyModel p e × Finset (Fin p)))
    (h : pruneI it argsort fit none graph obj = .ok (ms, obj')) :
    obj'.calls = obj.calls + p + 1 ∧ obj'.cache.length = obj.cache.length + p := by
  unfold pruneI at h
  split at h
  · simp at h
  · rename_i m0 s0 obj1 h1
    simp only at h
    split at h
    · simp at h
    · rename_i ms1 obj2 h2
      cases h
      obtain ⟨c1, c2, c3, -⟩ := C111_call it fit obj obj1 ho graph Finset.univ _ h1
      have hperm := (harg (varEnv m0.omegas)).1
      have hnd : (argsort (varEnv m0.omegas)).Nodup := hperm.nodup_iff.2 (List.nodup_finRange p)
      have hlen : (argsort (varEnv m0.omegas)).length = p := by rw [hperm.length_eq, List.length_finRange]
      obtain ⟨-, a2, a3⟩ := pruneILoop_pairs _ Finset.univ obj1 obj' ms1 (scoreObj_spec ho h1).1 hnd (by simp)
        (fun J hJ' => by
          rw [c2, Finset.insert_eq_of_mem hin] at hJ'
          rw [hJ J hJ']) h2
      rw [a2, a3, c1, (c3 hin).1, hlen]
      omega

/-- C111, a run of `_fit` without pruning and thresholds that returns: for each number of latents there is one fit per different candidate,
and the targets cost one fit per variable. -/
theorem C111_run (E : FitEnv p e) (hfit : ∀ d h, GoodFit (E.fit d h)) (harg : ∀ f, IsArgsort f (E.argsort f))
    (graphs : List (Adj p)) (hG : ∀ G ∈ graphs, Nonneg G) (training testG : List (Sample p)) (known : Bool) (ns : List Nat)
    (results : List (Nat × (Flt × Adj p × ScoreObj p e)))
    (h : latentLoop E.it (E.fit (foldData E.cov training e)) (scoreCtor training known) false none graphs (foldData E.cov testG e) ns [] =
      .ok results) :
    (∀ k, k ∈ results.map Prod.fst ↔ k ∈ ns) ∧ ∀ k s graph obj, (k, s, graph, obj) ∈ results →
      obj.cache.length = graphs.toFinset.card ∧
      ∀ ms obj', pruneI E.it E.argsort (E.fit (foldData E.cov training e) k) none graph obj = .ok (ms, obj') →
        obj'.cache.length = graphs.toFinset.card + p := by
  obtain ⟨-, k2, k3⟩ := latentLoop_spec ns [] results (by simp) (by simp) h
  refine ⟨fun k => by simpa using k3 k, fun k s graph obj hmem => ?_⟩
  obtain ⟨models, scores, g1, g2, g3⟩ := k2 _ hmem
  simp only at g1 g2 g3
  have hg := hfit (foldData E.cov training e) k
  have hc := (C111_candidates E.it _ hg graphs hG obj models g1).2
  refine ⟨hc, fun ms obj' hp => ?_⟩
  obtain ⟨-, -, k4, -, -⟩ := C55_all_candidates E.it _ hg graphs hG _ _ (ScoreObj.ok_new _ _ 0) models g1
  unfold pruneGraphs at g1
  split_ifs at g1
  obtain ⟨a1, a2, a3, a4⟩ := pruneGraphsLoop_pairs hg graphs _ _ models hG (ScoreObj.ok_new _ _ 0) g1
  have h2 : fittedPairs (⟨0, []⟩ : ScoreObj p e) = ∅ := rfl
  rw [h2, Finset.empty_union] at a4
  have hgraph : ∃ m ∈ models, m.A = graph := by
    have := bestScoring_mem g3
    obtain ⟨x, hx, hxe⟩ := List.mem_map.1 this
    simp only [Prod.mk.injEq] at hxe
    refine ⟨x.2, ?_, hxe.2⟩
    rw [← (testScores_spec models g2).1]
    exact List.mem_map.2 ⟨x, hx, rfl⟩
  obtain ⟨m, hm, rfl⟩ := hgraph
  rw [← hc]
  refine (C111_targets E.it E.argsort harg _ m.A obj obj' a1 ?_ ?_ ms hp).2
  · rw [a4, List.mem_toFinset, List.mem_map]
    exact ⟨m, hm, rfl⟩
  · intro J hJ
    rw [a4, List.mem_toFinset, List.mem_map] at hJ
    obtain ⟨m', -, hm'⟩ := hJ
    exact (Prod.mk.inj hm').2.symm

/-- Two candidates, one of them given twice, without pruning: two fits. -/
example (it : SetIter 2) (fit : Fitter 2 1) (hg : GoodFit fit) (obj' : ScoreObj 2 1) (ms : List (AnyModel 2 1))
    (h : pruneGraphs it fit false none [![![0, 1], ![0, 0]], fun _ _ => 0, ![![0, 1], ![0, 0]]] ⟨0, []⟩ = .ok (ms, obj')) :
    obj'.calls = 3 ∧ obj'.cache.length = 2 := by
  have hG : ∀ G ∈ [![![0, 1], ![0, 0]], fun _ _ => 0, ![![0, 1], ![0, 0]]], Nonneg (G : Adj 2) := by
    intro G hG i j
    simp only [List.mem_cons, List.not_mem_nil, or_false] at hG
    rcases hG with rfl | rfl | rfl <;> fin_cases i <;> fin_cases j <;> simp
  obtain ⟨h1, h2⟩ := C111_candidates it fit hg _ hG obj' ms h
  refine ⟨by simpa using h1, h2.trans ?_⟩
  decide +kernel

/-- Pruning a graph with three edges: the run returns after four fits. -/
example (it : SetIter 3) : ∃ ms obj', pruneGraphs it (toyFit it : Fitter 3 2) true none [![![0, 1, 1], ![0, 0, 1], ![0, 0, 0]]] ⟨0, []⟩ =
    .ok (ms, obj') ∧ obj'.cache.length = 4 := by
  have hn : Nonneg (![![0, 1, 1], ![0, 0, 1], ![0, 0, 0]] : Adj 3) := by unfold Nonneg; decide
  have hac : Acyclic (![![0, 1, 1], ![0, 0, 1], ![0, 0, 0]] : Adj 3) :=
    (isDag_iff (SetIter.incr 3) hn).1 (by decide)
  obtain ⟨⟨ms, obj'⟩, h⟩ := C55_returns it (toyFit it : Fitter 3 2) (toyFit_good it) ⟨0, []⟩ (ScoreObj.ok_new it _ 0) _ hn
    (fun n H hH hs => toyFit_ok hH (subgraph_acyclic hs hac) n _) (by
      rintro n H m s - - h ⟨a, b, hab⟩ h0
      rw [(toyFit_fields h).2.2] at h0
      have := congrFun (congrFun h0 a) b
      simp at this
      exact hab this)
  have h' : pruneGraphs it (toyFit it : Fitter 3 2) true none [![![0, 1, 1], ![0, 0, 1], ![0, 0, 0]]] ⟨0, []⟩ = .ok (ms ++ [], obj') := by
    simp only [pruneGraphs, pruneGraphsLoop, h, List.length_cons, Nat.succ_ne_zero, if_false]
  refine ⟨_, obj', h', ?_⟩
  rw [C111_one_candidate it _ (toyFit_good it) _ hn obj' _ h']
  decide +kernel

end Verif
